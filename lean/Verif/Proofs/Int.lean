import Verif.Model.Rust

/-!
# Helper lemmas about the integer model
-/

namespace Fon

theorem toInt_ge (n : Nat) (x : BitVec n) (hn : 0 < n) : iMin n ≤ x.toInt := by
  obtain ⟨k, rfl⟩ : ∃ k, n = k + 1 := ⟨n - 1, by omega⟩
  have := BitVec.le_two_mul_toInt (x := x)
  unfold iMin
  simp only [Nat.add_sub_cancel]
  rw [pow_succ] at this
  omega

theorem toInt_le (n : Nat) (x : BitVec n) (hn : 0 < n) : x.toInt ≤ iMax n := by
  obtain ⟨k, rfl⟩ : ∃ k, n = k + 1 := ⟨n - 1, by omega⟩
  have := BitVec.two_mul_toInt_lt (x := x)
  unfold iMax
  simp only [Nat.add_sub_cancel]
  rw [pow_succ] at this
  omega

theorem toInt_ofInt_range {n : Nat} {z : ℤ} (hn : 0 < n) (h : iMin n ≤ z ∧ z ≤ iMax n) :
    (BitVec.ofInt n z).toInt = z := by
  obtain ⟨k, rfl⟩ : ∃ k, n = k + 1 := ⟨n - 1, by omega⟩
  unfold iMin iMax at h
  simp only [Nat.add_sub_cancel] at h
  apply BitVec.toInt_ofInt_eq_self hn <;> simp only [Nat.add_sub_cancel] <;> omega

theorem chk_ok {n : Nat} {z : ℤ} (h : iMin n ≤ z ∧ z ≤ iMax n) :
    chk n z = .ok (BitVec.ofInt n z) := by simp [chk, h]

theorem i8_range (a : BitVec 8) : -128 ≤ a.toInt ∧ a.toInt ≤ 127 := by
  have h1 := toInt_ge 8 a (by omega)
  have h2 := toInt_le 8 a (by omega)
  simp [iMin, iMax] at h1 h2
  exact ⟨h1, h2⟩

theorem i16_range (a : BitVec 16) : -32768 ≤ a.toInt ∧ a.toInt ≤ 32767 := by
  have h1 := toInt_ge 16 a (by omega)
  have h2 := toInt_le 16 a (by omega)
  simp [iMin, iMax] at h1 h2
  exact ⟨h1, h2⟩

theorem toInt_sat {n : Nat} (hn : 0 < n) (z : ℤ) :
    (sat n z).toInt = max (iMin n) (min (iMax n) z) := by
  apply toInt_ofInt_range hn
  have : iMin n ≤ iMax n := by
    have := toInt_ge n 0#n hn; have := toInt_le n 0#n hn; omega
  omega

theorem toInt_smin {n : Nat} (a b : BitVec n) : (smin a b).toInt = min a.toInt b.toInt := by
  unfold smin; split <;> omega

theorem toInt_smax {n : Nat} (a b : BitVec n) : (smax a b).toInt = max a.toInt b.toInt := by
  unfold smax; split <;> omega

/-- Narrowing a signed integer keeps its value when it fits. -/
theorem toInt_setWidth_range {n m : Nat} (hn : 0 < n) (a : BitVec m) (hnm : n ≤ m)
    (h : iMin n ≤ a.toInt ∧ a.toInt ≤ iMax n) : (a.setWidth n).toInt = a.toInt := by
  have h1 : a.setWidth n = BitVec.ofInt n a.toInt := by
    apply BitVec.eq_of_toInt_eq
    rw [BitVec.toInt_setWidth, BitVec.toInt_ofInt, BitVec.toInt_eq_toNat_bmod]
    rw [Int.bmod_bmod_of_dvd]
    exact_mod_cast Nat.pow_dvd_pow 2 hnm
  rw [h1, toInt_ofInt_range hn h]

theorem toInt_signExtend {n m : Nat} (a : BitVec n) (h : n ≤ m) : (a.signExtend m).toInt = a.toInt :=
  BitVec.toInt_signExtend_of_le h

theorem divI_ok {n : Nat} {x y : BitVec n} (hy : y.toInt ≠ 0)
    (h : iMin n ≤ Int.tdiv x.toInt y.toInt ∧ Int.tdiv x.toInt y.toInt ≤ iMax n) :
    divI x y = .ok (BitVec.ofInt n (Int.tdiv x.toInt y.toInt)) := by
  simp [divI, hy, chk_ok h]

/-- Bounds of truncating division by a positive constant. -/
theorem tdiv_bounds {x d lo hi : ℤ} (hd : 0 < d) (h1 : lo * d ≤ x) (h2 : x ≤ hi * d) :
    lo ≤ x.tdiv d ∧ x.tdiv d ≤ hi := by
  rcases le_total 0 x with hx | hx
  · rw [Int.tdiv_eq_ediv_of_nonneg hx]
    constructor
    · exact (Int.le_ediv_iff_mul_le hd).mpr h1
    · have := Int.ediv_mul_le x hd.ne'
      by_contra hc
      have : hi + 1 ≤ x / d := by omega
      nlinarith
  · have : x.tdiv d = - ((-x) / d) := by
      rw [← Int.tdiv_eq_ediv_of_nonneg (by omega), Int.neg_tdiv]; ring
    rw [this]
    have h3 := Int.ediv_mul_le (-x) hd.ne'
    have h4 := Int.lt_ediv_add_one_mul_self (-x) hd
    constructor
    · by_contra hc
      have : - lo + 1 ≤ (-x) / d := by omega
      nlinarith
    · by_contra hc
      have : (-x) / d + 1 ≤ -hi := by omega
      nlinarith

end Fon
