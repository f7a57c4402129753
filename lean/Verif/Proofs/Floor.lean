import Verif.Proofs.Fl

/-!
# Exactness of `%`, and the value of the rounding helpers of math.rs
-/

namespace Fon
open Fmt Fl

variable {f : Fmt}

/-- The fractional part and the floor of a nonnegative number of the format are in the format, and so
is the next integer if there is a fractional part. -/
theorem Fmt.rep_parts {q : ℚ} (h : f.Rep q) (h0 : 0 ≤ q) :
    f.Rep ⌊q⌋ ∧ f.Rep (q - ⌊q⌋) ∧ (q - ⌊q⌋ ≠ 0 → f.Rep (⌊q⌋ + 1)) := by
  obtain ⟨m, e, hm, he, he', rfl⟩ := h
  rcases le_or_gt 0 e with hpos | hneg
  · obtain ⟨k, rfl⟩ := Int.eq_ofNat_of_zero_le hpos
    have e1 : ((m:ℚ) * 2 ^ (k:ℤ)) = ((m * 2 ^ k : ℤ) : ℚ) := by push_cast; rw [zpow_natCast]
    have e2 : ⌊((m:ℚ) * 2 ^ (k:ℤ))⌋ = m * 2 ^ k := by rw [e1, Int.floor_intCast]
    refine ⟨?_, ?_, ?_⟩
    · rw [e2, ← e1]; exact ⟨m, k, hm, he, he', rfl⟩
    · rw [e2, ← e1, sub_self]; exact rep_zero
    · rw [e2, ← e1, sub_self]; intro h; exact absurd rfl h
  · obtain ⟨k, rfl⟩ : ∃ k : ℕ, e = -(k + 1 : ℕ) := ⟨(-e - 1).toNat, by omega⟩
    have hp : (0:ℚ) < 2 ^ (-((k + 1 : ℕ) : ℤ)) := two_zpow_pos _
    have hm0 : 0 ≤ m := by
      have := (mul_nonneg_iff_of_pos_right hp).mp h0
      exact_mod_cast this
    have e1 : ((m:ℚ) * 2 ^ (-((k + 1 : ℕ) : ℤ))) = (m:ℚ) / ((2 ^ (k + 1) : ℤ) : ℚ) := by
      rw [zpow_neg, zpow_natCast, div_eq_mul_inv]; push_cast; rfl
    have e2 : ⌊((m:ℚ) * 2 ^ (-((k + 1 : ℕ) : ℤ)))⌋ = m / 2 ^ (k + 1) := by
      rw [e1]
      have := Rat.floor_intCast_div_natCast m (2 ^ (k + 1))
      push_cast at this ⊢
      exact this
    have hd : (0:ℤ) < 2 ^ (k + 1) := by positivity
    have h2 : (2:ℤ) ≤ 2 ^ (k + 1) := by
      rw [pow_succ]; have : (1:ℤ) ≤ 2 ^ k := one_le_pow₀ (by norm_num)
      omega
    have hlt : |m| = m := abs_of_nonneg hm0
    rw [hlt] at hm
    have hq0 : 0 ≤ m / 2 ^ (k + 1) := Int.ediv_nonneg hm0 hd.le
    have hq1 : 2 * (m / 2 ^ (k + 1)) ≤ m := by
      have := Int.mul_ediv_self_le (x := m) (k := 2 ^ (k + 1)) hd.ne'
      nlinarith
    have hP : (2:ℤ) ≤ 2 ^ f.prec := by
      have := f.hprec
      calc (2:ℤ) = 2 ^ 1 := by norm_num
        _ ≤ 2 ^ f.prec := pow_le_pow_right₀ (by norm_num) (by omega)
    rw [e2]
    refine ⟨?_, ?_, ?_⟩
    · apply rep_int; rw [abs_of_nonneg hq0]; omega
    · refine rep_dyadic (m % 2 ^ (k + 1)) (-((k + 1 : ℕ) : ℤ)) ?_ ?_ he he'
      · have := Int.emod_add_mul_ediv m (2 ^ (k + 1))
        have hc : (m:ℚ) = ((m % 2 ^ (k+1) : ℤ) : ℚ) + 2 ^ (k+1) * ((m / 2 ^ (k+1) : ℤ) : ℚ) := by
          exact_mod_cast this.symm
        have hz : (2:ℚ) ^ (k + 1) * 2 ^ (-((k + 1 : ℕ) : ℤ)) = 1 := by
          rw [zpow_neg, zpow_natCast]; exact mul_inv_cancel₀ (by positivity)
        rw [sub_eq_iff_eq_add]
        nth_rewrite 1 [hc]
        rw [add_mul, mul_right_comm, hz, one_mul]
      · have h3 := Int.emod_nonneg m hd.ne'
        rw [abs_of_nonneg h3]
        have := Int.emod_add_mul_ediv m (2 ^ (k + 1))
        have h5 := mul_nonneg hd.le hq0
        omega
    · intro _
      have : ((m / 2 ^ (k + 1) : ℤ) : ℚ) + 1 = ((m / 2 ^ (k + 1) + 1 : ℤ) : ℚ) := by push_cast; rfl
      rw [this]
      apply rep_int; rw [abs_of_nonneg (by omega)]; omega

theorem truncQ_nonneg {q : ℚ} (h : 0 ≤ q) : truncQ q = ⌊q⌋ := by simp [truncQ, h]
theorem truncQ_neg {q : ℚ} (h : q < 0) : truncQ q = -⌊-q⌋ := by
  rw [truncQ, if_neg (not_le.mpr h), Int.floor_neg, neg_neg]

namespace Fl

/-- `x % 1.0` is exact. -/
theorem Is.rem_one {x : Fl f} {q : ℚ} (h : x.Is q) (h0 : 0 ≤ q) :
    (x.rem (lit 1)).Is (q - ⌊q⌋) := by
  have hr := (rep_parts h.rep h0).2.1
  obtain ⟨_, _, rfl⟩ := h
  rw [lit_one_eq]
  simp only [Fl.rem, one_ne_zero, if_false, div_one, one_mul, truncQ_nonneg h0]
  exact is_ofQ_rep hr

/-- `x % 1.0` of a negative number. -/
theorem Is.rem_one_neg {x : Fl f} {q : ℚ} (h : x.Is q) (h0 : q < 0) :
    (x.rem (lit 1)).Is (-(-q - ⌊-q⌋)) := by
  have hr := (rep_parts h.rep.neg (by linarith)).2.1.neg
  obtain ⟨_, _, rfl⟩ := h
  rw [lit_one_eq]
  have e : q - ((truncQ q : ℤ) : ℚ) = -(-q - ⌊-q⌋) := by rw [truncQ_neg h0]; push_cast; ring
  simp only [Fl.rem, one_ne_zero, if_false, div_one, one_mul, e]
  exact is_ofQ_rep hr

end Fl

/-- Machine epsilon. -/
theorem is_epsilon : (Fl.epsilon : Fl f).Is (2 ^ (1 - (f.prec : ℤ))) := by
  apply is_ofQ_rep
  refine rep_dyadic 1 (1 - (f.prec : ℤ)) (by simp) ?_ ?_ ?_
  · have : (1:ℤ) < 2 ^ f.prec := one_lt_pow₀ (by norm_num) (by have := f.hprec; omega)
    simpa using this
  · have := f.hmin; omega
  · have := f.hprec; have := f.htop; omega

/-- The ceiling computed by `math::ceil` on exact nonnegative numbers: fractional parts up to machine
epsilon are dropped. -/
def ceilE (eps q : ℚ) : ℤ := ⌊q⌋ + if eps < q - ⌊q⌋ then 1 else 0

/-- The floor computed by `math::floor_*` on exact numbers. -/
def floorE (eps q : ℚ) : ℤ := if q < 0 then -ceilE eps (-q) else ⌊q⌋

/-- Machine epsilon as a number. -/
def Fmt.eps (f : Fmt) : ℚ := 2 ^ (1 - (f.prec : ℤ))

theorem Fmt.eps_pos : 0 < f.eps := two_zpow_pos _

theorem ceil_is {x : Fl f} {q : ℚ} (h : x.Is q) (h0 : 0 ≤ q) :
    (Math.ceil x).Is (ceilE f.eps q) := by
  obtain ⟨hr1, hr2, hr3⟩ := rep_parts h.rep h0
  have hrem := h.rem_one h0
  have e1 : q - (q - ⌊q⌋) = ⌊q⌋ := by ring
  have hw : (x.sub (x.rem (lit 1))).Is ⌊q⌋ := by
    have := h.sub hrem (by rw [e1, rnd_of_rep hr1]; exact hr1.le_maxF)
    rwa [e1, rnd_of_rep hr1] at this
  unfold Math.ceil
  simp only [is_epsilon.lt hrem, decide_eq_true_eq]
  unfold ceilE
  change (if f.eps < q - ⌊q⌋ then _ else _ : Fl f).Is _
  split
  · rename_i hlt
    have h3 := hr3 (by have := f.eps_pos; intro h; rw [h] at hlt; linarith)
    have := hw.add is_one (by rw [rnd_of_rep h3]; exact h3.le_maxF)
    rw [rnd_of_rep h3] at this
    push_cast; exact this
  · simpa using hw

theorem ceilE_mono {eps p q : ℚ} (h : p ≤ q) : ceilE eps p ≤ ceilE eps q := by
  unfold ceilE
  have hf := Int.floor_le_floor h
  rcases hf.lt_or_eq with hlt | heq
  · split <;> split <;> omega
  · rw [heq]
    split <;> split <;> try omega
    rename_i h1 h2
    exact absurd (lt_of_lt_of_le h1 (by linarith)) h2

theorem ceilE_nonneg {eps q : ℚ} (h : 0 ≤ q) : 0 ≤ ceilE eps q := by
  have := Int.floor_nonneg.mpr h
  unfold ceilE; split <;> omega

theorem floorE_mono {eps p q : ℚ} (h : p ≤ q) : floorE eps p ≤ floorE eps q := by
  unfold floorE
  split <;> split
  · exact neg_le_neg (ceilE_mono (by linarith))
  · rename_i h1 h2
    have := ceilE_nonneg (eps := eps) (q := -p) (by linarith)
    have := Int.floor_nonneg.mpr (not_lt.mp h2)
    omega
  · rename_i h1 h2; linarith
  · exact Int.floor_le_floor h

theorem floorE_of_mid {eps q : ℚ} {c : ℤ} (he : eps < 1/4) (h : |q - (c + 1/2)| ≤ 1/4) :
    floorE eps q = c := by
  rw [abs_le] at h
  unfold floorE
  split
  · rename_i hq
    have hf : ⌊-q⌋ = -c - 1 := by
      rw [Int.floor_eq_iff]; push_cast; constructor <;> linarith
    unfold ceilE
    rw [hf, if_pos (by push_cast; linarith)]; ring
  · rw [Int.floor_eq_iff]; constructor <;> linarith

/-- What `floorE` differs from the real floor by. -/
theorem floorE_bounds {eps q : ℚ} (he : 0 ≤ eps) :
    (floorE eps q : ℚ) - eps ≤ q ∧ q < floorE eps q + 1 := by
  unfold floorE
  split
  · have h1 := Int.floor_le (-q)
    have h2 := Int.lt_floor_add_one (-q)
    unfold ceilE
    split <;> push_cast <;> constructor <;> linarith
  · have h1 := Int.floor_le q
    have h2 := Int.lt_floor_add_one q
    constructor <;> linarith

theorem toInt_toI {n : Nat} (hn : 0 < n) {x : Fl f} {q : ℚ} (h : x.Is q) :
    (x.toI n).toInt = clampZ (iMin n) (iMax n) (truncQ q) := by
  obtain ⟨_, _, rfl⟩ := h
  exact toInt_sat hn _

/-- Value of `floor_i8`, `floor_i16`, `floorh_i8`, `floorh_i16`. -/
theorem floorI_is {n : Nat} (hn : 0 < n) {x : Fl f} {q : ℚ} (h : x.Is q) :
    (Math.floorI n x).toInt = clampZ (iMin n) (iMax n) (floorE f.eps q) := by
  unfold Math.floorI
  rw [h.lt is_zero]
  simp only [decide_eq_true_eq]
  unfold floorE
  split
  · rename_i hq
    have h1 := (ceil_is h.neg (by linarith : 0 ≤ -q)).neg
    rw [toInt_toI hn h1]
    congr 1
    rw [← Int.cast_neg]
    unfold truncQ; split
    · exact Int.floor_intCast _
    · exact Int.ceil_intCast _
  · rename_i hq
    rw [toInt_toI hn h, truncQ_nonneg (not_lt.mp hq)]

end Fon
