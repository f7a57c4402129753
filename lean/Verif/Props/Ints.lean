import Verif.Spec.Ints
import Verif.Proofs.Int
import Mathlib.Tactic.Linarith
import Mathlib.Tactic.Positivity
import Mathlib.Data.Rat.Floor

/-!
# The integers of the model
-/

namespace Fon

theorem top_bits {n : Nat} (x : BitVec (n + 1)) :
    (x.toNat : ℤ) = (if x[n] then 2 ^ n else 0) + (x.setWidth n).toNat := by
  have h := congrArg BitVec.toNat (BitVec.cons_msb_setWidth x)
  rw [BitVec.toNat_cons', BitVec.msb_eq_getLsbD_last] at h
  have e : x.getLsbD (n + 1 - 1) = x[n] := by simp [BitVec.getLsbD_eq_getElem]
  rw [e] at h
  rw [← h]
  cases x[n] <;> simp [Nat.shiftLeft_eq]

theorem low_bit {n : Nat} (x : BitVec (n + 1)) (i : Fin n) : (x.setWidth n)[i] = x[i.castSucc] := by
  simp only [Fin.getElem_fin, BitVec.getElem_setWidth, Fin.val_castSucc]
  exact BitVec.getLsbD_eq_getElem (by omega)

theorem unsigned_toNat {n : Nat} (x : BitVec n) : (x.toNat : ℤ) = ∑ i : Fin n, (if x[i] then 2 ^ (i:ℕ) else 0) := by
  induction n with
  | zero => simp [BitVec.of_length_zero]
  | succ n ih =>
    rw [Fin.sum_univ_castSucc, top_bits, ih]
    simp only [low_bit]
    rw [add_comm]
    rfl

theorem signed_iff {n : Nat} (x : BitVec n) (v : ℤ) : SignedBits x v ↔ v = x.toInt := by
  unfold SignedBits
  have : x.toInt = ∑ i : Fin n, (if x[i] then (if (i:ℕ) + 1 = n then -2 ^ (i:ℕ) else 2 ^ (i:ℕ)) else (0:ℤ)) := by
    cases n with
    | zero => simp [BitVec.of_length_zero]
    | succ n =>
      rw [Fin.sum_univ_castSucc]
      have h := unsigned_toNat (x.setWidth n)
      simp only [low_bit] at h
      have h2 : ∑ i : Fin n, (if x[i.castSucc] then (if (i.castSucc:ℕ) + 1 = n + 1 then -2 ^ (i.castSucc:ℕ) else 2 ^ (i.castSucc:ℕ)) else (0:ℤ))
          = (x.setWidth n).toNat := by
        rw [h]
        refine Finset.sum_congr rfl fun i _ => ?_
        have hi : ¬ (i.castSucc : ℕ) + 1 = n + 1 := by have := i.2; rw [Fin.val_castSucc]; omega
        simp only [hi, if_false]
        rfl
      rw [h2, BitVec.toInt_eq_msb_cond, top_bits, BitVec.msb_eq_getLsbD_last]
      have e : x.getLsbD (n + 1 - 1) = x[n] := by simp [BitVec.getLsbD_eq_getElem]
      have e2 : x[Fin.last n] = x[n] := rfl
      rw [e, e2]
      cases x[n]
      · simp
      · simp [pow_succ]; ring
  rw [this]

theorem unsigned_iff {n : Nat} (x : BitVec n) (v : ℤ) : PlainBits x v ↔ v = x.toNat := by
  unfold PlainBits; rw [unsigned_toNat]

/-- C123: every signed integer of the model stands for the number that its bits make in two's complement, and a number that
has no bits is out of range. -/
theorem C123_signed {n : Nat} (hn : 0 < n) :
    (∀ x : BitVec n, SignedBits x x.toInt ∧ iMin n ≤ x.toInt ∧ x.toInt ≤ iMax n) ∧
    ∀ v, iMin n ≤ v → v ≤ iMax n → ∃! x : BitVec n, SignedBits x v := by
  refine ⟨fun x => ⟨(signed_iff x _).mpr rfl, toInt_ge n x hn, toInt_le n x hn⟩, fun v h1 h2 => ?_⟩
  refine ⟨BitVec.ofInt n v, (signed_iff _ _).mpr (toInt_ofInt_range hn ⟨h1, h2⟩).symm, fun y hy => ?_⟩
  apply BitVec.eq_of_toInt_eq
  rw [toInt_ofInt_range hn ⟨h1, h2⟩]
  exact ((signed_iff _ _).mp hy).symm

example := (C123_signed (n := 8) (by decide)).1 (-3#8)
example := (C123_signed (n := 16) (by decide)).2 (-32768) (by decide) (by decide)

/-- C123: checked arithmetic gives the exact result, and panics exactly if no integer of the width stands for it. -/
theorem C123_checked {n : Nat} (hn : 0 < n) (v : ℤ) :
    (∀ x, chk n v = .ok x ↔ SignedBits x v) ∧ ((∃ e, chk n v = .error e) ↔ ¬ ∃ x : BitVec n, SignedBits x v) ∧
    (∀ x, chkU n v = .ok x ↔ PlainBits x v) ∧ ((∃ e, chkU n v = .error e) ↔ ¬ ∃ x : BitVec n, PlainBits x v) := by
  have h1 : ∀ x : BitVec n, chk n v = .ok x ↔ SignedBits x v := by
    intro x
    rw [signed_iff]
    unfold chk
    constructor
    · intro h
      split at h
      · cases h; exact (toInt_ofInt_range hn ‹_›).symm
      · cases h
    · rintro rfl
      rw [if_pos ⟨toInt_ge n x hn, toInt_le n x hn⟩, BitVec.ofInt_toInt]
  have h2 : ∀ x : BitVec n, chkU n v = .ok x ↔ PlainBits x v := by
    intro x
    rw [unsigned_iff]
    unfold chkU
    constructor
    · intro h
      split at h
      · rename_i hr
        cases h
        rw [BitVec.toNat_ofInt]
        have : v % (2 ^ n : ℕ) = v := Int.emod_eq_of_lt hr.1 (by push_cast; omega)
        rw [this, Int.toNat_of_nonneg hr.1]
      · cases h
    · rintro rfl
      have := x.isLt
      have h3 : (x.toNat : ℤ) < 2 ^ n := by exact_mod_cast this
      rw [if_pos ⟨by omega, by omega⟩]
      simp
  refine ⟨h1, ?_, h2, ?_⟩
  · simp only [← h1]
    cases chk n v <;> simp
  · simp only [← h2]
    cases chkU n v <;> simp

example := (C123_checked (n := 16) (by decide) (-128 * -128)).1 16384#16
example := (C123_checked (n := 8) (by decide) 200).2.1

/-- C123: saturating arithmetic gives the integer of the width nearest to the exact result. -/
theorem C123_saturating {n : Nat} (hn : 0 < n) (v : ℤ) :
    ∀ w, SignedBits (sat n v) w → ∀ x : BitVec n, ∀ u, SignedBits x u → |w - v| ≤ |u - v| ∧ (|w - v| = |u - v| → x = sat n v) := by
  intro w hw x u hu
  rw [signed_iff] at hw hu
  subst hw hu
  have h1 := toInt_ge n x hn
  have h2 := toInt_le n x hn
  have h3 := toInt_sat hn v
  generalize (sat n v).toInt = w at h3
  constructor
  · rcases abs_cases (w - v) with ⟨e1, e2⟩ | ⟨e1, e2⟩ <;> rcases abs_cases (x.toInt - v) with ⟨e3, e4⟩ | ⟨e3, e4⟩ <;> omega
  · intro h
    apply BitVec.eq_of_toInt_eq
    rw [toInt_sat hn, ← h3]
    rcases abs_cases (w - v) with ⟨e1, e2⟩ | ⟨e1, e2⟩ <;> rcases abs_cases (x.toInt - v) with ⟨e3, e4⟩ | ⟨e3, e4⟩ <;> omega

example := C123_saturating (n := 8) (by decide) 200 127 (by rw [signed_iff]; decide) 126#8 126 (by rw [signed_iff]; decide)

theorem quotient_tdiv {a b : ℤ} (hb : b ≠ 0) : Quotient a b (a.tdiv b) := by
  refine ⟨a.tmod b, (Int.tdiv_mul_add_tmod a b).symm, ?_, ?_⟩
  · rw [Int.abs_eq_natAbs, Int.abs_eq_natAbs, Int.natAbs_tmod]
    have := Nat.mod_lt a.natAbs (Int.natAbs_pos.mpr hb)
    exact_mod_cast this
  · rcases le_total 0 a with h | h
    · exact mul_nonneg (Int.tmod_nonneg b h) h
    · have h1 := Int.tmod_nonneg b (neg_nonneg.mpr h)
      rw [Int.neg_tmod] at h1
      exact mul_nonneg_of_nonpos_of_nonpos (by omega) h

theorem quotient_unique {a b p q : ℤ} (hp : Quotient a b p) (hq : Quotient a b q) : p = q := by
  obtain ⟨r, h1, h2, h3⟩ := hp
  obtain ⟨t, h4, h5, h6⟩ := hq
  have key : |(p - q) * b| < |b| := by
    have e : (p - q) * b = t - r := by linarith
    rw [e]
    rcases lt_trichotomy a 0 with ha | ha | ha
    · have hr : r ≤ 0 := by by_contra h; nlinarith
      have ht : t ≤ 0 := by by_contra h; nlinarith
      rw [abs_of_nonpos hr] at h2
      rw [abs_of_nonpos ht] at h5
      rw [abs_lt]; constructor <;> linarith
    · subst ha
      have z : ∀ {x y : ℤ}, 0 = x * b + y → |y| < |b| → y = 0 := by
        intro x y h h'
        have e : |y| = |x| * |b| := by rw [← abs_mul, ← abs_neg y]; congr 1; linarith
        rw [e] at h'
        have : |x| < 1 := by
          by_contra hx
          have := abs_nonneg b
          nlinarith [not_lt.mp hx]
        have : x = 0 := Int.abs_lt_one_iff.mp this
        subst this
        linarith
      rw [z h1 h2, z h4 h5]
      simp only [sub_zero, abs_zero]
      exact lt_of_le_of_lt (abs_nonneg r) h2
    · have hr : 0 ≤ r := by by_contra h; nlinarith
      have ht : 0 ≤ t := by by_contra h; nlinarith
      rw [abs_of_nonneg hr] at h2
      rw [abs_of_nonneg ht] at h5
      rw [abs_lt]; constructor <;> linarith
  rw [abs_mul] at key
  have : |p - q| < 1 := by
    by_contra hx
    have := abs_nonneg b
    nlinarith [not_lt.mp hx]
  have := Int.abs_lt_one_iff.mp this
  omega

/-- C123: division gives the quotient without the part after the point.  It panics exactly if the divisor is zero or the
quotient is out of range, which is only so for the lowest number and -1. -/
theorem C123_div {n : Nat} (hn : 0 < n) (x y : BitVec n) (a b : ℤ) (hx : SignedBits x a) (hy : SignedBits y b) :
    (∀ z q, SignedBits z q → (divI x y = .ok z ↔ Quotient a b q)) ∧
    (divI x y = .error .divByZero ↔ b = 0) ∧ (divI x y = .error .overflow ↔ a = iMin n ∧ b = -1) := by
  rw [signed_iff] at hx hy
  subst hx hy
  generalize ha : x.toInt = a
  generalize hb : y.toInt = b
  have h1 := toInt_ge n x hn
  have h2 := toInt_le n x hn
  have hp : (0:ℤ) < 2 ^ (n - 1) := by positivity
  rw [ha] at h1 h2
  have hdef : divI x y = if b = 0 then .error .divByZero else chk n (a.tdiv b) := by unfold divI; rw [ha, hb]
  by_cases h0 : b = 0
  · rw [hdef, if_pos h0]
    refine ⟨fun z q _ => ⟨fun h => (by cases h), ?_⟩, by simp [h0], by simp [h0]⟩
    rintro ⟨r, _, h, _⟩
    rw [h0, abs_zero] at h
    exact absurd h (not_lt.mpr (abs_nonneg r))
  · rw [hdef, if_neg h0]
    refine ⟨fun z q hz => ?_, ⟨fun h => ?_, fun h => absurd h h0⟩, ?_⟩
    · rw [(C123_checked hn _).1 z, signed_iff]
      rw [signed_iff] at hz
      constructor
      · intro h
        rw [hz, ← h]
        exact quotient_tdiv h0
      · intro h
        rw [← hz]
        exact quotient_unique (quotient_tdiv h0) h
    · unfold chk at h
      split at h <;> cases h
    · have hq : (chk n (a.tdiv b) = .error .overflow) ↔ ¬ (iMin n ≤ a.tdiv b ∧ a.tdiv b ≤ iMax n) := by
        unfold chk
        split <;> simp [*]
      rw [hq]
      obtain ⟨r, e1, e2, e3⟩ := quotient_tdiv (a := a) h0
      have hle : |a.tdiv b| * |b| ≤ |a| := by
        rw [Int.abs_eq_natAbs, Int.abs_eq_natAbs, Int.abs_eq_natAbs, Int.natAbs_tdiv]
        exact_mod_cast Nat.div_mul_le_self a.natAbs b.natAbs
      generalize a.tdiv b = q at *
      unfold iMin iMax at *
      generalize (2:ℤ) ^ (n - 1) = M at *
      constructor
      · intro hr
        by_contra hc
        apply hr
        have ha' : |a| ≤ M := abs_le.mpr ⟨h1, by omega⟩
        rcases lt_or_ge |b| 2 with hb2 | hb2
        · have : b = 1 ∨ b = -1 := by rcases abs_cases b with ⟨h, _⟩ | ⟨h, _⟩ <;> omega
          rcases this with rfl | rfl
          · have : r = 0 := by rw [abs_one] at e2; exact Int.abs_lt_one_iff.mp e2
            omega
          · have : r = 0 := by rw [abs_neg, abs_one] at e2; exact Int.abs_lt_one_iff.mp e2
            omega
        · have h5 : |q| * 2 ≤ M := by nlinarith [abs_nonneg q]
          rcases abs_cases q with ⟨h, _⟩ | ⟨h, _⟩ <;> omega
      · rintro ⟨rfl, rfl⟩
        have : r = 0 := by rw [abs_neg, abs_one] at e2; exact Int.abs_lt_one_iff.mp e2
        omega

example := C123_div (n := 16) (by decide) (-7#16) 2#16 (-7) 2 (by rw [signed_iff]; decide) (by rw [signed_iff]; decide)
example := (C123_div (n := 8) (by decide) (-128#8) (-1#8) (-128) (-1) (by rw [signed_iff]; decide)
  (by rw [signed_iff]; decide)).2.2.mpr ⟨rfl, rfl⟩

/-- C123: the smaller and the larger of two. -/
theorem C123_min_max {n : Nat} (x y : BitVec n) (a b : ℤ) (hx : SignedBits x a) (hy : SignedBits y b) :
    SignedBits (smin x y) (min a b) ∧ SignedBits (smax x y) (max a b) := by
  rw [signed_iff] at hx hy
  rw [signed_iff, signed_iff, toInt_smin, toInt_smax, hx, hy]
  exact ⟨rfl, rfl⟩

example := C123_min_max (-7#16) 2#16 (-7) 2 (by rw [signed_iff]; decide) (by rw [signed_iff]; decide)

theorem dvd_toInt {n : Nat} (x : BitVec n) : (2:ℤ) ^ n ∣ x.toNat - x.toInt := by
  rw [BitVec.toInt_eq_toNat_bmod]
  exact_mod_cast Int.dvd_self_sub_bmod

/-- C123: widening keeps the number; narrowing keeps the low bits, and the number if it fits. -/
theorem C123_widen_narrow {n m : Nat} (hn : 0 < n) (h : n ≤ m) (x : BitVec n) (a : ℤ) (hx : SignedBits x a) (y : BitVec m) (b : ℤ)
    (hy : SignedBits y b) :
    SignedBits (x.signExtend m) a ∧ (∀ w, SignedBits (y.setWidth n) w → (2 : ℤ) ^ n ∣ b - w) ∧
    (iMin n ≤ b → b ≤ iMax n → SignedBits (y.setWidth n) b) := by
  rw [signed_iff] at hx hy
  subst hx hy
  refine ⟨(signed_iff _ _).mpr (toInt_signExtend x h).symm, fun w hw => ?_, fun h1 h2 => ?_⟩
  · rw [signed_iff] at hw
    subst hw
    have e1 := dvd_toInt (y.setWidth n)
    have e2 := (pow_dvd_pow (2:ℤ) h).trans (dvd_toInt y)
    rw [BitVec.toNat_setWidth] at e1
    have e3 : (2:ℤ) ^ n ∣ (y.toNat : ℤ) - ((y.toNat % 2 ^ n : ℕ) : ℤ) := by
      push_cast
      exact Int.dvd_self_sub_emod
    obtain ⟨u, e1⟩ := e1
    obtain ⟨v, e2⟩ := e2
    obtain ⟨w, e3⟩ := e3
    exact ⟨w + u - v, by rw [mul_sub, mul_add]; linarith⟩
  · rw [signed_iff, toInt_setWidth_range hn y h ⟨h1, h2⟩]

example := C123_widen_narrow (n := 8) (m := 16) (by decide) (by decide) (-7#8) (-7) (by rw [signed_iff]; decide) 300#16 300
  (by rw [signed_iff]; decide)

/-- C123: a shift to the right is the division by a power of two, rounded down; a shift to the left is the product, without
the bits that do not fit. -/
theorem C123_shift {n : Nat} (x : BitVec n) (a : ℤ) (hx : SignedBits x a) (s : Nat) :
    SignedBits (x.sshiftRight s) ⌊(a : ℚ) / 2 ^ s⌋ ∧ (∀ w, SignedBits (x <<< s) w → (2 : ℤ) ^ n ∣ a * 2 ^ s - w) := by
  rw [signed_iff] at hx
  subst hx
  constructor
  · rw [signed_iff, BitVec.toInt_sshiftRight, Int.shiftRight_eq_div_pow]
    have := Rat.floor_intCast_div_natCast x.toInt (2 ^ s)
    push_cast at this ⊢
    exact this
  · intro w hw
    rw [signed_iff] at hw
    subst hw
    have e1 := dvd_toInt (x <<< s)
    have e2 := (dvd_toInt x).mul_right (2 ^ s)
    rw [BitVec.toNat_shiftLeft, Nat.shiftLeft_eq] at e1
    have e3 : (2:ℤ) ^ n ∣ (x.toNat * 2 ^ s : ℤ) - ((x.toNat * 2 ^ s % 2 ^ n : ℕ) : ℤ) := by
      push_cast
      exact Int.dvd_self_sub_emod
    obtain ⟨u, e1⟩ := e1
    obtain ⟨v, e2⟩ := e2
    obtain ⟨w, e3⟩ := e3
    exact ⟨w + u - v, by rw [mul_sub, mul_add]; linarith⟩

example := C123_shift (-7#16) (-7) (by rw [signed_iff]; decide) 1

end Fon
