import Mathlib.Data.Int.Log
import Mathlib.Data.Rat.Floor
import Mathlib.Tactic.Linarith
import Mathlib.Tactic.NormNum
import Mathlib.Tactic.Positivity
import Mathlib.Tactic.Ring
import Mathlib.Tactic.FieldSimp

/-!
# IEEE-754 rounding to nearest, ties to even, on rationals

Modelled: the rounding rule that the Rust `f32`/`f64` operations used in `/repo/src` obey
(IEEE-754-2019 binary32 / binary64, `roundTiesToEven`).  This file is independent of fon.
-/

namespace Fon

/-- A binary floating point format: `prec` bits of significand, the exponent `emin` of the unit in
the last place of subnormal numbers, and the exponent `etop` of the unit in the last place of the
largest finite numbers. -/
structure Fmt where
  prec : Nat
  emin : Int
  etop : Int
  hprec : 2 ≤ prec
  hmin : emin ≤ -(prec : Int)
  htop : 0 ≤ etop
deriving DecidableEq

/-- IEEE binary32, Rust `f32`. -/
def binary32 : Fmt := ⟨24, -149, 104, by decide, by decide, by decide⟩
/-- IEEE binary64, Rust `f64`. -/
def binary64 : Fmt := ⟨53, -1074, 971, by decide, by decide, by decide⟩

/-- Nearest integer, ties to even. -/
def rne (q : ℚ) : ℤ :=
  if q - ⌊q⌋ < 1/2 then ⌊q⌋
  else if 1/2 < q - ⌊q⌋ then ⌊q⌋ + 1
  else if ⌊q⌋ % 2 = 0 then ⌊q⌋ else ⌊q⌋ + 1

namespace Fmt
variable (f : Fmt)

/-- Exponent of the unit in the last place used to round `q`. -/
def expo (q : ℚ) : ℤ := max f.emin (Int.log 2 |q| - (f.prec - 1))

/-- Round to nearest, ties to even, with unbounded exponent range above. -/
def rnd (q : ℚ) : ℚ := rne (q / 2 ^ f.expo q) * 2 ^ f.expo q

/-- Largest finite number. -/
def maxF : ℚ := (2 ^ f.prec - 1) * 2 ^ f.etop

/-- `q` is a finite number of the format. -/
def Rep (q : ℚ) : Prop :=
  ∃ m e : ℤ, |m| < 2 ^ f.prec ∧ f.emin ≤ e ∧ e ≤ f.etop ∧ q = m * 2 ^ e

/-- `q` is a number of the format if the exponent range were unbounded above. -/
def Gen (q : ℚ) : Prop :=
  ∃ m e : ℤ, |m| < 2 ^ f.prec ∧ f.emin ≤ e ∧ q = m * 2 ^ e

end Fmt

/-! ## Lemmas about `rne` -/

theorem abs_rne_sub_le (q : ℚ) : |(rne q : ℚ) - q| ≤ 1/2 := by
  have h1 := Int.floor_le q
  have h2 := Int.lt_floor_add_one q
  unfold rne
  split_ifs <;> push_cast <;> rw [abs_le] <;> constructor <;> linarith

theorem rne_intCast (n : ℤ) : rne n = n := by
  simp [rne]

theorem abs_rne_sub_le_int (q : ℚ) (n : ℤ) : |(rne q : ℚ) - q| ≤ |(n : ℚ) - q| := by
  by_cases h : rne q = n
  · rw [h]
  · have h1 := abs_rne_sub_le q
    have h3 : (1:ℚ) ≤ |(rne q : ℚ) - n| := by
      have : (1:ℤ) ≤ |rne q - n| := Int.one_le_abs (sub_ne_zero.mpr h)
      exact_mod_cast this
    have h4 : |(rne q : ℚ) - n| ≤ |(rne q : ℚ) - q| + |(n:ℚ) - q| := by
      have := abs_sub_le (rne q : ℚ) q n
      rwa [abs_sub_comm q n] at this
    linarith

theorem rne_neg (q : ℚ) : rne (-q) = - rne q := by
  by_cases hi : q = ⌊q⌋
  · rw [hi, ← Int.cast_neg, rne_intCast, rne_intCast]
  · have h1 := Int.floor_le q
    have h2 := Int.lt_floor_add_one q
    have h3 : (⌊q⌋ : ℚ) < q := lt_of_le_of_ne h1 (Ne.symm hi)
    have hf : ⌊-q⌋ = -⌊q⌋ - 1 := by
      rw [Int.floor_eq_iff]; push_cast; constructor <;> linarith
    unfold rne
    rw [hf]; push_cast
    split_ifs <;> first | omega | (exfalso; linarith)

namespace Fmt
variable {f : Fmt}

theorem two_zpow_pos (e : ℤ) : (0:ℚ) < 2 ^ e := zpow_pos (by norm_num) e

theorem expo_neg (q : ℚ) : f.expo (-q) = f.expo q := by simp [expo]

theorem rnd_neg (q : ℚ) : f.rnd (-q) = - f.rnd q := by
  simp only [rnd, expo_neg, neg_div, rne_neg]; push_cast; ring

theorem rnd_zero : f.rnd 0 = 0 := by
  have : rne 0 = 0 := by simpa using rne_intCast 0
  simp [rnd, this]

theorem emin_le_expo (q : ℚ) : f.emin ≤ f.expo q := le_max_left _ _

theorem abs_lt_of_expo (q : ℚ) : |q| < 2 ^ f.prec * 2 ^ f.expo q := by
  have h := Int.lt_zpow_succ_log_self (b := 2) (by norm_num) |q|
  refine lt_of_lt_of_le h ?_
  rw [← zpow_natCast (2:ℚ) f.prec, ← zpow_add₀ (by norm_num)]
  push_cast
  apply zpow_le_zpow_right₀ (by norm_num)
  have := le_max_right f.emin (Int.log 2 |q| - (f.prec - 1))
  unfold expo; omega

theorem le_abs_of_expo (q : ℚ) (hq : q ≠ 0) (h : f.emin < f.expo q) :
    2 ^ (f.prec - 1) * 2 ^ f.expo q ≤ |q| := by
  have h1 := Int.zpow_log_le_self (b := 2) (r := |q|) (by norm_num) (abs_pos.mpr hq)
  refine le_trans ?_ h1
  have he : f.expo q = Int.log 2 |q| - (f.prec - 1) := by
    unfold expo at *; omega
  rw [he, ← zpow_natCast (2:ℚ) (f.prec - 1), ← zpow_add₀ (by norm_num)]
  push_cast
  apply zpow_le_zpow_right₀ (by norm_num)
  have := f.hprec
  push_cast [Nat.cast_sub (show 1 ≤ f.prec by omega)]
  omega

/-- Half-ulp error bound. -/
theorem abs_rnd_sub_le (q : ℚ) : |f.rnd q - q| ≤ 2 ^ f.expo q / 2 := by
  have hp := two_zpow_pos (f.expo q)
  have h := abs_rne_sub_le (q / 2 ^ f.expo q)
  have : f.rnd q - q = (rne (q / 2 ^ f.expo q) - q / 2 ^ f.expo q) * 2 ^ f.expo q := by
    rw [sub_mul, div_mul_cancel₀ _ hp.ne']; rfl
  rw [this, abs_mul, abs_of_pos hp]
  nlinarith

/-- Rounding is at least as close as any multiple of the unit in the last place. -/
theorem rnd_nearest_mult (q : ℚ) (n : ℤ) : |f.rnd q - q| ≤ |n * 2 ^ f.expo q - q| := by
  have hp := two_zpow_pos (f.expo q)
  have h := abs_rne_sub_le_int (q / 2 ^ f.expo q) n
  have h1 : f.rnd q - q = (rne (q / 2 ^ f.expo q) - q / 2 ^ f.expo q) * 2 ^ f.expo q := by
    rw [sub_mul, div_mul_cancel₀ _ hp.ne']; rfl
  have h2 : n * 2 ^ f.expo q - q = (n - q / 2 ^ f.expo q) * 2 ^ f.expo q := by
    rw [sub_mul, div_mul_cancel₀ _ hp.ne']
  rw [h1, h2, abs_mul, abs_mul]
  exact mul_le_mul_of_nonneg_right h (abs_nonneg _)

/-- Rounding picks a nearest number of the format. -/
theorem rnd_nearest (q x : ℚ) (hx : f.Gen x) : |f.rnd q - q| ≤ |x - q| := by
  obtain ⟨m, e, hm, he, rfl⟩ := hx
  by_cases hq : q = 0
  · subst hq; simp only [rnd_zero, sub_zero, abs_zero]; exact abs_nonneg _
  by_cases hE : f.expo q ≤ e
  · have : (m:ℚ) * 2 ^ e = ((m * 2 ^ (e - f.expo q).toNat : ℤ) : ℚ) * 2 ^ f.expo q := by
      push_cast
      rw [mul_assoc, ← zpow_natCast (2:ℚ), ← zpow_add₀ (by norm_num), Int.toNat_of_nonneg (by omega)]
      congr 2; omega
    rw [this]; exact rnd_nearest_mult q _
  · push Not at hE
    have hbig := le_abs_of_expo q hq (lt_of_le_of_lt he hE)
    have hx : |(m:ℚ) * 2 ^ e| ≤ 2 ^ (f.prec - 1) * 2 ^ f.expo q := by
      rw [abs_mul, abs_of_pos (two_zpow_pos e)]
      have h1 : (|(m:ℚ)|) ≤ 2 ^ f.prec := by exact_mod_cast hm.le
      have h2 : (2:ℚ) ^ e ≤ 2 ^ (f.expo q - 1) := zpow_le_zpow_right₀ (by norm_num) (by omega)
      calc |(m:ℚ)| * 2 ^ e ≤ 2 ^ f.prec * 2 ^ (f.expo q - 1) :=
              mul_le_mul h1 h2 (two_zpow_pos e).le (by positivity)
        _ = 2 ^ (f.prec - 1) * 2 ^ f.expo q := by
            have hpp := f.hprec
            obtain ⟨k, hk⟩ : ∃ k, f.prec = k + 1 := ⟨f.prec - 1, by omega⟩
            rw [hk, zpow_sub₀ (by norm_num)]; simp [pow_succ]; ring
    rcases lt_or_gt_of_ne hq with hneg | hpos
    · have := rnd_nearest_mult (f := f) q (-(2 ^ (f.prec - 1)))
      push_cast at this
      refine le_trans this ?_
      rw [abs_of_neg hneg] at hbig
      rw [abs_le] at hx
      rw [abs_of_nonneg (by linarith), abs_of_nonneg (by linarith)]
      linarith
    · have := rnd_nearest_mult (f := f) q (2 ^ (f.prec - 1))
      push_cast at this
      refine le_trans this ?_
      rw [abs_of_pos hpos] at hbig
      rw [abs_le] at hx
      rw [abs_of_nonpos (by linarith), abs_of_nonpos (by linarith)]
      linarith

theorem gen_rnd (q : ℚ) : f.Gen (f.rnd q) := by
  have hp := two_zpow_pos (f.expo q)
  have hlt := abs_lt_of_expo (f := f) q
  set x := q / 2 ^ f.expo q with hx
  have hxlt : |x| < 2 ^ f.prec := by
    rw [hx, abs_div, abs_of_pos hp, div_lt_iff₀ hp]; exact hlt
  have h1 : |rne x| ≤ 2 ^ f.prec := by
    have h2 := abs_rne_sub_le_int x (2 ^ f.prec)
    have h3 := abs_rne_sub_le_int x (-2 ^ f.prec)
    push_cast at h2 h3
    rw [abs_lt] at hxlt
    have hb1 : |(2:ℚ) ^ f.prec - x| = 2 ^ f.prec - x := abs_of_pos (by linarith)
    have hb2 : |-(2:ℚ) ^ f.prec - x| = 2 ^ f.prec + x := by
      rw [abs_of_neg (by linarith)]; ring
    rw [hb1] at h2; rw [hb2] at h3
    rw [abs_le] at h2 h3
    have ha : (rne x : ℚ) ≤ 2 ^ f.prec := by linarith
    have hb : -(2:ℚ) ^ f.prec ≤ rne x := by linarith
    rw [abs_le]; constructor
    · exact_mod_cast hb
    · exact_mod_cast ha
  rcases lt_or_eq_of_le h1 with h | h
  · exact ⟨rne x, f.expo q, h, emin_le_expo q, rfl⟩
  · -- the significand rounded up to a power of two
    have hpp := f.hprec
    have hE := emin_le_expo (f := f) q
    rcases le_or_gt 0 (rne x) with hs | hs
    · rw [abs_of_nonneg hs] at h
      refine ⟨2 ^ (f.prec - 1), f.expo q + 1, ?_, by omega, ?_⟩
      · rw [abs_of_pos (by positivity)]
        exact pow_lt_pow_right₀ (by norm_num) (by omega)
      · show (rne x : ℚ) * 2 ^ f.expo q = _
        rw [h, zpow_add₀ (by norm_num)]; push_cast
        obtain ⟨k, hk⟩ : ∃ k, f.prec = k + 1 := ⟨f.prec - 1, by omega⟩
        rw [hk]; simp [pow_succ]; ring
    · rw [abs_of_neg hs] at h
      refine ⟨-2 ^ (f.prec - 1), f.expo q + 1, ?_, by omega, ?_⟩
      · rw [abs_neg, abs_of_pos (by positivity)]
        exact pow_lt_pow_right₀ (by norm_num) (by omega)
      · show (rne x : ℚ) * 2 ^ f.expo q = _
        have : rne x = - 2 ^ f.prec := by omega
        rw [this, zpow_add₀ (by norm_num)]; push_cast
        obtain ⟨k, hk⟩ : ∃ k, f.prec = k + 1 := ⟨f.prec - 1, by omega⟩
        rw [hk]; simp [pow_succ]; ring

theorem Rep.gen {q : ℚ} (h : f.Rep q) : f.Gen q := by
  obtain ⟨m, e, h1, h2, _, h4⟩ := h; exact ⟨m, e, h1, h2, h4⟩

theorem rnd_of_gen {q : ℚ} (h : f.Gen q) : f.rnd q = q := by
  have := rnd_nearest q q h
  simp at this
  linarith

theorem rnd_of_rep {q : ℚ} (h : f.Rep q) : f.rnd q = q := rnd_of_gen h.gen

theorem rnd_rnd (q : ℚ) : f.rnd (f.rnd q) = f.rnd q := rnd_of_gen (gen_rnd q)

theorem rnd_mono {p q : ℚ} (h : p ≤ q) : f.rnd p ≤ f.rnd q := by
  rcases eq_or_lt_of_le h with rfl | h
  · rfl
  by_contra hc
  push Not at hc
  have h1 := rnd_nearest p _ (gen_rnd (f := f) q)
  have h2 := rnd_nearest q _ (gen_rnd (f := f) p)
  rw [← sq_le_sq] at h1 h2
  nlinarith

theorem rnd_le_of_gen {q x : ℚ} (hx : f.Gen x) (h : q ≤ x) : f.rnd q ≤ x := by
  have := rnd_mono (f := f) h; rwa [rnd_of_gen hx] at this

theorem le_rnd_of_gen {q x : ℚ} (hx : f.Gen x) (h : x ≤ q) : x ≤ f.rnd q := by
  have := rnd_mono (f := f) h; rwa [rnd_of_gen hx] at this

theorem Gen.neg {q : ℚ} (h : f.Gen q) : f.Gen (-q) := by
  obtain ⟨m, e, h1, h2, h3⟩ := h
  exact ⟨-m, e, by rwa [abs_neg], h2, by rw [h3]; push_cast; ring⟩

theorem Rep.neg {q : ℚ} (h : f.Rep q) : f.Rep (-q) := by
  obtain ⟨m, e, h1, h2, h3, h4⟩ := h
  exact ⟨-m, e, by rwa [abs_neg], h2, h3, by rw [h4]; push_cast; ring⟩

theorem Rep.abs {q : ℚ} (h : f.Rep q) : f.Rep |q| := by
  rcases abs_choice q with hq | hq <;> rw [hq]
  · exact h
  · exact h.neg

theorem rep_zero : f.Rep 0 :=
  ⟨0, f.etop, by simp, by have := f.hmin; have := f.htop; omega, le_rfl, by simp⟩

/-- Integers up to `2 ^ prec` are numbers of the format. -/
theorem rep_int {n : ℤ} (h : |n| < 2 ^ f.prec) : f.Rep n :=
  ⟨n, 0, h, by have := f.hmin; omega, f.htop, by simp⟩

/-- Dyadic numbers. -/
theorem rep_dyadic {q : ℚ} (m e : ℤ) (hq : q = m * 2 ^ e) (h : |m| < 2 ^ f.prec)
    (h1 : f.emin ≤ e) (h2 : e ≤ f.etop) : f.Rep q := ⟨m, e, h, h1, h2, hq⟩

theorem maxF_pos : 0 < f.maxF := by
  have h : (1:ℚ) < 2 ^ f.prec := one_lt_pow₀ (by norm_num) (by have := f.hprec; omega)
  have := two_zpow_pos f.etop
  unfold maxF
  exact mul_pos (by linarith) this

/-- A number of the unbounded format is a number of the format exactly when it is not too big. -/
theorem rep_iff_gen {q : ℚ} : f.Rep q ↔ f.Gen q ∧ |q| ≤ f.maxF := by
  constructor
  · intro h
    refine ⟨h.gen, ?_⟩
    obtain ⟨m, e, h1, h2, h3, rfl⟩ := h
    rw [abs_mul, abs_of_pos (two_zpow_pos e)]
    have h1' : (|(m:ℚ)|) ≤ 2 ^ f.prec - 1 := by
      have : |m| ≤ 2 ^ f.prec - 1 := by omega
      exact_mod_cast this
    have h4 : (2:ℚ) ^ e ≤ 2 ^ f.etop := zpow_le_zpow_right₀ (by norm_num) h3
    unfold maxF
    have := two_zpow_pos e
    have h5 : (0:ℚ) ≤ |(m:ℚ)| := abs_nonneg _
    calc |(m:ℚ)| * 2 ^ e ≤ (2 ^ f.prec - 1) * 2 ^ e := by gcongr
      _ ≤ (2 ^ f.prec - 1) * 2 ^ f.etop := by
        apply mul_le_mul_of_nonneg_left h4; linarith
  · rintro ⟨⟨m, e, h1, h2, rfl⟩, hmax⟩
    by_cases he : e ≤ f.etop
    · exact ⟨m, e, h1, h2, he, rfl⟩
    · push Not at he
      have hEq : (m:ℚ) * 2 ^ e = ((m * 2 ^ (e - f.etop).toNat : ℤ) : ℚ) * 2 ^ f.etop := by
        push_cast
        rw [mul_assoc, ← zpow_natCast (2:ℚ), ← zpow_add₀ (by norm_num),
          Int.toNat_of_nonneg (by omega)]
        congr 2; omega
      refine ⟨m * 2 ^ (e - f.etop).toNat, f.etop, ?_, by have := f.hmin; have := f.htop; omega,
        le_rfl, hEq⟩
      rw [hEq, abs_mul, abs_of_pos (two_zpow_pos _), maxF] at hmax
      have := le_of_mul_le_mul_right hmax (two_zpow_pos _)
      have h3 : |m * 2 ^ (e - f.etop).toNat| ≤ 2 ^ f.prec - 1 := by exact_mod_cast this
      omega

theorem rep_rnd {q : ℚ} (h : |f.rnd q| ≤ f.maxF) : f.Rep (f.rnd q) :=
  rep_iff_gen.mpr ⟨gen_rnd q, h⟩

theorem Rep.le_maxF {q : ℚ} (h : f.Rep q) : |q| ≤ f.maxF := (rep_iff_gen.mp h).2

theorem abs_rnd_le_of_rep {q x : ℚ} (hx : f.Rep x) (h : |q| ≤ x) : |f.rnd q| ≤ x := by
  rw [abs_le] at *
  constructor
  · exact le_rnd_of_gen hx.gen.neg h.1
  · exact rnd_le_of_gen hx.gen h.2

theorem rnd_nonneg {q : ℚ} (h : 0 ≤ q) : 0 ≤ f.rnd q := le_rnd_of_gen rep_zero.gen h
theorem rnd_nonpos {q : ℚ} (h : q ≤ 0) : f.rnd q ≤ 0 := rnd_le_of_gen rep_zero.gen h

/-- Absolute error bound for arguments of magnitude below a power of two. -/
theorem abs_rnd_sub_le_of_lt {q : ℚ} {k : ℤ} (h : |q| < 2 ^ k) (hk : f.emin + f.prec ≤ k) :
    |f.rnd q - q| ≤ 2 ^ (k - f.prec - 1) := by
  by_cases hq : q = 0
  · subst hq; simp only [rnd_zero, sub_zero, abs_zero]; exact (two_zpow_pos _).le
  refine le_trans (abs_rnd_sub_le q) ?_
  have : f.expo q ≤ k - f.prec := by
    unfold expo
    apply max_le
    · omega
    · have := (Int.lt_zpow_iff_log_lt (b := 2) (by norm_num) (abs_pos.mpr hq)).mp (by exact_mod_cast h)
      omega
  calc (2:ℚ) ^ f.expo q / 2 ≤ 2 ^ (k - f.prec) / 2 := by
        have := zpow_le_zpow_right₀ (a := (2:ℚ)) (by norm_num) this
        linarith
    _ = 2 ^ (k - f.prec - 1) := by rw [zpow_sub_one₀ (by norm_num)]; ring

end Fmt
end Fon
