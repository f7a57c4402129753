import Verif.Props.Audio

/-!
# The number of frames after resampling, at any rates
-/

namespace Fon
open Fl Fmt
variable {k k' : Kind} {c c' : ChTy}

/-- Error of rounding any number of ordinary size. -/
theorem rnd_err64 (q : ℚ) : |binary64.rnd q - q| ≤ |q| * (1 / 2 ^ 53) + 1 / 2 ^ 100 := by
  have hu : binary64.u = 1 / 2 ^ 53 := by norm_num [Fmt.u, binary64]
  rcases le_or_gt (2 ^ (-100:ℤ)) |q| with h | h
  · have := rel_err_normal (f := binary64) (q := q) (le_trans (zpow_le_zpow_right₀ (by norm_num) (by decide)) h)
    rw [hu] at this
    have h2 : (0:ℚ) ≤ 1 / 2 ^ 100 := by positivity
    linarith
  · have := err_lt (f := binary64) (-100) h (by norm_num)
    have h2 : (2:ℚ) ^ (-100 - 1 - 24 : ℤ) ≤ 1 / 2 ^ 100 := by norm_num
    have := mul_nonneg (abs_nonneg q) (by norm_num : (0:ℚ) ≤ 1 / 2 ^ 53)
    refine le_trans (le_trans ‹|binary64.rnd q - q| ≤ _› h2) ?_
    linarith

/-- C49 at any rates, whole or not: the number of frames is the exact one, rounded up, to within the accuracy of `f64`. -/
theorem C49_any (rate sr : F64) (d s : ℚ) (l : Nat) (hr : rate.Is d) (hs : sr.Is s) (hs0 : 0 < s) (hd : 2 ^ (-1022:ℤ) ≤ d)
    (hm : d * l ≤ binary64.maxF) (hT : d * l / s ≤ 2 ^ 62) (hl' : l ≤ 2 ^ 53) (st : Src k' c') (hl : st.len = some l)
    (hsr : st.rate = some sr) (b : Audio k c) (h : Audio.withStream rate st = .ok b) :
    d * l / s * (1 - 1 / 2 ^ 51) - 1 / 2 ^ 51 ≤ b.len ∧ (b.len : ℚ) < d * l / s * (1 + 1 / 2 ^ 51) + 1 + 1 / 2 ^ 51 := by
  obtain ⟨_, l', h1, h2⟩ := C48_withStream rate b st h
  rw [hl] at h1
  cases h1
  rw [hsr] at h2
  have hd0 : 0 < d := lt_of_lt_of_le (two_zpow_pos _) hd
  have hmax : binary64.Rep binary64.maxF := ⟨2 ^ 53 - 1, binary64.etop, by decide +kernel, by decide, le_rfl, by
    unfold Fmt.maxF; norm_num [binary64]⟩
  have hlq : (0:ℚ) ≤ l := Nat.cast_nonneg l
  have hu : binary64.u = 1 / 2 ^ 53 := by norm_num [Fmt.u, binary64]
  set P := binary64.rnd (d * l) with hP
  have hP0 : 0 ≤ P := rnd_nonneg (by positivity)
  have hm1 : (rate.mul (f64OfUsize l)).Is P :=
    hr.mul (is_usize hl') (abs_rnd_le_of_rep hmax (by rw [abs_of_nonneg (by positivity)]; exact hm))
  have e1 : d * l * (1 - 1 / 2 ^ 53) ≤ P ∧ P ≤ d * l * (1 + 1 / 2 ^ 53) := by
    rcases Nat.eq_zero_or_pos l with rfl | h0
    · simp [hP, rnd_zero]
    · have h1q : (1:ℚ) ≤ l := by exact_mod_cast h0
      have e := rel_err_normal (f := binary64) (q := d * l) (by
        rw [abs_of_nonneg (by positivity)]
        calc (2:ℚ) ^ (binary64.emin + binary64.prec - 1) = 2 ^ (-1022:ℤ) := rfl
          _ ≤ d := hd
          _ ≤ d * l := by nlinarith)
      rw [← hP, abs_of_nonneg (by positivity : 0 ≤ d * l), abs_le, hu] at e
      constructor <;> linarith [e.1, e.2]
  set T := d * l / s with hTd
  have hT0 : 0 ≤ T := by positivity
  have e2 : T * (1 - 1 / 2 ^ 53) ≤ P / s ∧ P / s ≤ T * (1 + 1 / 2 ^ 53) := by
    have : T * s = d * l := by rw [hTd]; field_simp
    constructor
    · rw [le_div_iff₀ hs0]; nlinarith [e1.1]
    · rw [div_le_iff₀ hs0]; nlinarith [e1.2]
  have hQ0 : 0 ≤ P / s := by positivity
  have e3 := rnd_err64 (P / s)
  rw [abs_of_nonneg hQ0, abs_le] at e3
  set x := binary64.rnd (P / s) with hx
  have hx0 : 0 ≤ x := rnd_nonneg hQ0
  have hxu : x < 2 ^ 63 := by linarith [e3.2, e2.2]
  have hx1 : T * (1 - 1 / 2 ^ 52) - 1 / 2 ^ 100 ≤ x := by linarith [e3.1, e2.1, e2.2]
  have hx2 : x ≤ T * (1 + 1 / 2 ^ 52 + 1 / 2 ^ 106) + 1 / 2 ^ 100 := by linarith [e3.2, e2.2]
  have h3 := hm1.div hs hs0.ne' (by
    rw [← hx, abs_of_nonneg hx0]
    have : (2:ℚ) ^ 63 ≤ binary64.maxF := by
      have h := (rep_pow (f := binary64) (k := 63) (by norm_num) (by norm_num)).le_maxF
      rw [abs_of_pos (two_zpow_pos _)] at h
      simpa using h
    linarith)
  obtain ⟨n, hn⟩ : ∃ n : Nat, (n:ℤ) = if 2 ^ (-52 : ℤ) < x - ⌊x⌋ then ⌊x⌋ + 1 else ⌊x⌋ :=
    Int.eq_ofNat_of_zero_le (by have := Int.floor_nonneg.mpr hx0; split <;> omega) |>.imp fun _ h => h.symm
  rw [h2 n (.rated sr x h3 hx0 hxu n hn)]
  have hfl := Int.floor_le x
  have hnq : (n:ℚ) = ((n:ℤ):ℚ) := by simp
  constructor
  · have : x - 2 ^ (-52:ℤ) ≤ n := by
      rw [hnq, hn]
      split
      · push_cast; have := (Int.lt_floor_add_one x).le; have := two_zpow_pos (-52); linarith
      · linarith
    rw [show (2:ℚ) ^ (-52:ℤ) = 1 / 2 ^ 52 by norm_num] at this
    linarith
  · have : (n:ℚ) ≤ x + 1 := by
      rw [hnq, hn]
      split
      · push_cast; linarith
      · linarith
    linarith

example := C49_any (lit 12.5) (lit 2.25) 12.5 2.25 5 (by decide +kernel) (by decide +kernel) (by norm_num)
  (by decide +kernel) (by decide +kernel) (by norm_num) (by norm_num) (.audio (exAudio 2.25)) rfl rfl _
  (R.returns (x := (Audio.withStream (lit 12.5) (.audio (exAudio 2.25)) : R (Audio .mono .ch8))) (by decide +kernel))

end Fon
