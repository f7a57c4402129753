import Verif.Props.Tone
import Verif.Props.TwoStepUp

/-!
# C151: a tone keeps its pitch when the rate goes up
-/

namespace Fon
open Fon.Fl hiding min max
open Fon.Fmt Fon.Sink
variable {k k' : Kind} {c c' : ChTy}

/-- If `N` tones of the same level differ by the rate, they cancel in all slots but each `N`-th. -/
theorem sum_images {N : Nat} (hN : 0 < N) (δ θ : ℝ) (x : Nat) :
    ∑ m ∈ Finset.range N, Real.cos ((δ + 2 * Real.pi * m) / N * x + θ) =
      if N ∣ x then N * Real.cos (δ * (x / N : ℕ) + θ) else 0 := by
  have hNr : (0:ℝ) < N := by exact_mod_cast hN
  split_ifs with hd
  · obtain ⟨z, rfl⟩ := hd
    rw [Nat.mul_div_cancel_left z hN, Finset.sum_congr rfl fun m _ => ?_, Finset.sum_const, Finset.card_range, nsmul_eq_mul]
    rw [show (δ + 2 * Real.pi * m) / N * (N * z : ℕ) + θ = δ * z + θ + (m * z : ℕ) * (2 * Real.pi) by push_cast; field_simp; ring]
    exact Real.cos_add_nat_mul_two_pi _ _
  · have h := sum_tone (2 * Real.pi * x / N) (δ / N * x + θ) 0 N
    rw [show N * (2 * Real.pi * x / N) / 2 = x * Real.pi by field_simp, Real.sin_nat_mul_pi, zero_mul] at h
    have h0 : Real.sin (2 * Real.pi * x / N / 2) ≠ 0 := by
      intro h0
      obtain ⟨n, hn⟩ := Real.sin_eq_zero_iff.mp h0
      apply hd
      have h1 : (n:ℝ) * N = x := by
        have h2 : (n:ℝ) * N * Real.pi = x * Real.pi := by rw [mul_right_comm, hn]; field_simp
        exact mul_right_cancel₀ Real.pi_ne_zero h2
      have h2 : n * (N:ℤ) = (x:ℤ) := by exact_mod_cast h1
      exact Int.natCast_dvd_natCast.mp ⟨n, by rw [← h2]; ring⟩
    rw [← (mul_eq_zero.mp h).resolve_right h0]
    refine Finset.sum_congr rfl fun m _ => ?_
    congr 1
    field_simp
    ring

/-- What a sample that does not clip becomes. -/
theorem boosted_quiet {N : Nat} (h1 : 1 ≤ N) {f y : c.T} {w : ℚ} (hv : SampleVal c f w) (hw : gain c N * |w| ≤ 1)
    (h : Boosted N c f y) : ∃ v : ℚ, SampleVal c y v ∧ |v - gain c N * w| ≤ mixErr c := by
  have hN : (1:ℚ) ≤ N := by exact_mod_cast h1
  have flt : ∀ w : ℚ, (N:ℚ) * |w| ≤ 1 → |w| ≤ 1 ∧ |w * N| < 2 ^ (1:ℤ) := by
    intro w hw
    have := abs_nonneg w
    refine ⟨by nlinarith, ?_⟩
    rw [abs_mul, Nat.abs_cast, mul_comm]
    exact lt_of_le_of_lt hw (by norm_num)
  cases c
  · cases h
    refine ⟨w, hv, ?_⟩
    simp only [gain, min_eq_right hN, one_mul, sub_self, abs_zero, mixErr]; norm_num
  · cases h
    refine ⟨w, hv, ?_⟩
    simp only [gain, min_eq_right hN, one_mul, sub_self, abs_zero, mixErr]; norm_num
  · obtain ⟨a, b⟩ := flt w hw
    refine ⟨_, h w hv a, ?_⟩
    have e := abs_rnd_sub_le_of_lt (f := binary32) b (by decide)
    have hle : |binary32.rnd (w * N)| ≤ 1 := by
      refine abs_rnd_le_of_rep (f := binary32) (by decide +kernel : (lit 1 : Fl binary32).Is 1).rep ?_
      rw [abs_mul, Nat.abs_cast, mul_comm]; exact hw
    rw [clampQ_of_range (abs_le.mp hle).1 (abs_le.mp hle).2]
    simp only [gain, mixErr]
    rw [mul_comm (N:ℚ)]
    refine e.trans ?_
    norm_num [binary32]
  · obtain ⟨a, b⟩ := flt w hw
    refine ⟨_, h w hv a, ?_⟩
    have e := abs_rnd_sub_le_of_lt (f := binary64) b (by decide)
    have hle : |binary64.rnd (w * N)| ≤ 1 := by
      refine abs_rnd_le_of_rep (f := binary64) (by decide +kernel : (lit 1 : Fl binary64).Is 1).rep ?_
      rw [abs_mul, Nat.abs_cast, mul_comm]; exact hw
    rw [clampQ_of_range (abs_le.mp hle).1 (abs_le.mp hle).2]
    simp only [gain, mixErr]
    rw [mul_comm (N:ℚ)]
    refine e.trans ?_
    norm_num [binary64]

/-- What C151 becomes for whole factors: the tone arrives with `N - 1` others of the same level, which are as far apart as the old
rate.  The level of each is that of the tone in the float formats, and an `N`-th of it in the integer formats. -/
theorem C151_partial (fuel N : Nat) (s s' : Sink k c) (st : Src k' c') (it : It k' c')
    (h : s.stream fuel st = .ok (s', it)) (ho : s.res.offseti = lit 0) (hq : (ratioOf s.rate st.rate).Is (N:ℚ))
    (h1 : 1 ≤ N) (hN : N ≤ 2 ^ 24) (hb : s.buf.length ≤ 2 ^ 52) (i : Nat) (hi : i < k.chans) (w : Nat → ℚ)
    (hw : ∀ j f, st.nth j = .ok (some f) → ∀ x : Frame k c, f.convert c = .ok x → SampleVal c x[i] (w j))
    (hw1 : ∀ j, gain c N * |w j| ≤ 1)
    (x : Nat) (hx : InDst (ratioOf s.rate st.rate) st.len s.buf.length x)
    (A δ θ e : ℝ) (ht : N ∣ x → |(w (x / N) : ℝ) - A * Real.cos (δ * (x / N : ℕ) + θ)| ≤ e) (he : 0 ≤ e) :
    ∃ (y : Frame k c) (v : ℚ), s'.buf[x]? = some y ∧ SampleVal c y[i] v ∧
      |(v:ℝ) - ∑ m ∈ Finset.range N, A * ((gain c N : ℚ) : ℝ) / N * Real.cos ((δ + 2 * Real.pi * m) / N * x + θ)| ≤
        ((gain c N : ℚ) : ℝ) * e + ((mixErr c : ℚ) : ℝ) := by
  obtain ⟨y, y1, y2, y3⟩ := C78_actual fuel N s s' st it h ho hq h1 hN hb x hx
  have hNr : (0:ℝ) < N := by exact_mod_cast h1
  have hg : (0:ℚ) ≤ gain c N := by cases c <;> simp [gain]
  have hgr : (0:ℝ) ≤ ((gain c N : ℚ) : ℝ) := by exact_mod_cast hg
  have hmix : (0:ℝ) ≤ ((mixErr c : ℚ) : ℝ) := by
    have : 0 ≤ mixErr c := by cases c <;> norm_num [mixErr]
    exact_mod_cast this
  rw [← Finset.mul_sum, sum_images h1]
  by_cases hd : N ∣ x
  · obtain ⟨src, f, f1, f2, f3⟩ := y3 hd
    obtain ⟨v, v1, v2⟩ := boosted_quiet h1 (hw _ _ f1 _ f2) (hw1 _) (f3 i hi)
    refine ⟨y, v, y1, v1, ?_⟩
    rw [if_pos hd]
    have v3 : |(v:ℝ) - ((gain c N : ℚ) : ℝ) * w (x / N)| ≤ ((mixErr c : ℚ) : ℝ) := by exact_mod_cast v2
    have v4 := ht hd
    generalize ((gain c N : ℚ) : ℝ) = g at *
    generalize ((mixErr c : ℚ) : ℝ) = E at *
    rw [show A * g / N * (N * Real.cos (δ * (x / N : ℕ) + θ)) = g * (A * Real.cos (δ * (x / N : ℕ) + θ)) by field_simp]
    generalize A * Real.cos (δ * (x / N : ℕ) + θ) = a at *
    have v5 : |g * ((w (x / N) : ℝ) - a)| ≤ g * e := by
      rw [abs_mul, abs_of_nonneg hgr]; exact mul_le_mul_of_nonneg_left v4 hgr
    have := abs_le.mp v3
    have := abs_le.mp v5
    rw [abs_le]
    constructor <;> linarith
  · refine ⟨y, 0, y1, ?_, ?_⟩
    · rw [y2 hd, dflt_get]; exact of_val (mixLaw c).dflt
    · rw [if_neg hd, mul_zero, Rat.cast_zero, sub_zero, abs_zero]; positivity

/-- From 12 Hz to 24 Hz: slot 2 has the second frame. -/
example := C151_partial 7 2 (exSink 6 24) _ (.audio exZigzag) _
  (R.returns₂ (x := (exSink 6 24).stream 7 (.audio exZigzag)) (by decide +kernel)) rfl (by decide +kernel) (by decide) (by decide)
  (by decide +kernel) 0 (by decide) (fun j => (-1) ^ j * (100 / 127)) exZigzag_val
  (fun j => by simpa [gain] using exZigzag_le j) 2 (by decide +kernel) (100 / 127) Real.pi 0 0 (fun _ => exZigzag_tone 1 (by decide) (by decide)) le_rfl

/-- C151 is false: a tone of 1 Hz at 4 Hz (1/2, 0, -1/2, 0) becomes a tone of 1 Hz and one of 3 Hz of the same level. -/
theorem C151_false : (Audio.withStream (lit 8) (.audio (k := .mono) (c := .ch64) ⟨lit 4, [#v[lit 0.5], #v[lit 0], #v[lit (-0.5)], #v[lit 0]]⟩) :
    R (Audio .mono .ch64)).map (·.frames) = .ok [#v[lit 1], #v[lit 0], #v[lit 0], #v[lit 0], #v[lit (-1)], #v[lit 0], #v[lit 0], #v[lit 0]] ∧
    ∀ x : Nat, Real.cos (Real.pi / 4 * x) / 2 + Real.cos (3 * Real.pi / 4 * x) / 2 =
      if 2 ∣ x then Real.cos (Real.pi / 2 * (x / 2 : ℕ)) else 0 := by
  refine ⟨by decide +kernel, fun x => ?_⟩
  -- the image turns by `5 π / 4` from slot to slot, which is the same as `3 π / 4`
  have h := sum_images (N := 2) (by decide) (Real.pi / 2) 0 x
  rw [Finset.sum_range_succ, Finset.sum_range_one] at h
  push_cast at h
  rw [add_zero, add_zero, show (Real.pi / 2 + 2 * Real.pi * 0) / 2 * (x:ℝ) = Real.pi / 4 * x by ring,
    show (Real.pi / 2 + 2 * Real.pi * 1) / 2 * (x:ℝ) = x * (2 * Real.pi) - 3 * Real.pi / 4 * x by ring, Real.cos_nat_mul_two_pi_sub] at h
  split_ifs with hd
  · rw [if_pos hd, add_zero] at h
    linarith
  · rw [if_neg hd] at h
    linarith

end Fon
