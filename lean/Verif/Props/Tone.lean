import Verif.Props.Line
import Verif.Props.LowPass
import Mathlib.Analysis.SpecialFunctions.Trigonometric.Deriv
import Mathlib.Analysis.SpecialFunctions.Trigonometric.Bounds
import Mathlib.Analysis.Calculus.Deriv.MeanValue

/-!
# C149: a tone keeps its pitch when the rate goes down
-/

namespace Fon
open Fon.Fl hiding min max
open Fon.Fmt Fon.Sink
variable {k k' : Kind} {c c' : ChTy}

/-! ## Tones -/

/-- The sum of a tone over a block. -/
theorem sum_tone (δ θ a : ℝ) (N : Nat) :
    (∑ j ∈ Finset.range N, Real.cos (δ * (a + j) + θ)) * Real.sin (δ / 2) =
      Real.sin (N * δ / 2) * Real.cos (δ * (a + (N - 1) / 2) + θ) := by
  have h : ∀ N : Nat, (∑ j ∈ Finset.range N, Real.cos (δ * (a + j) + θ)) * (2 * Real.sin (δ / 2)) =
      Real.sin (δ * (a + N - 1 / 2) + θ) - Real.sin (δ * (a - 1 / 2) + θ) := by
    intro N
    induction N with
    | zero => simp
    | succ N ih =>
      rw [Finset.sum_range_succ, add_mul, ih]
      have e : Real.sin (δ * (a + (N + 1 : ℕ) - 1 / 2) + θ) - Real.sin (δ * (a + N - 1 / 2) + θ) =
          Real.cos (δ * (a + N) + θ) * (2 * Real.sin (δ / 2)) := by
        rw [Real.sin_sub_sin]
        push_cast
        rw [show (δ * (a + (N + 1) - 1 / 2) + θ - (δ * (a + N - 1 / 2) + θ)) / 2 = δ / 2 by ring,
          show (δ * (a + (N + 1) - 1 / 2) + θ + (δ * (a + N - 1 / 2) + θ)) / 2 = δ * (a + N) + θ by ring]
        ring
      linarith
  have h1 := h N
  rw [Real.sin_sub_sin, show (δ * (a + N - 1 / 2) + θ - (δ * (a - 1 / 2) + θ)) / 2 = N * δ / 2 by ring,
    show (δ * (a + N - 1 / 2) + θ + (δ * (a - 1 / 2) + θ)) / 2 = δ * (a + (N - 1) / 2) + θ by ring] at h1
  linarith

/-- C149 for whole factors: a tone of amplitude `A` (`δ` is the angle from one frame to the next) becomes a tone of the same
frequency, with the amplitude `A sin (N δ / 2) / (N sin (δ / 2))`. -/
theorem C149_whole (fuel : Nat) (s s' : Sink k c) (st : Src k' c') (it : It k' c')
    (h : s.stream fuel st = .ok (s', it)) (ho : s.res.offseti = lit 0) (N : Nat) (hN : 0 < N) (hN' : N ≤ 2 ^ 51) (r : ℚ)
    (hr' : r = binary64.rnd (1 / N)) (hq : (ratioOf s.rate st.rate).Is r) (hb : (s.buf.length : ℚ) + 1 ≤ r * 2 ^ 52)
    (i : Nat) (hi : i < k.chans) (w : Nat → ℚ)
    (hw : ∀ j f, st.nth j = .ok (some f) → ∀ x : Frame k c, f.convert c = .ok x → SampleVal c x[i] (w j))
    (hw1 : ∀ j, |w j| ≤ 1)
    (x : Nat) (hx0 : 1 ≤ x) (hx : InDst (ratioOf s.rate st.rate) st.len s.buf.length x)
    (A δ θ e : ℝ) (hδ : Real.sin (δ / 2) ≠ 0)
    (ht : ∀ j : Nat, N * (x - 1) < j → j ≤ N * x → |(w j : ℝ) - A * Real.cos (δ * j + θ)| ≤ e) :
    ∃ (y : Frame k c) (v : ℚ), s'.buf[x]? = some y ∧ SampleVal c y[i] v ∧
      |(v:ℝ) - A * (Real.sin (N * δ / 2) / (N * Real.sin (δ / 2))) * Real.cos (δ * (N * x - (N - 1) / 2) + θ)| ≤
        e + (((mixErr c + 5 * 2 ^ (-53 : ℤ) + 7 * ((s.buf.length + 1) * 2 ^ (-53 : ℤ))) * (1 / r + 3) : ℚ) : ℝ) := by
  obtain ⟨y, v, y1, y2, y3⟩ := C59_mean fuel s s' st it h ho N hN hN' r hr' hq hb i hi w hw hw1 x hx0 hx
  refine ⟨y, v, y1, y2, ?_⟩
  generalize (mixErr c + 5 * 2 ^ (-53 : ℤ) + 7 * ((s.buf.length + 1) * 2 ^ (-53 : ℤ))) * (1 / r + 3) = E at *
  have hNr : (0:ℝ) < N := by exact_mod_cast hN
  have y4 : |(v:ℝ) - (∑ j ∈ Finset.Ico (N * (x - 1) + 1) (N * x + 1), (w j:ℝ)) / N| ≤ E := by exact_mod_cast y3
  have hlen : N * x + 1 - (N * (x - 1) + 1) = N := by
    obtain ⟨z, rfl⟩ : ∃ z, x = z + 1 := ⟨x - 1, by omega⟩
    rw [Nat.add_sub_cancel, Nat.mul_succ]; omega
  have near : |(∑ j ∈ Finset.Ico (N * (x - 1) + 1) (N * x + 1), (w j:ℝ)) -
      ∑ j ∈ Finset.Ico (N * (x - 1) + 1) (N * x + 1), A * Real.cos (δ * j + θ)| ≤ N * e := by
    rw [← Finset.sum_sub_distrib]
    refine (Finset.abs_sum_le_sum_abs _ _).trans ((Finset.sum_le_sum (g := fun _ => e) fun j hj => ?_).trans_eq ?_)
    · have := Finset.mem_Ico.mp hj
      exact ht j (by omega) (by omega)
    · rw [Finset.sum_const, Nat.card_Ico, hlen, nsmul_eq_mul]
  have tone : ∑ j ∈ Finset.Ico (N * (x - 1) + 1) (N * x + 1), A * Real.cos (δ * j + θ) =
      N * (A * (Real.sin (N * δ / 2) / (N * Real.sin (δ / 2))) * Real.cos (δ * (N * x - (N - 1) / 2) + θ)) := by
    rw [← Finset.mul_sum, Finset.sum_Ico_eq_sum_range, hlen]
    have hx1 : ((x - 1 : ℕ):ℝ) = x - 1 := by push_cast [hx0]; rfl
    have h1 := sum_tone δ θ (N * (x - 1) + 1) N
    rw [show (N:ℝ) * (x - 1) + 1 + (N - 1) / 2 = N * x - (N - 1) / 2 by ring] at h1
    have h2 : ∑ j ∈ Finset.range N, Real.cos (δ * ((N * (x - 1) + 1 + j : ℕ):ℝ) + θ) =
        ∑ j ∈ Finset.range N, Real.cos (δ * ((N:ℝ) * (x - 1) + 1 + j) + θ) :=
      Finset.sum_congr rfl fun j _ => by push_cast [hx0]; rfl
    rw [h2, eq_div_of_mul_eq hδ h1]
    field_simp
  rw [tone] at near
  generalize A * (Real.sin (N * δ / 2) / (N * Real.sin (δ / 2))) * Real.cos (δ * (N * x - (N - 1) / 2) + θ) = T at *
  generalize ∑ j ∈ Finset.Ico (N * (x - 1) + 1) (N * x + 1), (w j:ℝ) = S at *
  have : |S / N - T| ≤ e := by
    rw [show S / N - T = (S - N * T) / N by field_simp, abs_div, abs_of_pos hNr, div_le_iff₀ hNr, mul_comm e]
    exact near
  have a1 := abs_le.mp this
  have a2 := abs_le.mp y4
  rw [abs_le]
  constructor <;> linarith

theorem exZigzag_val (j : Nat) (f : Frame .mono .ch8) (hf : (Src.audio exZigzag).nth j = .ok (some f)) (x : Frame .mono .ch8)
    (hx : f.convert .ch8 = .ok x) : SampleVal .ch8 x[0] ((-1) ^ j * (100 / 127)) := by
  match j with
  | 0 | 1 | 2 | 3 | 4 | 5 => cases hf; cases hx; decide +kernel
  | j + 6 => cases hf

theorem exZigzag_le (j : Nat) : |(-1) ^ j * (100 / 127 : ℚ)| ≤ 1 := by
  rcases neg_one_pow_eq_or ℚ j with e | e <;> rw [e] <;> norm_num [abs_le]

theorem exZigzag_tone (j : Nat) (_ : 2 * (1 - 1) < j) (_ : j ≤ 2 * 1) :
    |(((-1) ^ j * (100 / 127) : ℚ) : ℝ) - 100 / 127 * Real.cos (Real.pi * j + 0)| ≤ 0 := by
  rw [add_zero, mul_comm Real.pi, Real.cos_nat_mul_pi]
  push_cast
  rw [mul_comm, sub_self, abs_zero]

/-- A tone of half the rate, from 12 Hz to 6 Hz: it vanishes, as `sin π = 0`. -/
example := C149_whole 7 (exSink 3 6) _ (.audio exZigzag) _
  (R.returns₂ (x := (exSink 3 6).stream 7 (.audio exZigzag)) (by decide +kernel)) rfl 2 (by decide) (by decide) (1 / 2)
  (by decide +kernel) (by decide +kernel) (by decide +kernel) 0 (by decide)
  (fun j => (-1) ^ j * (100 / 127)) exZigzag_val exZigzag_le 1 le_rfl (by decide +kernel)
  (100 / 127) Real.pi 0 0 (by rw [Real.sin_pi_div_two]; exact one_ne_zero) exZigzag_tone

/-- C149: tones that fit a whole number of times into `N` frames, but not into one, vanish. -/
theorem C149_gone (fuel : Nat) (s s' : Sink k c) (st : Src k' c') (it : It k' c')
    (h : s.stream fuel st = .ok (s', it)) (ho : s.res.offseti = lit 0) (N : Nat) (hN : 0 < N) (hN' : N ≤ 2 ^ 51) (r : ℚ)
    (hr' : r = binary64.rnd (1 / N)) (hq : (ratioOf s.rate st.rate).Is r) (hb : (s.buf.length : ℚ) + 1 ≤ r * 2 ^ 52)
    (i : Nat) (hi : i < k.chans) (w : Nat → ℚ)
    (hw : ∀ j f, st.nth j = .ok (some f) → ∀ x : Frame k c, f.convert c = .ok x → SampleVal c x[i] (w j))
    (hw1 : ∀ j, |w j| ≤ 1)
    (x : Nat) (hx0 : 1 ≤ x) (hx : InDst (ratioOf s.rate st.rate) st.len s.buf.length x)
    (A θ e : ℝ) (m : Nat) (hm : ¬ N ∣ m)
    (ht : ∀ j : Nat, N * (x - 1) < j → j ≤ N * x → |(w j : ℝ) - A * Real.cos (2 * Real.pi * m / N * j + θ)| ≤ e) :
    ∃ (y : Frame k c) (v : ℚ), s'.buf[x]? = some y ∧ SampleVal c y[i] v ∧
      |(v:ℝ)| ≤ e + (((mixErr c + 5 * 2 ^ (-53 : ℤ) + 7 * ((s.buf.length + 1) * 2 ^ (-53 : ℤ))) * (1 / r + 3) : ℚ) : ℝ) := by
  have hNr : (0:ℝ) < N := by exact_mod_cast hN
  obtain ⟨y, v, y1, y2, y3⟩ := C149_whole fuel s s' st it h ho N hN hN' r hr' hq hb i hi w hw hw1 x hx0 hx A
    (2 * Real.pi * m / N) θ e (by
      intro h0
      obtain ⟨n, hn⟩ := Real.sin_eq_zero_iff.mp h0
      apply hm
      have h1 : (n:ℝ) * N = m := by
        have hp := Real.pi_ne_zero
        have h2 : (n:ℝ) * N * Real.pi = m * Real.pi := by
          rw [mul_right_comm, hn]; field_simp
        exact mul_right_cancel₀ hp h2
      have h2 : n * (N:ℤ) = (m:ℤ) := by exact_mod_cast h1
      exact Int.natCast_dvd_natCast.mp ⟨n, by rw [← h2]; ring⟩) ht
  refine ⟨y, v, y1, y2, ?_⟩
  have e1 : Real.sin (N * (2 * Real.pi * m / N) / 2) = 0 := by
    rw [show N * (2 * Real.pi * m / N) / 2 = m * Real.pi by field_simp]
    exact Real.sin_nat_mul_pi m
  rwa [e1, zero_div, mul_zero, zero_mul, sub_zero] at y3

example := C149_gone 7 (exSink 3 6) _ (.audio exZigzag) _
  (R.returns₂ (x := (exSink 3 6).stream 7 (.audio exZigzag)) (by decide +kernel)) rfl 2 (by decide) (by decide) (1 / 2)
  (by decide +kernel) (by decide +kernel) (by decide +kernel) 0 (by decide)
  (fun j => (-1) ^ j * (100 / 127)) exZigzag_val exZigzag_le 1 le_rfl (by decide +kernel)
  (100 / 127) 0 0 1 (by decide) (fun j h1 h2 => by
    rw [show 2 * Real.pi * ((1:ℕ):ℝ) / ((2:ℕ):ℝ) = Real.pi by push_cast; ring]
    exact exZigzag_tone j h1 h2)

/-- C149: no tone comes out louder than `A / (N |sin (δ / 2)|)`. -/
theorem C149_high (fuel : Nat) (s s' : Sink k c) (st : Src k' c') (it : It k' c')
    (h : s.stream fuel st = .ok (s', it)) (ho : s.res.offseti = lit 0) (N : Nat) (hN : 0 < N) (hN' : N ≤ 2 ^ 51) (r : ℚ)
    (hr' : r = binary64.rnd (1 / N)) (hq : (ratioOf s.rate st.rate).Is r) (hb : (s.buf.length : ℚ) + 1 ≤ r * 2 ^ 52)
    (i : Nat) (hi : i < k.chans) (w : Nat → ℚ)
    (hw : ∀ j f, st.nth j = .ok (some f) → ∀ x : Frame k c, f.convert c = .ok x → SampleVal c x[i] (w j))
    (hw1 : ∀ j, |w j| ≤ 1)
    (x : Nat) (hx0 : 1 ≤ x) (hx : InDst (ratioOf s.rate st.rate) st.len s.buf.length x)
    (A δ θ e : ℝ) (hδ : Real.sin (δ / 2) ≠ 0)
    (ht : ∀ j : Nat, N * (x - 1) < j → j ≤ N * x → |(w j : ℝ) - A * Real.cos (δ * j + θ)| ≤ e) :
    ∃ (y : Frame k c) (v : ℚ), s'.buf[x]? = some y ∧ SampleVal c y[i] v ∧
      |(v:ℝ)| ≤ |A| / (N * |Real.sin (δ / 2)|) + e +
        (((mixErr c + 5 * 2 ^ (-53 : ℤ) + 7 * ((s.buf.length + 1) * 2 ^ (-53 : ℤ))) * (1 / r + 3) : ℚ) : ℝ) := by
  obtain ⟨y, v, y1, y2, y3⟩ := C149_whole fuel s s' st it h ho N hN hN' r hr' hq hb i hi w hw hw1 x hx0 hx A δ θ e hδ ht
  refine ⟨y, v, y1, y2, ?_⟩
  have hNr : (0:ℝ) < N := by exact_mod_cast hN
  have hp : 0 < N * |Real.sin (δ / 2)| := mul_pos hNr (abs_pos.mpr hδ)
  have b : |A * (Real.sin (N * δ / 2) / (N * Real.sin (δ / 2))) * Real.cos (δ * (N * x - (N - 1) / 2) + θ)| ≤
      |A| / (N * |Real.sin (δ / 2)|) := by
    rw [abs_mul, abs_mul, abs_div, abs_mul (N:ℝ), abs_of_pos hNr, mul_assoc, div_eq_mul_one_div |A|]
    refine mul_le_mul_of_nonneg_left ?_ (abs_nonneg A)
    calc _ ≤ 1 / (N * |Real.sin (δ / 2)|) * 1 :=
          mul_le_mul (div_le_div_of_nonneg_right (Real.abs_sin_le_one _) hp.le) (Real.abs_cos_le_one _) (abs_nonneg _) (by positivity)
      _ = _ := mul_one _
  have := abs_sub_abs_le_abs_sub (v:ℝ) (A * (Real.sin (N * δ / 2) / (N * Real.sin (δ / 2))) * Real.cos (δ * (N * x - (N - 1) / 2) + θ))
  linarith

example := C149_high 7 (exSink 3 6) _ (.audio exZigzag) _
  (R.returns₂ (x := (exSink 3 6).stream 7 (.audio exZigzag)) (by decide +kernel)) rfl 2 (by decide) (by decide) (1 / 2)
  (by decide +kernel) (by decide +kernel) (by decide +kernel) 0 (by decide)
  (fun j => (-1) ^ j * (100 / 127)) exZigzag_val exZigzag_le 1 le_rfl (by decide +kernel)
  (100 / 127) Real.pi 0 0 (by rw [Real.sin_pi_div_two]; exact one_ne_zero) exZigzag_tone

/-! ## Any ratio up to 1 -/

/-- A rational number near a real one. -/
theorem rat_near {v d : ℝ} (hv : |v| ≤ 1) (hd : 0 < d) : ∃ q : ℚ, |q| ≤ 1 ∧ |(q:ℝ) - v| ≤ d := by
  have hv' := abs_le.mp hv
  rcases lt_trichotomy v 0 with h | h | h
  · obtain ⟨q, q1, q2⟩ := exists_rat_btwn (lt_min h (by linarith : v < v + d))
    have q2 := lt_min_iff.mp q2
    have q3 : q < 0 := by exact_mod_cast q2.1
    have q4 : (-1:ℚ) ≤ q := by
      have : ((-1:ℚ):ℝ) ≤ q := by push_cast; linarith
      exact_mod_cast this
    exact ⟨q, abs_le.mpr ⟨q4, by linarith⟩, abs_le.mpr ⟨by linarith, by linarith⟩⟩
  · exact ⟨0, by norm_num, by rw [h]; simpa using hd.le⟩
  · obtain ⟨q, q1, q2⟩ := exists_rat_btwn (max_lt h (by linarith : v - d < v))
    have q1 := max_lt_iff.mp q1
    have q3 : 0 < q := by exact_mod_cast q1.1
    have q4 : q ≤ (1:ℚ) := by
      have : (q:ℝ) ≤ ((1:ℚ):ℝ) := by push_cast; linarith
      exact_mod_cast this
    exact ⟨q, abs_le.mpr ⟨by linarith, q4⟩, abs_le.mpr ⟨by linarith, by linarith⟩⟩

theorem val_unique {x : c.T} {p q : ℚ} (h1 : SampleVal c x p) (h2 : SampleVal c x q) : p = q := by
  cases c
  · exact h1.trans (Eq.symm h2)
  · exact h1.trans (Eq.symm h2)
  · exact Is.unique h1 h2
  · exact Is.unique h1 h2

/-- C148 for real numbers. -/
theorem C148_real (fuel : Nat) (s s' : Sink k c) (st : Src k' c') (it : It k' c')
    (h : s.stream fuel st = .ok (s', it)) (ho : s.res.offseti = lit 0) (r : ℚ)
    (hq : (ratioOf s.rate st.rate).Is r) (hr : 0 < r) (hr1 : r ≤ 1) (hb : (s.buf.length : ℚ) + 1 ≤ r * 2 ^ 52)
    (i : Nat) (hi : i < k.chans) (x : Nat) (hx : InDst (ratioOf s.rate st.rate) st.len s.buf.length x) (hx1 : 1 ≤ x)
    (v β e : ℝ) (hv : |v| ≤ 1) (he : 0 ≤ e)
    (hw : ∀ j f, st.nth j = .ok (some f) → ∀ g : Frame k c, f.convert c = .ok g →
      ∃ w : ℚ, SampleVal c g[i] w ∧ |w| ≤ 1 ∧ ((x:ℚ) - 1 < r * j → r * j < x + r →
        |(w:ℝ) - (v + β * (j - (x - (1 - r) / 2) / r))| ≤ e)) :
    ∃ (y : Frame k c) (b : ℚ), s'.buf[x]? = some y ∧ SampleVal c y[i] b ∧
      |(b:ℝ) - v| ≤ |β| * (r / 8 + (s.buf.length + 1) * 2 ^ (-53 : ℤ) / (2 * r)) + e + (boxErr c r s.buf.length : ℝ) := by
  obtain ⟨y, b, y1, y2, _⟩ := C148_partial fuel s s' st it h ho r hq hr hr1 hb i hi x hx hx1 0 0 1 (by norm_num) zero_le_one
    (fun j f hf g hg => by
      obtain ⟨w, w1, w2, _⟩ := hw j f hf g hg
      exact ⟨w, w1, w2, fun _ _ => by simpa using w2⟩)
  refine ⟨y, b, y1, y2, ?_⟩
  have hrr : (0:ℝ) < r := by exact_mod_cast hr
  have hrr1 : (r:ℝ) ≤ 1 := by exact_mod_cast hr1
  -- a bound for the distance from the middle
  have hwin : ∀ j : Nat, (x:ℚ) - 1 < r * j → r * j < x + r → |(j:ℝ) - (x - (1 - r) / 2) / r| ≤ 1 / r := by
    intro j h1 h2
    have h1 : (x:ℝ) - 1 < r * j := by exact_mod_cast h1
    have h2 : (r:ℝ) * j < x + r := by exact_mod_cast h2
    rw [show (j:ℝ) - (x - (1 - r) / 2) / r = (r * j - (x - (1 - r) / 2)) / r by field_simp, abs_div, abs_of_pos hrr]
    refine div_le_div_of_nonneg_right ?_ hrr.le
    rw [abs_le]
    constructor <;> linarith
  have hK0 : (0:ℝ) ≤ r / 8 + (s.buf.length + 1) * 2 ^ (-53 : ℤ) / (2 * r) := by positivity
  obtain ⟨K, hK⟩ : ∃ K : ℝ, K = r / 8 + (s.buf.length + 1) * 2 ^ (-53 : ℤ) / (2 * r) := ⟨_, rfl⟩
  rw [← hK] at hK0 ⊢
  refine le_of_forall_pos_le_add fun η hη => ?_
  have hC : 0 < 4 + K + 1 / (r:ℝ) := by positivity
  obtain ⟨d, hd⟩ : ∃ d, d = η / (4 + K + 1 / (r:ℝ)) := ⟨_, rfl⟩
  have hd0 : 0 < d := by rw [hd]; positivity
  obtain ⟨v', v1, v2⟩ := rat_near hv hd0
  obtain ⟨β', β1, β2⟩ := exists_rat_btwn (by linarith : β < β + d)
  obtain ⟨e', e1, e2⟩ := exists_rat_btwn (by linarith [show 0 < d * (1 / (r:ℝ)) by positivity] :
    e + d + d * (1 / r) < e + d + d * (1 / r) + d)
  have hβ : |(β':ℝ) - β| ≤ d := abs_le.mpr ⟨by linarith, by linarith⟩
  have he' : 0 ≤ e' := by
    have h1 : 0 < d * (1 / (r:ℝ)) := by positivity
    have : ((0:ℚ):ℝ) ≤ e' := by push_cast; linarith
    exact_mod_cast this
  obtain ⟨y', b', z1, z2, z3⟩ := C148_partial fuel s s' st it h ho r hq hr hr1 hb i hi x hx hx1 v' β' e' v1 he'
    (fun j f hf g hg => by
      obtain ⟨w, w1, w2, w3⟩ := hw j f hf g hg
      refine ⟨w, w1, w2, fun h1 h2 => ?_⟩
      have w4 := abs_le.mp (w3 h1 h2)
      have hm := hwin j h1 h2
      have l1 : |((β':ℝ) - β) * (j - (x - (1 - r) / 2) / r)| ≤ d * (1 / r) := by
        rw [abs_mul]
        exact mul_le_mul hβ hm (abs_nonneg _) hd0.le
      have l1 := abs_le.mp l1
      have l2 := abs_le.mp v2
      have : |(w:ℝ) - (v' + β' * (j - (x - (1 - r) / 2) / r))| ≤ e' := by
        have e0 : (β':ℝ) * (j - (x - (1 - r) / 2) / r) =
            β * (j - (x - (1 - r) / 2) / r) + ((β':ℝ) - β) * (j - (x - (1 - r) / 2) / r) := by ring
        rw [e0, abs_le]
        constructor <;> linarith
      exact_mod_cast this)
  rw [y1] at z1
  cases z1
  rw [← val_unique y2 z2] at z3
  have z4 : |(b:ℝ) - v'| ≤ |(β':ℝ)| * K + e' + (boxErr c r s.buf.length : ℝ) := by
    rw [hK]
    have z3' : ((|b - v'| : ℚ) : ℝ) ≤ ((|β'| * (r / 8 + (s.buf.length + 1) * 2 ^ (-53 : ℤ) / (2 * r)) + e' +
      boxErr c r s.buf.length : ℚ) : ℝ) := by exact_mod_cast z3
    push_cast at z3'
    exact z3'
  have hββ : |(β':ℝ)| ≤ |β| + d := by
    have := abs_sub_abs_le_abs_sub (β':ℝ) β
    linarith
  have l1 : |(β':ℝ)| * K ≤ |β| * K + d * K := by nlinarith
  have l2 : d * (4 + K + 1 / (r:ℝ)) = η := by rw [hd]; field_simp
  have l3 := abs_sub_le (b:ℝ) v' v
  nlinarith

/-- A coarse bound, about the real number `sin 1`. -/
example := C148_real 6 (exSink 3 8) _ (.audio (exAudio 12)) _
  (R.returns₂ (x := (exSink 3 8).stream 6 (.audio (exAudio 12))) (by decide +kernel)) rfl
  (binary64.rnd (2 / 3)) (by decide +kernel) (by decide +kernel) (by decide +kernel) (by decide +kernel)
  0 (by decide) 1 (by decide +kernel) le_rfl
  (Real.sin 1) 0 2 (Real.abs_sin_le_one 1) (by norm_num)
  (fun j f hf g hg => ⟨exStair j, exStair_val j f hf g hg, exStair_le j, fun _ _ => by
    rw [zero_mul, add_zero]
    have h1 : |(exStair j : ℝ)| ≤ 1 := by exact_mod_cast exStair_le j
    have h2 := abs_sub (exStair j : ℝ) (Real.sin 1)
    linarith [Real.abs_sin_le_one 1]⟩)

/-- A cosine stays near its tangent. -/
theorem cos_tangent (a h : ℝ) : |Real.cos (a + h) - (Real.cos a - h * Real.sin a)| ≤ h ^ 2 / 2 := by
  have up : ∀ a h : ℝ, 0 ≤ h → 0 ≤ h ^ 2 / 2 + Real.cos (a + h) - Real.cos a + h * Real.sin a := by
    intro a h hh
    have hm : MonotoneOn (fun h : ℝ => h ^ 2 / 2 + Real.cos (a + h) - Real.cos a + h * Real.sin a) (Set.Ici 0) := by
      have hd : ∀ s : ℝ, HasDerivAt (fun h : ℝ => h ^ 2 / 2 + Real.cos (a + h) - Real.cos a + h * Real.sin a)
          (s - Real.sin (a + s) + Real.sin a) s := by
        intro s
        have d1 : HasDerivAt (fun h : ℝ => h ^ 2 / 2) s s := by
          have := (hasDerivAt_pow 2 s).div_const 2
          simpa using this
        have d2 : HasDerivAt (fun h : ℝ => Real.cos (a + h)) (-Real.sin (a + s)) s := by
          have := HasDerivAt.cos ((hasDerivAt_id s).const_add a)
          simpa using this
        have d3 : HasDerivAt (fun h : ℝ => h * Real.sin a) (Real.sin a) s := by
          simpa using (hasDerivAt_id s).mul_const (Real.sin a)
        have := ((d1.add d2).sub_const (Real.cos a)).add d3
        exact this.congr_deriv (by ring)
      refine monotoneOn_of_deriv_nonneg (convex_Ici 0) (fun s _ => (hd s).continuousAt.continuousWithinAt)
        (fun s _ => (hd s).differentiableAt.differentiableWithinAt) (fun s hs => ?_)
      rw [interior_Ici, Set.mem_Ioi] at hs
      rw [(hd s).deriv]
      have h1 : Real.sin (a + s) - Real.sin a = 2 * Real.sin (s / 2) * Real.cos (a + s / 2) := by
        rw [Real.sin_sub_sin, show (a + s - a) / 2 = s / 2 by ring, show (a + s + a) / 2 = a + s / 2 by ring]
      have h2 : Real.sin (a + s) - Real.sin a ≤ s := by
        rw [h1]
        have h3 : |2 * Real.sin (s / 2) * Real.cos (a + s / 2)| ≤ s := by
          rw [abs_mul, abs_mul, abs_two]
          have h4 := Real.abs_sin_le_abs (x := s / 2)
          rw [abs_of_pos (by linarith : 0 < s / 2)] at h4
          have h5 := Real.abs_cos_le_one (a + s / 2)
          have h6 := abs_nonneg (Real.sin (s / 2))
          nlinarith [abs_nonneg (Real.cos (a + s / 2))]
        exact (le_abs_self _).trans h3
      linarith
    have := hm (Set.mem_Ici.mpr le_rfl) (Set.mem_Ici.mpr hh) hh
    simpa using this
  have both : ∀ a h : ℝ, 0 ≤ h → |Real.cos (a + h) - (Real.cos a - h * Real.sin a)| ≤ h ^ 2 / 2 := by
    intro a h hh
    have h1 := up a h hh
    have h2 := up (a + Real.pi) h hh
    rw [show a + Real.pi + h = a + h + Real.pi by ring, Real.cos_add_pi, Real.cos_add_pi, Real.sin_add_pi] at h2
    rw [abs_le]
    constructor <;> linarith
  rcases le_total 0 h with hh | hh
  · exact both a h hh
  · have := both (-a) (-h) (by linarith)
    rw [show -a + -h = -(a + h) by ring, Real.cos_neg, Real.cos_neg, Real.sin_neg, neg_mul_neg, neg_sq] at this
    exact this

/-- C149 at every ratio up to 1: a tone becomes a tone of the same frequency, up to the square of the angle that the tone turns
during a slot. -/
theorem C149_partial (fuel : Nat) (s s' : Sink k c) (st : Src k' c') (it : It k' c')
    (h : s.stream fuel st = .ok (s', it)) (ho : s.res.offseti = lit 0) (r : ℚ)
    (hq : (ratioOf s.rate st.rate).Is r) (hr : 0 < r) (hr1 : r ≤ 1) (hb : (s.buf.length : ℚ) + 1 ≤ r * 2 ^ 52)
    (i : Nat) (hi : i < k.chans) (x : Nat) (hx : InDst (ratioOf s.rate st.rate) st.len s.buf.length x) (hx1 : 1 ≤ x)
    (A δ θ e : ℝ) (hA : |A| ≤ 1) (he : 0 ≤ e)
    (hw : ∀ j f, st.nth j = .ok (some f) → ∀ g : Frame k c, f.convert c = .ok g →
      ∃ w : ℚ, SampleVal c g[i] w ∧ |w| ≤ 1 ∧ ((x:ℚ) - 1 < r * j → r * j < x + r →
        |(w:ℝ) - A * Real.cos (δ * j + θ)| ≤ e)) :
    ∃ (y : Frame k c) (b : ℚ), s'.buf[x]? = some y ∧ SampleVal c y[i] b ∧
      |(b:ℝ) - A * Real.cos (δ * ((x - (1 - r) / 2) / r) + θ)| ≤
        |A| * (|δ| * (r / 8 + (s.buf.length + 1) * 2 ^ (-53 : ℤ) / (2 * r)) + (δ / r * ((1 + r) / 2)) ^ 2 / 2) + e +
          (boxErr c r s.buf.length : ℝ) := by
  have hrr : (0:ℝ) < r := by exact_mod_cast hr
  obtain ⟨τ, hτ⟩ : ∃ τ : ℝ, τ = (x - (1 - r) / 2) / r := ⟨_, rfl⟩
  have hK0 : (0:ℝ) ≤ r / 8 + (s.buf.length + 1) * 2 ^ (-53 : ℤ) / (2 * r) := by positivity
  obtain ⟨y, b, y1, y2, y3⟩ := C148_real fuel s s' st it h ho r hq hr hr1 hb i hi x hx hx1 (A * Real.cos (δ * τ + θ))
    (-(A * δ * Real.sin (δ * τ + θ))) (|A| * ((δ / r * ((1 + r) / 2)) ^ 2 / 2) + e)
    (by
      rw [abs_mul]
      exact mul_le_one₀ hA (abs_nonneg _) (Real.abs_cos_le_one _))
    (by positivity) (fun j f hf g hg => by
      obtain ⟨w, w1, w2, w3⟩ := hw j f hf g hg
      refine ⟨w, w1, w2, fun h1 h2 => ?_⟩
      have w4 := abs_le.mp (w3 h1 h2)
      rw [← hτ]
      have h1 : (x:ℝ) - 1 < r * j := by exact_mod_cast h1
      have h2 : (r:ℝ) * j < x + r := by exact_mod_cast h2
      have hj : |(j:ℝ) - τ| ≤ (1 + r) / 2 / r := by
        rw [hτ, show (j:ℝ) - (x - (1 - r) / 2) / r = (r * j - (x - (1 - r) / 2)) / r by field_simp, abs_div, abs_of_pos hrr]
        refine div_le_div_of_nonneg_right ?_ hrr.le
        rw [abs_le]
        constructor <;> linarith
      have ct := cos_tangent (δ * τ + θ) (δ * (j - τ))
      rw [show δ * τ + θ + δ * ((j:ℝ) - τ) = δ * j + θ by ring] at ct
      have sq : (δ * ((j:ℝ) - τ)) ^ 2 ≤ (δ / r * ((1 + r) / 2)) ^ 2 := by
        rw [show δ / r * ((1 + r) / 2) = δ * ((1 + r) / 2 / r) by ring, mul_pow, mul_pow]
        refine mul_le_mul_of_nonneg_left ?_ (sq_nonneg δ)
        rw [← sq_abs]
        exact pow_le_pow_left₀ (abs_nonneg _) hj 2
      have t : |A * Real.cos (δ * j + θ) - (A * Real.cos (δ * τ + θ) + -(A * δ * Real.sin (δ * τ + θ)) * (j - τ))| ≤
          |A| * ((δ / r * ((1 + r) / 2)) ^ 2 / 2) := by
        rw [show A * Real.cos (δ * j + θ) - (A * Real.cos (δ * τ + θ) + -(A * δ * Real.sin (δ * τ + θ)) * (j - τ)) =
          A * (Real.cos (δ * j + θ) - (Real.cos (δ * τ + θ) - δ * (j - τ) * Real.sin (δ * τ + θ))) by ring, abs_mul]
        exact mul_le_mul_of_nonneg_left (ct.trans (by linarith)) (abs_nonneg A)
      have t := abs_le.mp t
      rw [abs_le]
      constructor <;> linarith)
  refine ⟨y, b, y1, y2, ?_⟩
  rw [← hτ]
  refine y3.trans ?_
  have hβ : |-(A * δ * Real.sin (δ * τ + θ))| ≤ |A| * |δ| := by
    rw [abs_neg, abs_mul, abs_mul]
    exact mul_le_of_le_one_right (by positivity) (Real.abs_sin_le_one _)
  have := mul_le_mul_of_nonneg_right hβ hK0
  linarith

/-- A tone of 2 Hz and level 1/2 in 12 frames per second. -/
def exHum : Audio .mono .ch64 := ⟨lit 12, [#v[lit 0.5], #v[lit 0.25], #v[lit (-0.25)], #v[lit (-0.5)], #v[lit (-0.25)], #v[lit 0.25]]⟩

example := C149_partial 7 (⟨lit 8, Resampler.dflt, List.replicate 3 #v[lit 0]⟩ : Sink .mono .ch64) _ (.audio exHum) _
  (R.returns₂ (x := (⟨lit 8, Resampler.dflt, List.replicate 3 #v[lit 0]⟩ : Sink .mono .ch64).stream 7 (.audio exHum))
    (by decide +kernel)) rfl
  (binary64.rnd (2 / 3)) (by decide +kernel) (by decide +kernel) (by decide +kernel) (by decide +kernel)
  0 (by decide) 1 (by decide +kernel) le_rfl (1 / 2) (Real.pi / 3) 0 0 (by norm_num [abs_le]) le_rfl
  (fun j f hf g hg => by
    match j with
    | 0 => cases hf; cases hg; exact ⟨1 / 2, by decide +kernel, by decide +kernel, fun h => by norm_num at h⟩
    | 1 =>
      cases hf; cases hg
      exact ⟨1 / 4, by decide +kernel, by decide +kernel, fun _ _ => by
        rw [show Real.pi / 3 * ((1:ℕ):ℝ) + 0 = Real.pi / 3 by push_cast; ring, Real.cos_pi_div_three]; norm_num⟩
    | 2 =>
      cases hf; cases hg
      exact ⟨-1 / 4, by decide +kernel, by decide +kernel, fun _ _ => by
        rw [show Real.pi / 3 * ((2:ℕ):ℝ) + 0 = Real.pi - Real.pi / 3 by push_cast; ring, Real.cos_pi_sub, Real.cos_pi_div_three]
        norm_num⟩
    | 3 => cases hf; cases hg; exact ⟨-1 / 2, by decide +kernel, by decide +kernel, fun _ h => absurd h (by decide +kernel)⟩
    | 4 => cases hf; cases hg; exact ⟨-1 / 4, by decide +kernel, by decide +kernel, fun _ h => absurd h (by decide +kernel)⟩
    | 5 => cases hf; cases hg; exact ⟨1 / 4, by decide +kernel, by decide +kernel, fun _ h => absurd h (by decide +kernel)⟩
    | j + 6 => cases hf)

/-- C149 is false for tones of more than half the new rate: a tone of 4 Hz does not vanish at 6 Hz, but sounds like one of 2 Hz. -/
theorem C149_false : (Audio.withStream (lit 6) (.audio (k := .mono) (c := .ch64) ⟨lit 12,
      [#v[lit 0.5], #v[lit (-0.25)], #v[lit (-0.25)], #v[lit 0.5], #v[lit (-0.25)], #v[lit (-0.25)], #v[lit 0.5], #v[lit (-0.25)]]⟩) :
    R (Audio .mono .ch64)).map (·.frames) = .ok [#v[lit 0.25], #v[lit (-0.25)], #v[lit 0.125], #v[lit 0.125]] := by
  decide +kernel

end Fon
