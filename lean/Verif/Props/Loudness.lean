import Verif.Props.Power
import Mathlib.Analysis.Convex.Jensen

/-!
# C156: every measure of loudness

Loudness can be measured by the mean of the squares (C146), of the absolute values, or of what exceeds a threshold.  All that matters
is that the measure is a convex function of the samples that is 0 for silence.
-/

namespace Fon
open Fon.Fl hiding min max
open Fon.Fmt Fon.Sink
variable {k k' : Kind} {c c' : ChTy}

/-- A convex function of a mean. -/
theorem jensen_le {n : Nat} {o w : Nat → ℚ} {φ : ℚ → ℚ} (hφ : ConvexOn ℚ Set.univ φ) (h0 : φ 0 = 0)
    (ho : ∀ j, j < n → 0 ≤ o j) (hs : ∑ j ∈ Finset.range n, o j ≤ 1) :
    φ (∑ j ∈ Finset.range n, w j * o j) ≤ ∑ j ∈ Finset.range n, φ (w j) * o j := by
  -- the rest of the weight is for silence
  have h := hφ.map_sum_le (t := Finset.range (n + 1)) (w := fun j => if j < n then o j else 1 - ∑ j ∈ Finset.range n, o j)
    (p := fun j => if j < n then w j else 0) (fun j _ => by
      split
      · exact ho j ‹_›
      · linarith) (by
      rw [Finset.sum_range_succ, if_neg (lt_irrefl n), Finset.sum_congr rfl (g := o) (fun j hj => if_pos (Finset.mem_range.mp hj))]
      ring) (fun _ _ => Set.mem_univ _)
  simp only [smul_eq_mul] at h
  rw [Finset.sum_range_succ, Finset.sum_range_succ, if_neg (lt_irrefl n), if_neg (lt_irrefl n), h0, mul_zero, add_zero, add_zero] at h
  rw [Finset.sum_congr rfl (g := fun j => w j * o j) (fun j hj => by
      have := Finset.mem_range.mp hj
      rw [if_pos this, if_pos this, mul_comm])] at h
  refine h.trans (le_of_eq (Finset.sum_congr rfl fun j hj => ?_))
  have := Finset.mem_range.mp hj
  rw [if_pos this, if_pos this, mul_comm]

/-- C156: when the rate does not go up, then for every convex function `φ` that is 0 at 0 and nowhere negative (of slope at most `L` in
the range of samples) the sum of `φ` over the slots is at most the ratio times the sum over the frames that were taken, up to a small
error for each slot.  There are that many fewer slots, so the mean of `φ` does not rise. -/
theorem C156_partial (fuel : Nat) (s s' : Sink k c) (st : Src k' c') (it : It k' c')
    (h : s.stream fuel st = .ok (s', it)) (ho : s.res.offseti = lit 0) (r : ℚ)
    (hq : (ratioOf s.rate st.rate).Is r) (hr : 0 < r) (hr1 : r ≤ 1) (hb : (s.buf.length : ℚ) + 1 ≤ r * 2 ^ 52)
    (i : Nat) (hi : i < k.chans) (w : Nat → ℚ)
    (hw : ∀ j f, st.nth j = .ok (some f) → ∀ x : Frame k c, f.convert c = .ok x → SampleVal c x[i] (w j) ∧ |w j| ≤ 1)
    (D : Nat) (hD : ∀ x, x < D → InDst (ratioOf s.rate st.rate) st.len s.buf.length x) :
    let E := (mixErr c + 5 * 2 ^ (-53 : ℤ) + 2 * ((s.buf.length + 1) * 2 ^ (-53 : ℤ))) * (1 / r + 3)
    ∃ (n : Nat) (y : Nat → ℚ), Takes (ratioOf s.rate st.rate) (lit 0) st.len s.buf.length n ∧
      (∀ x, x < D → ∃ f, s'.buf[x]? = some f ∧ SampleVal c f[i] (y x)) ∧
      ∀ (φ : ℚ → ℚ) (L : ℚ), ConvexOn ℚ Set.univ φ → φ 0 = 0 → (∀ t, 0 ≤ φ t) → 0 ≤ L →
        (∀ a b, |a| ≤ 1 + E → |b| ≤ 1 → φ a ≤ φ b + L * |a - b|) →
        ∑ x ∈ Finset.range D, φ (y x) ≤ r * ∑ j ∈ Finset.range n, φ (w j) + D * (L * E) := by
  intro E
  obtain ⟨n, g, a1, a2, a3, a4, _⟩ := C58_mix fuel s s' st it h
  rw [ho] at a1 a3 a4
  have hwn : ∀ j, j < n → SampleVal c (g j)[i] (w j) ∧ |w j| ≤ 1 := fun j hj => by
    obtain ⟨f, f1, f2⟩ := a2 j hj
    exact hw j f f1 _ f2
  obtain ⟨hn, hbox⟩ := box_any a1 hq hr hr1 hb i hi w g hwn
  choose y y1 y2 using hbox
  refine ⟨n, y, a1, fun x hx => ⟨_, a3 x (hD x hx), y1 x⟩, fun φ L hφ h0 hpos hL hlip => ?_⟩
  have hstep : ∀ x ∈ Finset.range D, φ (y x) ≤
      ∑ j ∈ Finset.range n, φ (w j) * overlap (r * j - r) (r * j) ((x:ℚ) - 1) x + L * E := fun x _ => by
    have hS : |∑ j ∈ Finset.range n, w j * overlap (r * j - r) (r * j) ((x:ℚ) - 1) x| ≤ 1 := by
      have := weighted_near (z := w) (t := fun _ => 0) (e := 1)
        (fun j (_ : j < n) => overlap_nonneg (r * j - r) (r * j) (x - 1) x) (sum_share_le hr.le n x) zero_le_one
        (fun j hj => by rw [sub_zero]; exact (hwn j hj).2)
      simpa using this
    have h2 := jensen_le (n := n) (w := w) hφ h0 (fun j _ => overlap_nonneg (r * j - r) (r * j) (x - 1) x) (sum_share_le hr.le n x)
    have hy : _ ≤ E := y2 x
    generalize ∑ j ∈ Finset.range n, w j * overlap (r * j - r) (r * j) ((x:ℚ) - 1) x = S at *
    have h1 := hlip (y x) _ (by
      have := abs_sub_abs_le_abs_sub (y x) S
      linarith only [this, hy, hS]) hS
    have h3 := mul_le_mul_of_nonneg_left hy hL
    linarith only [h1, h2, h3]
  refine (Finset.sum_le_sum hstep).trans ?_
  rw [Finset.sum_add_distrib, Finset.sum_const, Finset.card_range, nsmul_eq_mul, Finset.sum_comm]
  refine add_le_add ?_ le_rfl
  rw [Finset.mul_sum]
  refine Finset.sum_le_sum fun j _ => ?_
  rw [← Finset.mul_sum, mul_comm r (φ (w j))]
  exact mul_le_mul_of_nonneg_left (overlap_total D hr.le hr1 (by positivity)) (hpos _)

/-- What exceeds a threshold. -/
theorem convex_excess (θ : ℚ) : ConvexOn ℚ Set.univ fun t : ℚ => max 0 (|t| - θ) := ⟨convex_univ, fun a _ b _ p q hp hq h1 => by
  simp only [smul_eq_mul]
  have h2 := abs_add_le (p * a) (q * b)
  rw [abs_mul, abs_mul, abs_of_nonneg hp, abs_of_nonneg hq] at h2
  have h3 := mul_le_mul_of_nonneg_left (le_max_right 0 (|a| - θ)) hp
  have h4 := mul_le_mul_of_nonneg_left (le_max_right 0 (|b| - θ)) hq
  have h5 := mul_nonneg hp (le_max_left 0 (|a| - θ))
  have h6 := mul_nonneg hq (le_max_left 0 (|b| - θ))
  have h7 : p * θ + q * θ = θ := by rw [← add_mul, h1, one_mul]
  exact max_le (by linarith) (by linarith)⟩

/-- C156 for the absolute values, and for what exceeds a threshold. -/
theorem C156_abs (fuel : Nat) (s s' : Sink k c) (st : Src k' c') (it : It k' c')
    (h : s.stream fuel st = .ok (s', it)) (ho : s.res.offseti = lit 0) (r : ℚ)
    (hq : (ratioOf s.rate st.rate).Is r) (hr : 0 < r) (hr1 : r ≤ 1) (hb : (s.buf.length : ℚ) + 1 ≤ r * 2 ^ 52)
    (i : Nat) (hi : i < k.chans) (w : Nat → ℚ)
    (hw : ∀ j f, st.nth j = .ok (some f) → ∀ x : Frame k c, f.convert c = .ok x → SampleVal c x[i] (w j) ∧ |w j| ≤ 1)
    (D : Nat) (hD : ∀ x, x < D → InDst (ratioOf s.rate st.rate) st.len s.buf.length x) :
    let E := (mixErr c + 5 * 2 ^ (-53 : ℤ) + 2 * ((s.buf.length + 1) * 2 ^ (-53 : ℤ))) * (1 / r + 3)
    ∃ (n : Nat) (y : Nat → ℚ), Takes (ratioOf s.rate st.rate) (lit 0) st.len s.buf.length n ∧
      (∀ x, x < D → ∃ f, s'.buf[x]? = some f ∧ SampleVal c f[i] (y x)) ∧
      ∑ x ∈ Finset.range D, |y x| ≤ r * ∑ j ∈ Finset.range n, |w j| + D * E ∧
      ∀ θ : ℚ, 0 ≤ θ → ∑ x ∈ Finset.range D, max 0 (|y x| - θ) ≤ r * ∑ j ∈ Finset.range n, max 0 (|w j| - θ) + D * E := by
  intro E
  obtain ⟨n, y, a1, y1, y2⟩ := C156_partial fuel s s' st it h ho r hq hr hr1 hb i hi w hw D hD
  have key : ∀ θ : ℚ, 0 ≤ θ →
      ∑ x ∈ Finset.range D, max 0 (|y x| - θ) ≤ r * ∑ j ∈ Finset.range n, max 0 (|w j| - θ) + D * E := fun θ hθ => by
    have := y2 (fun t => max 0 (|t| - θ)) 1 (convex_excess θ)
      (by simp [hθ]) (fun t => le_max_left _ _) zero_le_one (fun a b _ _ => by
        have h1 := abs_sub_abs_le_abs_sub a b
        rw [one_mul]
        refine max_le (add_nonneg (le_max_left _ _) (abs_nonneg _)) ?_
        have := le_max_right 0 (|b| - θ)
        linarith)
    rwa [one_mul] at this
  refine ⟨n, y, a1, y1, ?_, key⟩
  have := key 0 le_rfl
  simpa using this

/-- C156 for `Audio::with_stream` (whole rates, not going up), for all slots of the result. -/
theorem C156_with (rate sr : F64) (dst src l : Nat) (hr : rate.Is (dst:ℚ)) (hs : sr.Is (src:ℚ)) (h0 : 0 < src)
    (hd0 : 0 < dst) (hs' : src ≤ 2 ^ 51) (hle : dst ≤ src) (hN : dst * l < 2 ^ 51)
    (hB : dst * l + 2 * src ≤ dst * 2 ^ 51)
    (st : Src k' c') (hl : st.len = some l) (hsr : st.rate = some sr) (b : Audio k c)
    (h : Audio.withStream rate st = .ok b) (i : Nat) (hi : i < k.chans) (w : Nat → ℚ)
    (hw : ∀ j f, st.nth j = .ok (some f) → ∀ x : Frame k c, f.convert c = .ok x → SampleVal c x[i] (w j)) (hw1 : ∀ j, |w j| ≤ 1) :
    let r := binary64.rnd ((dst:ℚ) / src)
    let E := (mixErr c + 5 * 2 ^ (-53 : ℤ) + 2 * ((b.len + 1) * 2 ^ (-53 : ℤ))) * (1 / r + 3)
    b.len = ⌈(dst:ℚ) * l / src⌉₊ ∧ ∃ y : Nat → ℚ, (∀ x, x < b.len → ∃ f, b.get x = some f ∧ SampleVal c f[i] (y x)) ∧
      ∀ (φ : ℚ → ℚ) (L : ℚ), ConvexOn ℚ Set.univ φ → φ 0 = 0 → (∀ t, 0 ≤ φ t) → 0 ≤ L →
        (∀ a b, |a| ≤ 1 + E → |b| ≤ 1 → φ a ≤ φ b + L * |a - b|) →
        ∑ x ∈ Finset.range b.len, φ (y x) ≤ r * ∑ j ∈ Finset.range l, φ (w j) + b.len * (L * E) := by
  intro r E
  have hsq : (0:ℚ) < src := by exact_mod_cast h0
  have hdq : (0:ℚ) < dst := by exact_mod_cast hd0
  have hl52 : l ≤ 2 ^ 53 := by
    have := Nat.le_mul_of_pos_left l hd0
    omega
  refine ⟨C49_partial rate sr dst src l hr hs h0 (by omega) hl52 hs' st hl hsr b h, ?_⟩
  obtain ⟨n, t0, hnl, _, s0⟩ := C89_partial rate sr dst src l hr hs h0 hd0 hs' hle hN hB st hl hsr b h i hi w
    (fun j f hf x hx => ⟨hw j f hf x hx, hw1 j⟩)
  have hr0 : 0 ≤ r := rnd_nonneg (by positivity)
  have hr1 : r ≤ 1 := by
    have e0 : binary64.rnd 1 = 1 := Fmt.rnd_of_rep (by simpa using rep_nat53 (n := 1) (by norm_num))
    rw [← e0]
    refine Fmt.rnd_mono ?_
    rw [div_le_one hsq]; exact_mod_cast hle
  have hE0 : 0 ≤ E := by
    have := mixErr_pos c
    have := two_zpow_pos (-53)
    positivity
  have hex : ∀ x, ∃ y : ℚ, x < b.len → (∃ f, b.get x = some f ∧ SampleVal c f[i] y) ∧
      (y = 0 ∨ |y - ∑ j ∈ Finset.range n, w j * overlap (r * j - r) (r * j) ((x:ℚ) - 1) x| ≤ E) := by
    intro x
    by_cases hx : x < b.len
    · obtain ⟨f, f1, f2⟩ := s0 x hx
      split at f2
      · refine ⟨0, fun _ => ⟨⟨f, f1, ?_⟩, .inl rfl⟩⟩
        rw [f2.2]
        simpa [Frame.dflt] using of_val (mixLaw c).dflt
      · obtain ⟨v, v1, v2⟩ := f2
        exact ⟨v, fun _ => ⟨⟨f, f1, v1⟩, .inr v2⟩⟩
    · exact ⟨0, fun h => absurd h hx⟩
  choose y y1 using hex
  refine ⟨y, fun x hx => (y1 x hx).1, fun φ L hφ h0 hpos hL hlip => ?_⟩
  have hstep : ∀ x ∈ Finset.range b.len, φ (y x) ≤
      ∑ j ∈ Finset.range n, φ (w j) * overlap (r * j - r) (r * j) ((x:ℚ) - 1) x + L * E := fun x hx => by
    have h2 := jensen_le (n := n) (w := w) hφ h0 (fun j _ => overlap_nonneg (r * j - r) (r * j) (x - 1) x) (sum_share_le hr0 n x)
    have hS : |∑ j ∈ Finset.range n, w j * overlap (r * j - r) (r * j) ((x:ℚ) - 1) x| ≤ 1 := by
      have := weighted_near (z := w) (t := fun _ => 0) (e := 1)
        (fun j (_ : j < n) => overlap_nonneg (r * j - r) (r * j) (x - 1) x) (sum_share_le hr0 n x) zero_le_one
        (fun j _ => by rw [sub_zero]; exact hw1 j)
      simpa using this
    rcases (y1 x (Finset.mem_range.mp hx)).2 with hy | hy
    · rw [hy, h0]
      exact add_nonneg (Finset.sum_nonneg fun j _ => mul_nonneg (hpos _) (overlap_nonneg _ _ _ _)) (mul_nonneg hL hE0)
    · generalize ∑ j ∈ Finset.range n, w j * overlap (r * j - r) (r * j) ((x:ℚ) - 1) x = S at *
      have h1 := hlip (y x) _ (by
        have := abs_sub_abs_le_abs_sub (y x) S
        linarith only [this, hy, hS]) hS
      have h3 := mul_le_mul_of_nonneg_left hy hL
      linarith only [h1, h2, h3]
  refine (Finset.sum_le_sum hstep).trans ?_
  rw [Finset.sum_add_distrib, Finset.sum_const, Finset.card_range, nsmul_eq_mul, Finset.sum_comm]
  refine add_le_add ?_ le_rfl
  refine le_trans ?_ (mul_le_mul_of_nonneg_left
    (Finset.sum_le_sum_of_subset_of_nonneg (Finset.range_mono hnl) fun j _ _ => hpos (w j)) hr0)
  rw [Finset.mul_sum]
  refine Finset.sum_le_sum fun j _ => ?_
  rw [← Finset.mul_sum, mul_comm r (φ (w j))]
  exact mul_le_mul_of_nonneg_left (overlap_total b.len hr0 hr1 (by positivity)) (hpos _)

/-! ## Examples -/

theorem exSteps_val (j : Nat) (f : Frame .mono .ch8) (hf : (Src.audio (exAudio 12)).nth j = .ok (some f)) (x : Frame .mono .ch8)
    (hx : f.convert .ch8 = .ok x) :
    SampleVal .ch8 x[0] (if j < 5 then ((j:ℚ) + 1) / 127 else 0) ∧ |if j < 5 then ((j:ℚ) + 1) / 127 else 0| ≤ 1 := by
  match j with
  | 0 | 1 | 2 | 3 | 4 => cases hf; cases hx; decide +kernel
  | j + 5 => cases hf

example := C156_partial 6 (exSink 3 8) _ (.audio (exAudio 12)) _
  (R.returns₂ (x := (exSink 3 8).stream 6 (.audio (exAudio 12))) (by decide +kernel)) rfl (binary64.rnd (2 / 3))
  (by decide +kernel) (by decide +kernel) (by decide +kernel) (by decide +kernel) 0 (by decide) _ exSteps_val 3 (fun x hx => by
    match x with
    | 0 | 1 | 2 => decide +kernel)

example := C156_abs 6 (exSink 3 8) _ (.audio (exAudio 12)) _
  (R.returns₂ (x := (exSink 3 8).stream 6 (.audio (exAudio 12))) (by decide +kernel)) rfl (binary64.rnd (2 / 3))
  (by decide +kernel) (by decide +kernel) (by decide +kernel) (by decide +kernel) 0 (by decide) _ exSteps_val 3 (fun x hx => by
    match x with
    | 0 | 1 | 2 => decide +kernel)

example := C156_with (lit 8) (lit 12) 8 12 5 (by decide +kernel) (by decide +kernel) (by decide) (by decide) (by decide) (by decide)
  (by decide) (by decide) (.audio (exAudio 12)) rfl rfl _
  (R.returns (x := (Audio.withStream (lit 8) (.audio (exAudio 12)) : R (Audio .mono .ch8))) (by decide +kernel)) 0 (by decide)
  _ (fun j f hf x hx => (exSteps_val j f hf x hx).1) (fun j => by
    split_ifs with h
    · have : (j:ℚ) ≤ 4 := by exact_mod_cast (by omega : j ≤ 4)
      have : (0:ℚ) ≤ j := by positivity
      rw [abs_le]
      constructor <;> linarith
    · simp)

/-- C156 is false when the rate goes up: with the threshold 1/2, nothing of two frames of 1/2 is above it, but half of the slots are. -/
theorem C156_false :
    (Audio.withStream (lit 2) (.audio (k := .mono) (c := .ch64) ⟨lit 1, [#v[lit 0.5], #v[lit (-0.5)]]⟩) : R (Audio .mono .ch64)).map
      (·.frames) = .ok [#v[lit 1], #v[lit 0], #v[lit (-1)], #v[lit 0]] := by decide +kernel

end Fon
