import Verif.Props.Extend

/-!
# C95, C96: what resampling does to the range and the sum of a signal
-/

namespace Fon
open Fl hiding min max
open Sink
variable {k k' : Kind} {c c' : ChTy}

/-! ## C95 -/

theorem stored_dflt (c : ChTy) : Stored c c.dflt 0 := by
  cases c
  · change (0:ℚ) = _
    decide +kernel
  · change (0:ℚ) = _
    decide +kernel
  · exact is_zero
  · exact is_zero

theorem Signed.iff {neg : Bool} {x : c.T} : Signed neg c x ↔
    Valid c x ∧ ∃ p, Stored c x p ∧ if neg then p ≤ 0 else 0 ≤ p := by
  constructor
  · rintro ⟨v, h⟩
    obtain ⟨p, hp⟩ := Stored.of_valid v
    refine ⟨v, p, hp, ?_⟩
    cases neg
    · exact (C70_order (stored_dflt c) hp).2.2.mp h
    · exact (C70_order hp (stored_dflt c)).2.2.mp h
  · rintro ⟨v, p, hp, h⟩
    refine ⟨v, ?_⟩
    cases neg
    · exact (C70_order (stored_dflt c) hp).2.2.mpr h
    · exact (C70_order hp (stored_dflt c)).2.2.mpr h

theorem Signed.dflt (neg : Bool) : Signed neg c c.dflt := by
  rw [Signed.iff]
  exact ⟨(Valid.consts c).2.2.2, 0, stored_dflt c, by cases neg <;> simp⟩

theorem Signed.weigh {neg : Bool} {a x : c.T} (ha : Signed neg c a) (hx : Signed neg c x) {w : F64}
    (hw : ∃ ω, w.Is ω ∧ 0 ≤ ω ∧ |ω| ≤ 2 ^ (100:ℤ)) : Signed neg c (c.add a (c.mul x (c.ofF64 w))) := by
  obtain ⟨ω, w1, w2, w3⟩ := hw
  rw [Signed.iff] at ha hx ⊢
  obtain ⟨va, p, hp, sp⟩ := ha
  obtain ⟨vx, q, hq, sq⟩ := hx
  refine ⟨Valid.add, _, stored_weigh va vx hp hq w1 w3, ?_⟩
  have n := wF_nonneg c w2
  cases neg
  · simp only [Bool.false_eq_true, if_false] at *
    have h1 := prodF_mono c (mul_nonneg sq n)
    rw [prodF_zero] at h1
    have h2 := sumF_mono c (add_nonneg sp h1)
    rwa [sumF_zero] at h2
  · simp only [if_true] at *
    have h1 := prodF_mono c (mul_nonpos_of_nonpos_of_nonneg sq n)
    rw [prodF_zero] at h1
    have h2 := sumF_mono c (add_nonpos sp h1)
    rwa [sumF_zero] at h2

/-- C95, sign: whatever the rates, a channel that is nowhere negative (positive) stays so, exactly. -/
theorem C95_sign (fuel : Nat) (s s' : Sink k c) (st : Src k' c') (it : It k' c')
    (h : s.stream fuel st = .ok (s', it)) {r o : ℚ} (hq : (ratioOf s.rate st.rate).Is r) (hr0 : 0 ≤ r)
    (hr1 : r ≤ 2 ^ (99:ℤ)) (hoff : s.res.offseti.Is o) (ho0 : 0 ≤ o) (i : Nat) (hi : i < k.chans) (neg : Bool)
    (hw : ∀ j f, st.nth j = .ok (some f) → ∀ x : Frame k c, f.convert c = .ok x → Signed neg c x[i])
    (x : Nat) (hx : InDst (ratioOf s.rate st.rate) st.len s.buf.length x) :
    ∃ y, s'.buf[x]? = some y ∧ Signed neg c y[i] := by
  obtain ⟨n, g, a1, a2, a3, _⟩ := C58_mix fuel s s' st it h
  refine ⟨_, a3 x hx, ?_⟩
  have key : ∀ m, m ≤ n → Signed neg c (mixed (ratioOf s.rate st.rate) s.res.offseti g x m Frame.dflt)[i] := by
    intro m
    induction m with
    | zero => intro _; rw [mixed, dflt_get]; exact Signed.dflt neg
    | succ m ih =>
      intro hm
      obtain ⟨w1, w2⟩ := weights_nonneg hq hr0 hr1 hoff ho0 m
      obtain ⟨f, f1, f2⟩ := a2 m (by omega)
      have hg := hw m f f1 _ f2
      have h0 := ih (by omega)
      simp only [mixed]
      split_ifs
      · rw [add_mul_get, add_mul_get]; exact (h0.weigh hg w2).weigh hg w1
      · rw [add_mul_get]; exact h0.weigh hg w1
      · rw [add_mul_get]; exact h0.weigh hg w2
      · exact h0
  exact key n le_rfl

example := C95_sign 6 (exSink 3 8) _ (.audio (exAudio 12)) _
  (R.returns₂ (x := (exSink 3 8).stream 6 (.audio (exAudio 12))) (by decide +kernel))
  (r := Fmt.rnd binary64 (2 / 3)) (o := 0) (by decide +kernel) (by decide +kernel) (by decide +kernel) (by decide +kernel)
  le_rfl 0 (by decide) false (by
    intro j f hf x hx
    match j with
    | 0 | 1 | 2 | 3 | 4 => cases hf; cases hx; decide +kernel
    | j + 5 => cases hf) 1 (by decide +kernel)

theorem box_between {r s lo hi : ℚ} (hr : 0 ≤ r) (w : Nat → ℚ) (n : Nat) (hlo : lo ≤ 0) (hhi : 0 ≤ hi)
    (hw : ∀ j, j < n → lo ≤ w j ∧ w j ≤ hi) :
    lo ≤ ∑ j ∈ Finset.range n, w j * overlap (r * j - r) (r * j) (s - 1) s ∧
    ∑ j ∈ Finset.range n, w j * overlap (r * j - r) (r * j) (s - 1) s ≤ hi := by
  have e : ∀ j : ℕ, overlap (r * j - r) (r * j) (s - 1) s = share r s (0 + r * j) := by
    intro j; rw [zero_add, share_overlap hr]
  simp only [e]
  have tot : ∑ j ∈ Finset.range n, share r s (0 + r * j) ≤ 1 := by
    rw [sum_share]
    have a1 := ramp_range s (0 + r * n - r)
    have a2 := ramp_range s (0 - r)
    linarith
  have pos : ∀ j : ℕ, 0 ≤ share r s (0 + r * j) := fun j => share_nonneg hr
  have tot0 : 0 ≤ ∑ j ∈ Finset.range n, share r s (0 + r * j) := Finset.sum_nonneg fun j _ => pos j
  constructor
  · calc lo ≤ lo * ∑ j ∈ Finset.range n, share r s (0 + r * j) := by nlinarith
      _ = ∑ j ∈ Finset.range n, lo * share r s (0 + r * j) := Finset.mul_sum ..
      _ ≤ _ := Finset.sum_le_sum fun j hj => mul_le_mul_of_nonneg_right (hw j (Finset.mem_range.mp hj)).1 (pos j)
  · calc _ ≤ ∑ j ∈ Finset.range n, hi * share r s (0 + r * j) :=
          Finset.sum_le_sum fun j hj => mul_le_mul_of_nonneg_right (hw j (Finset.mem_range.mp hj)).2 (pos j)
      _ = hi * ∑ j ∈ Finset.range n, share r s (0 + r * j) := (Finset.mul_sum ..).symm
      _ ≤ hi := by nlinarith

/-- C95: when the rate does not go up, every slot stays between the lowest and the highest value of the signal (and
silence), up to the accuracy of the box filter.  Missing: rates that go up (`C95_false`). -/
theorem C95_partial (fuel : Nat) (s s' : Sink k c) (st : Src k' c') (it : It k' c')
    (h : s.stream fuel st = .ok (s', it)) (ho : s.res.offseti = lit 0) (r : ℚ)
    (hq : (ratioOf s.rate st.rate).Is r) (hr : 0 < r) (hr1 : r ≤ 1) (hb : (s.buf.length : ℚ) + 1 ≤ r * 2 ^ 52)
    (i : Nat) (hi : i < k.chans) (lo up : ℚ) (h1 : -1 ≤ lo) (h2 : lo ≤ 0) (h3 : 0 ≤ up) (h4 : up ≤ 1)
    (hw : ∀ j f, st.nth j = .ok (some f) → ∀ x : Frame k c, f.convert c = .ok x →
      ∃ v, SampleVal c x[i] v ∧ lo ≤ v ∧ v ≤ up)
    (x : Nat) (hx : InDst (ratioOf s.rate st.rate) st.len s.buf.length x) :
    let E := (mixErr c + 5 * 2 ^ (-53 : ℤ) + 2 * ((s.buf.length + 1) * 2 ^ (-53 : ℤ))) * (1 / r + 3)
    ∃ (y : Frame k c) (b : ℚ), s'.buf[x]? = some y ∧ SampleVal c y[i] b ∧ lo - E ≤ b ∧ b ≤ up + E := by
  intro E
  obtain ⟨n, g, a1, a2, a0, _⟩ := C58_mix fuel s s' st it h
  rw [ho] at a1 a0
  have hv : ∀ j, ∃ v, j < n → SampleVal c (g j)[i] v ∧ lo ≤ v ∧ v ≤ up := by
    intro j
    by_cases hj : j < n
    · obtain ⟨f, f1, f2⟩ := a2 j hj
      obtain ⟨v, hv⟩ := hw j f f1 _ f2
      exact ⟨v, fun _ => hv⟩
    · exact ⟨0, fun hj' => absurd hj' hj⟩
  choose w hw' using hv
  obtain ⟨_, hbox⟩ := box_any a1 hq hr hr1 hb i hi w g (fun j hj => by
    obtain ⟨w1, w2, w3⟩ := hw' j hj
    exact ⟨w1, abs_le.mpr ⟨by linarith, by linarith⟩⟩)
  obtain ⟨b, b1, b2⟩ := hbox x
  change _ ≤ E at b2
  have hs := box_between (s := x) hr.le w n h2 h3 (fun j hj => (hw' j hj).2)
  refine ⟨_, b, a0 x hx, b1, ?_, ?_⟩
  · have := (abs_le.mp b2).1
    linarith [hs.1]
  · have := (abs_le.mp b2).2
    linarith [hs.2]

example := C95_partial 6 (exSink 3 8) _ (.audio (exAudio 12)) _
  (R.returns₂ (x := (exSink 3 8).stream 6 (.audio (exAudio 12))) (by decide +kernel)) rfl
  (Fmt.rnd binary64 (2 / 3)) (by decide +kernel) (by decide +kernel) (by decide +kernel) (by decide +kernel)
  0 (by decide) 0 (5 / 127) (by norm_num) le_rfl (by norm_num) (by norm_num) (by
    intro j f hf x hx
    match j with
    | 0 => cases hf; cases hx; exact ⟨1 / 127, by decide +kernel, by norm_num, by norm_num⟩
    | 1 => cases hf; cases hx; exact ⟨2 / 127, by decide +kernel, by norm_num, by norm_num⟩
    | 2 => cases hf; cases hx; exact ⟨3 / 127, by decide +kernel, by norm_num, by norm_num⟩
    | 3 => cases hf; cases hx; exact ⟨4 / 127, by decide +kernel, by norm_num, by norm_num⟩
    | 4 => cases hf; cases hx; exact ⟨5 / 127, by decide +kernel, by norm_num, by norm_num⟩
    | j + 5 => cases hf) 1 (by decide +kernel)

/-- C95 is false when the rate goes up: a float signal of level 0.25 comes out at 0.75 when upsampled by 3. -/
theorem C95_false : ((⟨lit 24, Resampler.dflt, List.replicate 6 #v[lit 0]⟩ : Sink .mono .ch64).stream 9
    (.audio (k := .mono) (c := .ch64) ⟨lit 8, [#v[lit 0.25], #v[lit 0.25]]⟩)).map (fun r => r.1.buf) =
      .ok [#v[lit 0.75], #v[lit 0], #v[lit 0], #v[lit 0.75], #v[lit 0], #v[lit 0]] := by
  decide +kernel

/-- A signal between 0 and 100, downsampled. -/
example : ((⟨lit 8, Resampler.dflt, List.replicate 4 #v[7]⟩ : Sink .mono .ch8).stream 19
    (.audio (k := .mono) (c := .ch8) ⟨lit 12, [#v[100], #v[0], #v[50], #v[100], #v[100], #v[3]]⟩)).map
    (fun r => r.1.buf.map (fun f => f[0].toInt)) = .ok [66, 16, 82, 66] ∧ Signed false .ch8 (3 : BitVec 8) ∧
    SampleVal .ch8 (100 : BitVec 8) (100 / 127) := by
  refine ⟨by decide +kernel, ⟨trivial, by decide⟩, ?_⟩
  change (_:ℚ) = _
  decide +kernel

/-! ## C96 -/

theorem sum_ramp (D : Nat) {y : ℚ} (h : -1 ≤ y) : ∑ x ∈ Finset.range (D + 1), ramp x y = min (y + 1) (D + 1) := by
  induction D with
  | zero =>
    rw [Finset.sum_range_one]
    unfold ramp
    push_cast
    rw [max_eq_right (le_min (by norm_num) (by linarith)), min_comm]
    congr 1 <;> ring
  | succ D ih =>
    rw [Finset.sum_range_succ, ih]
    rcases le_or_gt y D with h1 | h1
    · rw [ramp_lo (by push_cast; linarith), min_eq_left (by linarith), min_eq_left (by push_cast; linarith), add_zero]
    · rcases le_or_gt y (D + 1) with h2 | h2
      · rw [ramp_mid (by push_cast; linarith) (by push_cast; linarith), min_eq_right (by linarith),
          min_eq_left (by push_cast; linarith)]
        push_cast; ring
      · rw [ramp_hi (by push_cast; linarith), min_eq_right (by linarith), min_eq_right (by push_cast; linarith)]
        push_cast; ring

/-- A frame is shared among the slots up to the one after its position, without loss. -/
theorem sum_overlap (D : Nat) {r p : ℚ} (hr : 0 ≤ r) (h1 : r ≤ 1) (h0 : 0 ≤ p) (hp : p ≤ D) :
    ∑ x ∈ Finset.range (D + 1), overlap (p - r) p ((x:ℚ) - 1) x = r := by
  simp only [← share_overlap hr, share, Finset.sum_sub_distrib]
  rw [sum_ramp D (by linarith), sum_ramp D (by linarith), min_eq_left (by linarith), min_eq_left (by linarith)]
  ring

/-- C96: when the rate does not go up, the sum over all slots and the left-over frame is the sum of the signal (of the
frames that were taken) times the ratio, up to the accuracy of each slot.  Missing: rates that go up (`C96_false`). -/
theorem C96_partial (fuel : Nat) (s s' : Sink k c) (st : Src k' c') (it : It k' c')
    (h : s.stream fuel st = .ok (s', it)) (ho : s.res.offseti = lit 0) (hp : s.res.partial_ = Frame.dflt) (r : ℚ)
    (hq : (ratioOf s.rate st.rate).Is r) (hr : 0 < r) (hr1 : r ≤ 1) (hb : (s.buf.length : ℚ) + 1 ≤ r * 2 ^ 52)
    (i : Nat) (hi : i < k.chans) (w : Nat → ℚ)
    (hw : ∀ j f, st.nth j = .ok (some f) → ∀ x : Frame k c, f.convert c = .ok x → SampleVal c x[i] (w j) ∧ |w j| ≤ 1)
    (D : Nat) (hD : ∀ x, InDst (ratioOf s.rate st.rate) st.len s.buf.length x ↔ x < D) :
    let E := (mixErr c + 5 * 2 ^ (-53 : ℤ) + 2 * ((s.buf.length + 1) * 2 ^ (-53 : ℤ))) * (1 / r + 3)
    ∃ (n : Nat) (y : Nat → ℚ), Takes (ratioOf s.rate st.rate) (lit 0) st.len s.buf.length n ∧
      (∀ x, x < D → ∃ f, s'.buf[x]? = some f ∧ SampleVal c f[i] (y x)) ∧ SampleVal c s'.res.partial_[i] (y D) ∧
      |∑ x ∈ Finset.range (D + 1), y x - r * ∑ j ∈ Finset.range n, w j| ≤ (D + 1) * E := by
  intro E
  obtain ⟨n, g, a1, a2, a3, a4, _⟩ := C58_mix fuel s s' st it h
  rw [ho] at a1 a3 a4
  obtain ⟨hn, hbox⟩ := box_any a1 hq hr hr1 hb i hi w g (fun j hj => by
    obtain ⟨f, f1, f2⟩ := a2 j hj
    exact hw j f f1 _ f2)
  choose y y1 y2 using hbox
  refine ⟨n, y, a1, fun x hx => ⟨_, a3 x ((hD x).mpr hx), y1 x⟩, ?_, ?_⟩
  · rw [leftOver_mixed hD g a1.1, hp] at a4
    rw [a4]; exact y1 D
  · have hDB : D ≤ s.buf.length := by
      by_contra hc
      have := ((hD s.buf.length).mpr (by omega)).1
      omega
    have hBq : (s.buf.length:ℚ) + 1 ≤ 2 ^ 52 := hb.trans (by nlinarith)
    have hB : s.buf.length + 1 ≤ 2 ^ 52 := by exact_mod_cast hBq
    have hpos : ∀ j, j < n → r * j ≤ D := by
      intro j hj
      obtain ⟨_, p1, _⟩ := pos_fresh hq (by rwa [abs_of_pos hr]) (j := j) (by omega)
      have hlt := (hD _).mp (a1.1 j hj)
      by_contra hc
      push Not at hc
      have h1 : (D:ℚ) ≤ binary64.rnd (r * j) := by
        have := Fmt.rnd_mono (f := binary64) hc.le
        rwa [Fmt.rnd_of_rep (rep_nat53 (by omega))] at this
      have := le_toUsize p1 h1 (by omega)
      omega
    have swap : ∑ x ∈ Finset.range (D + 1), ∑ j ∈ Finset.range n, w j * overlap (r * j - r) (r * j) ((x:ℚ) - 1) x =
        r * ∑ j ∈ Finset.range n, w j := by
      rw [Finset.sum_comm, Finset.mul_sum]
      refine Finset.sum_congr rfl fun j hj => ?_
      rw [← Finset.mul_sum, sum_overlap D hr.le hr1 (by positivity) (hpos j (Finset.mem_range.mp hj)), mul_comm]
    rw [← swap, ← Finset.sum_sub_distrib]
    refine (Finset.abs_sum_le_sum_abs _ _).trans ?_
    calc _ ≤ ∑ x ∈ Finset.range (D + 1), E := Finset.sum_le_sum fun x _ => y2 x
      _ = (D + 1) * E := by simp

example := C96_partial 6 (exSink 9 8) _ (.audio (exAudio 12)) _
  (R.returns₂ (x := (exSink 9 8).stream 6 (.audio (exAudio 12))) (by decide +kernel)) rfl rfl
  (Fmt.rnd binary64 (2 / 3)) (by decide +kernel) (by decide +kernel) (by decide +kernel) (by decide +kernel) 0 (by decide)
  (fun j => if j < 5 then (j + 1) / 127 else 0) (by
    intro j f hf x hx
    match j with
    | 0 | 1 | 2 | 3 | 4 => cases hf; cases hx; decide +kernel
    | j + 5 => cases hf) 3 (fun x => by
    constructor
    · intro h
      by_contra hx
      have hx' : x < 9 := h.1
      have : ∀ x < 9, 3 ≤ x → ¬ InDst (ratioOf (exSink 9 8).rate (Src.audio (exAudio 12)).rate) (some 5) 9 x := by
        decide +kernel
      exact this x hx' (by omega) h
    · have : ∀ x < 3, InDst (ratioOf (exSink 9 8).rate (Src.audio (exAudio 12)).rate) (some 5) 9 x := by decide +kernel
      exact this x)

/-- C96 is false when the rate goes up, for the integer formats: weights above 1 are not representable, so the sum stays
what it was, although three times as many frames are played. -/
theorem C96_false : ((exSink 6 24).stream 9 (.audio (k := .mono) (c := .ch8) ⟨lit 8, [#v[100#8], #v[100#8]]⟩)).map
    (fun r => ((r.1.buf.map (fun f => f[0].toInt)).sum, r.1.res.partial_[0].toInt)) = .ok (200, 0) := by
  decide +kernel

/-- The sum is 1 before and 0.5 after, at ratio 1/2. -/
example : ((⟨lit 8, Resampler.dflt, List.replicate 3 #v[lit 0]⟩ : Sink .mono .ch64).stream 9
    (.audio (k := .mono) (c := .ch64) ⟨lit 16, [#v[lit 0.5], #v[lit 0.5], #v[lit 1], #v[lit (-1)]]⟩)).map
    (fun r => (r.1.buf.map (·[0]), r.1.res.partial_[0])) = .ok ([lit 0.25, lit 0.75, lit 0], lit (-0.5)) := by
  decide +kernel

end Fon
