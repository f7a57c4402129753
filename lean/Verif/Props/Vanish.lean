import Verif.Props.Loudness
import Verif.Props.Causal
import Verif.Props.Tone
import Verif.Props.Crossing

/-!
# C157: quiet signals

The weights of a frame are made into samples of the destination format before they are multiplied with the frame.  In the integer
formats a small weight times a small sample is 0, and adding up any number of these is still silence, whatever their exact sum is.
-/

namespace Fon
open Fon.Fl hiding min max
open Fon.Fmt Fon.Sink
variable {k k' : Kind} {c c' : ChTy}

/-- Both weights are between 0 and the ratio, wherever the frame is. -/
theorem weights_ratio {q off : F64} {r o : ℚ} (hq : q.Is r) (hr0 : 0 ≤ r) (ho : off.Is o) (ho0 : 0 ≤ o) (i : Nat) :
    (∃ a, (hiWeight q off i).Is a ∧ 0 ≤ a ∧ a ≤ r) ∧ (∃ b, (loWeight q off i).Is b ∧ 0 ≤ b ∧ b ≤ r) := by
  have hpos : NN (posOf q off i) := by
    refine NN.add (NN.mul ?_ (NN.ofQ (by positivity))) ?_
    · intro p hp; rwa [hp.unique hq]
    · intro p hp; rwa [hp.unique ho]
  have hc : ∃ a, (hiWeight q off i).Is a ∧ 0 ≤ a ∧ a ≤ r := by
    unfold hiWeight
    cases hp : posOf q off i with
    | nan => exact ⟨r, hq, hr0, le_rfl⟩
    | inf s =>
      refine ⟨r, ?_, hr0, le_rfl⟩
      have : (Fl.inf s : F64).rem (lit 1) = .nan := by rw [lit_one_eq]; rfl
      rw [this]; exact hq
    | fin p nz h =>
      have h0 := hpos p (by rw [hp]; exact is_fin)
      refine ⟨_, ((is_fin (h := h)).rem_one h0).min hq, le_min ?_ hr0, min_le_right _ _⟩
      have := Int.floor_le p
      linarith
  refine ⟨hc, ?_⟩
  obtain ⟨a, h1, h2, h3⟩ := hc
  have hle : binary64.rnd (r - a) ≤ r := rnd_le_of_gen hq.rep.gen (by linarith)
  have hge : 0 ≤ binary64.rnd (r - a) := rnd_nonneg (by linarith)
  refine ⟨_, hq.sub h1 ?_, hge, hle⟩
  rw [abs_of_nonneg hge]
  refine hle.trans ?_
  have := hq.rep.le_maxF
  rwa [abs_of_nonneg hr0] at this

theorem tdiv_less {N v W R : ℤ} (hN : 0 < N) (h0 : 0 ≤ W) (hWR : W ≤ R) (h : (v * R).tdiv N = 0) : (v * W).tdiv N = 0 := by
  have e : ∀ a : ℤ, a.tdiv N = 0 ↔ a.natAbs < N.natAbs := fun a => by
    rw [← Int.natAbs_eq_zero, Int.natAbs_tdiv]
    change a.natAbs / N.natAbs = 0 ↔ _
    rw [Nat.div_eq_zero_iff]
    omega
  rw [e, Int.natAbs_mul] at *
  exact lt_of_le_of_lt (Nat.mul_le_mul_left _ (by omega)) h

/-- If a sample times the ratio is 0, then so is the sample times any smaller weight. -/
theorem mul_less {Q W : F64} {r ω : ℚ} (hc : c = .ch8 ∨ c = .ch16) (hQ : Q.Is r) (hW : W.Is ω) (h0 : 0 ≤ ω) (h1 : ω ≤ r) (v : c.T)
    (h : c.mul v (c.ofF64 Q) = c.dflt) (b : c.T) : c.add b (c.mul v (c.ofF64 W)) = b := by
  have hcl : clampQ ω ≤ clampQ r := by unfold clampQ; exact max_le_max le_rfl (min_le_min le_rfl h1)
  have hc0 : 0 ≤ clampQ ω := by
    have : clampQ 0 = 0 := clampQ_of_range (by norm_num) (by norm_num)
    rw [← this]; unfold clampQ; exact max_le_max le_rfl (min_le_min le_rfl h0)
  rcases hc with rfl | rfl
  · apply BitVec.eq_of_toInt_eq
    have e := congrArg BitVec.toInt h
    rw [(C02_ch8 _ _).2, ofF64_ch8_is hQ] at e
    have m1 := quantV_mono (f := binary64) (n := 8) (s := 127.5) (by norm_num) hcl
    have m0 := quantV_nonneg (f := binary64) (n := 8) (s := 127.5) (by decide) (by decide) (by norm_num) hc0
    rw [C01_ch8_add, (C02_ch8 _ _).2, ofF64_ch8_is hW]
    have := i8_range b
    have ed : ChTy.ch8.dflt.toInt = 0 := by decide
    rw [ed] at e
    rw [tdiv_less (by norm_num) m0 m1 (by unfold clampZ at e; omega)]
    unfold clampZ; omega
  · apply BitVec.eq_of_toInt_eq
    have e := congrArg BitVec.toInt h
    rw [(C02_ch16 _ _).2, ofF64_ch16_is hQ] at e
    have m1 := quantV_mono (f := binary64) (n := 16) (s := 32767.5) (by norm_num) hcl
    have m0 := quantV_nonneg (f := binary64) (n := 16) (s := 32767.5) (by decide) (by decide) (by norm_num) hc0
    rw [C01_ch16_add, (C02_ch16 _ _).2, ofF64_ch16_is hW]
    have := i16_range b
    have ed : ChTy.ch16.dflt.toInt = 0 := by decide
    rw [ed] at e
    rw [tdiv_less (by norm_num) m0 m1 (by unfold clampZ at e; omega)]
    unfold clampZ; omega

theorem mixed_kept {q off : F64} {g : Nat → Frame k c} {x n i : Nat} (hi : i < k.chans) (p : Frame k c)
    (h : ∀ j, j < n → ∀ b, c.add b (c.mul (g j)[i] (c.ofF64 (loWeight q off j))) = b ∧
      c.add b (c.mul (g j)[i] (c.ofF64 (hiWeight q off j))) = b) : (mixed q off g x n p)[i] = p[i] := by
  induction n with
  | zero => rfl
  | succ n ih =>
    have ih := ih fun j hj => h j (by omega)
    have hn := h n (by omega)
    simp only [mixed]
    split_ifs <;> simp only [add_mul_get, (hn _).1, (hn _).2, ih]

theorem leftOver_kept {q off : F64} {len : Option Nat} {B : Nat} {g : Nat → Frame k c} {n i : Nat} (hi : i < k.chans)
    (p : Frame k c) (h : ∀ j, j < n → ∀ b, c.add b (c.mul (g j)[i] (c.ofF64 (loWeight q off j))) = b ∧
      c.add b (c.mul (g j)[i] (c.ofF64 (hiWeight q off j))) = b) : (leftOver q off len B g n p)[i] = p[i] := by
  induction n with
  | zero => rfl
  | succ n ih =>
    have ih := ih fun j hj => h j (by omega)
    have hn := h n (by omega)
    simp only [leftOver]
    split_ifs <;> simp only [add_mul_get, (hn _).2, ih]

/-- C157: in the integer formats a channel in which every sample times the ratio is rounded to 0 gives silence in every slot, and
nothing is left over of it. -/
theorem C157_lost (fuel : Nat) (s s' : Sink k c) (st : Src k' c') (it : It k' c') (h : s.stream fuel st = .ok (s', it))
    (hc : c = .ch8 ∨ c = .ch16) {r o : ℚ} (hq : (ratioOf s.rate st.rate).Is r) (hr : 0 ≤ r) (ho : s.res.offseti.Is o) (ho0 : 0 ≤ o)
    (i : Nat) (hi : i < k.chans)
    (hw : ∀ j f, st.nth j = .ok (some f) → ∀ x : Frame k c, f.convert c = .ok x →
      c.mul x[i] (c.ofF64 (ratioOf s.rate st.rate)) = c.dflt) :
    (∀ x, InDst (ratioOf s.rate st.rate) st.len s.buf.length x → ∃ f, s'.buf[x]? = some f ∧ f[i] = c.dflt) ∧
    s'.res.partial_[i] = s.res.partial_[i] := by
  obtain ⟨n, g, a1, a2, a3, a4, _⟩ := C58_mix fuel s s' st it h
  have key : ∀ j, j < n → ∀ b, c.add b (c.mul (g j)[i] (c.ofF64 (loWeight (ratioOf s.rate st.rate) s.res.offseti j))) = b ∧
      c.add b (c.mul (g j)[i] (c.ofF64 (hiWeight (ratioOf s.rate st.rate) s.res.offseti j))) = b := fun j hj b => by
    obtain ⟨f, f1, f2⟩ := a2 j hj
    have hz := hw j f f1 _ f2
    obtain ⟨⟨α, h1, h2, h3⟩, ⟨β, h4, h5, h6⟩⟩ := weights_ratio hq hr ho ho0 j
    exact ⟨mul_less hc hq h4 h5 h6 _ hz b, mul_less hc hq h1 h2 h3 _ hz b⟩
  refine ⟨fun x hx => ⟨_, a3 x hx, ?_⟩, ?_⟩
  · rw [mixed_kept hi _ key, dflt_get]
  · rw [a4, leftOver_kept hi _ key]

/-- C157 for `Audio::with_stream`: the whole channel is silent. -/
theorem C157_withStream {rate : F64} {b : Audio k c} {st : Src k' c'} {r : ℚ} (h : Audio.withStream rate st = .ok b)
    (hc : c = .ch8 ∨ c = .ch16) (hq : (ratioOf rate st.rate).Is r) (hr : 0 ≤ r) (i : Nat) (hi : i < k.chans)
    (hw : ∀ j f, st.nth j = .ok (some f) → ∀ x : Frame k c, f.convert c = .ok x →
      c.mul x[i] (c.ofF64 (ratioOf rate st.rate)) = c.dflt) (f : Frame k c) (hf : f ∈ b.frames) : f[i] = c.dflt := by
  obtain ⟨l, s, t, it, h1, h2, h3, h4⟩ := with_run h
  obtain ⟨e1, e2⟩ := C157_lost _ _ _ _ _ h2 hc hq hr dflt_off le_rfl i hi hw
  obtain ⟨_, _, e3⟩ := C36_stream _ _ _ _ _ h2
  have hadd : c.add c.dflt c.dflt = c.dflt := by rcases hc with rfl | rfl <;> decide
  have hs : ∀ (x : Nat) (f : Frame k c), s.buf[x]? = some f → f[i] = c.dflt := by
    intro x f hf
    by_cases hx : InDst (ratioOf rate st.rate) st.len (List.replicate (Audio.dstLen rate l st.rate) (Frame.dflt : Frame k c)).length x
    · obtain ⟨f', f1, f2⟩ := e1 x hx
      rw [hf] at f1
      cases f1
      exact f2
    · rw [e3 x hx] at hf
      split at hf
      · rw [List.getElem?_replicate] at hf
        split at hf
        · cases hf
          simp [Frame.add, Frame.dflt, Resampler.dflt, hadd]
        · cases hf
      · rw [List.getElem?_replicate] at hf
        split at hf
        · cases hf
          simp [Frame.dflt]
        · cases hf
  rw [h4] at hf
  by_cases hfr : HasFract s.res.offseti
  · by_cases hlt : s.res.offseti.toUsize < s.buf.length
    · rw [C42_write s hfr hlt] at h3
      cases h3
      rcases List.mem_or_eq_of_mem_set hf with hm | rfl
      · obtain ⟨x, hx⟩ := List.mem_iff_getElem?.mp hm
        exact hs x f hx
      · rw [e2]; simp [Resampler.dflt, Frame.dflt]
    · exfalso
      obtain ⟨e, he⟩ := (C42_panics_iff s).mpr ⟨hfr, by omega⟩
      rw [he] at h3; cases h3
  · rw [C42_nothing s hfr] at h3
    cases h3
    obtain ⟨x, hx⟩ := List.mem_iff_getElem?.mp hf
    exact hs x f hx

/-- If the rate becomes at most 1/128 of what it was, nothing at all is left of any signal in Ch8. -/
theorem C157_all {rate : F64} {b : Audio k .ch8} {st : Src k' c'} {r : ℚ} (h : Audio.withStream rate st = .ok b)
    (hq : (ratioOf rate st.rate).Is r) (hr : 0 ≤ r) (hr1 : r ≤ 1 / 128) (i : Nat) (hi : i < k.chans) (f : Frame k .ch8)
    (hf : f ∈ b.frames) : f[i] = 0#8 := by
  refine C157_withStream h (.inl rfl) hq hr i hi (fun j f' _ x _ => ?_) f hf
  apply BitVec.eq_of_toInt_eq
  have m1 := quantV_mono (f := binary64) (n := 8) (s := 127.5) (by norm_num) hr1
  have m0 := quantV_nonneg (f := binary64) (n := 8) (s := 127.5) (by decide) (by decide) (by norm_num) hr
  have e1 : quantV binary64 8 127.5 (1 / 128) = 0 := by decide +kernel
  rw [(C02_ch8 _ _).2, ofF64_ch8_is hq, clampQ_of_range (by linarith) (by linarith)]
  rw [show quantV binary64 8 127.5 r = 0 by omega, mul_zero]
  decide

/-- The same in Ch16, for 1/32768. -/
theorem C157_all16 {rate : F64} {b : Audio k .ch16} {st : Src k' c'} {r : ℚ} (h : Audio.withStream rate st = .ok b)
    (hq : (ratioOf rate st.rate).Is r) (hr : 0 ≤ r) (hr1 : r ≤ 1 / 32768) (i : Nat) (hi : i < k.chans) (f : Frame k .ch16)
    (hf : f ∈ b.frames) : f[i] = 0#16 := by
  refine C157_withStream h (.inr rfl) hq hr i hi (fun j f' _ x _ => ?_) f hf
  apply BitVec.eq_of_toInt_eq
  have m1 := quantV_mono (f := binary64) (n := 16) (s := 32767.5) (by norm_num) hr1
  have m0 := quantV_nonneg (f := binary64) (n := 16) (s := 32767.5) (by decide) (by decide) (by norm_num) hr
  have e1 : quantV binary64 16 32767.5 (1 / 32768) = 0 := by decide +kernel
  rw [(C02_ch16 _ _).2, ofF64_ch16_is hq, clampQ_of_range (by linarith) (by linarith)]
  rw [show quantV binary64 16 32767.5 r = 0 by omega, mul_zero]
  decide

/-- C157: what is heard.  If the mean of the signal over the time of a slot is more than the error (C59), the slot is not silent. -/
theorem C157_partial (fuel : Nat) (s s' : Sink k c) (st : Src k' c') (it : It k' c')
    (h : s.stream fuel st = .ok (s', it)) (ho : s.res.offseti = lit 0) (r : ℚ)
    (hq : (ratioOf s.rate st.rate).Is r) (hr : 0 < r) (hr1 : r ≤ 1) (hb : (s.buf.length : ℚ) + 1 ≤ r * 2 ^ 52)
    (i : Nat) (hi : i < k.chans) (w : Nat → ℚ)
    (hw : ∀ j f, st.nth j = .ok (some f) → ∀ x : Frame k c, f.convert c = .ok x → SampleVal c x[i] (w j) ∧ |w j| ≤ 1) :
    ∃ n, Takes (ratioOf s.rate st.rate) (lit 0) st.len s.buf.length n ∧
      ∀ x, InDst (ratioOf s.rate st.rate) st.len s.buf.length x →
        (mixErr c + 5 * 2 ^ (-53 : ℤ) + 2 * ((s.buf.length + 1) * 2 ^ (-53 : ℤ))) * (1 / r + 3) <
          |∑ j ∈ Finset.range n, w j * overlap (r * j - r) (r * j) ((x:ℚ) - 1) x| →
        ∃ f, s'.buf[x]? = some f ∧ ¬ SampleVal c f[i] 0 := by
  obtain ⟨n, g, a1, a2, a3, _⟩ := C58_mix fuel s s' st it h
  rw [ho] at a1 a3
  obtain ⟨_, hbox⟩ := box_any a1 hq hr hr1 hb i hi w g fun j hj => by
    obtain ⟨f, f1, f2⟩ := a2 j hj
    exact hw j f f1 _ f2
  refine ⟨n, a1, fun x hx hlt => ⟨_, a3 x hx, fun h0 => ?_⟩⟩
  obtain ⟨y, y1, y2⟩ := hbox x
  have : y = 0 := val_unique y1 h0
  rw [this, zero_sub, abs_neg] at y2
  exact absurd hlt (not_lt.mpr y2)

/-! ## Examples -/

/-- Seven frames of level 6 at 48000 Hz. -/
def exFaint : Audio .mono .ch8 := ⟨lit 48000, List.replicate 7 #v[6#8]⟩

theorem exFaint_zero (j : Nat) (f : Frame .mono .ch8) (hf : (Src.audio exFaint).nth j = .ok (some f)) (x : Frame .mono .ch8)
    (hx : f.convert .ch8 = .ok x) : ChTy.ch8.mul x[0] (ChTy.ch8.ofF64 (ratioOf (lit 8000) (some (lit 48000)))) = 0#8 := by
  match j with
  | 0 | 1 | 2 | 3 | 4 | 5 | 6 => cases hf; cases hx; decide +kernel
  | j + 7 => cases hf

example := C157_lost 8 (exSink 2 8000) _ (.audio exFaint) _
  (R.returns₂ (x := (exSink 2 8000).stream 8 (.audio exFaint)) (by decide +kernel)) (.inl rfl)
  (r := binary64.rnd (1 / 6)) (by decide +kernel) (by decide +kernel) (is_lit rep_zero) le_rfl 0 (by decide) exFaint_zero

example := C157_withStream (k := .mono) (c := .ch8) (b := ⟨lit 8000, [#v[0#8], #v[0#8]]⟩) (st := .audio exFaint) (rate := lit 8000)
  (r := binary64.rnd (1 / 6)) (by decide +kernel) (.inl rfl) (by decide +kernel) (by decide +kernel) 0 (by decide) exFaint_zero

example := C157_all (k := .mono) (b := ⟨lit 375, [#v[0#8]]⟩) (rate := lit 375)
  (st := .audio (k := .mono) (c := .ch8) ⟨lit 48000, List.replicate 5 #v[127#8]⟩) (r := 1 / 128) (by decide +kernel)
  (by decide +kernel) (by norm_num) le_rfl 0 (by decide)

example := C157_all16 (k := .mono) (b := ⟨lit 1, [#v[0#16]]⟩) (rate := lit 1)
  (st := .audio (k := .mono) (c := .ch16) ⟨lit 48000, List.replicate 5 #v[32767#16]⟩) (r := binary64.rnd (1 / 48000))
  (by decide +kernel) (by decide +kernel) (by decide +kernel) (by decide +kernel) 0 (by decide)

/-- Slot 1 is to be the mean of frames 1 and 2, and so is not silent. -/
example : ¬ SampleVal .ch64 (lit 0.5 : F64) 0 := by
  obtain ⟨n, a1, a2⟩ := C157_partial 9 ⟨lit 1, .dflt, List.replicate 4 (Frame.dflt : Frame .mono .ch64)⟩ _ (.audio exCross) _
    (R.returns₂ (x := Sink.stream 9 ⟨lit 1, .dflt, List.replicate 4 (Frame.dflt : Frame .mono .ch64)⟩ (.audio exCross))
      (by decide +kernel)) rfl (1 / 2) (by decide +kernel) (by norm_num) (by norm_num) (by decide +kernel) 0 (by decide) exCrossW exCross_val
  have hn : n = 8 := takes_unique a1 (m := 8) (by decide +kernel)
  subst hn
  obtain ⟨f, f1, f2⟩ := a2 1 (by decide +kernel) (by decide +kernel)
  cases Option.some.inj (f1.symm.trans (by decide +kernel : _ = some (#v[lit 0.5] : Frame .mono .ch64)))
  exact f2

/-- C157 is false in Ch8: from 48000 Hz to 8000 Hz a constant signal of level 6 becomes silence. -/
theorem C157_false :
    (Audio.withStream (lit 8000) (.audio exFaint) : R (Audio .mono .ch8)).map (·.frames) = .ok [#v[0#8], #v[0#8]] := by
  decide +kernel

end Fon
