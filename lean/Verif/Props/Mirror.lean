import Verif.Spec.Mirror
import Verif.Props.Ops
import Verif.Props.Steps
import Verif.Props.Audio
import Verif.Props.Pan

/-!
# C137: left and right are treated alike
-/

namespace Fon
open Fmt Fl
variable {k k' : Kind} {c c' : ChTy}

theorem mirror_get (f : Frame k c) (i : Nat) (h : i < k.chans) : f.mirror[i] = f[k.other ⟨i, h⟩] := by
  simp [Frame.mirror]

theorem other_other (k : Kind) (i : Fin k.chans) : k.other (k.other i) = i := by
  cases k with
  | mono => rfl
  | stereo => exact Fin.rev_rev i
  | surround => revert i; decide
  | custom n l => rfl

theorem mirror_mirror (f : Frame k c) : f.mirror.mirror = f := by
  ext i h
  rw [mirror_get]
  show f.mirror[(k.other ⟨i, h⟩).val] = _
  rw [mirror_get]
  simp only [Fin.eta, other_other]
  rfl

theorem mirror_dflt : (Frame.dflt : Frame k c).mirror = Frame.dflt := by
  ext i h; simp [mirror_get, Frame.dflt]

theorem mirror_ofF64 (x : F64) : (Frame.ofF64 x : Frame k c).mirror = Frame.ofF64 x := by
  ext i h; simp [mirror_get, Frame.ofF64]

theorem mirror_add (a b : Frame k c) : (a.add b).mirror = a.mirror.add b.mirror := by
  ext i h; simp [mirror_get, Frame.add]

theorem mirror_mul (a b : Frame k c) : (a.mul b).mirror = a.mirror.mul b.mirror := by
  ext i h; simp [mirror_get, Frame.mul]

/-- C137: the arithmetic of frames. -/
theorem C137_ops (a b t : Frame k c) (x : c.T) (y : F64) :
    (a.add b).mirror = a.mirror.add b.mirror ∧ (a.sub b).mirror = a.mirror.sub b.mirror ∧
    (a.mul b).mirror = a.mirror.mul b.mirror ∧ a.neg.mirror = a.mirror.neg ∧
    (a.lerp b t).mirror = a.mirror.lerp b.mirror t.mirror ∧ (∀ r, a.div b = .ok r → a.mirror.div b.mirror = .ok r.mirror) ∧
    (Frame.fromChannel x : Frame k c).mirror = Frame.fromChannel x ∧ (Frame.ofF64 y : Frame k c).mirror = Frame.ofF64 y ∧
    (Frame.dflt : Frame k c).mirror = Frame.dflt ∧ a.mirror.beq b.mirror = a.beq b := by
  refine ⟨mirror_add a b, ?_, mirror_mul a b, ?_, ?_, ?_, ?_, mirror_ofF64 y, mirror_dflt, ?_⟩
  · ext i h; simp [mirror_get, Frame.sub]
  · ext i h; simp [mirror_get, Frame.neg]
  · ext i h; simp [mirror_get, Frame.lerp]
  · intro r hr
    unfold Frame.div at hr ⊢
    rw [vmapM_ok_iff] at hr ⊢
    intro i h
    have := hr (k.other ⟨i, h⟩).val (k.other ⟨i, h⟩).isLt
    simpa [mirror_get] using this
  · ext i h; simp [mirror_get, Frame.fromChannel]
  · rw [Bool.eq_iff_iff]
    unfold Frame.beq
    simp only [Vector.all_eq_true, Vector.getElem_zipWith, id]
    constructor
    · intro h i hi
      have := h (k.other ⟨i, hi⟩).val (k.other ⟨i, hi⟩).isLt
      rw [mirror_get, mirror_get] at this
      simp only [Fin.eta, other_other] at this
      exact this
    · intro h i hi
      rw [mirror_get, mirror_get]
      exact h _ _

example := C137_ops (k := .surround) (c := .ch16) #v[1#16, 2#16, 3#16, 4#16, 5#16, 6#16] #v[7#16, 8#16, 9#16, 1#16, 2#16, 3#16]
  Frame.dflt 5#16 (lit 0.5)

theorem mirror_m (f : Frame .mono c) : f.mirror = f := by
  ext i h; rw [mirror_get]; rfl

/-- C137: conversion between all layouts and formats. -/
theorem C137_convert (f : Frame k c) (d : ChTy) : (f.mirror.convert d : R (Frame k' d)) = (f.convert d).map Frame.mirror := by
  match k, k', f with
  | .custom _ _, _, f => rfl
  | .mono, .custom _ _, f | .stereo, .custom _ _, f | .surround, .custom _ _, f => rfl
  | .mono, .mono, f => rw [mirror_m, convert_mm]; exact congrArg _ (mirror_m _).symm
  | .mono, .stereo, f => rw [mirror_m, convert_mt]; rfl
  | .mono, .surround, f => rw [mirror_m, convert_ms]; rfl
  | .stereo, .mono, f =>
    rw [convert_stereo_mono, convert_stereo_mono]
    refine (ok1 (chanAvg_comm _ _)).trans ?_
    exact congrArg _ (mirror_m _).symm
  | .stereo, .stereo, f => rw [convert_tt, convert_tt]; rfl
  | .stereo, .surround, f => rw [convert_ts, convert_ts]; rfl
  | .surround, .mono, f =>
    rw [convert_surround_mono, convert_surround_mono]
    refine (ok1 (chanAvg_comm _ _)).trans ?_
    exact congrArg _ (mirror_m _).symm
  | .surround, .stereo, f => rw [convert_surround_stereo, convert_surround_stereo]; rfl
  | .surround, .surround, f => rw [convert_ss, convert_ss]; rfl

example : (Frame.convert .ch16 (k := .stereo) (#v[1#8, -5#8] : Frame .stereo .ch8) : R (Frame .surround .ch16)) =
    (Frame.convert .ch16 (k := .stereo) (#v[-5#8, 1#8] : Frame .stereo .ch8)).map Frame.mirror :=
  C137_convert (k := .stereo) (c := .ch8) #v[-5#8, 1#8] .ch16

/-- C137: operations of streams. -/
theorem C137_blend {op : Blend} (h : op.even = true) (a b : Frame k c) :
    op.mixFrames a.mirror b.mirror = (op.mixFrames a b).map Frame.mirror := by
  have m1 := C26_meaning a b
  have m2 := C26_meaning a.mirror b.mirror
  cases op with
  | src => rw [m1.1, m2.1]; rfl
  | dest => rw [m1.2.1, m2.2.1]; rfl
  | clear => rw [m1.2.2.1, m2.2.2.1]; simp [Except.map, mirror_dflt]
  | plus => rw [m1.2.2.2.1, m2.2.2.2.1]; simp [Except.map, mirror_add]
  | amplify => rw [m1.2.2.2.2, m2.2.2.2.2]; simp [Except.map, mirror_mul]
  | user m =>
    have e : ∀ x y : Frame k c, (Blend.user m).mixFrames x y = .ok (Vector.ofFn fun i => m c x[i] y[i]) := fun x y =>
      (mixFrames_ok (by simp) (by simp)).mpr fun i h => by simp [Blend.mix]
    rw [e, e]
    simp only [Except.map, Except.ok.injEq]
    ext i h
    simp [mirror_get]
  | _ => cases h

example := C137_blend (k := .stereo) (c := .ch8) (op := .amplify) rfl #v[1#8, 100#8] #v[7#8, -90#8]

theorem mirror_rate (s : Src k c) : s.mirror.rate = s.rate := by
  induction s with
  | take s n ih => exact ih
  | blend a b op iha ihb => exact iha
  | _ => rfl

theorem mirror_len (s : Src k c) : s.mirror.len = s.len := by
  induction s with
  | audio a => simp [Src.mirror, Audio.mirror, Src.len]
  | drain a => simp [Src.mirror, Audio.mirror, Src.len]
  | take s n ih => simp only [Src.mirror, Src.len, ih]
  | blend a b op iha ihb => simp only [Src.mirror, Src.len, iha, ihb]
  | _ => rfl

theorem mirror_iter (s : Src k c) : s.mirror.iter = s.iter.mirror := by
  induction s with
  | take s n ih => simp only [Src.mirror, Src.iter, It.mirror, ih]
  | blend a b op iha ihb => simp only [Src.mirror, Src.iter, It.mirror, iha, ihb]
  | _ => rfl

theorem even_iter (s : Src k c) : s.iter.even = s.even := by
  induction s with
  | take s n ih => exact ih
  | blend a b op iha ihb => simp only [Src.iter, Src.even, It.even, iha, ihb]
  | _ => rfl

theorem mirror_setRate (s : Src k c) (r : F64) : s.mirror.setRate r = (s.setRate r).map Src.mirror := by
  induction s with
  | user a fx l g => simp only [Src.mirror, Src.setRate]; split <;> rfl
  | take s n ih =>
    simp only [Src.mirror, Src.setRate, ih]
    cases s.setRate r <;> rfl
  | blend a b op iha ihb =>
    simp only [Src.mirror, Src.setRate, iha, ihb]
    cases a.setRate r <;> cases b.setRate r <;> rfl
  | _ => rfl

theorem even_setRate {s t : Src k c} {r : F64} (h : s.setRate r = .ok t) : t.even = s.even := by
  induction s with
  | user a fx l g =>
    simp only [Src.setRate] at h
    split at h
    · cases h
    · cases h; rfl
  | take s n ih =>
    simp only [Src.setRate] at h
    split at h
    · rename_i s' hs; cases h; have := ih hs; exact this
    · cases h
  | blend a b op iha ihb =>
    simp only [Src.setRate] at h
    split at h
    · cases h
    · rename_i a' ha
      split at h
      · rename_i b' hb; cases h; simp only [Src.even, iha ha, ihb hb]
      · cases h
  | frame f => cases h; rfl
  | audio a => cases h
  | drain a => cases h

/-- The next frame is the mirror image. -/
theorem mirror_next (it : It k c) (h : it.even = true) :
    it.mirror.next = it.next.map fun p => (p.1.map Frame.mirror, p.2.mirror) := by
  induction it with
  | frame f => rfl
  | audio fs => cases fs <;> rfl
  | drain a n =>
    simp only [It.mirror, It.next, Audio.mirror, List.getElem?_map]
    cases a.frames[n]? <;> rfl
  | user l g n =>
    simp only [It.mirror, It.next]
    cases l with
    | none => rfl
    | some m => simp only; split <;> rfl
  | take it n ih =>
    cases n with
    | zero => rfl
    | succ n =>
      simp only [It.mirror, It.next, ih h]
      cases it.next <;> rfl
  | blend a b op iha ihb =>
    simp only [It.even, Bool.and_eq_true] at h
    simp only [It.mirror, It.next, iha h.1.1]
    cases a.next with
    | error e => rfl
    | ok p =>
      obtain ⟨x, a⟩ := p
      cases x with
      | none => rfl
      | some x =>
        simp only [Except.map, Option.map_some, ihb h.1.2]
        cases b.next with
        | error e => rfl
        | ok p =>
          obtain ⟨y, b⟩ := p
          cases y with
          | none => rfl
          | some y =>
            simp only [Option.map_some, C137_convert]
            cases (y.convert _ : R (Frame _ _)) with
            | error e => rfl
            | ok y =>
              simp only [Except.map, C137_blend h.2]
              cases op.mixFrames x y <;> rfl

theorem even_next {it it' : It k c} {o} (h : it.next = .ok (o, it')) : it'.even = it.even := by
  induction it with
  | frame f => cases h; rfl
  | audio fs => cases fs <;> cases h <;> rfl
  | drain a n =>
    simp only [It.next] at h
    split at h <;> cases h <;> rfl
  | user l g n =>
    simp only [It.next] at h
    split at h
    · cases h; rfl
    · split at h <;> cases h <;> rfl
  | take it n ih =>
    cases n with
    | zero => cases h; rfl
    | succ n =>
      simp only [It.next] at h
      split at h
      · cases h
      · rename_i o' i' hi; cases h; have := ih hi; exact this
  | blend a b op iha ihb =>
    simp only [It.next] at h
    split at h
    · cases h
    · rename_i ha; cases h; simp only [It.even, iha ha]
    · rename_i ha
      split at h
      · cases h
      · rename_i hb; cases h; simp only [It.even, iha ha, ihb hb]
      · rename_i hb
        split at h
        · cases h
        · split at h
          · cases h
          · cases h; simp only [It.even, iha ha, ihb hb]

theorem mirror_modAt (buf : List (Frame k c)) (i : Nat) (g g' : Frame k c → Frame k c) (h : ∀ x, g' x.mirror = (g x).mirror) :
    Sink.modAt (buf.map Frame.mirror) i g' = (Sink.modAt buf i g).map (List.map Frame.mirror) := by
  unfold Sink.modAt
  rw [List.length_map]
  split
  · simp only [Except.map, Except.ok.injEq]
    apply List.ext_getElem?
    intro j
    simp only [List.getElem?_modify, List.getElem?_map]
    by_cases hj : i = j
    · simp only [hj, if_true]
      cases buf[j]? <;> simp [h]
    · simp only [hj, if_false]
      cases buf[j]? <;> simp
  · rfl

theorem mirror_step (x b : Frame k c) (w : F64) :
    b.mirror.add (x.mirror.mul (Frame.ofF64 w)) = (b.add (x.mul (Frame.ofF64 w))).mirror := by
  rw [mirror_add, mirror_mul, mirror_ofF64]

theorem mirror_loop (q : F64) (d : Nat) (l : Option Nat) : ∀ (fuel i : Nat) (s : Sink k c) (it : It k' c'), it.even = true →
    Sink.loop q d l fuel i s.mirror it.mirror = (Sink.loop q d l fuel i s it).map fun p => (p.1.mirror, p.2.1.mirror, p.2.2)
  | 0, i, s, it, h => rfl
  | fuel + 1, i, s, it, h => by
    unfold Sink.loop
    simp only [Sink.mirror]
    cases Math.ceilUsize ((q.mul (f64OfUsize i)).add s.res.offseti) with
    | error e => rfl
    | ok ce =>
      simp only
      by_cases hd : ((q.mul (f64OfUsize i)).add s.res.offseti).toUsize < d
      swap
      · rw [if_pos hd]; exact if_pos hd
      · rw [if_neg (not_not.mpr hd)]
        refine (if_neg (not_not.mpr hd)).trans ?_
        rw [mirror_next it h]
        cases hn : it.next with
        | error e => rfl
        | ok p =>
          obtain ⟨o, it'⟩ := p
          cases o with
          | none => rfl
          | some x =>
            simp only [Except.map, Option.map_some, C137_convert]
            cases (x.convert c : R (Frame k c)) with
            | error e => rfl
            | ok x =>
              simp only
              rw [mirror_modAt _ _ _ _ (fun b => mirror_step x b _)]
              cases Sink.modAt s.buf _ _ with
              | error e => rfl
              | ok buf =>
                simp only [Except.map]
                by_cases hc : ce < d
                · rw [if_pos hc, if_pos hc, mirror_modAt _ _ _ _ (fun b => mirror_step x b _)]
                  cases Sink.modAt buf _ _ with
                  | error e => rfl
                  | ok buf => exact mirror_loop q d l fuel (i + 1) ⟨s.rate, s.res, buf⟩ it' ((even_next hn).trans h)
                · rw [if_neg hc, if_neg hc]
                  have := mirror_loop q d l fuel (i + 1) ⟨s.rate, ⟨s.res.partial_.add (x.mul (Frame.ofF64
                    ((((q.mul (f64OfUsize i)).add s.res.offseti).rem (Fl.lit 1)).min q))), s.res.offseti⟩, buf⟩ it'
                    ((even_next hn).trans h)
                  simp only [Sink.mirror] at this
                  rw [mirror_step]
                  exact this

theorem mirror_prepare (s : Sink k c) (d : Nat) : s.mirror.prepare d = (s.prepare d).mirror := by
  unfold Sink.prepare Sink.mirror
  simp only [Sink.mk.injEq, true_and]
  have e : (s.buf.map Frame.mirror).modify 0 (fun b => b.add s.res.partial_.mirror) =
      (s.buf.modify 0 (fun b => b.add s.res.partial_)).map Frame.mirror := by
    cases s.buf with
    | nil => rfl
    | cons b bs => simp [mirror_add]
  rw [e]
  simp [mirror_dflt]

/-- C137: streaming, resampling included.  The call panics exactly if it did before. -/
theorem C137_stream {st : Src k' c'} (h : st.even = true) (fuel : Nat) (s : Sink k c) :
    s.mirror.stream fuel st.mirror = (s.stream fuel st).map fun p => (p.1.mirror, p.2.mirror) := by
  have hr : s.mirror.ratio st.mirror = (s.ratio st).map fun p => (p.1, p.2.mirror) := by
    unfold Sink.ratio
    rw [mirror_rate, mirror_setRate]
    cases st.rate with
    | some r => rfl
    | none =>
      simp only
      change (match (st.setRate s.rate).map Src.mirror with | .error e => _ | .ok st => _) = _
      cases st.setRate s.rate <;> rfl
  unfold Sink.stream
  rw [hr]
  cases hq : s.ratio st with
  | error e => rfl
  | ok p =>
    obtain ⟨q, st'⟩ := p
    have he : st'.even = true := by
      unfold Sink.ratio at hq
      split at hq
      · cases hq; exact h
      · split at hq
        · cases hq
        · rename_i hs; cases hq; rw [even_setRate hs]; exact h
    simp only [Except.map]
    rw [mirror_len, mirror_iter, mirror_prepare, mirror_loop _ _ _ _ _ _ _ (by rw [even_iter]; exact he)]
    have hb : s.mirror.buf.length = s.buf.length := by simp [Sink.mirror]
    rw [hb]
    cases Sink.loop q (Sink.dstEnd q st'.len s.buf.length) st'.len fuel 0 (s.prepare (Sink.dstEnd q st'.len s.buf.length)) st'.iter with
    | error e => rfl
    | ok p =>
      obtain ⟨s', it, n⟩ := p
      cases n <;> rfl

/-- A stereo stream and its mirror image. -/
example : (Src.audio exPairs).even = true ∧ exPairs.mirror.frames = [#v[100#8, 9#8], #v[50#8, 8#8], #v[25#8, 7#8], #v[0#8, 6#8],
    #v[-100#8, 5#8]] ∧ (exStereo.stream 6 (.audio exPairs)).toBool = true := by decide +kernel

example := C137_stream (k := .stereo) (c := .ch8) (st := .audio exPairs) rfl 6 exStereo

/-- C137: the last frame. -/
theorem C137_flush (s : Sink k c) : s.mirror.flush = s.flush.map Sink.mirror := by
  unfold Sink.flush
  simp only [Sink.mirror]
  by_cases h : (Fl.epsilon.lt (s.res.offseti.rem (Fl.lit 1)) || (s.res.offseti.rem (Fl.lit 1)).lt Fl.epsilon.neg) = true
  · rw [if_pos h]
    refine (if_pos h).trans ?_
    rw [mirror_modAt _ _ (fun _ => s.res.partial_) (fun _ => s.res.partial_.mirror) fun _ => rfl]
    cases Sink.modAt s.buf _ _ <;> rfl
  · rw [if_neg h]
    exact if_neg h

example := C137_flush exStereo

theorem mirror_fits (a : Audio k c) (d : Nat) : a.mirror.Fits d ↔ a.Fits d := by
  unfold Audio.Fits
  simp [Audio.mirror]

theorem mirror_internal {st : Src k' c'} (h : st.even = true) (a : Audio k c) :
    a.mirror.extendInternal st.mirror = (a.extendInternal st).map fun p => (p.1.mirror, p.2.mirror) := by
  cases hl : st.len with
  | none =>
    unfold Audio.extendInternal
    rw [mirror_len, hl]; rfl
  | some l =>
    by_cases hf : a.Fits (Audio.dstLen a.rate l st.rate)
    · have e1 := extend_eq a st l hl hf
      have e2 := extend_eq a.mirror st.mirror l (by rw [mirror_len, hl]) (by
        rw [mirror_fits, mirror_rate]; exact hf)
      rw [e1, e2, mirror_rate]
      have hs := C137_stream h (l + 1) (⟨a.rate, Resampler.dflt, List.replicate (Audio.dstLen a.rate l st.rate) Frame.dflt⟩ : Sink k c)
      have e3 : (⟨a.rate, Resampler.dflt, List.replicate (Audio.dstLen a.rate l st.rate) Frame.dflt⟩ : Sink k c).mirror =
          ⟨a.rate, Resampler.dflt, List.replicate (Audio.dstLen a.rate l st.rate) Frame.dflt⟩ := by
        simp [Sink.mirror, Resampler.dflt, mirror_dflt]
      rw [e3] at hs
      have e4 : a.mirror.rate = a.rate := rfl
      rw [e4, hs]
      cases (⟨a.rate, Resampler.dflt, List.replicate (Audio.dstLen a.rate l st.rate) Frame.dflt⟩ : Sink k c).stream (l + 1) st with
      | error e => rfl
      | ok p =>
        obtain ⟨s, it⟩ := p
        simp only [Except.map]
        rw [C137_flush]
        cases s.flush with
        | error e => rfl
        | ok t => simp [Except.map, Audio.mirror, Sink.mirror]
    · unfold Audio.extendInternal
      rw [mirror_len, hl]
      simp only [mirror_rate]
      have e1 : a.mirror.frames.length = a.frames.length := by simp [Audio.mirror]
      have e2 : a.mirror.rate = a.rate := rfl
      rw [e1, e2]
      by_cases h1 : usizeMax < ((a.frames.length : ℤ) + (Audio.dstLen a.rate l st.rate : ℤ))
      · rw [if_pos h1, if_pos h1]; rfl
      · rw [if_neg h1, if_neg h1]
        by_cases h2 : Audio.isizeMax < (a.frames.length + Audio.dstLen a.rate l st.rate) * k.size c
        · rw [if_pos h2, if_pos h2]; rfl
        · exact absurd ⟨by omega, by omega⟩ hf

/-- C137: `extend`, and what it leaves after a panic. -/
theorem C137_extend {st : Src k' c'} (h : st.even = true) (a : Audio k c) :
    a.mirror.extend st.mirror = ((a.extend st).1.mirror, (a.extend st).2.map It.mirror) := by
  unfold Audio.extend
  rw [mirror_internal h]
  cases a.extendInternal st with
  | error e => rfl
  | ok p => rfl

example := C137_extend (st := .take (.audio exPairs) 3) rfl exPairs

/-- C137: `with_stream`. -/
theorem C137_withStream {st : Src k' c'} (h : st.even = true) (rate : F64) :
    (Audio.withStream rate st.mirror : R (Audio k c)) = (Audio.withStream rate st).map Audio.mirror := by
  unfold Audio.withStream
  have := C137_extend h (Audio.withFrames rate [] : Audio k c)
  have e : (Audio.withFrames rate [] : Audio k c).mirror = Audio.withFrames rate [] := rfl
  rw [e] at this
  rw [this]
  rcases (Audio.withFrames rate [] : Audio k c).extend st with ⟨x, _ | it⟩ <;> rfl

example := C137_withStream (k := .surround) (c := .ch64) (st := .blend (.audio exPairs) (.audio exRow) .plus) rfl (lit 9)

/-- C137: `Stream::blend` accepts the same streams. -/
theorem C137_mkBlend (a : Src k c) (b : Src k' c') (op : Blend) :
    a.mirror.mkBlend b.mirror op = (a.mkBlend b op).map Src.mirror := by
  unfold Src.mkBlend
  rw [mirror_rate, mirror_rate]
  split
  · rfl
  · split
    · rfl
    · rw [mirror_setRate]; cases a.setRate _ <;> rfl
    · rw [mirror_setRate]; cases b.setRate _ <;> rfl
    · rfl

example := C137_mkBlend (.audio exPairs) (.audio exRow) .plus

/-- C137: but not `Pan`, unless the position is left of the first speaker: in Surround the mirror image of a full-scale sample
is not what any other position gives. -/
theorem C137_false (t : Trig) (ht : t.Near (1 / 100)) (s s' : c.T) (x x' : ℚ) (vs : Valid c s) (hx : (c.toF64 s).Is x)
    (hx' : (c.toF64 s').Is x') (h1 : -(2/3) ≤ x) (h2 : -(2/3) ≤ x') (r r' : Frame .surround c)
    (h : Blend.panStep t Frame.dflt c.MAX s = .ok r) (h' : Blend.panStep t Frame.dflt c.MAX s' = .ok r') : r' ≠ r.mirror := by
  intro he
  have hp : Level c c.MAX 1 := by
    cases c
    · change (1:ℚ) = _
      decide +kernel
    · change (1:ℚ) = _
      decide +kernel
    · exact is_one
    · exact is_one
  obtain ⟨r0, i, j, hi, hj, a, b, g1, g2, g3, g4, g5, g6⟩ := C93_partial t _ ht spread_surround Frame.dflt c.MAX s
    (Valid.consts c).2.2.1 vs 1 hp (fun i hi => by simp [Frame.dflt])
  rw [h] at g1
  obtain rfl := Except.ok.inj g1
  obtain ⟨a2, a3, a4⟩ := C27_false t _ r _ s x hx h1 h
  obtain ⟨b2, b3, b4⟩ := C27_false t _ r' _ s' x' hx' h2 h'
  obtain ⟨st, hst, hst'⟩ := C27_only_two t _ r _ s h
  have a5 : r[5] = (Frame.dflt : Frame .surround c)[5] := hst' 5 (by decide) (by change st < 5 at hst; omega) (by
    change 5 ≠ (st + 1) % 5; omega)
  rw [he] at b3 b4
  have a1 : r[1] = (Frame.dflt : Frame .surround c)[3] := b3
  have a0 : r[0] = (Frame.dflt : Frame .surround c)[4] := b4
  have all : ∀ l (hl : l < Kind.surround.chans), r[l] = c.dflt := by
    intro l hl
    obtain rfl | rfl | rfl | rfl | rfl | rfl : l = 0 ∨ l = 1 ∨ l = 2 ∨ l = 3 ∨ l = 4 ∨ l = 5 := by
      change l < 6 at hl; omega
    · exact a0.trans (by simp [Frame.dflt])
    · exact a1.trans (by simp [Frame.dflt])
    · exact a2.trans (by simp [Frame.dflt])
    · exact a3.trans (by simp [Frame.dflt])
    · exact a4.trans (by simp [Frame.dflt])
    · exact a5.trans (by simp [Frame.dflt])
  rw [all] at g3 g4
  have lev : ∀ q, Level c c.dflt q → 0 ≤ q ∧ q ≤ 1 / 255 := by
    intro q hq
    have : q = 1 / 255 ∨ q = 1 / 65535 ∨ q = 0 := by
      cases c
      · left; rw [show q = _ from hq]; decide +kernel
      · right; left; rw [show q = _ from hq]; decide +kernel
      · right; right; exact Fl.Is.unique hq (is_lit rep_zero)
      · right; right; exact Fl.Is.unique hq (is_lit rep_zero)
    rcases this with rfl | rfl | rfl <;> norm_num
  have qa := lev a g3
  have qb := lev b g4
  have hu : (ulp c : ℝ) ≤ 1 / 255 := by
    have : ulp c ≤ 1 / 255 := by cases c <;> decide +kernel
    have := (Rat.cast_le (K := ℝ)).mpr this
    push_cast at this
    exact this
  have sq : ∀ q : ℚ, 0 ≤ q ∧ q ≤ 1 / 255 → (q:ℝ) ^ 2 ≤ 1 / 255 := by
    intro q hq
    have h3 : q ^ 2 ≤ 1 / 255 := by nlinarith [hq.1, hq.2]
    have := (Rat.cast_le (K := ℝ)).mpr h3
    push_cast at this
    linarith
  have s1 := sq a qa
  have s2 := sq b qb
  rw [abs_le] at g5
  push_cast at g5
  linarith [g5.1]

/-- For example half way to the left and half way to the right. -/
example : ∃ r r' : Frame .surround .ch64, Blend.panStep nearTrig Frame.dflt (ChTy.MAX .ch64) (lit (-0.5) : F64) = .ok r ∧
    Blend.panStep nearTrig Frame.dflt (ChTy.MAX .ch64) (lit 0.5 : F64) = .ok r' ∧ r' ≠ r.mirror := by
  obtain ⟨r, hr⟩ := panStep_ok nearTrig (k := .surround) (by decide) (by decide) (Frame.dflt : Frame .surround .ch64)
    (ChTy.MAX .ch64) (lit (-0.5) : F64)
  obtain ⟨r', hr'⟩ := panStep_ok nearTrig (k := .surround) (by decide) (by decide) (Frame.dflt : Frame .surround .ch64)
    (ChTy.MAX .ch64) (lit 0.5 : F64)
  have e1 : (lit (-0.5) : F64).Is (-1 / 2) := by decide +kernel
  have e2 : (lit 0.5 : F64).Is (1 / 2) := by decide +kernel
  exact ⟨r, r', hr, hr', C137_false (c := .ch64) nearTrig (nearTrig_near.mono (by norm_num)) (lit (-0.5)) (lit 0.5) _ _
    ⟨_, e1, by norm_num, by norm_num⟩ e1 e2 (by norm_num) (by norm_num) r r' hr hr'⟩

/-- C137: between the two speakers of Stereo, `Pan` at the mirrored position gives the mirror image, up to rounding and the
precision of sine and cosine. -/
theorem C137_pan (t : Trig) (eps : ℝ) (ht : t.Near eps) (d s s' : c.T) (vd : Valid c d) (vs : Valid c s) (vs' : Valid c s')
    (p x : ℚ) (hp : Level c d p) (hx : (c.toF64 s).Is x) (hx' : (c.toF64 s').Is (-x)) (h0 : |x| ≤ 1 / 2) :
    ∃ (r r' : Frame .stereo c), Blend.panStep t Frame.dflt d s = .ok r ∧ Blend.panStep t Frame.dflt d s' = .ok r' ∧
      ∀ i (hi : i < 2), ∃ a b : ℚ, Level c (r.mirror[i]'hi) a ∧ Level c (r'[i]'hi) b ∧
        |(b:ℝ) - a| ≤ 2 * (7 * (ulp c : ℝ) + (eps + 2 ^ (-50 : ℤ))) := by
  have h1 := abs_le.mp h0
  obtain ⟨r, a, b, e, ha, hb, ea, eb⟩ := C93_stereo t eps ht d s vd vs p x hp hx (by linarith [h1.1])
  obtain ⟨r', a', b', e', ha', hb', ea', eb'⟩ := C93_stereo t eps ht d s' vd vs' p (-x) hp hx' (by linarith [h1.2])
  have g : (((-x : ℚ):ℝ) + 1 / 2) * (Real.pi / 2) = Real.pi / 2 - ((x:ℝ) + 1 / 2) * (Real.pi / 2) := by push_cast; ring
  rw [g, Real.cos_pi_div_two_sub] at ea'
  rw [g, Real.sin_pi_div_two_sub] at eb'
  refine ⟨r, r', e, e', fun i hi => ?_⟩
  generalize 7 * (ulp c : ℝ) + (eps + 2 ^ (-50 : ℤ)) = E at *
  match i with
  | 0 =>
    refine ⟨b, a', hb, ha', ?_⟩
    rw [abs_le] at *
    constructor <;> linarith [ea'.1, ea'.2, eb.1, eb.2]
  | 1 =>
    refine ⟨a, b', ha, hb', ?_⟩
    rw [abs_le] at *
    constructor <;> linarith [eb'.1, eb'.2, ea.1, ea.2]

example := C137_pan (c := .ch16) nearTrig _ nearTrig_near 12345#16 4321#16 (~~~ 4321#16) trivial trivial trivial
  (24691 / 65535) (binary64.rnd (8643 / 65535)) (by change (_ : ℚ) = _; decide +kernel) (by decide +kernel) (by decide +kernel)
  (by decide +kernel)

end Fon
