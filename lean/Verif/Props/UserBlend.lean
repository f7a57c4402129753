import Verif.Props.Sink

/-!
# C115: blend operations that a user of the library defines
-/

namespace Fon
open Fmt Fl
variable {k k' : Kind} {c c' : ChTy}

/-- C115: with the provided `mix_frames`, a user's operation mixes channel by channel. -/
theorem C115_channel (m : (c : ChTy) → c.T → c.T → R c.T) (dst src r : Frame k c) :
    (Blend.custom m none).mixFrames dst src = .ok r ↔ ∀ i (h : i < k.chans), m c dst[i] src[i] = .ok r[i] :=
  mixFrames_ok (by simp) (by simp)

/-- C115: it panics exactly if `mix` panics for a channel. -/
theorem C115_panics_iff (m : (c : ChTy) → c.T → c.T → R c.T) (dst src : Frame k c) :
    (∃ e, (Blend.custom m none).mixFrames dst src = .error e) ↔
      ∃ i, ∃ h : i < k.chans, ∃ e, m c dst[i] src[i] = .error e := by
  show (∃ e, (Vector.zip dst src).mapM (fun p => m c p.1 p.2) = .error e) ↔ _
  rw [vmapM_err_iff]
  simp

/-- C115: the operations of the library but `Pan` are such operations: defining one anew with the same `mix` changes
nothing. -/
theorem C115_builtin (op : Blend) (hp : ∀ t, op ≠ .pan t) (hc : ∀ m f, op ≠ .custom m (some f)) (dst src : Frame k c) :
    (Blend.custom op.mix none).mixFrames dst src = op.mixFrames dst src := by
  cases op with
  | pan t => exact absurd rfl (hp t)
  | custom m f => cases f with
    | none => rfl
    | some f => exact absurd rfl (hc m f)
  | _ => rfl

/-- C115: `Pan` is not: whatever `mix` does, the provided `mix_frames` does not give the frames of `Pan`. -/
theorem C115_pan : ∃ t : Trig, ∀ m : (c : ChTy) → c.T → c.T → R c.T, ∃ dst src : Frame .stereo .ch64,
    (Blend.custom m none).mixFrames dst src ≠ (Blend.pan t).mixFrames dst src := by
  refine ⟨⟨fun _ => lit 0.5, fun _ => lit 0.5⟩, fun m => ?_⟩
  by_contra h
  push Not at h
  have h1 := h #v[lit 1, lit 0] #v[lit 0, lit 0]
  have h2 := h #v[lit 0, lit 0] #v[lit 0, lit 0]
  rw [show (Blend.pan ⟨fun _ => lit 0.5, fun _ => lit 0.5⟩).mixFrames (k := .stereo) (c := .ch64) #v[lit 1, lit 0]
    #v[lit 0, lit 0] = .ok #v[lit 0.5, lit 0.5] by decide +kernel, C115_channel] at h1
  rw [show (Blend.pan ⟨fun _ => lit 0.5, fun _ => lit 0.5⟩).mixFrames (k := .stereo) (c := .ch64) #v[lit 0, lit 0]
    #v[lit 0, lit 0] = .ok #v[lit 0, lit 0] by decide +kernel, C115_channel] at h2
  have e := (h1 1 (by decide)).symm.trans (h2 1 (by decide))
  exact absurd (Except.ok.inj e) (by decide +kernel)

/-- C115: blending two streams of the same format and layout with a user's operation mixes them sample by sample, as long
as both go on. -/
theorem C115_stream (hk : k.builtin = true) (a b : Src k c) (m : (c : ChTy) → c.T → c.T → c.T) (n : Nat) (fs gs hs : List (Frame k c))
    (it1 it2 it3 : It k c) (h1 : a.iter.run n = .ok (fs, it1)) (h2 : b.iter.run n = .ok (gs, it2))
    (h3 : (Src.blend a b (.user m)).iter.run n = .ok (hs, it3)) :
    hs.length = min fs.length gs.length ∧
    ∀ j (hh : j < hs.length) (hf : j < fs.length) (hg : j < gs.length) i (hi : i < k.chans),
      hs[j][i] = m c fs[j][i] gs[j][i] := by
  obtain ⟨l, e⟩ := C32_frames a b (.user m) n fs gs hs it1 it2 it3 h1 h2 h3
  refine ⟨l, fun j hh hf hg i hi => ?_⟩
  obtain ⟨y, hy, hm⟩ := e j hh hf hg
  cases (C21_id hk gs[j]).symm.trans hy
  exact (Except.ok.inj ((mixFrames_ok (by simp) (by simp)).mp hm i hi)).symm

/-- C115: an operation that replaces `mix_frames` mixes whole frames by it, and its `mix` does not matter. -/
theorem C115_replaced (hk : k.builtin = true) (a b : Src k c) (m : (c : ChTy) → c.T → c.T → R c.T)
    (f : (k : Kind) → (c : ChTy) → Frame k c → Frame k c → R (Frame k c)) (n : Nat) (fs gs hs : List (Frame k c))
    (it1 it2 it3 : It k c) (h1 : a.iter.run n = .ok (fs, it1)) (h2 : b.iter.run n = .ok (gs, it2))
    (h3 : (Src.blend a b (.custom m (some f))).iter.run n = .ok (hs, it3)) :
    hs.length = min fs.length gs.length ∧
    ∀ j (hh : j < hs.length) (hf : j < fs.length) (hg : j < gs.length), f k c fs[j] gs[j] = .ok hs[j] := by
  obtain ⟨l, e⟩ := C32_frames a b (.custom m (some f)) n fs gs hs it1 it2 it3 h1 h2 h3
  refine ⟨l, fun j hh hf hg => ?_⟩
  obtain ⟨y, hy, hm⟩ := e j hh hf hg
  cases (C21_id hk gs[j]).symm.trans hy
  exact hm

/-- A user's operation on whole frames: the channels of the second in reverse order. -/
def exReverse (k : Kind) (c : ChTy) (_ src : Frame k c) : R (Frame k c) := .ok src.reverse

example := C115_replaced rfl (.audio (k := .stereo) (c := .ch8) ⟨lit 1, [#v[3#8, 7#8], #v[5#8, 5#8], #v[6#8, 6#8]]⟩)
  (.frame #v[1#8, 2#8]) (fun c x y => c.div x y) exReverse 5 _ _ _ _ _ _
  (R.returns₂ (by decide +kernel)) (R.returns₂ (x := (Src.frame (k := .stereo) (c := .ch8) #v[1#8, 2#8]).iter.run 5) (by decide +kernel))
  (R.returns₂ (x := (Src.blend (.audio (k := .stereo) (c := .ch8) ⟨lit 1, [#v[3#8, 7#8], #v[5#8, 5#8], #v[6#8, 6#8]]⟩)
    (.frame (k := .stereo) (c := .ch8) #v[1#8, 2#8]) (.custom (fun c x y => c.div x y) (some exReverse))).iter.run 5)
    (by decide +kernel))

/-- A user's operation: the difference. -/
def exMinus : Blend := .user fun c x y => c.sub x y

example := C115_stream rfl (.audio (k := .stereo) (c := .ch8) ⟨lit 1, [#v[3#8, 7#8], #v[5#8, 5#8], #v[6#8, 6#8]]⟩)
  (.frame #v[1#8, 2#8]) (fun c x y => c.sub x y) 5 _ _ _ _ _ _
  (R.returns₂ (by decide +kernel)) (R.returns₂ (x := (Src.frame (k := .stereo) (c := .ch8) #v[1#8, 2#8]).iter.run 5) (by decide +kernel))
  (R.returns₂ (x := (Src.blend (.audio (k := .stereo) (c := .ch8) ⟨lit 1, [#v[3#8, 7#8], #v[5#8, 5#8], #v[6#8, 6#8]]⟩)
    (.frame (k := .stereo) (c := .ch8) #v[1#8, 2#8]) (.user fun c x y => c.sub x y)).iter.run 5) (by decide +kernel))

example : (Src.blend (k := .stereo) (c := .ch8) (.audio ⟨lit 1, [#v[3#8, 7#8], #v[5#8, 5#8]]⟩)
    (.audio (k := .mono) (c := .ch8) ⟨lit 1, [#v[3#8], #v[5#8], #v[6#8]]⟩) exMinus).iter.yields 9
    = .ok [#v[0#8, 4#8], #v[0#8, 0#8]] := by decide +kernel

example : exMinus.mixFrames (k := .stereo) (c := .ch8) #v[-100#8, 7#8] #v[100#8, -4#8] = .ok #v[-128#8, 11#8] := by
  decide +kernel

/-- A user's operation that panics now and then: the quotient. -/
def exQuotient : Blend := .custom (fun c x y => c.div x y) none

example : exQuotient.mixFrames (k := .stereo) (c := .ch16) #v[20#16, -32768#16] #v[100#16, -1#16] = .error .overflow := by
  decide +kernel
example := (C115_channel (k := .stereo) (c := .ch16) (fun c x y => c.div x y) #v[20#16, 7#16] #v[100#16, 99#16] _).mp
  (R.returns (x := (Blend.custom (fun c x y => c.div x y) none).mixFrames (k := .stereo) (c := .ch16) #v[20#16, 7#16]
    #v[100#16, 99#16]) (by decide +kernel))
example : ∃ e, exQuotient.mixFrames (k := .stereo) (c := .ch16) #v[20#16, -32768#16] #v[100#16, -1#16] = .error e :=
  (C115_panics_iff (k := .stereo) (c := .ch16) (fun c x y => c.div x y) #v[20#16, -32768#16] #v[100#16, -1#16]).mpr
    ⟨1, by decide, .overflow, by decide +kernel⟩
example := C115_builtin (k := .stereo) (c := .ch8) .amplify (by simp) (by simp) #v[20#8, 7#8] #v[100#8, 0#8]

end Fon
