import Verif.Model.Generic
import Verif.Model.Audio

/-!
# `Audio::extend` for any implementation of `Frame` and `Stream`

`Verif.Model.Audio` has the frames of the crate.  Here the frame type is the user's, with its own arithmetic, and so is the
stream.  Any of their methods may panic.  Simplifications as in `Verif.Model.Generic`.
-/

namespace Fon.Gen
variable {F S τ ι : Type}

/-- `Audio<F>` (audio.rs:47-50). -/
structure Aud (F : Type) where
  rate : F64
  frames : List F

/-- `AudioSink` (audio.rs:391-396): `before` is the part of the buffer outside the slice, which starts behind it. -/
structure AudSink (F : Type) where
  rate : F64
  before : List F
  buf : List F
  res : Res F

/-- `impl Sink for AudioSink` (audio.rs:398-410). -/
def audSinkImpl (F : Type) : SinkImpl (AudSink F) F where
  rate s := s.rate
  resampler s := .ok (s.res, fun r => { s with res := r })
  buffer s := .ok (s.buf, fun b => { s with buf := b })

/-- The sink that `extend_internal` makes for the new part of the buffer (audio.rs:303-311): `resize_with` fills it with
`Default`, `sink(orig_len..)` has a new resampler. -/
def tailSink (A : FrameImpl F) (a : Aud F) (d : Nat) : AudSink F :=
  ⟨a.rate, a.frames, List.replicate d A.dflt, ⟨A.dflt, Fl.lit 0⟩⟩

/-- `extend_internal` (audio.rs:285-317).  `size` is the size of a frame in bytes. -/
def extendInternal (A : FrameImpl F) (size : Nat) (M : StreamImpl τ ι S) (conv : S → R F) (fuel : Nat) (a : Aud F) (st : τ) :
    R (Aud F) :=
  match M.len st with
  | none => .error .unwrapNone
  | some srclen =>
    let dstlen := Audio.dstLen a.rate srclen (M.rate st)
    let orig := a.frames.length
    if usizeMax < (orig + dstlen : ℤ) then .error .overflow
    else if Audio.isizeMax < (orig + dstlen) * size then .error .capacity
    else do
      let (s, _) ← stream A (audSinkImpl F) M conv fuel (tailSink A a dstlen) st
      let s ← flush (audSinkImpl F) s
      pure ⟨a.rate, s.before ++ s.buf⟩

/-- `extend` (audio.rs:268-283): the buffer afterwards, and whether the call panicked. -/
def extend (A : FrameImpl F) (size : Nat) (M : StreamImpl τ ι S) (conv : S → R F) (fuel : Nat) (a : Aud F) (st : τ) :
    Aud F × R Unit :=
  match extendInternal A size M conv fuel a st with
  | .ok b => (b, .ok ())
  | .error e => (⟨Fl.lit 0, []⟩, .error e)

end Fon.Gen
