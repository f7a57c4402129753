import Verif.Model.Effects
import Verif.Model.GenericAudio

/-!
# `Stream::take`, `Stream::blend` and `Audio::extend` for implementations that share state

Simplifications as in `Verif.Model.Effects`.
-/

namespace Fon.Eff
variable {W F S T τ τ' ι ι' : Type}

/-- `TakeStream` (streaming.rs:184-213) with `core::iter::Take`. -/
def takeImpl (M : StreamImpl W τ ι S) : StreamImpl W (τ × Nat) (ι × Nat) S where
  rate st := M.rate st.1
  len st := do
    match ← M.len st.1 with
    | some a => pure (some (min a st.2))
    | none => pure (some st.2)
  setRate st r := do
    let a ← M.setRate st.1 r
    pure (a, st.2)
  iter st := do
    let a ← M.iter st.1
    pure (a, st.2)
  next it := match it.2 with
    | 0 => pure (none, it)
    | n + 1 => do
      let x ← M.next it.1
      pure (x.1, x.2, n)

/-- `BlendStream` (streaming.rs:215-275) with `core::iter::Zip` and `core::iter::Map`; `mix` is conversion of the second
frame followed by `mix_frames`. -/
def blendImpl (M : StreamImpl W τ ι S) (L : StreamImpl W τ' ι' T) (mix : S → T → E W S) : StreamImpl W (τ × τ') (ι × ι') S where
  rate st := M.rate st.1
  len st := do
    let a ← M.len st.1
    let b ← L.len st.2
    pure (match a, b with
      | none, none => none
      | none, some l => some l
      | some l, none => some l
      | some a, some b => some (min a b))
  setRate st r := do
    let a ← M.setRate st.1 r
    let b ← L.setRate st.2 r
    pure (a, b)
  iter st := do
    let a ← M.iter st.1
    let b ← L.iter st.2
    pure (a, b)
  next it := do
    match ← M.next it.1 with
    | (none, a) => pure (none, a, it.2)
    | (some x, a) => do
      match ← L.next it.2 with
      | (none, b) => pure (none, a, b)
      | (some y, b) => do
        let z ← mix x y
        pure (some z, a, b)

/-- `Stream::blend` (streaming.rs:157-181): the two streams of the result. -/
def blend (M : StreamImpl W τ ι S) (L : StreamImpl W τ' ι' T) (st : τ) (st' : τ') : E W (τ × τ') := do
  let a ← M.rate st
  let b ← L.rate st'
  if Src.optEq a b then pure (st, st')
  else match a, b with
    | none, none => pure (st, st')
    | none, some sr => do
      let st ← M.setRate st sr
      pure (st, st')
    | some sr, none => do
      let st' ← L.setRate st' sr
      pure (st, st')
    | some _, some _ => fail .assert

/-- `impl Sink for AudioSink` (audio.rs:398-410). -/
def audSinkImpl (W F : Type) : SinkImpl W (Gen.AudSink F) F where
  rate s := pure s.rate
  resampler s := pure (s.res, fun r => { s with res := r })
  buffer s := pure (s.buf, fun b => { s with buf := b })

/-- `extend_internal` (audio.rs:285-317).  `size` is the size of a frame in bytes. -/
def extendInternal (A : FrameImpl W F) (size : Nat) (M : StreamImpl W τ ι S) (conv : S → E W F) (fuel : Nat) (a : Gen.Aud F)
    (st : τ) : E W (Gen.Aud F) := do
  match ← M.len st with
  | none => fail .unwrapNone
  | some srclen => do
    let rate ← M.rate st
    let dstlen := Audio.dstLen a.rate srclen rate
    let orig := a.frames.length
    if usizeMax < (orig + dstlen : ℤ) then fail .overflow
    else if Audio.isizeMax < (orig + dstlen) * size then fail .capacity
    else do
      let new ← clear A dstlen
      let p ← A.dflt
      let (s, _) ← stream A (audSinkImpl W F) M conv fuel ⟨a.rate, a.frames, new, ⟨p, Fl.lit 0⟩⟩ st
      let s ← flush (audSinkImpl W F) s
      pure ⟨a.rate, s.before ++ s.buf⟩

/-- `extend` (audio.rs:268-283): the buffer afterwards, whether the call panicked, and the shared state. -/
def extend (A : FrameImpl W F) (size : Nat) (M : StreamImpl W τ ι S) (conv : S → E W F) (fuel : Nat) (a : Gen.Aud F) (st : τ)
    (w : W) : Gen.Aud F × R Unit × W :=
  match extendInternal A size M conv fuel a st w with
  | (.ok b, w) => (b, .ok (), w)
  | (.error e, w) => (⟨Fl.lit 0, []⟩, .error e, w)

end Fon.Eff
