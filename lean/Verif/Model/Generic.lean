import Verif.Model.Streaming

/-!
# `Sink::stream` and `Sink::flush` for any implementation of the traits

`Sink`, `Stream` and `Frame` are public traits.  `Verif.Model.Streaming` has the types of the crate, and user types that
behave like them.  Here all three are arbitrary: a frame type with its own arithmetic, a sink whose methods do as they
like, a stream whose `len` and iterator need not agree.  Any of their methods may panic.

Simplifications: `Frame::default` does not panic; methods that take `&self` have no effect (no `Cell`).
-/

namespace Fon.Gen

/-- The methods of `Frame` that `Sink` uses: `Default`, `from_f64`, `AddAssign`, `Mul`. -/
structure FrameImpl (F : Type) where
  dflt : F
  ofF64 : F64 → R F
  add : F → F → R F
  mul : F → F → R F

/-- `Resampler<F>` (streaming.rs:17-24). -/
structure Res (F : Type) where
  partial_ : F
  offseti : F64

/-- A method `fn(&mut self) -> &mut T`: the value referred to, and what `self` is once the borrow ends with some other
value there.  The method may change `self` as well. -/
abbrev Ref (σ T : Type) := R (T × (T → σ))

/-- `Sink<F>` (streaming.rs:46-57). -/
structure SinkImpl (σ F : Type) where
  rate : σ → F64
  resampler : σ → Ref σ (Res F)
  buffer : σ → Ref σ (List F)

/-- `Stream<S>` (streaming.rs:128-150) and its iterator. -/
structure StreamImpl (τ ι S : Type) where
  rate : τ → Option F64
  len : τ → Option Nat
  setRate : τ → F64 → R τ
  iter : τ → R ι
  next : ι → R (Option S × ι)

variable {F S σ τ ι : Type}

/-- The condition of `Sink::flush` (streaming.rs:62-63). -/
def left (I : SinkImpl σ F) (s : σ) : R (Bool × σ) := do
  let (r, put) ← I.resampler s
  let s := put r
  if Fl.lt Fl.epsilon (r.offseti.rem (Fl.lit 1)) then pure (true, s)
  else do
    let (r, put) ← I.resampler s
    pure (Fl.lt (r.offseti.rem (Fl.lit 1)) (Fl.epsilon : F64).neg, put r)

/-- `Sink::flush` (streaming.rs:59-68).  The sink is dropped afterwards; the model returns it. -/
def flush (I : SinkImpl σ F) (s : σ) : R σ := do
  let (some_, s) ← left I s
  if some_ then do
    let (r, put) ← I.resampler s
    let i := r.offseti.toUsize
    let s := put r
    -- the right operand of an assignment is evaluated first
    let (r, put) ← I.resampler s
    let x := r.partial_
    let s := put r
    let (b, put) ← I.buffer s
    if i < b.length then pure (put (b.set i x)) else throw .bounds
  else pure s

/-- The check of `b[..n]`. -/
def upTo (b : List F) (n : Nat) : R Unit := if b.length < n then .error .bounds else .ok ()

/-- The loop of `Sink::stream` (streaming.rs:98-122), from iteration `i` on. -/
def loop (A : FrameImpl F) (I : SinkImpl σ F) (M : StreamImpl τ ι S) (conv : S → R F) (ratio : F64) (dstEnd : Nat)
    (srclen : Option Nat) : Nat → Nat → σ → ι → R (σ × ι × Option Nat)
  | 0, _, _, _ => throw .outOfFuel
  | fuel + 1, i, s, it => do
    let (r, put) ← I.resampler s
    let s := put r
    let j := (ratio.mul (f64OfUsize i)).add r.offseti
    let ceil ← Math.ceilUsize j
    let floor := j.toUsize
    if ¬ floor < dstEnd then pure (s, it, some i)
    else do
      let ceilF := (j.rem (Fl.lit 1)).min ratio
      let ceilA ← A.ofF64 ceilF
      let floorA ← A.ofF64 (ratio.sub ceilF)
      match ← M.next it with
      | (none, it) => pure (s, it, srclen)
      | (some src, it) => do
        let src ← conv src
        -- the left operand of `+=` is evaluated first, as it is not a primitive type
        let (b, put) ← I.buffer s
        upTo b dstEnd
        match b[floor]? with
        | none => throw .bounds
        | some x => do
          let w ← A.mul src floorA
          let y ← A.add x w
          let s := put (b.set floor y)
          let (b, put) ← I.buffer s
          upTo b dstEnd
          match (b.take dstEnd)[ceil]? with
          | some x => do
            let w ← A.mul src ceilA
            let y ← A.add x w
            loop A I M conv ratio dstEnd srclen fuel (i + 1) (put (b.set ceil y)) it
          | none => do
            let s := put b
            let (r, put) ← I.resampler s
            let w ← A.mul src ceilA
            let p ← A.add r.partial_ w
            loop A I M conv ratio dstEnd srclen fuel (i + 1) (put { r with partial_ := p }) it

/-- `ratio`, and the stream after a possible `set_sample_rate` (streaming.rs:73-79). -/
def ratio (I : SinkImpl σ F) (M : StreamImpl τ ι S) (s : σ) (st : τ) : R (F64 × τ) :=
  match M.rate st with
  | some sr => .ok ((I.rate s).div sr, st)
  | none => (M.setRate st (I.rate s)).map fun st => (Fl.lit 1, st)

/-- Add left over audio (streaming.rs:82-84). -/
def addLeft (A : FrameImpl F) (left : F) : List F → R (List F)
  | [] => .ok []
  | x :: xs => (A.add x left).map (· :: xs)

/-- End of `dst_range` (streaming.rs:86-91). -/
def dstEnd (ratio : F64) (len : Option Nat) (bufLen : Nat) : Nat :=
  match len with
  | some l => min (ratio.mul (f64OfUsize l)).toUsize bufLen
  | none => bufLen

/-- `Sink::stream` (streaming.rs:70-125). -/
def stream (A : FrameImpl F) (I : SinkImpl σ F) (M : StreamImpl τ ι S) (conv : S → R F) (fuel : Nat) (s : σ) (st : τ) :
    R (σ × ι) := do
  let (ratio, st) ← ratio I M s st
  let (r, put) ← I.resampler s
  let left := r.partial_
  let s := put r
  let (b, put) ← I.buffer s
  let b ← addLeft A left b
  let s := put b
  let (b, put) ← I.buffer s
  let dstEnd := dstEnd ratio (M.len st) b.length
  let s := put b
  let (b, put) ← I.buffer s
  upTo b dstEnd
  let s := put (List.replicate dstEnd A.dflt ++ b.drop dstEnd)
  let srclen := M.len st
  let it ← M.iter st
  let (s, it, srclen) ← loop A I M conv ratio dstEnd srclen fuel 0 s it
  -- the left operand of `+=` is evaluated last for primitive types
  match srclen with
  | none => throw .unwrapNone
  | some n => do
    let (r, put) ← I.resampler s
    pure (put { r with offseti := r.offseti.add (ratio.mul (f64OfUsize n)) }, it)

/-- The frames of the crate (`Verif.Model.Frame`). -/
def frameImpl (k : Kind) (c : ChTy) : FrameImpl (Frame k c) :=
  ⟨Frame.dflt, fun x => .ok (Frame.ofF64 x), fun a b => .ok (a.add b), fun a b => .ok (a.mul b)⟩

/-- A sink that is a struct with a rate, a resampler and a buffer (audio.rs:391-410). -/
def sinkImpl (k : Kind) (c : ChTy) : SinkImpl (Sink k c) (Frame k c) where
  rate s := s.rate
  resampler s := .ok (⟨s.res.partial_, s.res.offseti⟩, fun r => { s with res := ⟨r.partial_, r.offseti⟩ })
  buffer s := .ok (s.buf, fun b => { s with buf := b })

/-- The streams of `Verif.Model.Streaming`. -/
def streamImpl (k : Kind) (c : ChTy) : StreamImpl (Src k c) (It k c) (Frame k c) :=
  ⟨Src.rate, Src.len, Src.setRate, fun s => .ok s.iter, It.next⟩

end Fon.Gen
