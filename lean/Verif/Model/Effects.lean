import Verif.Model.Generic

/-!
# Frames, sinks and streams that share state

As `Verif.Model.Generic`, but every method may also read and write state that lives outside of the values passed to it
(`Cell`, `Rc<RefCell<_>>`, statics): a stream may look at what the sink has done, a frame may count its additions.  The
order of the calls matters here; it is that of the Rust source.  Destructors are not modelled.
-/

namespace Fon.Eff

/-- A computation with shared state of type `W`, which outlasts a panic. -/
def E (W α : Type) := W → R α × W

variable {W F S σ τ ι α β : Type}

instance : Monad (E W) where
  pure a := fun w => (.ok a, w)
  bind x f := fun w => match x w with
    | (.ok a, w) => f a w
    | (.error e, w) => (.error e, w)

/-- A panic. -/
def fail (e : Panic) : E W α := fun w => (.error e, w)

/-- A computation without shared state. -/
def lift (x : R α) : E W α := fun w => (x, w)

/-- The methods of `Frame` that `Sink` uses: `Default`, `from_f64`, `AddAssign`, `Mul`. -/
structure FrameImpl (W F : Type) where
  dflt : E W F
  ofF64 : F64 → E W F
  add : F → F → E W F
  mul : F → F → E W F

/-- `Sink<F>` (streaming.rs:46-57); references as in `Gen.Ref`. -/
structure SinkImpl (W σ F : Type) where
  rate : σ → E W F64
  resampler : σ → E W (Gen.Res F × (Gen.Res F → σ))
  buffer : σ → E W (List F × (List F → σ))

/-- `Stream<S>` (streaming.rs:128-150) and its iterator. -/
structure StreamImpl (W τ ι S : Type) where
  rate : τ → E W (Option F64)
  len : τ → E W (Option Nat)
  setRate : τ → F64 → E W τ
  iter : τ → E W ι
  next : ι → E W (Option S × ι)

/-- The condition of `Sink::flush` (streaming.rs:62-63). -/
def left (I : SinkImpl W σ F) (s : σ) : E W (Bool × σ) := do
  let (r, put) ← I.resampler s
  let s := put r
  if Fl.lt Fl.epsilon (r.offseti.rem (Fl.lit 1)) then pure (true, s)
  else do
    let (r, put) ← I.resampler s
    pure (Fl.lt (r.offseti.rem (Fl.lit 1)) (Fl.epsilon : F64).neg, put r)

/-- `Sink::flush` (streaming.rs:59-68). -/
def flush (I : SinkImpl W σ F) (s : σ) : E W σ := do
  let (some_, s) ← left I s
  if some_ then do
    let (r, put) ← I.resampler s
    let i := r.offseti.toUsize
    let s := put r
    let (r, put) ← I.resampler s
    let x := r.partial_
    let s := put r
    let (b, put) ← I.buffer s
    if i < b.length then pure (put (b.set i x)) else fail .bounds
  else pure s

/-- The loop of `Sink::stream` (streaming.rs:98-122), from iteration `i` on. -/
def loop (A : FrameImpl W F) (I : SinkImpl W σ F) (M : StreamImpl W τ ι S) (conv : S → E W F) (ratio : F64) (dstEnd : Nat)
    (srclen : Option Nat) : Nat → Nat → σ → ι → E W (σ × ι × Option Nat)
  | 0, _, _, _ => fail .outOfFuel
  | fuel + 1, i, s, it => do
    let (r, put) ← I.resampler s
    let s := put r
    let j := (ratio.mul (f64OfUsize i)).add r.offseti
    let ceil ← lift (Math.ceilUsize j)
    let floor := j.toUsize
    if ¬ floor < dstEnd then pure (s, it, some i)
    else do
      let ceilF := (j.rem (Fl.lit 1)).min ratio
      let ceilA ← A.ofF64 ceilF
      let floorA ← A.ofF64 (ratio.sub ceilF)
      match ← M.next it with
      | (none, it) => pure (s, it, srclen)
      | (some src, it) => do
        let src ← conv src
        let (b, put) ← I.buffer s
        lift (Gen.upTo b dstEnd)
        match b[floor]? with
        | none => fail .bounds
        | some x => do
          let w ← A.mul src floorA
          let y ← A.add x w
          let s := put (b.set floor y)
          let (b, put) ← I.buffer s
          lift (Gen.upTo b dstEnd)
          match (b.take dstEnd)[ceil]? with
          | some x => do
            let w ← A.mul src ceilA
            let y ← A.add x w
            loop A I M conv ratio dstEnd srclen fuel (i + 1) (put (b.set ceil y)) it
          | none => do
            let s := put b
            let (r, put) ← I.resampler s
            let w ← A.mul src ceilA
            let p ← A.add r.partial_ w
            loop A I M conv ratio dstEnd srclen fuel (i + 1) (put { r with partial_ := p }) it

/-- `ratio`, and the stream after a possible `set_sample_rate` (streaming.rs:73-79). -/
def ratio (I : SinkImpl W σ F) (M : StreamImpl W τ ι S) (s : σ) (st : τ) : E W (F64 × τ) := do
  match ← M.rate st with
  | some sr => do
    let r ← I.rate s
    pure (r.div sr, st)
  | none => do
    let r ← I.rate s
    let st ← M.setRate st r
    pure (Fl.lit 1, st)

/-- Add left over audio (streaming.rs:82-84). -/
def addLeft (A : FrameImpl W F) (left : F) : List F → E W (List F)
  | [] => pure []
  | x :: xs => do
    let x ← A.add x left
    pure (x :: xs)

/-- Clear destination range (streaming.rs:92-95): the frames written. -/
def clear (A : FrameImpl W F) : Nat → E W (List F)
  | 0 => pure []
  | n + 1 => do
    let x ← A.dflt
    let xs ← clear A n
    pure (x :: xs)

/-- End of `dst_range` (streaming.rs:87-91), and the sink after the call of `buffer`. -/
def dstEnd (I : SinkImpl W σ F) (M : StreamImpl W τ ι S) (ratio : F64) (s : σ) (st : τ) : E W (Nat × σ) := do
  match ← M.len st with
  | some l => do
    let (b, put) ← I.buffer s
    pure (min (ratio.mul (f64OfUsize l)).toUsize b.length, put b)
  | none => do
    let (b, put) ← I.buffer s
    pure (b.length, put b)

/-- `Sink::stream` (streaming.rs:70-125). -/
def stream (A : FrameImpl W F) (I : SinkImpl W σ F) (M : StreamImpl W τ ι S) (conv : S → E W F) (fuel : Nat) (s : σ) (st : τ) :
    E W (σ × ι) := do
  let (ratio, st) ← ratio I M s st
  let (r, put) ← I.resampler s
  let left := r.partial_
  let s := put r
  let (b, put) ← I.buffer s
  let b ← addLeft A left b
  let s := put b
  let srclen ← M.len st
  let (dstEnd, s) ← dstEnd I M ratio s st
  let (b, put) ← I.buffer s
  lift (Gen.upTo b dstEnd)
  let c ← clear A dstEnd
  let s := put (c ++ b.drop dstEnd)
  let it ← M.iter st
  let (s, it, srclen) ← loop A I M conv ratio dstEnd srclen fuel 0 s it
  match srclen with
  | none => fail .unwrapNone
  | some n => do
    let (r, put) ← I.resampler s
    pure (put { r with offseti := r.offseti.add (ratio.mul (f64OfUsize n)) }, it)

end Fon.Eff
