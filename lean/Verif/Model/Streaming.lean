import Verif.Model.Ops

/-!
# Model of `/repo/src/streaming.rs`
(and of the stream sides of `Audio` in `/repo/src/audio.rs`)
-/

namespace Fon

/-- `Audio` (audio.rs:46-50).  A `VecDeque` is its list of elements in order. -/
structure Audio (k : Kind) (c : ChTy) where
  rate : F64
  frames : List (Frame k c)
deriving DecidableEq

/-- Streams.  `Stream` is a public trait: besides the streams of the crate there are user streams.
`user` stands for any user stream that keeps the contract of the trait: it yields `gen 0, gen 1, ..`,
exactly `len` of them (`None`: endless), and either rejects `set_sample_rate` (the provided method)
or stores the rate.  It does not panic by itself. -/
inductive Src : Kind → ChTy → Type where
  /-- a frame (frame.rs:199-212) -/
  | frame {k : Kind} {c : ChTy} (f : Frame k c) : Src k c
  /-- `&Audio` (audio.rs:372-389) -/
  | audio {k : Kind} {c : ChTy} (a : Audio k c) : Src k c
  /-- `Audio::drain` (audio.rs:259-266, 452-482) -/
  | drain {k : Kind} {c : ChTy} (a : Audio k c) : Src k c
  | user {k : Kind} {c : ChTy} (rate : Option F64) (fixed : Bool) (len : Option Nat)
      (gen : Nat → Frame k c) : Src k c
  /-- `TakeStream` (streaming.rs:184-213) -/
  | take {k : Kind} {c : ChTy} (s : Src k c) (n : Nat) : Src k c
  /-- `BlendStream` (streaming.rs:215-275) -/
  | blend {k k' : Kind} {c c' : ChTy} (a : Src k c) (b : Src k' c') (op : Blend) : Src k c

namespace Src
variable {k : Kind} {c : ChTy}

/-- `Stream::sample_rate` (streaming.rs:131, 199-202, 254-257; frame.rs:200-203; audio.rs:382-384,
469-471). -/
def rate {k : Kind} {c : ChTy} : Src k c → Option F64
  | .frame _ => none
  | .audio a => some a.rate
  | .drain a => some a.rate
  | .user r _ _ _ => r
  | .take s _ => s.rate
  | .blend a _ _ => a.rate

/-- `Stream::len` (streaming.rs:135, 204-207, 259-267; frame.rs:205-208; audio.rs:386-388,
473-475). -/
def len {k : Kind} {c : ChTy} : Src k c → Option Nat
  | .frame _ => none
  | .audio a => some a.frames.length
  | .drain a => some a.frames.length
  | .user _ _ l _ => l
  | .take s n => some ((s.len.map (fun a => min a n)).getD n)
  | .blend a b _ =>
    match a.len, b.len with
    | none, none => none
    | none, some l => some l
    | some l, none => some l
    | some l, some m => some (min l m)

/-- `Stream::is_empty` (streaming.rs:138-140). -/
def isEmpty (s : Src k c) : Bool := s.len == some 0

/-- `Stream::set_sample_rate` (streaming.rs:144-150, 209-212, 269-274; frame.rs:210-211). -/
def setRate {k : Kind} {c : ChTy} : Src k c → F64 → R (Src k c)
  | .frame f, _ => .ok (.frame f)
  | .audio _, _ => .error .setSampleRate
  | .drain _, _ => .error .setSampleRate
  | .user _ fixed l g, sr => if fixed then .error .setSampleRate else .ok (.user (some sr) fixed l g)
  | .take s n, sr => match s.setRate sr with
    | .ok s => .ok (.take s n)
    | .error e => .error e
  | .blend a b op, sr => match a.setRate sr with
    | .error e => .error e
    | .ok a => match b.setRate sr with
      | .ok b => .ok (.blend a b op)
      | .error e => .error e

/-- `Stream::take` (streaming.rs:152-155). -/
def mkTake (s : Src k c) (n : Nat) : Src k c := .take s n

/-- Derived `PartialEq` on `Option<f64>`. -/
def optEq : Option F64 → Option F64 → Bool
  | none, none => true
  | some a, some b => Fl.eq a b
  | _, _ => false

/-- `Stream::blend` (streaming.rs:157-181). -/
def mkBlend {k k' : Kind} {c c' : ChTy} (a : Src k c) (b : Src k' c') (op : Blend) :
    R (Src k c) :=
  if optEq a.rate b.rate then .ok (.blend a b op)
  else match a.rate, b.rate with
    | none, none => .ok (.blend a b op)
    | none, some sr => match a.setRate sr with
      | .ok a => .ok (.blend a b op)
      | .error e => .error e
    | some sr, none => match b.setRate sr with
      | .ok b => .ok (.blend a b op)
      | .error e => .error e
    | some _, some _ => .error .assert

end Src

/-- Iterators of the streams (`IntoIterator::IntoIter`). -/
inductive It : Kind → ChTy → Type where
  /-- a frame is its own iterator (mono.rs:138-144, stereo.rs:138-144, surround.rs:152-158) -/
  | frame {k : Kind} {c : ChTy} (f : Frame k c) : It k c
  /-- `Cloned<Iter>` (audio.rs:372-379) -/
  | audio {k : Kind} {c : ChTy} (rest : List (Frame k c)) : It k c
  /-- `AudioDrain` (audio.rs:452-466) -/
  | drain {k : Kind} {c : ChTy} (a : Audio k c) (cursor : Nat) : It k c
  | user {k : Kind} {c : ChTy} (len : Option Nat) (gen : Nat → Frame k c) (pos : Nat) : It k c
  /-- `core::iter::Take` (streaming.rs:192-195) -/
  | take {k : Kind} {c : ChTy} (it : It k c) (n : Nat) : It k c
  /-- `Map<Zip<..>, ..>` (streaming.rs:237-243) -/
  | blend {k k' : Kind} {c c' : ChTy} (a : It k c) (b : It k' c') (op : Blend) : It k c

/-- `IntoIterator::into_iter` (streaming.rs:192-195, 237-243; audio.rs:376-378). -/
def Src.iter {k : Kind} {c : ChTy} : Src k c → It k c
  | .frame f => .frame f
  | .audio a => .audio a.frames
  | .drain a => .drain a 0
  | .user _ _ l g => .user l g 0
  | .take s n => .take s.iter n
  | .blend a b op => .blend a.iter b.iter op

namespace It

/-- `Iterator::next`.  `Take` (core) does not touch the inner iterator once its count is 0; `Zip`
(core) advances the first iterator, then the second. -/
def next {k : Kind} {c : ChTy} : It k c → R (Option (Frame k c) × It k c)
  | .frame f => .ok (some f, .frame f)
  | .audio [] => .ok (none, .audio [])
  | .audio (f :: fs) => .ok (some f, .audio fs)
  | .drain a cur => match a.frames[cur]? with
    | some f => .ok (some f, .drain a (cur + 1))
    | none => .ok (none, .drain a cur)
  | .user l g p => match l with
    | none => .ok (some (g p), .user l g (p + 1))
    | some n => if p < n then .ok (some (g p), .user l g (p + 1)) else .ok (none, .user l g p)
  | .take it n => match n with
    | 0 => .ok (none, .take it 0)
    | n + 1 => match it.next with
      | .error e => .error e
      | .ok (o, it) => .ok (o, .take it n)
  | .blend a b op => match a.next with
    | .error e => .error e
    | .ok (none, a) => .ok (none, .blend a b op)
    | .ok (some x, a) => match b.next with
      | .error e => .error e
      | .ok (none, b) => .ok (none, .blend a b op)
      | .ok (some y, b) => match (y.convert _ : R (Frame _ _)) with
        | .error e => .error e
        | .ok y => match op.mixFrames x y with
          | .error e => .error e
          | .ok z => .ok (some z, .blend a b op)

/-- Dropping an iterator (or a stream that was never iterated): the contents of the drained `Audio`
buffers afterwards, in order (`Drop for AudioDrain`, audio.rs:478-482). -/
def dropped {k : Kind} {c : ChTy} : It k c → List ((k : Kind) × (c : ChTy) × Audio k c)
  | .frame _ => []
  | .audio _ => []
  | @It.drain k c a cur => [⟨k, c, { a with frames := a.frames.drop cur }⟩]
  | .user _ _ _ => []
  | .take it _ => it.dropped
  | .blend a b _ => a.dropped ++ b.dropped

end It

/-- `Resampler` (streaming.rs:17-44). -/
structure Resampler (k : Kind) (c : ChTy) where
  partial_ : Frame k c
  offseti : F64

namespace Resampler
variable {k : Kind} {c : ChTy}
/-- `Resampler::new` (streaming.rs:27-33). -/
def new (frame : Frame k c) (index : F64) : Resampler k c := ⟨frame, index⟩
/-- `Default` (derived, streaming.rs:18). -/
def dflt : Resampler k c := ⟨Frame.dflt, Fl.lit 0⟩
/-- `Resampler::frame` (streaming.rs:35-38). -/
def frame (r : Resampler k c) : Frame k c := r.partial_
/-- `Resampler::index` (streaming.rs:40-43). -/
def index (r : Resampler k c) : F64 := r.offseti
end Resampler

/-- What a `Sink` gives access to (streaming.rs:46-57). -/
structure Sink (k : Kind) (c : ChTy) where
  rate : F64
  res : Resampler k c
  buf : List (Frame k c)

namespace Sink
variable {k k' : Kind} {c c' : ChTy}

/-- `buf[i] = g(buf[i])`, panicking out of bounds. -/
def modAt (buf : List (Frame k c)) (i : Nat) (g : Frame k c → Frame k c) : R (List (Frame k c)) :=
  if i < buf.length then .ok (buf.modify i g) else .error .bounds

/-- `Sink::flush` (streaming.rs:59-68). -/
def flush (s : Sink k c) : R (Sink k c) :=
  let fract := s.res.offseti.rem (Fl.lit 1)
  if Fl.lt Fl.epsilon fract || Fl.lt fract (Fl.epsilon : F64).neg then do
    let buf ← modAt s.buf s.res.offseti.toUsize (fun _ => s.res.partial_)
    return { s with buf }
  else .ok s

/-- The loop of `Sink::stream` (streaming.rs:98-122), from iteration `i` on.  `dstEnd` is the end of
`dst_range`.  Returns the sink, the iterator and `srclen`. -/
def loop (ratio : F64) (dstEnd : Nat) (srclen : Option Nat) :
    Nat → Nat → Sink k c → It k' c' → R (Sink k c × It k' c' × Option Nat)
  | 0, _, _, _ => .error .outOfFuel
  | fuel + 1, i, s, it =>
    let j := (ratio.mul (f64OfUsize i)).add s.res.offseti
    match Math.ceilUsize j with
    | .error e => .error e
    | .ok ceil =>
      let floor := j.toUsize
      if ¬ floor < dstEnd then .ok (s, it, some i)
      else
        let ceilF := (j.rem (Fl.lit 1)).min ratio
        let ceilA : Frame k c := Frame.ofF64 ceilF
        let floorA : Frame k c := Frame.ofF64 (ratio.sub ceilF)
        match it.next with
        | .error e => .error e
        | .ok (none, it) => .ok (s, it, srclen)
        | .ok (some src, it) => match (src.convert c : R (Frame k c)) with
          | .error e => .error e
          | .ok src => match modAt s.buf floor (fun b => b.add (src.mul floorA)) with
            | .error e => .error e
            | .ok buf =>
              if ceil < dstEnd then
                match modAt buf ceil (fun b => b.add (src.mul ceilA)) with
                | .error e => .error e
                | .ok buf => loop ratio dstEnd srclen fuel (i + 1) { s with buf } it
              else
                loop ratio dstEnd srclen fuel (i + 1)
                  { s with
                    buf := buf
                    res := { s.res with partial_ := s.res.partial_.add (src.mul ceilA) } } it

/-- `ratio` of `Sink::stream`, and the stream after a possible `set_sample_rate`
(streaming.rs:73-79). -/
def ratio (s : Sink k c) (st : Src k' c') : R (F64 × Src k' c') :=
  match st.rate with
  | some sr => .ok (s.rate.div sr, st)
  | none => match st.setRate s.rate with
    | .error e => .error e
    | .ok st => .ok (Fl.lit 1, st)

/-- End of `dst_range` (streaming.rs:86-91). -/
def dstEnd (ratio : F64) (len : Option Nat) (bufLen : Nat) : Nat :=
  match len with
  | some l => min (ratio.mul (f64OfUsize l)).toUsize bufLen
  | none => bufLen

/-- Add left over audio (streaming.rs:80-84) and clear the destination range (92-95). -/
def prepare (s : Sink k c) (dstEnd : Nat) : Sink k c :=
  let buf := s.buf.modify 0 (fun b => b.add s.res.partial_)
  { s with buf := List.replicate (min dstEnd buf.length) Frame.dflt ++ buf.drop dstEnd }

/-- `Sink::stream` (streaming.rs:70-125).  The loop need not terminate, so there is fuel: a result
other than `outOfFuel` does not depend on it.  The iterator is returned so that one can look at what
dropping it does. -/
def stream (fuel : Nat) (s : Sink k c) (st : Src k' c') : R (Sink k c × It k' c') :=
  match s.ratio st with
  | .error e => .error e
  | .ok (ratio, st) =>
    let dstEnd := dstEnd ratio st.len s.buf.length
    match loop ratio dstEnd st.len fuel 0 (s.prepare dstEnd) st.iter with
    | .error e => .error e
    | .ok (s, it, srclen) => match srclen with
      | none => .error .unwrapNone
      | some n => .ok ({ s with
          res := { s.res with offseti := s.res.offseti.add (ratio.mul (f64OfUsize n)) } }, it)

end Sink
end Fon
