import Verif.Model.Streaming

/-!
# Model of `/repo/src/audio.rs`
Except for the conversion to boxed slices of raw samples, which is in `Verif.Model.Heap`.
-/

namespace Fon

/-- `size_of` a channel in bytes. -/
def ChTy.size : ChTy → Nat
  | .ch8 => 1 | .ch16 => 2 | .ch32 => 4 | .ch64 => 8

/-- `size_of` a frame in bytes (`repr(transparent)` arrays, mono.rs:24, stereo.rs:24,
surround.rs:25; assumed for custom frames). -/
def Kind.size (k : Kind) (c : ChTy) : Nat := k.chans * c.size

/-- `core::ops::Bound<usize>`. -/
inductive Bnd where
  | inc (n : Nat)
  | exc (n : Nat)
  | unb
deriving DecidableEq

/-- The ranges of type `RangeBounds<usize> + SliceIndex<[F], Output = [F]>`: the six range types, where a
`RangeInclusive` may have been iterated to its end (`done`; then it stands at its end), and pairs of bounds. -/
inductive Rng where
  | full
  | from_ (a : Nat)
  | upto (b : Nat)
  | range (a b : Nat)
  | toIncl (b : Nat)
  | incl (a b : Nat)
  | done (b : Nat)
  | pair (a b : Bnd)
deriving DecidableEq

/-- The first index of a lower bound (`core::slice::index::into_slice_range`). -/
def Bnd.first : Bnd → R Nat
  | inc a => .ok a
  | exc a => if (a : ℤ) = usizeMax then .error .overflow else .ok (a + 1)
  | unb => .ok 0

/-- The index behind an upper bound (`core::slice::index::into_slice_range`). -/
def Bnd.last (n : Nat) : Bnd → R Nat
  | inc b => if (b : ℤ) = usizeMax then .error .overflow else .ok (b + 1)
  | exc b => .ok b
  | unb => .ok n

/-- Start and end of a range used as a slice index into a slice of length `n`; panics like
`SliceIndex::index_mut`. -/
def Rng.resolve (r : Rng) (n : Nat) : R (Nat × Nat) :=
  let chkR (a b : Nat) : R (Nat × Nat) :=
    if a ≤ b ∧ b ≤ n then .ok (a, b) else .error .bounds
  match r with
  | full => .ok (0, n)
  | from_ a => chkR a n
  | upto b => chkR 0 b
  | range a b => chkR a b
  | toIncl b => if (b : ℤ) = usizeMax then .error .overflow else chkR 0 (b + 1)
  | incl a b => if (b : ℤ) = usizeMax then .error .overflow else chkR a (b + 1)
  | done b => if (b : ℤ) = usizeMax then .error .overflow else chkR (b + 1) (b + 1)
  | pair s e => do
    let a ← s.first
    let b ← e.last n
    chkR a b

/-- `AudioSink` (audio.rs:391-410) together with the rest of the borrowed buffer: frames before and
after the region. -/
structure AudioSink (k : Kind) (c : ChTy) where
  pre : List (Frame k c)
  sink : Sink k c
  post : List (Frame k c)

namespace AudioSink
variable {k k' : Kind} {c c' : ChTy}

/-- The borrowed `Audio` when the sink goes away. -/
def release (s : AudioSink k c) : Audio k c :=
  ⟨s.sink.rate, s.pre ++ s.sink.buf ++ s.post⟩

/-- `Sink::stream` on an `AudioSink`. -/
def stream (fuel : Nat) (s : AudioSink k c) (st : Src k' c') : R (AudioSink k c × It k' c') :=
  match s.sink.stream fuel st with
  | .error e => .error e
  | .ok (t, it) => .ok ({ s with sink := t }, it)

/-- `Sink::flush` on an `AudioSink`. -/
def flush (s : AudioSink k c) : R (AudioSink k c) :=
  match s.sink.flush with
  | .error e => .error e
  | .ok t => .ok { s with sink := t }

end AudioSink

namespace Audio
variable {k k' : Kind} {c c' : ChTy}

/-- `get` (audio.rs:53-56). -/
def get (a : Audio k c) (i : Nat) : Option (Frame k c) := a.frames[i]?
/-- Assignment through `get_mut` (audio.rs:58-61); `none` if out of bounds. -/
def setMut (a : Audio k c) (i : Nat) (f : Frame k c) : Option (Audio k c) :=
  if i < a.frames.length then some { a with frames := a.frames.set i f } else none
/-- `as_slice` (audio.rs:63-68). -/
def asSlice (a : Audio k c) : List (Frame k c) := a.frames
/-- `iter` (audio.rs:70-73), collected. -/
def iter (a : Audio k c) : List (Frame k c) := a.frames
/-- Update of every frame through `iter_mut` (audio.rs:75-78). -/
def iterMut (a : Audio k c) (g : Nat → Frame k c → Frame k c) : Audio k c :=
  { a with frames := a.frames.mapIdx g }
/-- `isize::MAX`, the bound on the size of an allocation. -/
def isizeMax : Nat := 2 ^ 63 - 1
/-- `with_frame` (audio.rs:80-85); `vec!` panics if the frames take too much memory. -/
def withFrame (rate : F64) (len : Nat) (f : Frame k c) : R (Audio k c) :=
  if isizeMax < len * k.size c then .error .capacity else .ok ⟨rate, List.replicate len f⟩
/-- `with_silence` (audio.rs:87-90). -/
def withSilence (rate : F64) (len : Nat) : R (Audio k c) := withFrame rate len Frame.dflt
/-- `with_frames` (audio.rs:112-125). -/
def withFrames (rate : F64) (frames : List (Frame k c)) : Audio k c := ⟨rate, frames⟩
/-- `len` (audio.rs:226-229). -/
def len (a : Audio k c) : Nat := a.frames.length
/-- `is_empty` (audio.rs:231-234). -/
def isEmpty (a : Audio k c) : Bool := a.len == 0
/-- `sample_rate` (audio.rs:236-239). -/
def sampleRate (a : Audio k c) : F64 := a.rate
/-- `From<Audio<F>> for Vec<F>` (audio.rs:484-489), `for Box<[F]>` (491-497). -/
def toFrames (a : Audio k c) : List (Frame k c) := a.frames

/-- `sink` (audio.rs:241-257). -/
def sink (a : Audio k c) (reg : Rng) : R (AudioSink k c) :=
  match reg.resolve a.frames.length with
  | .error e => .error e
  | .ok (x, y) => .ok ⟨a.frames.take x, ⟨a.rate, Resampler.dflt, (a.frames.drop x).take (y - x)⟩,
      a.frames.drop y⟩

/-- `drain` (audio.rs:259-266). -/
def drain (a : Audio k c) : Src k c := .drain a

/-- `dstlen` of `extend_internal` (audio.rs:296-301). -/
def dstLen (rate : F64) (srclen : Nat) (srcRate : Option F64) : Nat :=
  match srcRate with
  | some sr => (Math.ceil ((rate.mul (f64OfUsize srclen)).div sr)).toUsize
  | none => srclen

/-- `extend_internal` (audio.rs:285-317).  Returns the iterator as well (see `Sink.stream`).  The
stream is finite here, and a finite stream takes at most `srclen + 1` iterations
(`Verif.Props.Sink`). -/
def extendInternal (a : Audio k c) (st : Src k' c') : R (Audio k c × It k' c') :=
  match st.len with
  | none => .error .unwrapNone
  | some srclen =>
    let dstlen := dstLen a.rate srclen st.rate
    let orig := a.frames.length
    if usizeMax < (orig + dstlen : ℤ) then .error .overflow
    else if isizeMax < (orig + dstlen) * k.size c then .error .capacity
    else
      let audio := withFrames a.rate (a.frames ++ List.replicate dstlen Frame.dflt)
      match audio.sink (.from_ orig) with
      | .error e => .error e
      | .ok s => match s.stream (srclen + 1) st with
        | .error e => .error e
        | .ok (s, it) => match s.flush with
          | .error e => .error e
          | .ok s => .ok (s.release, it)

/-- `extend` (audio.rs:268-283): the buffer afterwards, and whether the call panicked.  The swap with
an empty buffer of rate 0 comes first, so that is what is left after a panic. -/
def extend (a : Audio k c) (st : Src k' c') : Audio k c × R (It k' c') :=
  match a.extendInternal st with
  | .ok (a, it) => (a, .ok it)
  | .error e => (withFrames (Fl.lit 0) [], .error e)

/-- `with_stream` (audio.rs:92-110). -/
def withStream (rate : F64) (st : Src k' c') : R (Audio k c) :=
  match (withFrames rate [] : Audio k c).extend st with
  | (a, .ok _) => .ok a
  | (_, .error e) => .error e

/-! ## Raw sample buffers -/

/-- The frames that a contiguous run of samples is reinterpreted as. -/
def chunk (k : Kind) (c : ChTy) (samples : List c.T) (len : Nat) : List (Frame k c) :=
  (List.range len).map fun i => Vector.ofFn fun j => (samples[i * k.chans + j.val]?).getD c.dflt

/-- `with_i8_buffer`, `with_i16_buffer`, `with_f32_buffer`, `with_f64_buffer` (audio.rs:127-224).
`size_of::<F>()` is 0 for a custom frame without channels: division by zero. -/
def withBuffer (k : Kind) (c : ChTy) (rate : F64) (samples : List c.T) : R (Audio k c) :=
  let bytes := samples.length * c.size
  if k.size c = 0 then .error .divByZero
  else
    let len := bytes / k.size c
    if bytes % k.size c ≠ 0 then .error .assert
    else .ok ⟨rate, chunk k c samples len⟩

/-- `as_i8_slice`, `as_i16_slice`, `as_f32_slice`, `as_f64_slice` (audio.rs:320-370): the frames are
stored one after another, channels in order. -/
def asSamples (a : Audio k c) : List c.T := a.frames.flatMap (·.toList)

end Audio
end Fon
