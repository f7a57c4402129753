import Verif.Model.Audio

/-!
# Model of `/repo/examples/resampler.rs` and `/repo/examples/sawtooth.rs`

The programs take the contents of the file they read and return the samples they write, not yet cut into bytes.
-/

namespace Fon.Example
open Fl
variable {k k' : Kind} {c c' : ChTy}

/-- The loop over `rawfile.chunks(2)` (resampler.rs:28-30): two bytes make a little endian `i16`; a last chunk of one
byte has no `sample[1]`. -/
def readSamples : List (BitVec 8) → R (List (BitVec 16))
  | [] => .ok []
  | [_] => .error .bounds
  | lo :: hi :: rest => do
    let xs ← readSamples rest
    return (hi ++ lo) :: xs

/-- The first program (resampler.rs:5-22, commented out) up to the writing of the file. -/
def whole (file : List (BitVec 8)) : R (List F32) := do
  let samples ← readSamples file
  let audio ← Audio.withBuffer .stereo .ch16 (lit 44100) samples
  let audio : Audio .stereo .ch32 ← Audio.withStream (lit 48000) (.audio audio)
  return audio.asSamples

/-- The loop of the second program (resampler.rs:40-44) from the frame with index `i` on, `n` more turns. -/
def frameLoop (audio : Audio k' c') : (n i : Nat) → AudioSink k c → R (AudioSink k c)
  | 0, _, sink => .ok sink
  | n + 1, i, sink =>
    match audio.get i with
    | none => .error .unwrapNone
    | some f => do
      let thing ← ((Src.frame f).mkTake 1).setRate (lit 44100)
      let (sink, _) ← sink.stream 2 thing
      frameLoop audio n (i + 1) sink

/-- The second program (resampler.rs:24-52) up to the writing of the file. -/
def byFrame (file : List (BitVec 8)) : R (List F32) := do
  let samples ← readSamples file
  let audio ← Audio.withBuffer .stereo .ch16 (lit 44100) samples
  let output : Audio .stereo .ch32 ← Audio.withStream (lit 48000) (.audio audio)
  let sink ← output.sink .full
  let sink ← frameLoop audio audio.len 0 sink
  return sink.release.asSamples

/-- The wave of `/repo/examples/sawtooth.rs` (sawtooth.rs:7-10). The cast `(i as i16 - 128) as i8` takes the low eight
bits; the subtraction does not overflow for the 256 values of `i`. -/
def sawWave : R (Audio .mono .ch8) := do
  let a : Audio .mono .ch8 ← Audio.withSilence (lit 44100) 256
  return a.iterMut (fun i _ => #v[BitVec.ofInt 8 ((i : Int) - 128)])

/-- What it prints (sawtooth.rs:12-18). -/
def sawtooth : R (List (BitVec 16)) := do
  let a ← sawWave
  let audio : Audio .stereo .ch16 ← Audio.withStream (lit 48000) (.audio a)
  return audio.asSamples

end Fon.Example
