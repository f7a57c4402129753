import Verif.Model.Audio
import Verif.Model.Mixed

/-!
# The constructors of frames, and the private stream over an audio buffer

`Mono::new`, `Stereo::new` and `Surround::new` take any type `H` with `C: From<H>`; the conversions to and from the raw
numbers are in chan.rs:127-174.
-/

namespace Fon

/-- The types `H` with `C: From<H>`, and a value of them: another channel format (chan.rs:556-652), the format itself, or
the raw number that the format wraps (chan.rs:127-160; there is none for `Ch64`).  `H` is the same for all arguments of a
constructor; here they may differ. -/
inductive Arg : ChTy → Type
  | chan {c : ChTy} (s : ChTy) (x : s.T) : Arg c
  | i8 (x : BitVec 8) : Arg .ch8
  | i16 (x : BitVec 16) : Arg .ch16
  | f32 (x : F32) : Arg .ch32

/-- `C::from`. -/
def Arg.into : {c : ChTy} → Arg c → c.T
  | c, .chan s x => ChTy.conv c s x
  | _, .i8 x => Ch8.new x
  | _, .i16 x => Ch16.new x
  | _, .f32 x => Ch32.ofRaw x

/-- `i8::from(Ch8)` (chan.rs:134-139). -/
def Ch8.toRaw (c : Ch8) : BitVec 8 := c
/-- `i16::from(Ch16)` (chan.rs:148-153). -/
def Ch16.toRaw (c : Ch16) : BitVec 16 := c
/-- `f32::from(Ch32)` (chan.rs:162-167). -/
def Ch32.toRaw (c : Ch32) : F32 := c
/-- `f64::from(Ch64)` (chan.rs:169-174). -/
def Ch64.toRaw (c : Ch64) : F64 := c

namespace Frame
variable {c : ChTy}

/-- `Mono::new` (mono.rs:29-38). -/
def mono (one : Arg c) : Frame .mono c := #v[one.into]

/-- `Stereo::new` (stereo.rs:29-38). -/
def stereo (one two : Arg c) : Frame .stereo c := #v[one.into, two.into]

/-- `Surround::new` (surround.rs:30-45). -/
def surround (one two three four five six : Arg c) : Frame .surround c :=
  #v[one.into, two.into, three.into, four.into, five.into, six.into]

end Frame

/-- A lower bound lets an index pass (`RangeBounds::contains`). -/
def Bnd.below : Bnd → Nat → Bool
  | .inc a, i => a ≤ i
  | .exc a, i => a < i
  | .unb, _ => true

/-- An upper bound lets an index pass (`RangeBounds::contains`). -/
def Bnd.above : Bnd → Nat → Bool
  | .inc b, i => i ≤ b
  | .exc b, i => i < b
  | .unb, _ => true

/-- `RangeBounds::contains`. -/
def Rng.contains : Rng → Nat → Bool
  | .full, _ => true
  | .from_ a, i => a ≤ i
  | .upto b, i => i < b
  | .range a b, i => a ≤ i && i < b
  | .toIncl b, i => i ≤ b
  | .incl a b, i => a ≤ i && i ≤ b
  | .done b, i => b ≤ i && i < b
  | .pair a b, i => a.below i && b.above i

/-- `AudioStream` (audio.rs:412-422): private, and nothing makes one. -/
structure AudioStream (k : Kind) (c : ChTy) where
  audio : Audio k c
  cursor : Nat
  range : Rng
  size : Nat

namespace AudioStream
variable {k : Kind} {c : ChTy}

/-- `AudioStream::next` (audio.rs:424-438); `cursor += 1` is a checked addition. -/
def next (s : AudioStream k c) : R (Option (Frame k c) × AudioStream k c) :=
  if !s.range.contains s.cursor then .ok (none, s)
  else match s.audio.get s.cursor with
    | none => .ok (none, s)
    | some f => if (s.cursor : ℤ) + 1 ≤ usizeMax then .ok (some f, { s with cursor := s.cursor + 1 }) else .error .overflow

/-- `AudioStream::sample_rate` (audio.rs:443-445). -/
def rate (s : AudioStream k c) : Option F64 := some s.audio.sampleRate
/-- `AudioStream::len` (audio.rs:447-449). -/
def len (s : AudioStream k c) : Option Nat := some s.size

end AudioStream
end Fon
