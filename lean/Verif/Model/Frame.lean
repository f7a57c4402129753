import Verif.Model.Chan

/-!
# Model of `/repo/src/frame.rs`, `mono.rs`, `stereo.rs`, `surround.rs`
-/

namespace Fon

/-- Speaker layouts.  `Frame` is not sealed (frame.rs:26), so besides the three layouts of the crate
there are custom ones with some number of channels and some `CONFIG`.  Simplification: custom layouts
use the provided methods and channel-wise arithmetic. -/
inductive Kind where
  /-- `Mono` (mono.rs:21-27) -/
  | mono
  /-- `Stereo` (stereo.rs:21-27) -/
  | stereo
  /-- `Surround` (surround.rs:21-28) -/
  | surround
  | custom (n : Nat) (cfg : List F64)
deriving DecidableEq

namespace Kind

/-- Number of channels, `Frame::CHAN_COUNT` (frame.rs:49; array sizes in mono.rs:26, stereo.rs:26,
surround.rs:27). -/
@[reducible] def chans : Kind → Nat
  | mono => 1
  | stereo => 2
  | surround => 6
  | custom n _ => n

/-- `Frame::CONFIG` (mono.rs:41, stereo.rs:41, surround.rs:49-55). -/
def config : Kind → List F64
  | mono => [Fl.lit 0]
  | stereo => [Fl.lit (-0.5), Fl.lit 0.5]
  | surround => [Fl.div (Fl.lit (-2)) (Fl.lit 3), Fl.div (Fl.lit (-1)) (Fl.lit 3),
      Fl.div (Fl.lit 0) (Fl.lit 3), Fl.div (Fl.lit 1) (Fl.lit 3), Fl.div (Fl.lit 2) (Fl.lit 3)]
  | custom _ cfg => cfg

/-- One of the three layouts of the crate. -/
def builtin : Kind → Bool
  | custom _ _ => false
  | _ => true

end Kind

/-- A frame of layout `k` with channels of format `c`. -/
abbrev Frame (k : Kind) (c : ChTy) := Vector c.T k.chans

namespace Frame
variable {k : Kind} {c : ChTy}

/-- `Default` (derived, mono.rs:23, stereo.rs:23, surround.rs:24). -/
def dflt : Frame k c := Vector.replicate k.chans c.dflt

/-- `Frame::from_f64` (frame.rs:63-70). -/
def ofF64 (x : F64) : Frame k c := (dflt : Frame k c).map (fun _ => c.ofF64 x)

/-- `Frame::from_channel` (frame.rs:72-79). -/
def fromChannel (x : c.T) : Frame k c := (dflt : Frame k c).map (fun _ => x)

/-- `Frame::from_channels` (mono.rs:53-55, stereo.rs:53-55, surround.rs:67-69): indexes
`ch[0], ch[1], ..` and panics on the first index out of bounds. -/
def fromChannels (ch : List c.T) : R (Frame k c) :=
  if h : k.chans ≤ ch.length then .ok (Vector.ofFn fun i => ch[i.val]'(by omega))
  else .error .bounds

/-- `Frame::from_mono` (frame.rs:84-87). -/
def fromMono (m : Frame .mono c) : Frame k c := fromChannel m[0]

/-- `Add`/`AddAssign` (mono.rs:58-73, stereo.rs:58-73, surround.rs:72-87): loop over zipped
channels. -/
def add (a b : Frame k c) : Frame k c := Vector.zipWith c.add a b
/-- `Sub`/`SubAssign` (mono.rs:75-90, stereo.rs:75-90, surround.rs:89-104). -/
def sub (a b : Frame k c) : Frame k c := Vector.zipWith c.sub a b
/-- `Mul`/`MulAssign` (mono.rs:92-107, stereo.rs:92-107, surround.rs:106-121). -/
def mul (a b : Frame k c) : Frame k c := Vector.zipWith c.mul a b
/-- `Div`/`DivAssign` (mono.rs:109-124, stereo.rs:109-124, surround.rs:123-138): stops at the first
channel whose division panics. -/
def div (a b : Frame k c) : R (Frame k c) := (Vector.zip a b).mapM (fun p => c.div p.1 p.2)
/-- `Neg` (mono.rs:126-136, stereo.rs:126-136, surround.rs:140-150). -/
def neg (a : Frame k c) : Frame k c := a.map c.neg

/-- `Frame::lerp` (frame.rs:89-99). -/
def lerp (a rhs t : Frame k c) : Frame k c :=
  Vector.zipWith (fun x (yt : c.T × c.T) => c.lerp x yt.1 yt.2) a (Vector.zip rhs t)

/-- `PartialEq` (derived). -/
def beq (a b : Frame k c) : Bool := (Vector.zipWith c.beq a b).all id

/-- `D::Chan::from_f64(src.to_f64())` as used by `Frame::convert` (frame.rs:116 and below). -/
def chanConv (d : ChTy) (x : c.T) : d.T := d.ofF64 (c.toF64 x)

/-- `D::Chan::from_f64((l.to_f64() + r.to_f64()) * 0.5)` (frame.rs:171-174, 184-187). -/
def chanAvg (d : ChTy) (l r : c.T) : d.T :=
  d.ofF64 (((c.toF64 l).add (c.toF64 r)).mul (Fl.lit 0.5))

/-- `Frame::convert` (frame.rs:101-196).  The `TypeId` tests select on the layouts. -/
def convert {k k' : Kind} {c : ChTy} (d : ChTy) (fr : Frame k c) : R (Frame k' d) :=
  match k, k', fr with
  -- Same type, 1:1 (frame.rs:105-120)
  | .mono, .mono, fr | .stereo, .stereo, fr | .surround, .surround, fr =>
    let out := List.replicate 6 d.MID
    fromChannels (List.zipWith (fun src _ => chanConv d src) fr.toList out
      ++ out.drop fr.toList.length)
  -- Mono -> Stereo (frame.rs:121-131)
  | .mono, .stereo, fr => fromChannels [chanConv d fr[0], chanConv d fr[0]]
  -- Mono -> Surround (frame.rs:132-142)
  | .mono, .surround, fr =>
    fromChannels [d.MID, chanConv d fr[0], d.MID, chanConv d fr[0], d.MID, d.MID]
  -- Stereo -> Surround (frame.rs:143-153)
  | .stereo, .surround, fr =>
    fromChannels [d.MID, chanConv d fr[0], d.MID, chanConv d fr[1], d.MID, d.MID]
  -- Surround -> Stereo (frame.rs:154-164)
  | .surround, .stereo, fr => fromChannels [chanConv d fr[1], chanConv d fr[3]]
  -- Surround -> Mono (frame.rs:165-177)
  | .surround, .mono, fr => fromChannels [chanAvg d fr[1] fr[3]]
  -- Stereo -> Mono (frame.rs:178-190)
  | .stereo, .mono, fr => fromChannels [chanAvg d fr[0] fr[1]]
  -- frame.rs:191-194
  | .custom _ _, _, _ | _, .custom _ _, _ => .error .customConvert

end Frame
end Fon
