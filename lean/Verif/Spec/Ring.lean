import Verif.Model.Ring

/-!
# Specification vocabulary for the ring buffer
-/

namespace Fon
variable {k : Kind} {c : ChTy}

/-- The ring buffer `r` has the contents `a`, all in one piece. -/
def Holds (r : RingAudio k c) (a : Audio k c) : Prop :=
  r.rate = a.rate ∧ r.len = a.len ∧ (∀ i, r.get i = (a.get i).map some) ∧ r.frames.head + r.frames.len ≤ r.frames.cap

/-- What can be done with an `Audio`. -/
inductive Op (k : Kind) (c : ChTy) : Type where
  /-- `get_mut`, if there is such a frame -/
  | set (i : Nat) (f : Frame k c)
  /-- `iter_mut` -/
  | each (g : Nat → Frame k c → Frame k c)
  /-- `as_slice` or `sink`, and overwriting any frames -/
  | slice (g : List (Frame k c) → List (Frame k c)) (hg : ∀ xs, (g xs).length = xs.length)
  /-- `drain`, taking up to `n` frames -/
  | drain (n : Nat)
  /-- `extend`, whether it panics or not -/
  | extend {k' : Kind} {c' : ChTy} (st : Src k' c')

/-- The operation on a list of frames. -/
def Op.onList (a : Audio k c) : Op k c → Audio k c
  | .set i f => (a.setMut i f).getD a
  | .each g => a.iterMut g
  | .slice g _ => { a with frames := g a.asSlice }
  | .drain n => { a with frames := a.frames.drop n }
  | .extend st => (a.extend st).1

/-- The operation on the ring buffer; `none` if it panics where it must not or uses uninitialised memory. -/
def Op.onRing (r : RingAudio k c) : Op k c → Option (RingAudio k c)
  | .set i f => some ((r.setMut i f).getD r)
  | .each g => some (r.iterMut g)
  | .slice g _ => (RingAudio.init r.asSlice.2.1).map fun xs => { r with frames := r.asSlice.1.frames.write (g xs) }
  | .drain n => match r.dropDrain (min n r.len) with
    | .ok r => some r
    | .error _ => none
  | .extend st => (r.extend st).map (·.1)

end Fon
