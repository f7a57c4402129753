import Verif.Model.Audio

/-!
# Model of the ring buffer under `Audio`

`Audio` keeps its frames in a `VecDeque` (audio.rs:47).  `Verif.Model.Audio` treats it as a list; here it is the ring
buffer of the standard library (`alloc::collections::vec_deque`, since Rust 1.67): an allocation, the slot of the first
element and the number of elements, with wrap-around.  `Verif.Props.Ring` proves that the two models agree.

Simplifications: frames are not zero-sized; dropping frames has no effect (`Frame: Copy`).
-/

namespace Fon

/-- `VecDeque`: the allocation (`none` is uninitialised memory), the slot of the first element, the number of elements. -/
structure Ring (α : Type) where
  mem : List (Option α)
  head : Nat
  len : Nat
deriving DecidableEq

namespace Ring
variable {α : Type}

/-- `capacity`. -/
def cap (r : Ring α) : Nat := r.mem.length

/-- `to_physical_idx`: the slot of element `i`. -/
def phys (r : Ring α) (i : Nat) : Nat := if r.cap ≤ r.head + i then r.head + i - r.cap else r.head + i

/-- `From<Vec<T>>`: takes over the allocation of the vector, which has room for `spare` more elements. -/
def ofVec (xs : List α) (spare : Nat) : Ring α := ⟨xs.map some ++ List.replicate spare none, 0, xs.length⟩

/-- `get`.  The outer `none` is the result `None`, the inner one an uninitialised element. -/
def get (r : Ring α) (i : Nat) : Option (Option α) := if i < r.len then r.mem[r.phys i]? else none

/-- Assignment through `get_mut`. -/
def setMut (r : Ring α) (i : Nat) (x : α) : Option (Ring α) :=
  if i < r.len then some { r with mem := r.mem.set (r.phys i) (some x) } else none

/-- `as_slices`, which `iter` and `iter_mut` go through. -/
def slices (r : Ring α) : List (Option α) × List (Option α) :=
  if r.head + r.len ≤ r.cap then ((r.mem.drop r.head).take r.len, [])
  else (r.mem.drop r.head, r.mem.take (r.head + r.len - r.cap))

/-- `iter`, collected. -/
def iter (r : Ring α) : List (Option α) := r.slices.1 ++ r.slices.2

/-- Update of every element through `iter_mut`. -/
def iterMut (r : Ring α) (g : Nat → α → α) : Ring α :=
  (List.range r.len).foldl (fun s i => { s with mem := s.mem.modify (r.phys i) (Option.map (g i)) }) r

/-- `is_contiguous`. -/
def isContiguous (r : Ring α) : Bool := r.head ≤ r.cap - r.len

/-- `make_contiguous`: the ring afterwards and how many elements had to be moved.  The standard library has several
ways to move them, this is one. -/
def makeContiguous (r : Ring α) : Ring α × Nat :=
  if r.isContiguous then (r, 0)
  else (⟨r.iter ++ List.replicate (r.cap - r.len) none, 0, r.len⟩, r.len)

/-- The slice that `make_contiguous` returns. -/
def slice (r : Ring α) : List (Option α) := (r.mem.drop r.head).take r.len

/-- Overwrite the elements of a contiguous ring through the slice of `make_contiguous`. -/
def write (r : Ring α) (xs : List α) : Ring α :=
  { r with mem := r.mem.take r.head ++ xs.map some ++ r.mem.drop (r.head + r.len) }

/-- `drain(..n)`, dropped at once: no element has to be moved, the ring starts `n` slots later (in slot 0 if nothing
is left).  Panics if there are fewer than `n` elements. -/
def drainFront (r : Ring α) (n : Nat) : R (Ring α) :=
  if r.len < n then .error .bounds
  else if r.len - n = 0 then .ok { r with head := 0, len := 0 }
  else .ok { r with head := r.phys n, len := r.len - n }

/-- `From<VecDeque<T>> for Vec<T>`: contiguous, then moved to the start of the allocation.  The elements of the vector,
and how many of them had to be moved. -/
def toVec (r : Ring α) : List (Option α) × Nat :=
  let (s, m) := r.makeContiguous
  (s.slice, m + if s.head = 0 then 0 else s.len)

end Ring

/-- `Audio` (audio.rs:44-48) with its `VecDeque`. -/
structure RingAudio (k : Kind) (c : ChTy) where
  rate : F64
  frames : Ring (Frame k c)

namespace RingAudio
variable {k k' : Kind} {c c' : ChTy}

/-- `get` (audio.rs:53-56). -/
def get (a : RingAudio k c) (i : Nat) : Option (Option (Frame k c)) := a.frames.get i
/-- Assignment through `get_mut` (audio.rs:58-61). -/
def setMut (a : RingAudio k c) (i : Nat) (f : Frame k c) : Option (RingAudio k c) :=
  (a.frames.setMut i f).map fun r => { a with frames := r }
/-- `as_slice` (audio.rs:63-68): the buffer afterwards, the slice, and how many frames had to be moved. -/
def asSlice (a : RingAudio k c) : RingAudio k c × List (Option (Frame k c)) × Nat :=
  let (r, m) := a.frames.makeContiguous
  ({ a with frames := r }, r.slice, m)
/-- `iter` (audio.rs:70-73), collected. -/
def iter (a : RingAudio k c) : List (Option (Frame k c)) := a.frames.iter
/-- Update of every frame through `iter_mut` (audio.rs:75-78). -/
def iterMut (a : RingAudio k c) (g : Nat → Frame k c → Frame k c) : RingAudio k c :=
  { a with frames := a.frames.iterMut g }
/-- `with_frame` (audio.rs:80-85), `with_frames` (112-125), and the end of `with_i8_buffer` etc. (127-224): the vector
comes from a boxed slice or from `vec!`, so it has no room to spare. -/
def withFrames (rate : F64) (frames : List (Frame k c)) : RingAudio k c := ⟨rate, .ofVec frames 0⟩
/-- `len` (audio.rs:226-229). -/
def len (a : RingAudio k c) : Nat := a.frames.len
/-- `Drop for AudioDrain` (audio.rs:478-482) after `n` frames were taken. -/
def dropDrain (a : RingAudio k c) (n : Nat) : R (RingAudio k c) :=
  (a.frames.drainFront n).map fun r => { a with frames := r }

/-- The frames of a slice or a vector, if all are initialised. -/
def init (xs : List (Option (Frame k c))) : Option (List (Frame k c)) := xs.mapM id

/-- `sink` (audio.rs:241-257): `as_slice`, then the region of it.  `none` if the slice has uninitialised frames. -/
def sink (a : RingAudio k c) (reg : Rng) : Option (RingAudio k c × R (AudioSink k c)) :=
  (init a.asSlice.2.1).map fun xs => (a.asSlice.1, (Audio.withFrames a.rate xs).sink reg)

/-- The buffer after writing to a sink of it. -/
def release (a : RingAudio k c) (s : AudioSink k c) : RingAudio k c :=
  { a with frames := a.frames.write s.release.frames }

/-- `extend_internal` (audio.rs:285-317).  `none` if uninitialised frames are copied. -/
def extendInternal (a : RingAudio k c) (st : Src k' c') : Option (R (RingAudio k c × It k' c')) :=
  match st.len with
  | none => some (.error .unwrapNone)
  | some srclen =>
    let dstlen := Audio.dstLen a.rate srclen st.rate
    match init a.frames.toVec.1 with
    | none => none
    | some old =>
      if usizeMax < (old.length + dstlen : ℤ) then some (.error .overflow)
      else if Audio.isizeMax < (old.length + dstlen) * k.size c then some (.error .capacity)
      else
        match (withFrames a.rate (old ++ List.replicate dstlen Frame.dflt)).sink (.from_ old.length) with
        | none => none
        | some (_, .error e) => some (.error e)
        | some (audio, .ok s) => match s.stream (srclen + 1) st with
          | .error e => some (.error e)
          | .ok (s, it) => match s.flush with
            | .error e => some (.error e)
            | .ok s => some (.ok (audio.release s, it))

/-- `extend` (audio.rs:268-283). -/
def extend (a : RingAudio k c) (st : Src k' c') : Option (RingAudio k c × R (It k' c')) :=
  match a.extendInternal st with
  | none => none
  | some (.ok (a, it)) => some (a, .ok it)
  | some (.error e) => some (withFrames (Fl.lit 0) [], .error e)

end RingAudio
end Fon
