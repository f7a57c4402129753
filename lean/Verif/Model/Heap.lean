import Verif.Model.Audio

/-!
# Memory ownership in the unsafe conversions of `/repo/src/audio.rs`

Only allocation and ownership are modelled here (contents: `Audio.withBuffer`, `Audio.asSamples`).
A block of size zero is never allocated nor freed, as in the Rust allocator API.
-/

namespace Fon.Heap

/-- Size and alignment of an allocation in bytes. -/
structure Layout where
  size : Nat
  align : Nat
deriving DecidableEq

/-- The heap: live blocks by address, and the next fresh address. -/
structure Mem where
  live : Nat → Option Layout
  fresh : Nat

/-- Undefined behaviour. -/
inductive UB where
  /-- freeing or accessing a block that is not live -/
  | notLive
  /-- freeing with a layout other than the one it was allocated with -/
  | badLayout
deriving DecidableEq

abbrev M (α : Type) := Except UB α

/-- `alloc`. -/
def alloc (m : Mem) (l : Layout) : Mem × Nat :=
  if l.size = 0 then (m, 0)
  else (⟨fun p => if p = m.fresh then some l else m.live p, m.fresh + 1⟩, m.fresh)

/-- `dealloc`. -/
def dealloc (m : Mem) (p : Nat) (l : Layout) : M Mem :=
  if l.size = 0 then .ok m
  else match m.live p with
    | none => .error .notLive
    | some l' => if l' = l then .ok { m with live := fun q => if q = p then none else m.live q }
      else .error .badLayout

/-- A `Vec<T>`, `VecDeque<T>` or (with `cap = len`) `Box<[T]>`: pointer, length and capacity in
elements, size and alignment of an element. -/
structure Handle where
  ptr : Nat
  len : Nat
  cap : Nat
  esz : Nat
  eal : Nat

/-- The layout the handle frees. -/
def Handle.layout (h : Handle) : Layout := ⟨h.cap * h.esz, h.eal⟩

/-- `drop`. -/
def Handle.drop (m : Mem) (h : Handle) : M Mem := dealloc m h.ptr h.layout

/-- Reading or writing an element. -/
def Handle.access (m : Mem) (h : Handle) : M Unit :=
  if h.len * h.esz = 0 then .ok ()
  else match m.live h.ptr with
    | none => .error .notLive
    | some l => if h.len * h.esz ≤ l.size then .ok () else .error .badLayout

/-- `Vec<T> -> Box<[T]>` (`into_boxed_slice`, via `From` in audio.rs:491-497): gives back unused
capacity. -/
def vecToBox (m : Mem) (v : Handle) : M (Mem × Handle) :=
  if v.cap = v.len then .ok (m, v)
  else match dealloc m v.ptr v.layout with
    | .error e => .error e
    | .ok m =>
      let (m, p) := alloc m ⟨v.len * v.esz, v.eal⟩
      .ok (m, { v with ptr := p, cap := v.len })

/-- `Vec::with_capacity(cap)` holding `len` elements (also `vec![..]`, `Box<[T]>` for
`cap = len`). -/
def vecNew (m : Mem) (len cap esz eal : Nat) : Mem × Handle :=
  let (m, p) := alloc m ⟨cap * esz, eal⟩
  (m, ⟨p, len, cap, esz, eal⟩)

/-- `with_i8_buffer` .. `with_f64_buffer` (audio.rs:127-224).  `Box::into_raw` gives up ownership of
`buffer`, `Box::from_raw` takes it with the frame type; `Box -> Vec -> VecDeque` moves it.  Nothing
else is dropped at the end of the function.  `fsz` is `size_of::<F>()`; `F` has the alignment of its
channels. -/
def withBuffer (m : Mem) (b : Handle) (fsz : Nat) : Mem × Handle :=
  let n := b.len * b.esz / fsz
  (m, ⟨b.ptr, n, n, fsz, b.eal⟩)

/-- `From<Audio<F>> for Vec<F>` (audio.rs:484-489): `VecDeque -> Vec` keeps the block. -/
def toVec (m : Mem) (a : Handle) : Mem × Handle := (m, a)

/-- `From<Audio<F>> for Box<[F]>` (audio.rs:491-497). -/
def toBoxFrames (m : Mem) (a : Handle) : M (Mem × Handle) := vecToBox m a

/-- `From<Audio<F>> for Box<[i8]>`, `Box<[i16]>`, `Box<[f32]>`, `Box<[f64]>` (audio.rs:499-553).
`Box::from_raw` makes a second owner of the block of `frames`; `frames` is not forgotten, so it is
dropped when the function returns.  `ssz` is the size of a sample. -/
def toBoxSamples (m : Mem) (a : Handle) (ssz : Nat) : M (Mem × Handle) :=
  let frames := a
  let capacity := frames.len * frames.esz / ssz
  let buffer : Handle := ⟨frames.ptr, capacity, capacity, ssz, frames.eal⟩
  match frames.drop m with
  | .error e => .error e
  | .ok m => .ok (m, buffer)

end Fon.Heap
