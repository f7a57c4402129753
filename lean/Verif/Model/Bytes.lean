import Verif.Model.Heap

/-!
# Raw buffers for frame types defined by the user

`Frame` is a safe trait: any type may implement it, whatever its size, alignment and padding.  The unsafe functions of
`/repo/src/audio.rs` reinterpret the memory of samples as frames and back without looking at the type.
-/

namespace Fon.Heap

/-- A byte of memory, `none` if it is not initialised. -/
abbrev Byte := Option (BitVec 8)

/-- What the compiler knows about the memory of a type: size, alignment, and which bytes are a value of it. -/
structure Ty where
  size : Nat
  align : Nat
  valid : List Byte → Bool

/-- `with_i8_buffer` .. `with_f64_buffer` (audio.rs:127-224) for any frame type: `bytes` is the memory of the buffer `b`.
The inner `none` is undefined behaviour: a frame made from bytes that are not valid for its type. -/
def withBufferOf (T : Ty) (b : Handle) (bytes : List Byte) : R (Option (Handle × List (List Byte))) :=
  if T.size = 0 then .error .divByZero
  else if b.len * b.esz % T.size ≠ 0 then .error .assert
  else
    let n := b.len * b.esz / T.size
    let frames := (List.range n).map fun i => (bytes.drop (i * T.size)).take T.size
    .ok (if frames.all T.valid then some (⟨b.ptr, n, n, T.size, T.align⟩, frames) else none)

/-- `as_i8_slice` .. `as_f64_slice` (audio.rs:319-370), and the conversions to `Box<[i8]>` etc. (499-553): the memory of
the frames is seen as samples, of which every byte has to be initialised.  `none` is undefined behaviour. -/
def samplesOf (frames : List (List Byte)) : Option (List (BitVec 8)) := frames.flatten.mapM id

end Fon.Heap
