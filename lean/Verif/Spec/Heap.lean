import Verif.Model.Bytes

/-!
# Specification vocabulary for memory ownership
-/

namespace Fon.Heap

/-- The handle may be used and dropped: its block is live with the layout the handle frees, and there is room for its
elements. -/
def Owns (m : Mem) (h : Handle) : Prop :=
  h.len ≤ h.cap ∧ (h.cap * h.esz = 0 ∨ m.live h.ptr = some ⟨h.cap * h.esz, h.eal⟩)

/-- The blocks that two handles free are different. -/
def Apart (g h : Handle) : Prop := g.cap * g.esz = 0 ∨ h.cap * h.esz = 0 ∨ g.ptr ≠ h.ptr

/-- Drop handles one after another. -/
def dropAll (m : Mem) : List Handle → M Mem
  | [] => .ok m
  | h :: hs => match h.drop m with
    | .error e => .error e
    | .ok m => dropAll m hs

/-- Addresses from `fresh` on are not in use. -/
def Mem.Ok (m : Mem) : Prop := ∀ p, m.fresh ≤ p → m.live p = none

/-- Bytes of an `i8`, `i16`, `f32`, `f64`. -/
def sampleBytes : ChTy → Nat
  | .ch8 => 1
  | .ch16 => 2
  | .ch32 => 4
  | .ch64 => 8

/-- A type of which every sequence of initialised bytes is a value. -/
def Ty.AnyBytes (T : Ty) : Prop := ∀ x : List (BitVec 8), x.length = T.size → T.valid (x.map some) = true

/-- A type without padding: the values have no uninitialised bytes. -/
def Ty.NoPadding (T : Ty) : Prop := ∀ v, v.length = T.size → T.valid v = true → ∀ b ∈ v, b ≠ none

/-- Making audio with frames of type `T` from a buffer of samples, reading or writing it, and dropping it has no undefined behaviour (it may
panic), whatever the samples. -/
def BufferSafe (T : Ty) (ssz sal : Nat) : Prop :=
  ∀ (m : Mem) (b : Handle) (x : List (BitVec 8)), Owns m b → b.cap = b.len → b.esz = ssz → b.eal = sal →
    x.length = b.len * b.esz →
    ∀ r, withBufferOf T b (x.map some) = .ok r → ∃ a fs, r = some (a, fs) ∧ a.access m = .ok () ∧ (a.drop m).toBool = true

/-- `Mono`, `Stereo`, `Surround` (transparent around an array, mono.rs:24, stereo.rs:24, surround.rs:25): no padding, the
alignment of the samples, every byte is fine. -/
def builtinTy (k : Kind) (c : ChTy) : Ty :=
  ⟨k.chans * sampleBytes c, sampleBytes c, fun v => v.all Option.isSome⟩

end Fon.Heap
