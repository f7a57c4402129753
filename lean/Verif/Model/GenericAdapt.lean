import Verif.Model.Generic

/-!
# `Stream::take` and `Stream::blend` for any implementation of `Stream`

The adaptors are provided methods, so they also wrap streams that the user defines; here these are arbitrary, as in
`Verif.Model.Generic`.
-/

namespace Fon.Gen
variable {S T τ τ' ι ι' : Type}

/-- `TakeStream` (streaming.rs:184-213) with `core::iter::Take`. -/
def takeImpl (M : StreamImpl τ ι S) : StreamImpl (τ × Nat) (ι × Nat) S where
  rate st := M.rate st.1
  len st := some (match M.len st.1 with
    | some a => min a st.2
    | none => st.2)
  setRate st r := (M.setRate st.1 r).map (·, st.2)
  iter st := (M.iter st.1).map (·, st.2)
  next it := match it.2 with
    | 0 => .ok (none, it)
    | n + 1 => (M.next it.1).map fun x => (x.1, x.2, n)

/-- `BlendStream` (streaming.rs:215-275) with `core::iter::Zip` and `core::iter::Map`; `mix` is conversion of the second
frame followed by `mix_frames`. -/
def blendImpl (M : StreamImpl τ ι S) (L : StreamImpl τ' ι' T) (mix : S → T → R S) : StreamImpl (τ × τ') (ι × ι') S where
  rate st := M.rate st.1
  len st := match M.len st.1, L.len st.2 with
    | none, none => none
    | none, some l => some l
    | some l, none => some l
    | some a, some b => some (min a b)
  setRate st r := do
    let a ← M.setRate st.1 r
    let b ← L.setRate st.2 r
    pure (a, b)
  iter st := do
    let a ← M.iter st.1
    let b ← L.iter st.2
    pure (a, b)
  next it := do
    match ← M.next it.1 with
    | (none, a) => pure (none, a, it.2)
    | (some x, a) => do
      match ← L.next it.2 with
      | (none, b) => pure (none, a, b)
      | (some y, b) => do
        let z ← mix x y
        pure (some z, a, b)

/-- `Stream::blend` (streaming.rs:157-181): the two streams of the result. -/
def blend (M : StreamImpl τ ι S) (L : StreamImpl τ' ι' T) (st : τ) (st' : τ') : R (τ × τ') :=
  if Src.optEq (M.rate st) (L.rate st') then .ok (st, st')
  else match M.rate st, L.rate st' with
    | none, none => .ok (st, st')
    | none, some sr => (M.setRate st sr).map (·, st')
    | some sr, none => (L.setRate st' sr).map (st, ·)
    | some _, some _ => .error .assert

end Fon.Gen
