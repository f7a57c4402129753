import Verif.Model.EffectsAudio
import Verif.Spec.Effects
import Verif.Spec.GenericAdapt
import Verif.Spec.GenericAudio

/-!
# Specification vocabulary for adaptors and buffers of implementations that share state
-/

namespace Fon.Eff
variable {W F G S τ ι α : Type}

/-- The shared state keeps to `Inv`, also when the computation panics, and if it returns, it returns a value with `Q`. -/
def Post (Inv : W → Prop) (Q : α → Prop) (x : E W α) : Prop :=
  ∀ w, Inv w → Inv (x w).2 ∧ ∀ a, (x w).1 = .ok a → Q a

/-- Whatever the stream says and does, the new frames come from the arithmetic of the frames (compare `Gen.Closed`); `K` is
what is known about the weights. -/
structure Closed (Inv : W → Prop) (A : FrameImpl W F) (M : StreamImpl W τ ι S) (conv : S → E W F) (Q K : F → Prop) (V : τ → Prop)
    (N : ι → Prop) : Prop where
  dflt : Post Inv Q A.dflt
  ofF64 : ∀ q, Post Inv K (A.ofF64 q)
  add : ∀ a b, Q a → Q b → Post Inv Q (A.add a b)
  mul : ∀ a w, Q a → K w → Post Inv Q (A.mul a w)
  rate : ∀ st, V st → Post Inv (fun _ => True) (M.rate st)
  len : ∀ st, V st → Post Inv (fun _ => True) (M.len st)
  set : ∀ st r, V st → Post Inv V (M.setRate st r)
  iter : ∀ st, V st → Post Inv N (M.iter st)
  next : ∀ it, N it → Post Inv (fun r => N r.2 ∧ ∀ x, r.1 = some x → Post Inv Q (conv x)) (M.next it)

/-- Two buffers, frame by frame. -/
def AudRel (P : F → G → Prop) (a : Gen.Aud F) (b : Gen.Aud G) : Prop := a.rate = b.rate ∧ List.Forall₂ P a.frames b.frames

/-- Calling `next` up to `n` times, stopping at the first `None`: the frames in order, and the iterator afterwards. -/
def takes (M : StreamImpl W τ ι S) : Nat → ι → E W (List S × ι)
  | 0, it => pure ([], it)
  | n + 1, it => do
    match ← M.next it with
    | (none, it) => pure ([], it)
    | (some x, it) => do
      let r ← takes M n it
      pure (x :: r.1, r.2)

end Fon.Eff
