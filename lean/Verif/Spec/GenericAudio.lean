import Verif.Model.GenericAudio
import Verif.Spec.Generic
import Verif.Spec.Sink

/-!
# Specification vocabulary for buffers of user-defined frames
-/

namespace Fon.Gen
variable {F S τ ι : Type}

/-- There is room for `d` more frames of `size` bytes. -/
def Aud.Room (a : Aud F) (size d : Nat) : Prop :=
  (a.frames.length + d : ℤ) < 2 ^ 64 ∧ (a.frames.length + d) * size < 2 ^ 63

instance (a : Aud F) (size d : Nat) : Decidable (a.Room size d) := inferInstanceAs (Decidable (_ ∧ _))

/-- Whatever the stream says and does, the new frames come from the arithmetic of the frames: `Q` holds for silence and for
the frames of the stream, and sums and weighted frames have it. -/
structure Closed (A : FrameImpl F) (M : StreamImpl τ ι S) (conv : S → R F) (Q : F → Prop) (V : τ → Prop) (N : ι → Prop) :
    Prop where
  dflt : Q A.dflt
  add : ∀ a b x, Q a → Q b → A.add a b = .ok x → Q x
  scale : ∀ a q w x, Q a → A.ofF64 q = .ok w → A.mul a w = .ok x → Q x
  set : ∀ st st' r, V st → M.setRate st r = .ok st' → V st'
  iter : ∀ st it, V st → M.iter st = .ok it → N it
  next : ∀ it it' o, N it → M.next it = .ok (o, it') → N it'
  frame : ∀ it it' x f, N it → M.next it = .ok (some x, it') → conv x = .ok f → Q f

end Fon.Gen
