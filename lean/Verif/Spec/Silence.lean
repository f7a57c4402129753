import Verif.Spec.Float
import Verif.Model.Chan

/-!
# Weights a channel format can hold
-/

namespace Fon

/-- The format can hold the weight `q`: integers clamp it, floats need it finite. -/
def Bears (c : ChTy) (q : F64) : Prop :=
  match c with
  | .ch8 | .ch16 => True
  | .ch32 => ∃ p, (q.cast binary32).Is p
  | .ch64 => ∃ p, q.Is p

end Fon
