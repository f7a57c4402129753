import Verif.Model.Frame
import Verif.Spec.Chan

/-!
# Specification vocabulary for frames
-/

namespace Fon
variable {k : Kind} {c : ChTy}

/-- `a` is nowhere above `b`, and both are in range. -/
def FrameLe (a b : Frame k c) : Prop :=
  ∀ i (_ : i < k.chans), Valid c a[i] ∧ Valid c b[i] ∧ c.le a[i] b[i] = true

instance (a b : Frame k c) : Decidable (FrameLe a b) := inferInstanceAs (Decidable (∀ _, _))

/-- `b` is the inverse of `a`, up to the sign of zeros; both are in range. -/
def FrameOpp (a b : Frame k c) : Prop :=
  ∀ i (_ : i < k.chans), Valid c a[i] ∧ Valid c b[i] ∧ ∃ p, Stored c a[i] p ∧ Stored c b[i] (-p)

end Fon
