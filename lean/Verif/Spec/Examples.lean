import Verif.Spec.Float

/-!
# The example programs
-/

namespace Fon

/-- The condition for a panic on a file of `l` frames: the length is a multiple of 147 and the product of the rounded
ratio and the length is too large. -/
def Overshoots (l : Nat) : Prop :=
  147 ∣ l ∧ (160 * l : ℚ) / 147 + 2 ^ (-52 : ℤ) < binary64.rnd (binary64.rnd (160 / 147) * l)

end Fon
