import Verif.Model.Chan
import Verif.Spec.Float

/-!
# The level a sample stands for
-/

namespace Fon

/-- The level of a sample on the common scale of all formats, from -1 to 1.  The integer formats have no exact
zero: the `2^n` samples are spread evenly over the scale, `2 / (2^n - 1)` apart. -/
def Level : (c : ChTy) → c.T → ℚ → Prop
  | .ch8, x, q => q = (2 * x.toInt + 1) / 255
  | .ch16, x, q => q = (2 * x.toInt + 1) / 65535
  | .ch32, x, q => x.Is q
  | .ch64, x, q => x.Is q

instance : (c : ChTy) → (x : c.T) → (q : ℚ) → Decidable (Level c x q)
  | .ch8, x, q => inferInstanceAs (Decidable (q = (2 * (BitVec.toInt x : ℚ) + 1) / 255))
  | .ch16, x, q => inferInstanceAs (Decidable (q = (2 * (BitVec.toInt x : ℚ) + 1) / 65535))
  | .ch32, x, q => inferInstanceAs (Decidable (Fl.Is x q))
  | .ch64, x, q => inferInstanceAs (Decidable (Fl.Is x q))

/-- Half the distance between neighbouring levels of the integer formats; relative precision of the floats. -/
def ulp : ChTy → ℚ
  | .ch8 => 1 / 255
  | .ch16 => 1 / 65535
  | .ch32 => 2 ^ (-24 : ℤ)
  | .ch64 => 2 ^ (-53 : ℤ)

end Fon
