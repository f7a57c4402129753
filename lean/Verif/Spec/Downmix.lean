import Verif.Model.Chan

/-!
# Accuracy of down-mixing
-/

namespace Fon

/-- Half a step of a format, and the accuracy of the arithmetic. -/
def downErr : ChTy → ℚ
  | .ch8 => 1 / 255 + 2 ^ (-49 : ℤ)
  | .ch16 => 1 / 65535 + 2 ^ (-49 : ℤ)
  | .ch32 => 2 ^ (-24 : ℤ) + 2 ^ (-52 : ℤ)
  | .ch64 => 2 ^ (-52 : ℤ)

end Fon
