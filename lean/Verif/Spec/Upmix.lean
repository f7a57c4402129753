import Verif.Model.Chan
import Mathlib.Data.Rat.Floor

/-!
# Shares of a frame when upsampling
-/

namespace Fon

/-- The weight that a format can hold: the integer formats stop at 1. -/
def gain : ChTy → ℚ → ℚ
  | .ch8, t => min t 1
  | .ch16, t => min t 1
  | .ch32, t => t
  | .ch64, t => t

/-- The part of a frame at position `p` that slot `x` gets when the ratio is `r ≥ 1`: the frame goes to the slot below
its position with weight `r` less the fraction, and to the next slot with the fraction. -/
def upShare (c : ChTy) (r : ℚ) (x : ℕ) (p : ℚ) : ℚ :=
  if ⌊p⌋ = x then gain c (r - (p - ⌊p⌋)) else if ⌊p⌋ + 1 = x then p - ⌊p⌋ else 0

end Fon
