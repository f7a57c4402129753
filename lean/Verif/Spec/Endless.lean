import Verif.Spec.Float

/-!
# Positions past the end
-/

namespace Fon

/-- The position `x` is at slot `n` or past it. -/
def Fl.Reaches (x : F64) (n : Nat) : Prop := x = .inf false ∨ ∃ p, x.Is p ∧ (n : ℚ) ≤ p

end Fon
