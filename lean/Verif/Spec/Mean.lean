import Verif.Spec.Float

/-!
# Means that can be computed
-/

namespace Fon

/-- The infinities are not opposite. -/
def Fl.Agree {f : Fmt} (x y : Fl f) : Prop := ¬ (x = .inf true ∧ y = .inf false)

/-- The sum of two numbers is a number. -/
def Fl.Adds {f : Fmt} (x y : Fl f) : Prop := ∀ p q, x.Is p → y.Is q → |f.rnd (p + q)| ≤ f.maxF

end Fon
