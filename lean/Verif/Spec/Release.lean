import Verif.Model.Rust

/-!
# Comparing debug and release builds
-/

namespace Fon

/-- Two results are alike: the same value, or a panic on both sides. -/
def Alike {α : Type} (a b : R α) : Prop := (∃ x, a = .ok x ∧ b = .ok x) ∨ ∃ e e', a = .error e ∧ b = .error e'

end Fon
