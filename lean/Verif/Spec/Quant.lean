import Verif.Proofs.Fl

/-! Vocabulary of C12 -/

namespace Fon

/-- `x`, scaled by `s`, is below all floats. -/
def Fl.Low {f : Fmt} (x : Fl f) (s : ℚ) : Prop := x = .inf true ∨ ∃ p, x.Is p ∧ f.rnd (p * s) < -f.maxF

end Fon
