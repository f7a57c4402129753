import Verif.Model.Frame

/-!
# Layouts that keep what another layout needs
-/

namespace Fon

/-- Converting from `k1` to `k` first loses nothing that a conversion from `k1` to `k3` keeps: `k` has as many channels as
the smaller one of them, and nothing is averaged on the way from `k` to `k3`. -/
def Through (k1 k k3 : Kind) : Prop :=
  k1.builtin = true ∧ k.builtin = true ∧ k3.builtin = true ∧ (k = k3 ∨ k3 ≠ .mono ∧ min k1.chans k3.chans ≤ k.chans)

end Fon
