import Verif.Model.Frame
import Verif.Spec.Sink
import Mathlib.Algebra.BigOperators.Group.Finset.Basic

/-!
# Specification vocabulary for effects that mix channels
-/

namespace Fon
variable {k : Kind} {c : ChTy}

/-- An operation on frames whose channel `i` is a sum of the channels, each with a volume of at most 1, up to an error `E`:
if the levels of the channels are within `e` of levels `u` that add up to at most 1 (so that there is no clipping), then
the result is within `E`, and `e` for each channel, of the sum with the levels `u`. -/
def LinearAt (op : Frame k c → R (Frame k c)) (i : Nat) (hi : i < k.chans) (E : ℚ) : Prop :=
  ∃ A : Nat → ℚ, (∀ j, |A j| ≤ 1) ∧ ∀ (f : Frame k c) (a u : Nat → ℚ) (e : ℚ), f.InRange →
    (∀ j (hj : j < k.chans), SampleVal c f[j] (a j) ∧ |a j - u j| ≤ e) → ∑ j ∈ Finset.range k.chans, |u j| ≤ 1 →
    ∃ (g : Frame k c) (m : ℚ), op f = .ok g ∧ SampleVal c g[i] m ∧
      |m - ∑ j ∈ Finset.range k.chans, u j * A j| ≤ k.chans * e + E

end Fon
