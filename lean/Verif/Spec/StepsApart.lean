import Verif.Model.Frame
import Verif.Spec.Chan

/-!
# Specification vocabulary: how far two samples are apart
-/

namespace Fon

/-- Two samples are at most `n` steps of an integer format apart, or `m` units in the last place of 1 of a float format. -/
def StepsApart (n m : Nat) : (c : ChTy) → c.T → c.T → Prop
  | .ch8, x, y => |x.toInt - y.toInt| ≤ n
  | .ch16, x, y => |x.toInt - y.toInt| ≤ n
  | .ch32, x, y => ∃ p q, x.Is p ∧ y.Is q ∧ |p - q| ≤ m * 2 ^ (-24 : ℤ)
  | .ch64, x, y => ∃ p q, x.Is p ∧ y.Is q ∧ |p - q| ≤ m * 2 ^ (-53 : ℤ)

/-- The same for what two streams give at some place: nothing, or frames whose channels are that far apart. -/
def FramesApart (n m : Nat) {k : Kind} {c : ChTy} : Option (Frame k c) → Option (Frame k c) → Prop
  | none, none => True
  | some f, some g => ∀ i (h : i < k.chans), StepsApart n m c f[i] g[i]
  | _, _ => False

end Fon
