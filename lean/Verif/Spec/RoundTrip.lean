import Verif.Model.Chan
import Verif.Spec.Float

/-!
# What comes back of a sample
-/

namespace Fon

/-- What a sample arrives as when it is downsampled by the factor `N` and is the only one that is not silent: a `N`-th
of it, in the integer formats with the weight rounded down and the product rounded to zero. -/
def Downed (N : Nat) : (c : ChTy) → c.T → c.T → Prop
  | .ch8, x, y => y.toInt = (x.toInt * ((255 / (2 * N) : Nat) : ℤ)).tdiv 127
  | .ch16, x, y => y.toInt = (x.toInt * ((65535 / (2 * N) : Nat) : ℤ)).tdiv 32767
  | .ch32, x, y => ∀ p, x.Is p → |p| ≤ 1 → y.Is (binary32.rnd (p / N))
  | .ch64, x, y => ∀ p, x.Is p → |p| ≤ 1 → y.Is (binary64.rnd (p / N))

/-- What comes back of a sample after upsampling by the factor `N` and downsampling by the same: in the float formats
the sample with everything above `1 / N` cut off, in the integer formats a `N`-th of it. -/
def Returned (N : Nat) : (c : ChTy) → c.T → c.T → Prop
  | .ch8, x, y => y.toInt = (x.toInt * ((255 / (2 * N) : Nat) : ℤ)).tdiv 127
  | .ch16, x, y => y.toInt = (x.toInt * ((65535 / (2 * N) : Nat) : ℤ)).tdiv 32767
  | .ch32, x, y => ∀ p, x.Is p → |p| ≤ 1 → y.Is (max (-(1 / N)) (min p (1 / N)))
  | .ch64, x, y => ∀ p, x.Is p → |p| ≤ 1 → y.Is (max (-(1 / N)) (min p (1 / N)))

end Fon
