import Verif.Spec.Sink

/-!
# Accuracy of resampling to a lower rate
-/

namespace Fon

/-- How far a slot of a sink with `B` slots may be from the mean of the stream over its time at ratio `r` (`C59_whole`). -/
def boxErr (c : ChTy) (r : ℚ) (B : Nat) : ℚ :=
  (mixErr c + 5 * 2 ^ (-53 : ℤ) + 2 * ((B + 1) * 2 ^ (-53 : ℤ))) * (1 / r + 3) + (B + 1) * 2 ^ (-53 : ℤ)

/-- How far the mean over a slot below `B` moves if the ratio `r` is off by a factor of `1 + e`. -/
def driftErr (r e : ℚ) (B : Nat) : ℚ := 2 * (e * (B + 2)) * (3 / r + 1)

end Fon
