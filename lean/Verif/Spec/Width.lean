import Verif.Spec.Sink

/-!
# Reference terms for targets with a narrower `usize`
-/

namespace Fon
open Fl

/-- A position at or past the largest `usize` of `W` bits that is not a whole number. -/
def Beyond (W : Nat) (x : F64) : Prop :=
  ∃ p, x.Is p ∧ (2:ℚ) ^ W - 1 ≤ p ∧ 2 ^ (-52 : ℤ) < p - truncQ p

end Fon
