import Verif.Model.Audio
import Verif.Spec.Sink

/-!
# Copies of copies
-/

namespace Fon
variable {k : Kind} {c : ChTy}

/-- `e` is what `a` becomes when it is made into audio of rate `rate` and back `n` times. -/
inductive Trips (rate : F64) : Nat → Audio k c → Audio k c → Prop where
  | none (a) : Trips rate 0 a a
  | more {n} {a e b e' : Audio k c} : Trips rate n a e → Audio.withStream rate (.audio e) = .ok b →
      Audio.withStream e.rate (.audio b) = .ok e' → Trips rate (n + 1) a e'

/-- How much `l` frames may change on a trip through `N` times the rate. -/
def tripErr (c : ChTy) (N l : Nat) : ℚ :=
  (mixErr c + 5 * 2 ^ (-53 : ℤ) + 2 * ((l + 1) * 2 ^ (-53 : ℤ))) * (N + 4) + (l + 1) * 2 ^ (-53 : ℤ) + mixErr c * (N + 5) +
    (l + 3) * 2 ^ (-46 : ℤ)

end Fon
