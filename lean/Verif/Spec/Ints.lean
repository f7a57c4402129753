import Mathlib.Algebra.BigOperators.Fin
import Mathlib.Data.Int.Basic
import Verif.Model.Rust

/-!
# Integers of a fixed width, independently of the model
-/

namespace Fon

/-- `x` stands for `v` in two's complement: the highest bit counts negative. -/
def SignedBits {n : Nat} (x : BitVec n) (v : ℤ) : Prop :=
  v = ∑ i : Fin n, (if x[i] then (if (i:ℕ) + 1 = n then -2 ^ (i:ℕ) else 2 ^ (i:ℕ)) else 0)

/-- `x` stands for `v` without sign. -/
def PlainBits {n : Nat} (x : BitVec n) (v : ℤ) : Prop := v = ∑ i : Fin n, (if x[i] then 2 ^ (i:ℕ) else 0)

/-- `q` is `a / b` without the part after the point: the remainder is smaller than the divisor and has the sign of `a`. -/
def Quotient (a b q : ℤ) : Prop := ∃ r, a = q * b + r ∧ |r| < |b| ∧ 0 ≤ r * a

end Fon
