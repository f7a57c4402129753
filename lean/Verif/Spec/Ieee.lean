import Verif.Spec.Float
import Mathlib.Algebra.Ring.Parity
import Mathlib.Order.WithBot

/-!
# IEEE 754, independently of the model of floats
-/

namespace Fon

/-- `m * 2 ^ e` is the number that is stored for a value: the significand has its leading bit, unless the exponent is the
lowest. -/
def Fmt.Canon (f : Fmt) (m e : ℤ) : Prop :=
  |m| < 2 ^ f.prec ∧ f.emin ≤ e ∧ (e = f.emin ∨ 2 ^ (f.prec - 1) ≤ |m|)

/-- `r` is `q` rounded to nearest, ties to even, if there were no largest number (IEEE 754, 4.3.1). -/
def Fmt.Nearest (f : Fmt) (q r : ℚ) : Prop :=
  f.Gen r ∧ (∀ x, f.Gen x → |r - q| ≤ |x - q|) ∧
  ∀ x, f.Gen x → x ≠ r → |x - q| = |r - q| → ∃ m e, f.Canon m e ∧ r = m * 2 ^ e ∧ Even m

/-- `x` is the result of an operation with exact result `q`: rounded, infinite if that is not a number of the format
(IEEE 754, 7.4). -/
def Fl.Rounds {f : Fmt} (x : Fl f) (q : ℚ) : Prop :=
  ∃ r, f.Nearest q r ∧ (f.Rep r → x.Is r) ∧ (¬ f.Rep r → x = .inf (decide (q < 0)))

/-- `v` is the place of `x` on the number line with both infinities; NaN has none. -/
def Fl.Place {f : Fmt} (x : Fl f) (v : WithBot (WithTop ℚ)) : Prop :=
  match x with
  | .nan => False
  | .inf true => v = ⊥
  | .inf false => v = (⊤ : WithTop ℚ)
  | .fin q _ _ => v = (q : WithTop ℚ)

/-- `x` is stored as sign bit `s`, exponent field `E` of `w` bits and fraction field `M` of `t` bits (IEEE 754, 3.4). -/
def Fl.Encoded {f : Fmt} (w t : Nat) (x : Fl f) (s : Bool) (E M : Nat) : Prop :=
  if E = 2 ^ w - 1 then if M = 0 then x = .inf s else x = .nan
  else if E = 0 then x.isNeg = s ∧ x.Is ((if s then -1 else 1) * (M * 2 ^ (2 - 2 ^ (w - 1) - t : ℤ)))
  else x.isNeg = s ∧ x.Is ((if s then -1 else 1) * ((2 ^ t + M) * 2 ^ (E + 1 - 2 ^ (w - 1) - t : ℤ)))

end Fon
