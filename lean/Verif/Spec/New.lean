import Verif.Model.New
import Verif.Spec.Chan
import Verif.Spec.Level

/-!
# Levels of constructor arguments, and calls of `next`
-/

namespace Fon

/-- The level that an argument stands for. -/
def Arg.Lvl : {c : ChTy} → Arg c → ℚ → Prop
  | _, .chan s x, q => Valid s x ∧ Level s x q
  | _, .i8 x, q => q = (2 * x.toInt + 1) / 255
  | _, .i16 x, q => q = (2 * x.toInt + 1) / 65535
  | _, .f32 x, q => x.Is q

/-- The results of `n` calls of `next`. -/
def AudioStream.nexts {k : Kind} {c : ChTy} : ℕ → AudioStream k c → R (List (Option (Frame k c)))
  | 0, _ => .ok []
  | n + 1, s => do
    let (f, t) ← s.next
    return f :: (← nexts n t)

end Fon
