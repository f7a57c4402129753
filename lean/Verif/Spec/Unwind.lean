import Verif.Model.Unwind

/-!
# What is left after a panic
-/

namespace Fon
variable {k : Kind} {c : ChTy}

/-- `y` is buffer `x` without some frames at the front. -/
def Keeps (x y : (k : Kind) × (c : ChTy) × Audio k c) : Prop :=
  ∃ (k : Kind) (c : ChTy) (a : Audio k c) (n : Nat), x = ⟨k, c, a⟩ ∧ y = ⟨k, c, ⟨a.rate, a.frames.drop n⟩⟩

/-- The iterator after `n` calls of `next`. -/
def It.after (it : It k c) (n : Nat) : It k c := (fun it => it.nextU.2)^[n] it

end Fon
