import Verif.Model.Forget
import Verif.Spec.Stream

/-!
# Buffers a stream drains
-/

namespace Fon

/-- The `Audio` buffers that a stream drains, in order. -/
def Src.drained {k : Kind} {c : ChTy} : Src k c → List ((k : Kind) × (c : ChTy) × Audio k c)
  | .frame _ => []
  | .audio _ => []
  | @Src.drain k c a => [⟨k, c, a⟩]
  | .user _ _ _ _ => []
  | .take s _ => s.drained
  | .blend a b _ => a.drained ++ b.drained

/-- The second buffer is what is left of the first once `n` frames were taken from the front. -/
def TakenFrom (x y : (k : Kind) × (c : ChTy) × Audio k c) : Prop :=
  ∃ n, y = ⟨x.1, x.2.1, ⟨x.2.2.rate, x.2.2.frames.drop n⟩⟩

end Fon
