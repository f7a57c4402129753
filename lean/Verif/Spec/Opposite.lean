import Verif.Spec.Sink
import Verif.Spec.Chan

/-!
# Frames that are opposite to each other
-/

namespace Fon
variable {k : Kind} {c : ChTy}

/-- Each channel of `b` is opposite to that of `a`, or lower by at most `d` units. -/
def FrameAnti (d : Nat) (a b : Frame k c) : Prop :=
  ∀ i (_ : i < k.chans), ∃ p q : ℚ, Stored c a[i] p ∧ Stored c b[i] q ∧ -(d:ℚ) ≤ p + q ∧ p + q ≤ 0

namespace Sink

/-- How often one of the first `n` frames is added to slot `s`. -/
noncomputable def hits (q off : F64) (s : Nat) : Nat → Nat
  | 0 => 0
  | n + 1 => hits q off s n + (if (posOf q off n).toUsize = s then 1 else 0) + (if hiSlot (posOf q off n) = s then 1 else 0)

end Sink
end Fon
