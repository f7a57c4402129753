import Verif.Spec.Upmix

/-!
# What comes back of a frame after upsampling by any ratio and downsampling again

`φ` is the part of a fast slot by which the position of the frame passes the start of its fast slot.
-/

namespace Fon

/-- The part of a frame that comes back in its own slot. -/
def backOwn (c : ChTy) (r φ : ℚ) : ℚ := (gain c (r - φ) * (1 - max 0 (φ + 1 - r)) + φ ^ 2) / r

/-- The part of a frame that comes back in the slot before its own. -/
def backPrev (c : ChTy) (r φ : ℚ) : ℚ := gain c (r - φ) * max 0 (φ + 1 - r) / r

/-- The part of a frame that comes back in the slot after its own. -/
def backNext (r φ : ℚ) : ℚ := φ * (1 - φ) / r

end Fon
