import Verif.Spec.Chan
import Verif.Spec.Downmix
import Verif.Model.Frame

/-!
# Frames that sound the same, and the error of conversions
-/

namespace Fon

/-- The samples of two frames hold the same numbers: the frames are equal but for the sign of zeros and, in the float formats,
samples that are no numbers. -/
def FrameSame {k : Kind} {c : ChTy} (a b : Frame k c) : Prop :=
  ∀ i (h : i < k.chans) (q : ℚ), Stored c a[i] q ↔ Stored c b[i] q

/-- Distance between the scale of the resampler, where `MAX` is 1 and silence 0, and that of `to_f64`. -/
def scaleErr : ChTy → ℚ
  | .ch8 => 1 / 127 + 2 ^ (-49 : ℤ)
  | .ch16 => 1 / 32767 + 2 ^ (-49 : ℤ)
  | .ch32 => 0
  | .ch64 => 0

/-- Bound for the error of a conversion in the scale of the resampler. -/
def convErr (c d : ChTy) : ℚ := scaleErr c + downErr d + scaleErr d

end Fon
