import Mathlib.Data.Nat.Log

/-!
# The usual sample rates
-/

namespace Fon

/-- The usual sample rates in Hz: those derived from 44100, and those derived from 48000. -/
def cdRates : List Nat := [11025, 22050, 44100, 88200, 176400]
def dvdRates : List Nat := [8000, 16000, 32000, 48000, 96000, 192000]
def usualRates : List Nat := cdRates ++ dvdRates

/-- The bad directions: from the rates derived from 44100 to 48000 and its multiples. -/
def Bad (src dst : Nat) : Prop := src ∈ cdRates ∧ dst ∈ [48000, 96000, 192000]

instance (src dst : Nat) : Decidable (Bad src dst) := inferInstanceAs (Decidable (_ ∧ _))

/-- A length at which those panic: 16/13 or more of the largest power of two that is not larger. -/
def Long (d : Nat) : Prop := 16 * 2 ^ Nat.log 2 d < 13 * d

instance (d : Nat) : Decidable (Long d) := inferInstanceAs (Decidable (_ < _))

end Fon
