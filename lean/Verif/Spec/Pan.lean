import Verif.Model.Ops
import Verif.Spec.Float
import Mathlib.Analysis.SpecialFunctions.Trigonometric.Basic

/-!
# Specification vocabulary for panning
-/

namespace Fon
variable {k : Kind} {c : ChTy}

/-- The weight of the second of two neighbouring speakers at `lo < hi` for the pan position `s`, as an
angle in a quarter circle. -/
def panAngle (lo hi s : F64) : F64 := ((s.sub lo).div (hi.sub lo)).mul Blend.fracPi2

/-- `sin` and `cos` return NaN on NaN and on infinities, as IEEE 754 says. -/
def Trig.Ieee (t : Trig) : Prop :=
  t.cos .nan = .nan ∧ t.sin .nan = .nan ∧ (∀ s, t.cos (.inf s) = .nan) ∧ (∀ s, t.sin (.inf s) = .nan)

/-- The trigonometric functions are within `eps` of the real ones, and do not leave [-1, 1]. -/
def Trig.Near (t : Trig) (eps : ℝ) : Prop :=
  ∀ (x : F64) (q : ℚ), x.Is q → ∃ s c : ℚ, (t.sin x).Is s ∧ (t.cos x).Is c ∧ |s| ≤ 1 ∧ |c| ≤ 1 ∧
    |(s:ℝ) - Real.sin q| ≤ eps ∧ |(c:ℝ) - Real.cos q| ≤ eps

/-- A layout with at least two speakers, all in [-1, 1], neighbours (around the circle) at least `2^-20` apart. -/
def Kind.Spread (k : Kind) : Prop :=
  2 ≤ k.config.length ∧ k.config.length ≤ k.chans ∧ ∀ i, i < k.config.length → ∃ (x y : F64) (a b : ℚ),
    k.config[i]? = some x ∧ k.config[(i + 1) % k.config.length]? = some y ∧ x.Is a ∧ y.Is b ∧
    |a| ≤ 1 ∧ |b| ≤ 1 ∧ 2 ^ (-20 : ℤ) ≤ |b - a|

/-- Where the speakers of the layouts of the crate are meant to be, from left to right: -1 and 1 are behind the
listener, 0 is straight ahead. -/
def places : Kind → List ℚ
  | .mono => [0]
  | .stereo => [-1 / 2, 1 / 2]
  | .surround => [-2 / 3, -1 / 3, 0, 1 / 3, 2 / 3]
  | .custom _ _ => []

/-- The six speakers of Surround. -/
inductive Speaker | frontLeft | frontRight | rearLeft | rearRight | center | lfe
  deriving DecidableEq

/-- The order in which surround.rs:20-22 lists the channels. -/
def docOrder : List Speaker := [.frontLeft, .rearLeft, .rearRight, .frontRight, .center, .lfe]

/-- The order in which the comments of surround.rs:49-55 list the channels; the LFE has no position, and only channel 5
is left for it. -/
def configOrder : List Speaker := [.rearLeft, .frontLeft, .center, .frontRight, .rearRight, .lfe]

/-- Where each speaker is. -/
def Speaker.place : Speaker → Option ℚ
  | .frontLeft => some (-1 / 3)
  | .frontRight => some (1 / 3)
  | .rearLeft => some (-2 / 3)
  | .rearRight => some (2 / 3)
  | .center => some 0
  | .lfe => none

/-- C98: with the channels in the order `o`, every channel but the LFE has the position of its speaker, and a stereo
frame is heard from the front speakers only. -/
def OrderIs (o : List Speaker) : Prop :=
  (∀ (i : ℕ) (x : F64) s, Kind.surround.config[i]? = some x → o[i]? = some s →
    ∃ q, s.place = some q ∧ x.Is (binary64.rnd q)) ∧
  ∀ (c d : ChTy) (fr : Frame .stereo c) (g : Frame .surround d), fr.convert d = .ok g →
    ∀ (i : ℕ) (s : Speaker), o[i]? = some s → g[i]? = some (match s with
      | .frontLeft => Frame.chanConv d fr[0]
      | .frontRight => Frame.chanConv d fr[1]
      | _ => d.MID)

end Fon
