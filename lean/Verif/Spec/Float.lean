import Verif.Float.Fl

/-!
# Specification vocabulary for float samples
-/

namespace Fon

/-- `x` is the finite number `q` (a zero may have either sign). -/
def Fl.Is {f : Fmt} (x : Fl f) (q : ℚ) : Prop := ∃ nz h, x = .fin q nz h

/-- `x` is a finite number in `[-1, 1]`; in particular not NaN. -/
def Fl.InRange {f : Fmt} (x : Fl f) : Prop := ∃ q, x.Is q ∧ -1 ≤ q ∧ q ≤ 1

instance {f : Fmt} (x : Fl f) (q : ℚ) : Decidable (x.Is q) :=
  match x with
  | .nan => .isFalse nofun
  | .inf _ => .isFalse nofun
  | .fin p nz h =>
    if e : p = q then .isTrue (by subst e; exact ⟨nz, h, rfl⟩)
    else .isFalse (by rintro ⟨_, _, e'⟩; cases e'; exact e rfl)

instance {f : Fmt} (x : Fl f) : Decidable x.InRange :=
  match x with
  | .nan => .isFalse nofun
  | .inf _ => .isFalse nofun
  | .fin p nz h =>
    if e : -1 ≤ p ∧ p ≤ 1 then .isTrue ⟨p, ⟨nz, h, rfl⟩, e⟩
    else .isFalse (by rintro ⟨_, ⟨_, _, e'⟩, h⟩; cases e'; exact e h)

/-- Clamping to `[-1, 1]`. -/
def clampQ (q : ℚ) : ℚ := max (-1) (min 1 q)

/-- Clamping to `[lo, hi]`. -/
def clampZ (lo hi z : ℤ) : ℤ := max lo (min hi z)

end Fon
