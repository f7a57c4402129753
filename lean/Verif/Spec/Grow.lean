import Verif.Spec.Sink

/-!
# What `extend` appends at equal rates
-/

namespace Fon
variable {k k' : Kind} {c c' : ChTy}

/-- The product of rate and length, rounded to `f64` and divided by the rate again, comes out above the length. -/
def RoundsUp (ρ : ℚ) (l : Nat) : Prop := (l : ℚ) < binary64.rnd (binary64.rnd (ρ * l) / ρ)

instance (ρ : ℚ) (l : Nat) : Decidable (RoundsUp ρ l) := inferInstanceAs (Decidable (_ < _))

/-- Streams one after another, converted.  After a stream for which rate times length rounds up there is a silent
frame. -/
inductive Appended (k : Kind) (c : ChTy) : List (Src k' c') → List (Frame k c) → Prop where
  | none : Appended k c [] []
  | block (st : Src k' c') (body tail : List (Frame k c)) (hl : st.len = some body.length)
      (hb : ∀ j (h : j < body.length), ∃ src f, st.nth j = .ok (some src) ∧ src.convert c = .ok f ∧
        FrameArrives f body[j])
      (ht : tail = [] ∨ tail = [Frame.dflt])
      (h1 : tail ≠ [] ↔ ∃ x ρ, st.rate = some x ∧ x.Is ρ ∧ RoundsUp ρ body.length)
      {sts : List (Src k' c')} {fs : List (Frame k c)} (hr : Appended k c sts fs) :
      Appended k c (st :: sts) (body ++ tail ++ fs)

end Fon
