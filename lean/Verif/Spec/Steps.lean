import Verif.Model.Frame
import Verif.Spec.Chan

/-!
# Changes of layout in two steps
-/

namespace Fon
variable {c : ChTy}

/-- All samples of a frame are in range. -/
def Frame.AllValid {k : Kind} (fr : Frame k c) : Prop := ∀ i (h : i < k.chans), Valid c fr[i]

instance {k : Kind} (fr : Frame k c) : Decidable fr.AllValid :=
  inferInstanceAs (Decidable (∀ i (h : i < k.chans), Valid c fr[i]))

/-- The pairs of formats where silence stays silence (C15). -/
def Quiet (d e : ChTy) : Prop := d = .ch32 ∨ d = .ch64 ∨ e = d ∨ (d = .ch16 ∧ e = .ch8)

instance (d e : ChTy) : Decidable (Quiet d e) := by unfold Quiet; infer_instance

/-- When a change of layout and format from `k₁` to `k₃`, `e` can go through `k₂`, `d`: no channel gets lost on the way, a
silent channel that is added on the way stays silent, and a mean is not rounded twice. -/
def ViaOk (k₁ k₂ k₃ : Kind) (d e : ChTy) : Prop :=
  min k₁.chans k₃.chans ≤ k₂.chans ∧ (k₁ ≠ .surround → k₂ = .surround → k₃ = .surround → Quiet d e) ∧
    (k₁ ≠ .mono → k₂ = .mono → k₃ = .mono → d = .ch64 ∨ d = e)

end Fon
