import Verif.Spec.Sink
import Verif.Props.Stream

/-!
# Ranges of indices
-/

namespace Fon

/-- A range resolves to its bounds, or it panics; it panics if its bounds do not fit the slice. -/
theorem Rng.resolve_ok {r : Rng} {n a b : ℕ} (h : r.resolve n = .ok (a, b)) :
    a = (r.bounds n).1 ∧ b = (r.bounds n).2 ∧ a ≤ b ∧ b ≤ n := by
  cases r <;> simp only [Rng.resolve, Rng.bounds] at h ⊢
  case pair s e =>
    obtain ⟨x, hx, h⟩ := R.bind_ok h
    obtain ⟨y, hy, h⟩ := R.bind_ok h
    split at h <;> cases h
    rename_i hxy
    refine ⟨?_, ?_, hxy⟩
    · cases s <;> simp only [Bnd.first, Bnd.lower] at hx ⊢ <;> (try split at hx) <;> cases hx <;> rfl
    · cases e <;> simp only [Bnd.last, Bnd.upper] at hy ⊢ <;> (try split at hy) <;> cases hy <;> rfl
  all_goals (repeat' split at h) <;> cases h <;> simp_all

theorem Rng.resolve_iff (r : Rng) {n : ℕ} (hn : (n : ℤ) ≤ usizeMax) :
    (∃ p, r.resolve n = .ok p) ↔ (r.bounds n).1 ≤ (r.bounds n).2 ∧ (r.bounds n).2 ≤ n := by
  constructor
  · rintro ⟨⟨a, b⟩, h⟩
    obtain ⟨rfl, rfl, h3, h4⟩ := Rng.resolve_ok h
    exact ⟨h3, h4⟩
  · intro ⟨h1, h2⟩
    refine ⟨r.bounds n, ?_⟩
    cases r <;> simp only [Rng.resolve, Rng.bounds] at h1 h2 ⊢
    case pair s e =>
      have hs : ∃ x, s.first = .ok x ∧ x = s.lower := by
        cases s <;> simp only [Bnd.first, Bnd.lower] at h1 ⊢
        · simp
        · rw [if_neg (by omega)]; simp
        · simp
      have he : ∃ y, e.last n = .ok y ∧ y = e.upper n := by
        cases e <;> simp only [Bnd.last, Bnd.upper] at h2 ⊢
        · rw [if_neg (by omega)]; simp
        · simp
        · simp
      obtain ⟨x, hx, hx'⟩ := hs
      obtain ⟨y, hy, hy'⟩ := he
      rw [hx, hy]
      show (if x ≤ y ∧ y ≤ n then Except.ok (x, y) else .error Panic.bounds) = _
      rw [← hx', ← hy'] at h1 ⊢
      rw [← hy'] at h2
      rw [if_pos ⟨h1, h2⟩]
    all_goals (repeat' split) <;> first | rfl | (exfalso; omega)

end Fon
