import Verif.Props.ChanMisc

/-!
# C17: the end point of `lerp` in the float formats
-/

namespace Fon
open Fmt Fl
variable {f : Fmt} [Std f]

omit [Std f] in
/-- The difference of two numbers of the format that is not larger than either is a number of the format (Sterbenz). -/
theorem sterbenz_abs {x y : ℚ} (hx : f.Rep x) (hy : f.Rep y) (h1 : |y - x| ≤ |x|) (h2 : |y - x| ≤ |y|) : f.Rep (y - x) := by
  obtain ⟨m1, e1, a1, b1, c1, rfl⟩ := hx
  obtain ⟨m2, e2, a2, b2, c2, rfl⟩ := hy
  have key : ∀ (m n e : ℤ), |(m:ℚ) * 2 ^ e| ≤ |(n:ℚ) * 2 ^ e| → |n| < 2 ^ f.prec → |m| < 2 ^ f.prec := by
    intro m n e h hn
    rw [abs_mul, abs_mul] at h
    have := le_of_mul_le_mul_right h (abs_pos.mpr (two_zpow_pos e).ne')
    have : |m| ≤ |n| := by exact_mod_cast this
    exact this.trans_lt hn
  rcases le_total e1 e2 with h | h
  · obtain ⟨d, rfl⟩ := Int.le.dest h
    have e : (m2:ℚ) * 2 ^ (e1 + (d:ℤ)) - m1 * 2 ^ e1 = ((m2 * 2 ^ d - m1 : ℤ) : ℚ) * 2 ^ e1 := by
      rw [zpow_add₀ (by norm_num), zpow_natCast]; push_cast; ring
    rw [e] at h1 ⊢
    exact ⟨_, e1, key _ _ e1 h1 a1, b1, c1, rfl⟩
  · obtain ⟨d, rfl⟩ := Int.le.dest h
    have e : (m2:ℚ) * 2 ^ e2 - m1 * 2 ^ (e2 + (d:ℤ)) = ((m2 - m1 * 2 ^ d : ℤ) : ℚ) * 2 ^ e2 := by
      rw [zpow_add₀ (by norm_num), zpow_natCast]; push_cast; ring
    rw [e] at h2 ⊢
    exact ⟨_, e2, key _ _ e2 h2 a2, b2, c2, rfl⟩

example : binary64.Rep (7 - 5 : ℚ) := by
  refine sterbenz_abs ?_ ?_ (by norm_num) (by norm_num)
  · exact_mod_cast rep_int (f := binary64) (n := 5) (by norm_num [binary64])
  · exact_mod_cast rep_int (f := binary64) (n := 7) (by norm_num [binary64])

/-- C17, floats: the result for all samples in range.  The difference is cut off at 1. -/
theorem C17_max_float_value (a b : Fl f) (p q : ℚ) (ha : a.Is p) (hb : b.Is q) (hp : |p| ≤ 1) (hq : |q| ≤ 1) :
    (ChF.add a (ChF.mul ChF.MAX (ChF.sub b a))).Is (clampQ (f.rnd (p + clampQ (f.rnd (q - p))))) := by
  rw [abs_le] at hp hq
  have hd : |q - p| ≤ 2 := by rw [abs_le]; constructor <;> linarith
  have h2 : f.Rep 2 := by exact_mod_cast rep_small_int (f := f) (n := 2) (by norm_num)
  have hm2 : (2:ℚ) ≤ f.maxF := by simpa using h2.le_maxF
  have hd1 := abs_rnd_le_of_rep (f := f) h2 hd
  have hs := clamp1_is (hb.sub ha (hd1.trans hm2))
  have hc : |clampQ (f.rnd (q - p))| ≤ 1 := by
    rw [abs_le]; exact clampQ_range _
  have hrep : f.rnd (clampQ (f.rnd (q - p))) = clampQ (f.rnd (q - p)) := rnd_of_rep hs.rep
  have hm : (ChF.mul ChF.MAX (ChF.sub b a)).Is (clampQ (f.rnd (q - p))) := by
    have := (is_one (f := f)).mul hs (by rw [one_mul, hrep]; exact hc.trans one_le_maxF)
    rwa [one_mul, hrep] at this
  refine clamp1_is (ha.add hm ?_)
  rw [abs_le] at hc
  exact (abs_rnd_le_of_rep (f := f) h2 (by rw [abs_le]; constructor <;> linarith)).trans hm2

example := C17_max_float_value (lit 0.1 : F64) (lit (-0.95)) _ _ (by decide +kernel : (lit 0.1 : F64).Is
  (binary64.rnd 0.1)) (by decide +kernel : (lit (-0.95) : F64).Is (binary64.rnd (-0.95))) (by decide +kernel)
  (by decide +kernel)

/-- C17, floats: exact if one sample is silence, or if the samples have the same sign and neither is more than twice the other. -/
theorem C17_max_close (a b : Fl f) (p q : ℚ) (ha : a.Is p) (hb : b.Is q) (hp : |p| ≤ 1) (hq : |q| ≤ 1)
    (h : p = 0 ∨ q = 0 ∨ |q - p| ≤ |p| ∧ |q - p| ≤ |q|) : (ChF.add a (ChF.mul ChF.MAX (ChF.sub b a))).Is q := by
  have hr : f.Rep (q - p) ∧ |q - p| ≤ 1 := by
    rcases h with rfl | rfl | ⟨h1, h2⟩
    · rw [sub_zero]; exact ⟨hb.rep, hq⟩
    · rw [zero_sub, abs_neg]; exact ⟨ha.rep.neg, hp⟩
    · exact ⟨sterbenz_abs ha.rep hb.rep h1 h2, h1.trans hp⟩
  have := C17_max_float_value a b p q ha hb hp hq
  rw [abs_le] at hq
  rwa [rnd_of_rep hr.1, clampQ_of_range (abs_le.mp hr.2).1 (abs_le.mp hr.2).2, show p + (q - p) = q by ring, rnd_of_rep hb.rep,
    clampQ_of_range hq.1 hq.2] at this

example := C17_max_close (lit 0.1 : F64) (lit 0.15) _ _ (by decide +kernel : (lit 0.1 : F64).Is
  (binary64.rnd 0.1)) (by decide +kernel : (lit 0.15 : F64).Is (binary64.rnd 0.15)) (by decide +kernel)
  (by decide +kernel) (.inr (.inr (by decide +kernel)))

/-- C17, floats: from a distance of 1 on, `lerp` moves by 1. -/
theorem C17_max_far (a b : Fl f) (p q : ℚ) (ha : a.Is p) (hb : b.Is q) (hp : |p| ≤ 1) (hq : |q| ≤ 1) :
    (1 ≤ q - p → (ChF.add a (ChF.mul ChF.MAX (ChF.sub b a))).Is (f.rnd (p + 1))) ∧
    (1 ≤ p - q → (ChF.add a (ChF.mul ChF.MAX (ChF.sub b a))).Is (f.rnd (p - 1))) := by
  have := C17_max_float_value a b p q ha hb hp hq
  rw [abs_le] at hp hq
  have r1 : f.Gen 1 := (rep_one (f := f)).gen
  have rm1 : f.Gen (-1) := r1.neg
  have r0 : f.Gen 0 := rep_zero.gen
  constructor
  · intro h
    have h1 : 1 ≤ f.rnd (q - p) := le_rnd_of_gen r1 h
    have e : clampQ (f.rnd (q - p)) = 1 := by
      unfold clampQ; rw [min_eq_left h1]; norm_num
    have a1 : -1 ≤ f.rnd (p + 1) := le_rnd_of_gen rm1 (by linarith)
    have a2 : f.rnd (p + 1) ≤ 1 := rnd_le_of_gen r1 (by linarith)
    rwa [e, clampQ_of_range a1 a2] at this
  · intro h
    have h1 : f.rnd (q - p) ≤ -1 := rnd_le_of_gen rm1 (by linarith)
    have e : clampQ (f.rnd (q - p)) = -1 := by
      unfold clampQ; rw [min_eq_right (by linarith), max_eq_left h1]
    have a1 : -1 ≤ f.rnd (p - 1) := le_rnd_of_gen rm1 (by linarith)
    have a2 : f.rnd (p - 1) ≤ 1 := rnd_le_of_gen r1 (by linarith)
    rw [e, ← sub_eq_add_neg, clampQ_of_range a1 a2] at this
    exact this

example := (C17_max_far (lit 0.5 : F64) (lit (-0.95)) _ _ (by decide +kernel : (lit 0.5 : F64).Is
  (binary64.rnd 0.5)) (by decide +kernel : (lit (-0.95) : F64).Is (binary64.rnd (-0.95))) (by decide +kernel)
  (by decide +kernel)).2 (by decide +kernel)

end Fon
