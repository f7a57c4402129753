import Verif.Spec.Float
import Verif.Model.Chan

/-!
# Lemmas on float operations
-/

namespace Fon
open Fmt

variable {f : Fmt}

theorem Fmt.rep_one : f.Rep 1 := by
  have := Fmt.rep_int (f := f) (n := 1) (by
    have : (1:ℤ) < 2 ^ f.prec := one_lt_pow₀ (by norm_num) (by have := f.hprec; omega)
    simpa using this)
  simpa using this

theorem Fmt.one_le_maxF : 1 ≤ f.maxF := by simpa using (Fmt.rep_one (f := f)).le_maxF

namespace Fl

theorem is_fin {q : ℚ} {nz : Bool} {h : f.Rep q ∧ (nz = true → q = 0)} : (fin q nz h).Is q :=
  ⟨nz, h, rfl⟩

theorem Is.rep {x : Fl f} {q : ℚ} (h : x.Is q) : f.Rep q := by
  obtain ⟨_, h, _⟩ := h; exact h.1

theorem Is.unique {x : Fl f} {p q : ℚ} (h : x.Is p) (h' : x.Is q) : p = q := by
  obtain ⟨_, _, rfl⟩ := h; obtain ⟨_, _, h'⟩ := h'; cases h'; rfl

theorem is_ofQ {s : Bool} {q : ℚ} (h : |f.rnd q| ≤ f.maxF) : (ofQ f s q).Is (f.rnd q) := by
  unfold ofQ; rw [dif_pos h]; exact is_fin

theorem is_ofQ_rep {s : Bool} {q : ℚ} (h : f.Rep q) : (ofQ f s q).Is q := by
  have e := rnd_of_rep h
  have := is_ofQ (s := s) (q := q) (f := f) (by rw [e]; exact h.le_maxF)
  rwa [e] at this

theorem is_lit {q : ℚ} (h : f.Rep q) : (lit q : Fl f).Is q := is_ofQ_rep h

theorem is_lit_rnd {q : ℚ} (h : |f.rnd q| ≤ f.maxF) : (lit q : Fl f).Is (f.rnd q) := is_ofQ h

theorem is_one : (lit 1 : Fl f).Is 1 := is_lit rep_one
theorem is_neg_one : (lit (-1) : Fl f).Is (-1) := is_lit rep_one.neg
theorem is_zero : (lit 0 : Fl f).Is 0 := is_lit rep_zero

theorem Is.neg {x : Fl f} {q : ℚ} (h : x.Is q) : x.neg.Is (-q) := by
  obtain ⟨_, _, rfl⟩ := h; exact is_fin

theorem Is.add {x y : Fl f} {p q : ℚ} (hx : x.Is p) (hy : y.Is q) (h : |f.rnd (p + q)| ≤ f.maxF) :
    (x.add y).Is (f.rnd (p + q)) := by
  obtain ⟨_, _, rfl⟩ := hx; obtain ⟨_, _, rfl⟩ := hy; exact is_ofQ h

theorem Is.sub {x y : Fl f} {p q : ℚ} (hx : x.Is p) (hy : y.Is q) (h : |f.rnd (p - q)| ≤ f.maxF) :
    (x.sub y).Is (f.rnd (p - q)) := by
  rw [sub_eq_add_neg] at *; exact hx.add hy.neg h

theorem Is.mul {x y : Fl f} {p q : ℚ} (hx : x.Is p) (hy : y.Is q) (h : |f.rnd (p * q)| ≤ f.maxF) :
    (x.mul y).Is (f.rnd (p * q)) := by
  obtain ⟨_, _, rfl⟩ := hx; obtain ⟨_, _, rfl⟩ := hy; exact is_ofQ h

theorem Is.div {x y : Fl f} {p q : ℚ} (hx : x.Is p) (hy : y.Is q) (hq : q ≠ 0)
    (h : |f.rnd (p / q)| ≤ f.maxF) : (x.div y).Is (f.rnd (p / q)) := by
  obtain ⟨_, _, rfl⟩ := hx; obtain ⟨_, _, rfl⟩ := hy
  simp only [Fl.div, if_neg hq]; exact is_ofQ h

theorem Is.cast {x : Fl f} {q : ℚ} (g : Fmt) (h : x.Is q) (hq : |g.rnd q| ≤ g.maxF) :
    (x.cast g).Is (g.rnd q) := by
  obtain ⟨_, _, rfl⟩ := h; exact is_ofQ hq

theorem is_ofInt {n : ℤ} (h : f.Rep n) : (ofInt n : Fl f).Is n := is_ofQ_rep h

theorem Is.lt {x y : Fl f} {p q : ℚ} (hx : x.Is p) (hy : y.Is q) : x.lt y = decide (p < q) := by
  obtain ⟨_, _, rfl⟩ := hx; obtain ⟨_, _, rfl⟩ := hy; rfl

theorem Is.eq {x y : Fl f} {p q : ℚ} (hx : x.Is p) (hy : y.Is q) : x.eq y = decide (p = q) := by
  obtain ⟨_, _, rfl⟩ := hx; obtain ⟨_, _, rfl⟩ := hy; rfl

theorem Is.le {x y : Fl f} {p q : ℚ} (hx : x.Is p) (hy : y.Is q) : x.le y = decide (p ≤ q) := by
  unfold Fl.le; rw [hx.lt hy, hx.eq hy]
  rw [Bool.eq_iff_iff]; simp [le_iff_lt_or_eq]

theorem Is.min {x y : Fl f} {p q : ℚ} (hx : x.Is p) (hy : y.Is q) : (x.min y).Is (Min.min p q) := by
  obtain ⟨_, _, rfl⟩ := hx; obtain ⟨_, _, rfl⟩ := hy
  simp only [Fl.min, Fl.lt, decide_eq_true_eq]
  split
  · rename_i h; rw [min_eq_right h.le]; exact is_fin
  · rename_i h; rw [min_eq_left (not_lt.mp h)]; exact is_fin

theorem Is.max {x y : Fl f} {p q : ℚ} (hx : x.Is p) (hy : y.Is q) : (x.max y).Is (Max.max p q) := by
  obtain ⟨_, _, rfl⟩ := hx; obtain ⟨_, _, rfl⟩ := hy
  simp only [Fl.max, Fl.lt, decide_eq_true_eq]
  split
  · rename_i h; rw [max_eq_right h.le]; exact is_fin
  · rename_i h; rw [max_eq_left (not_lt.mp h)]; exact is_fin

/-- The literal `1.0`, unfolded. -/
theorem lit_one_eq : (lit 1 : Fl f) = fin 1 false ⟨rep_one, by simp⟩ := by
  have h := rnd_of_rep (f := f) rep_one
  simp only [lit, ofQ, h]
  rw [dif_pos (by simpa using one_le_maxF)]; rfl

theorem lit_neg_one_eq : (lit (-1) : Fl f) = fin (-1) false ⟨rep_one.neg, by simp⟩ := by
  have h := rnd_of_rep (f := f) rep_one.neg
  simp only [lit, ofQ, h]
  rw [dif_pos (by simpa using one_le_maxF)]; rfl

theorem lit_zero_eq : (lit 0 : Fl f) = fin 0 false ⟨rep_zero, by simp⟩ := by
  have h := rnd_of_rep (f := f) rep_zero
  simp only [lit, ofQ, h]
  rw [dif_pos (by simpa using maxF_pos.le)]; rfl

end Fl

open Fl

theorem clamp1_nan : clamp1 (.nan : Fl f) = lit 1 := by
  simp only [clamp1, Fl.min, lit_one_eq, lit_neg_one_eq, Fl.max, Fl.lt]; norm_num

theorem clamp1_inf (s : Bool) : clamp1 (.inf s : Fl f) = if s then lit (-1) else lit 1 := by
  cases s <;> simp only [clamp1, Fl.min, lit_one_eq, lit_neg_one_eq, Fl.max, Fl.lt] <;> norm_num

theorem clamp1_is {x : Fl f} {q : ℚ} (h : x.Is q) : (clamp1 x).Is (clampQ q) := by
  have := (h.min is_one).max is_neg_one
  rwa [max_comm, min_comm q] at this

/-- In-range values are not changed at all. -/
theorem clamp1_of_inRange {x : Fl f} (h : x.InRange) : clamp1 x = x := by
  obtain ⟨q, ⟨nz, hq, rfl⟩, h1, h2⟩ := h
  simp only [clamp1, Fl.min, lit_one_eq, lit_neg_one_eq, Fl.lt, decide_eq_true_eq,
    if_neg (not_lt.mpr h2), Fl.max, if_neg (not_lt.mpr h1)]

theorem clampQ_range (q : ℚ) : -1 ≤ clampQ q ∧ clampQ q ≤ 1 := by
  unfold clampQ; constructor
  · exact le_max_left _ _
  · exact max_le (by norm_num) (min_le_left _ _)

theorem clampQ_of_range {q : ℚ} (h1 : -1 ≤ q) (h2 : q ≤ 1) : clampQ q = q := by
  unfold clampQ; rw [min_eq_right h2, max_eq_right h1]

theorem clampQ_mono {p q : ℚ} (h : p ≤ q) : clampQ p ≤ clampQ q := by
  unfold clampQ; exact max_le_max_left _ (min_le_min_left _ h)

theorem inRange_one : (lit 1 : Fl f).InRange := ⟨1, is_one, by norm_num, le_rfl⟩
theorem inRange_neg_one : (lit (-1) : Fl f).InRange := ⟨-1, is_neg_one, le_rfl, by norm_num⟩

theorem clamp1_inRange (x : Fl f) : (clamp1 x).InRange := by
  cases x with
  | nan => rw [clamp1_nan]; exact inRange_one
  | inf s => rw [clamp1_inf]; cases s <;> simp [inRange_one, inRange_neg_one]
  | fin q nz h => exact ⟨_, clamp1_is is_fin, clampQ_range q⟩

end Fon
