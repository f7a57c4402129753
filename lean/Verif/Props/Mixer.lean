import Verif.Spec.StepsApart
import Verif.Props.ChanLevel
import Verif.Props.Chunk

/-!
# C144: volume and mixing combine as in arithmetic
-/

namespace Fon
open Fon.Fl hiding min max
open Fon.Fmt
variable {k : Kind} {c : ChTy}

/-- The product of the integer formats on integers. -/
def mulZ (M a b : ℤ) : ℤ := clampZ (-M - 1) M ((a * b).tdiv M)

theorem mulZ_comm (M a b : ℤ) : mulZ M a b = mulZ M b a := by unfold mulZ; rw [mul_comm]

theorem assoc_nonneg {M a b d : ℤ} (hM : 0 < M) (ha : 0 ≤ a) (hb : 0 ≤ b) (hd : 0 ≤ d) (ha' : a ≤ M) (hd' : d ≤ M) :
    |((a * b).tdiv M * d).tdiv M - (a * (b * d).tdiv M).tdiv M| ≤ 1 := by
  have hab := mul_nonneg ha hb
  have hbd := mul_nonneg hb hd
  rw [Int.tdiv_eq_ediv_of_nonneg hab, Int.tdiv_eq_ediv_of_nonneg hbd]
  have h1 : 0 ≤ a * b / M := Int.ediv_nonneg hab hM.le
  have h2 : 0 ≤ b * d / M := Int.ediv_nonneg hbd hM.le
  rw [Int.tdiv_eq_ediv_of_nonneg (mul_nonneg h1 hd), Int.tdiv_eq_ediv_of_nonneg (mul_nonneg ha h2)]
  have r1 := Int.emod_nonneg (a * b) hM.ne'
  have r2 := Int.emod_lt_of_pos (a * b) hM
  have r3 := Int.mul_ediv_add_emod (a * b) M
  have s1 := Int.emod_nonneg (b * d) hM.ne'
  have s2 := Int.emod_lt_of_pos (b * d) hM
  have s3 := Int.mul_ediv_add_emod (b * d) M
  generalize a * b / M = r at *
  generalize b * d / M = s at *
  have t1 := Int.emod_nonneg (r * d) hM.ne'
  have t2 := Int.emod_lt_of_pos (r * d) hM
  have t3 := Int.mul_ediv_add_emod (r * d) M
  have u1 := Int.emod_nonneg (a * s) hM.ne'
  have u2 := Int.emod_lt_of_pos (a * s) hM
  have u3 := Int.mul_ediv_add_emod (a * s) M
  generalize r * d / M = R at *
  generalize a * s / M = S at *
  generalize (a * b) % M = x at *
  generalize (b * d) % M = y at *
  generalize (r * d) % M = z at *
  generalize (a * s) % M = w at *
  -- `M * (M * R + z) + x * d = a * b * d = M * (M * S + w) + a * y`
  have e : M * (M * R + z) + x * d = M * (M * S + w) + a * y := by
    rw [t3, u3]
    have e1 : (M * r + x) * d = a * b * d := by rw [r3]
    have e2 : a * (M * s + y) = a * (b * d) := by rw [s3]
    linarith
  have xd : 0 ≤ x * d := mul_nonneg r1 hd
  have ay : 0 ≤ a * y := mul_nonneg ha s1
  have xd' : x * d ≤ (M - 1) * M := mul_le_mul (by omega) hd' hd (by omega)
  have ay' : a * y ≤ M * (M - 1) := mul_le_mul ha' (by omega) s1 hM.le
  have zM : M * z ≤ M * (M - 1) := mul_le_mul_of_nonneg_left (by omega) hM.le
  have wM : M * w ≤ M * (M - 1) := mul_le_mul_of_nonneg_left (by omega) hM.le
  have zM' : 0 ≤ M * z := mul_nonneg hM.le t1
  have wM' : 0 ≤ M * w := mul_nonneg hM.le u1
  have MM : 0 < M * M := mul_pos hM hM
  have hRS : M * M * (R - S) < M * M * 2 := by linarith
  have hSR : M * M * (S - R) < M * M * 2 := by linarith
  have := lt_of_mul_lt_mul_left hRS MM.le
  have := lt_of_mul_lt_mul_left hSR MM.le
  rw [abs_le]; constructor <;> omega

theorem assoc_tdiv {M a b d : ℤ} (hM : 0 < M) (ha : |a| ≤ M) (hd : |d| ≤ M) :
    |((a * b).tdiv M * d).tdiv M - (a * (b * d).tdiv M).tdiv M| ≤ 1 := by
  have main : ∀ a b d : ℤ, 0 ≤ b → |a| ≤ M → |d| ≤ M → 
      |((a * b).tdiv M * d).tdiv M - (a * (b * d).tdiv M).tdiv M| ≤ 1 := by
    intro a b d hb ha hd
    rw [abs_le] at ha hd
    rcases le_total 0 a with h1 | h1 <;> rcases le_total 0 d with h3 | h3
    · exact assoc_nonneg hM h1 hb h3 ha.2 hd.2
    · have := assoc_nonneg hM h1 hb (d := -d) (by omega) ha.2 (by omega)
      simp only [mul_neg, Int.neg_tdiv] at this
      rwa [← abs_neg, show ∀ x y : ℤ, -(x - y) = -x - -y by intros; ring]
    · have := assoc_nonneg hM (a := -a) (by omega) hb h3 (by omega) hd.2
      simp only [neg_mul, Int.neg_tdiv] at this
      rwa [← abs_neg, show ∀ x y : ℤ, -(x - y) = -x - -y by intros; ring]
    · have := assoc_nonneg hM (a := -a) (d := -d) (by omega) hb (by omega) (by omega) (by omega)
      simp only [neg_mul, mul_neg, Int.neg_tdiv, neg_neg] at this
      exact this
  rcases le_total 0 b with h | h
  · exact main a b d h ha hd
  · have := main a (-b) d (by omega) ha hd
    simp only [neg_mul, mul_neg, Int.neg_tdiv] at this
    rwa [← abs_neg, show ∀ x y : ℤ, -(x - y) = -x - -y by intros; ring]

theorem tdiv_in {M a b : ℤ} (hM : 0 < M) (ha : |a| ≤ M) (hb : |b| ≤ M) : |(a * b).tdiv M| ≤ M := by
  have hab : |a * b| ≤ M * M := by rw [abs_mul]; exact mul_le_mul ha hb (abs_nonneg _) hM.le
  have := tdiv_pos_cases (a * b) M hM
  rw [abs_le] at hab ⊢
  generalize a * b = P at *
  generalize P.tdiv M = r at *
  have h1 : M * r ≤ M * M := by
    rcases this with h | h
    · linarith
    · nlinarith [mul_pos hM hM]
  have h2 : M * (-r) ≤ M * M := by
    rcases this with h | h
    · nlinarith [mul_pos hM hM]
    · linarith
  have := le_of_mul_le_mul_left h1 hM
  have := le_of_mul_le_mul_left h2 hM
  omega

theorem mulZ_in {M a b : ℤ} (hM : 0 < M) (ha : |a| ≤ M) (hb : |b| ≤ M) : mulZ M a b = (a * b).tdiv M := by
  have := abs_le.mp (tdiv_in hM ha hb)
  unfold mulZ clampZ; omega

theorem mulZ_min {M : ℤ} (hM : M = 127 ∨ M = 32767) {x : ℤ} (hx : -M - 1 ≤ x ∧ x ≤ M) :
    mulZ M (-M - 1) x = if x = M then -M - 1 else if x ≤ -M then M else -x := by
  have := tdiv_pos_cases ((-M - 1) * x) M (by omega)
  unfold mulZ clampZ
  rcases hM with rfl | rfl <;> norm_num at this ⊢ <;> split_ifs <;> omega

theorem mulZ_max {M : ℤ} (hM : 0 < M) {x : ℤ} (hx : -M - 1 ≤ x ∧ x ≤ M) : mulZ M M x = x := by
  unfold mulZ clampZ
  rw [Int.mul_tdiv_cancel_left _ hM.ne']; omega

theorem mulZ_neg_max {M : ℤ} (hM : 0 < M) {x : ℤ} (hx : -M - 1 ≤ x ∧ x ≤ M) : mulZ M (-M) x = if x = -M - 1 then M else -x := by
  unfold mulZ clampZ
  rw [neg_mul, Int.neg_tdiv, Int.mul_tdiv_cancel_left _ hM.ne']; split_ifs <;> omega

theorem mulZ_range {M : ℤ} (hM : 0 < M) (a b : ℤ) : -M - 1 ≤ mulZ M a b ∧ mulZ M a b ≤ M := by
  unfold mulZ clampZ; omega

theorem mulZ_small {M b d : ℤ} (hM : M = 127 ∨ M = 32767) (hb : -M < b ∧ b < M) (hd : -M - 1 ≤ d ∧ d ≤ M) :
    mulZ M b d = (b * d).tdiv M ∧ -M < (b * d).tdiv M ∧ (b * d).tdiv M < M := by
  have c1 := mul_nonneg (by omega : 0 ≤ M - 1 - b) (by omega : 0 ≤ M + 1 - d)
  have c2 := mul_nonneg (by omega : 0 ≤ b + M - 1) (by omega : 0 ≤ d + M + 1)
  have c3 := mul_nonneg (by omega : 0 ≤ b + M - 1) (by omega : 0 ≤ M + 1 - d)
  have c4 := mul_nonneg (by omega : 0 ≤ M - 1 - b) (by omega : 0 ≤ d + M + 1)
  have := tdiv_pos_cases (b * d) M (by omega)
  unfold mulZ clampZ
  rcases hM with rfl | rfl <;> ring_nf at c1 c2 c3 c4 <;> generalize b * d = P at * <;>
    generalize Int.tdiv P _ = r at * <;> omega

theorem assoc_min {M b d : ℤ} (hM : M = 127 ∨ M = 32767) (hb : -M - 1 ≤ b ∧ b ≤ M) (hd : -M - 1 ≤ d ∧ d ≤ M) :
    |mulZ M (mulZ M (-M - 1) b) d - mulZ M (-M - 1) (mulZ M b d)| ≤ 1 := by
  have h0 : 0 < M := by omega
  rw [mulZ_min hM hb, mulZ_min hM (mulZ_range h0 b d)]
  by_cases h1 : b = M
  · subst h1
    rw [if_pos rfl, mulZ_min hM hd, mulZ_max h0 hd]; simp
  rw [if_neg h1]
  by_cases h2 : b ≤ -M
  · rw [if_pos h2, mulZ_max h0 hd]
    rcases (by omega : b = -M ∨ b = -M - 1) with h3 | h3 <;> rw [h3]
    · rw [mulZ_neg_max h0 hd, abs_le]; split_ifs <;> omega
    · rw [mulZ_min hM hd, abs_le]; split_ifs <;> omega
  · rw [if_neg h2]
    obtain ⟨e1, e2, e3⟩ := mulZ_small hM (b := b) (by omega) hd
    obtain ⟨f1, -, -⟩ := mulZ_small hM (b := -b) (by omega) hd
    rw [e1, f1, neg_mul, Int.neg_tdiv, if_neg (by omega), if_neg (by omega)]
    simp

theorem assoc_mid {M a d : ℤ} (hM : M = 127 ∨ M = 32767) (ha : -M - 1 ≤ a ∧ a ≤ M) (hd : -M - 1 ≤ d ∧ d ≤ M) :
    |mulZ M (mulZ M a (-M - 1)) d - mulZ M a (mulZ M (-M - 1) d)| ≤ 1 := by
  have h0 : 0 < M := by omega
  by_cases h1 : a = -M - 1
  · rw [h1]; exact assoc_min hM (by omega) hd
  by_cases h2 : d = -M - 1
  · rw [h2, mulZ_comm M _ (-M - 1), mulZ_comm M a, mulZ_comm M a, abs_sub_comm]; exact assoc_min hM (by omega) ha
  have ha' : |a| ≤ M := abs_le.mpr (by omega)
  have hd' : |d| ≤ M := abs_le.mpr (by omega)
  rw [mulZ_comm M a (-M - 1), mulZ_min hM ha, mulZ_min hM hd]
  by_cases h3 : a = M
  · subst h3
    rw [if_pos rfl, mulZ_min hM hd, mulZ_max h0 (by split_ifs <;> omega)]; simp
  rw [if_neg h3]
  by_cases h4 : a ≤ -M
  · rw [if_pos h4, mulZ_max h0 hd, show a = -M by omega, mulZ_neg_max h0 (by split_ifs <;> omega), abs_le]
    split_ifs <;> omega
  rw [if_neg h4]
  by_cases h5 : d = M
  · rw [if_pos h5, h5, mulZ_comm M a, mulZ_min hM ha, mulZ_comm M _ M, mulZ_max h0 (by omega), if_neg h3, if_neg h4]; simp
  rw [if_neg h5]
  by_cases h6 : d ≤ -M
  · rw [if_pos h6, show d = -M by omega, mulZ_comm M _ (-M), mulZ_neg_max h0 (by omega), mulZ_comm M a, mulZ_max h0 ha,
      if_neg (by omega)]; simp
  rw [if_neg h6, (mulZ_small hM (b := -a) (by omega) hd).1, (mulZ_small hM (b := a) (d := -d) (by omega) (by omega)).1]
  simp

theorem mulZ_assoc {M a b d : ℤ} (hM : M = 127 ∨ M = 32767) (ha : -M - 1 ≤ a ∧ a ≤ M) (hb : -M - 1 ≤ b ∧ b ≤ M)
    (hd : -M - 1 ≤ d ∧ d ≤ M) : |mulZ M (mulZ M a b) d - mulZ M a (mulZ M b d)| ≤ 1 := by
  have h0 : 0 < M := by omega
  by_cases h1 : a = -M - 1
  · rw [h1]; exact assoc_min hM hb hd
  by_cases h2 : b = -M - 1
  · rw [h2]; exact assoc_mid hM ha hd
  by_cases h3 : d = -M - 1
  · rw [h3, mulZ_comm M _ (-M - 1), mulZ_comm M a, mulZ_comm M b (-M - 1), mulZ_comm M a, abs_sub_comm]
    exact assoc_min hM hb ha
  have ha' : |a| ≤ M := abs_le.mpr (by omega)
  have hb' : |b| ≤ M := abs_le.mpr (by omega)
  have hd' : |d| ≤ M := abs_le.mpr (by omega)
  rw [mulZ_in h0 ha' hb', mulZ_in h0 hb' hd', mulZ_in h0 (tdiv_in h0 ha' hb') hd', mulZ_in h0 ha' (tdiv_in h0 hb' hd')]
  exact assoc_tdiv h0 ha' hd'

theorem tdiv_add_near {M P Q : ℤ} (hM : M = 127 ∨ M = 32767) : |(P + Q).tdiv M - (P.tdiv M + Q.tdiv M)| ≤ 1 := by
  have t1 := tdiv_pos_cases P M (by omega)
  have t2 := tdiv_pos_cases Q M (by omega)
  have t3 := tdiv_pos_cases (P + Q) M (by omega)
  generalize P.tdiv M = p at *
  generalize Q.tdiv M = q at *
  generalize (P + Q).tdiv M = r at *
  rw [abs_le]
  rcases hM with rfl | rfl <;> omega

theorem distrib_left {M b d : ℤ} (hM : M = 127 ∨ M = 32767) (hb : 0 ≤ b ∧ b ≤ M) (hd : -M - 1 ≤ d ∧ d ≤ M) :
    |mulZ M (-M - 1 + b) d - clampZ (-M - 1) M (mulZ M (-M - 1) d + mulZ M b d)| ≤ 2 := by
  have h0 : 0 < M := by omega
  by_cases h1 : d = -M - 1
  · rw [h1, mulZ_comm M (-M - 1 + b), mulZ_comm M b, mulZ_min hM (by omega), mulZ_min hM (by omega), mulZ_min hM (by omega), abs_le]
    unfold clampZ
    split_ifs <;> omega
  have hd' : |d| ≤ M := abs_le.mpr (by omega)
  have hb' : |b| ≤ M := abs_le.mpr (by omega)
  by_cases h2 : b = 0
  · rw [h2]
    have e : mulZ M 0 d = 0 := by unfold mulZ clampZ; simp; omega
    have := mulZ_range h0 (-M - 1) d
    rw [e, add_zero, add_zero, abs_le]
    unfold clampZ; omega
  have n := tdiv_add_near hM (P := (-M - 1) * d) (Q := b * d)
  rw [← add_mul] at n
  have h3 := abs_le.mp (tdiv_in h0 hb' hd')
  have h4 := abs_le.mp (tdiv_in h0 (a := -M - 1 + b) (abs_le.mpr (by omega)) hd')
  rw [mulZ_in h0 (a := -M - 1 + b) (abs_le.mpr (by omega)) hd', mulZ_in h0 hb' hd']
  have h5 : -M - 1 ≤ ((-M - 1) * d).tdiv M ∧ ((-M - 1) * d).tdiv M ≤ M + 1 := by
    have := tdiv_pos_cases ((-M - 1) * d) M h0
    rcases hM with rfl | rfl <;> norm_num at this ⊢ <;> omega
  unfold mulZ clampZ
  rw [abs_le] at n ⊢
  generalize ((-M - 1 + b) * d).tdiv M = r at *
  generalize ((-M - 1) * d).tdiv M = p at *
  generalize (b * d).tdiv M = q at *
  omega

theorem distrib_in {M a b d : ℤ} (hM : M = 127 ∨ M = 32767) (ha : |a| ≤ M) (hb : |b| ≤ M) (hd : |d| ≤ M) :
    |mulZ M (a + b) d - clampZ (-M - 1) M (mulZ M a d + mulZ M b d)| ≤ 1 := by
  have h0 : 0 < M := by omega
  have n := tdiv_add_near hM (P := a * d) (Q := b * d)
  rw [← add_mul] at n
  have h3 := abs_le.mp (tdiv_in h0 ha hd)
  have h4 := abs_le.mp (tdiv_in h0 hb hd)
  rw [mulZ_in h0 ha hd, mulZ_in h0 hb hd]
  unfold mulZ clampZ
  rw [abs_le] at n ⊢
  generalize ((a + b) * d).tdiv M = r at *
  generalize (a * d).tdiv M = p at *
  generalize (b * d).tdiv M = q at *
  omega

theorem mulZ_distrib {M a b d : ℤ} (hM : M = 127 ∨ M = 32767) (ha : -M - 1 ≤ a ∧ a ≤ M) (hb : -M - 1 ≤ b ∧ b ≤ M)
    (hd : -M - 1 ≤ d ∧ d ≤ M) (hs : -M - 1 ≤ a + b ∧ a + b ≤ M) :
    |mulZ M (a + b) d - clampZ (-M - 1) M (mulZ M a d + mulZ M b d)| ≤ 2 := by
  by_cases h1 : a = -M - 1
  · rw [h1]; exact distrib_left hM (by omega) hd
  by_cases h2 : b = -M - 1
  · rw [h2, add_comm, add_comm (mulZ M a d)]; exact distrib_left hM (by omega) hd
  by_cases h3 : d = -M - 1
  · rw [h3, mulZ_comm M (a + b), mulZ_comm M b, mulZ_comm M a, mulZ_min hM (by omega), mulZ_min hM (by omega), mulZ_min hM (by omega),
      abs_le]
    unfold clampZ
    split_ifs <;> omega
  · exact (distrib_in hM (abs_le.mpr (by omega)) (abs_le.mpr (by omega)) (abs_le.mpr (by omega))).trans (by norm_num)

/-! ## Floats -/

theorem fl_mul_near {f : Fmt} [Std f] {x y : Fl f} {p q : ℚ} (hx : x.Is p) (hy : y.Is q) (hp : |p| ≤ 1) (hq : |q| ≤ 1) :
    ∃ r, (Fl.mul x y).Is r ∧ |r - p * q| ≤ f.u ∧ |r| ≤ 1 := by
  have h : |p * q| ≤ 1 := by rw [abs_mul]; exact mul_le_one₀ hp (abs_nonneg _) hq
  have h2 : |p * q| ≤ 2 := h.trans (by norm_num)
  obtain ⟨r, hr, hr'⟩ := InRange.mul ⟨p, hx, abs_le.mp hp⟩ ⟨q, hy, abs_le.mp hq⟩
  have e := Is.unique hr (Is.mul hx hy (small2 h2))
  refine ⟨r, hr, ?_, abs_le.mpr hr'⟩
  rw [e]; exact err_le_two h2

theorem fl_add_near {f : Fmt} [Std f] {x y : Fl f} {p q : ℚ} (hx : x.Is p) (hy : y.Is q) (hp : |p| ≤ 1) (hq : |q| ≤ 1) :
    ∃ r, (clamp1 (Fl.add x y)).Is r ∧ |r - clampQ (p + q)| ≤ f.u ∧ |r| ≤ 1 := by
  have h2 : |p + q| ≤ 2 := (abs_add_le _ _).trans (by linarith)
  have hr := clamp1_is (Is.add hx hy (small2 h2))
  refine ⟨_, hr, clamp_rnd_near h2, ?_⟩
  unfold clampQ
  rw [abs_le]
  exact ⟨le_max_left _ _, max_le (by norm_num) (min_le_left _ _)⟩

theorem near_mul {x y z E : ℚ} (h : |x - y| ≤ E) (hz : |z| ≤ 1) : |x * z - y * z| ≤ E := by
  rw [← sub_mul, abs_mul]
  exact (mul_le_of_le_one_right (abs_nonneg _) hz).trans h

theorem fl_mul_assoc {f : Fmt} [Std f] {x y z : Fl f} (hx : x.InRange) (hy : y.InRange) (hz : z.InRange) :
    ∃ p q, (Fl.mul (Fl.mul x y) z).Is p ∧ (Fl.mul x (Fl.mul y z)).Is q ∧ |p - q| ≤ 4 * f.u := by
  obtain ⟨p, hx, p1⟩ := hx
  obtain ⟨q, hy, q1⟩ := hy
  obtain ⟨r, hz, r1⟩ := hz
  have p1 := abs_le.mpr p1
  have q1 := abs_le.mpr q1
  have r1 := abs_le.mpr r1
  obtain ⟨a, a1, a2, a3⟩ := fl_mul_near hx hy p1 q1
  obtain ⟨b, b1, b2, b3⟩ := fl_mul_near hy hz q1 r1
  obtain ⟨s, s1, s2, -⟩ := fl_mul_near a1 hz a3 r1
  obtain ⟨t, t1, t2, -⟩ := fl_mul_near hx b1 p1 b3
  refine ⟨s, t, s1, t1, ?_⟩
  have h1 := abs_le.mp (near_mul a2 r1)
  have h2 := abs_le.mp (near_mul b2 p1)
  rw [abs_le] at s2 t2 ⊢
  constructor <;> nlinarith

theorem clampQ_in {x : ℚ} (h : |x| ≤ 1) : clampQ x = x := by
  rw [abs_le] at h
  unfold clampQ
  rw [min_eq_right h.2, max_eq_right h.1]

theorem fl_distrib {f : Fmt} [Std f] {x y z : Fl f} {p q : ℚ} (hx : x.Is p) (hy : y.Is q) (p1 : |p| ≤ 1) (q1 : |q| ≤ 1)
    (hz : z.InRange) (h : |p + q| ≤ 1) :
    ∃ s t, (Fl.mul (clamp1 (Fl.add x y)) z).Is s ∧ (clamp1 (Fl.add (Fl.mul x z) (Fl.mul y z))).Is t ∧ |s - t| ≤ 5 * f.u := by
  obtain ⟨r, hz, r1⟩ := hz
  have r1 := abs_le.mpr r1
  obtain ⟨a, a1, a2, a3⟩ := fl_add_near hx hy p1 q1
  obtain ⟨s, s1, s2, -⟩ := fl_mul_near a1 hz a3 r1
  obtain ⟨b, b1, b2, b3⟩ := fl_mul_near hx hz p1 r1
  obtain ⟨d, d1, d2, d3⟩ := fl_mul_near hy hz q1 r1
  obtain ⟨t, t1, t2, -⟩ := fl_add_near b1 d1 b3 d3
  refine ⟨s, t, s1, t1, ?_⟩
  rw [clampQ_in h] at a2
  have h1 := near_mul a2 r1
  have h2 := clampQ_lip (b + d) ((p + q) * r)
  rw [clampQ_in (x := (p + q) * r) (by rw [abs_mul]; exact mul_le_one₀ h (abs_nonneg _) r1)] at h2
  have h3 : |b + d - (p + q) * r| ≤ 2 * f.u := by
    rw [abs_le] at b2 d2 ⊢
    constructor <;> nlinarith
  have h4 := h2.trans h3
  rw [abs_le] at *
  constructor <;> nlinarith

theorem fl_add_assoc {f : Fmt} [Std f] {x y z : Fl f} {p q r : ℚ} (hx : x.Is p) (hy : y.Is q) (hz : z.Is r) (p1 : |p| ≤ 1)
    (q1 : |q| ≤ 1) (r1 : |r| ≤ 1) (h : clampQ (clampQ (p + q) + r) = clampQ (p + clampQ (q + r))) :
    ∃ s t, (clamp1 (Fl.add (clamp1 (Fl.add x y)) z)).Is s ∧ (clamp1 (Fl.add x (clamp1 (Fl.add y z)))).Is t ∧
      |s - t| ≤ 4 * f.u := by
  obtain ⟨a, a1, a2, a3⟩ := fl_add_near hx hy p1 q1
  obtain ⟨b, b1, b2, b3⟩ := fl_add_near hy hz q1 r1
  obtain ⟨s, s1, s2, -⟩ := fl_add_near a1 hz a3 r1
  obtain ⟨t, t1, t2, -⟩ := fl_add_near hx b1 p1 b3
  refine ⟨s, t, s1, t1, ?_⟩
  have h1 := clampQ_lip (a + r) (clampQ (p + q) + r)
  have h2 := clampQ_lip (p + b) (p + clampQ (q + r))
  rw [show a + r - (clampQ (p + q) + r) = a - clampQ (p + q) by ring] at h1
  rw [show p + b - (p + clampQ (q + r)) = b - clampQ (q + r) by ring] at h2
  rw [h] at h1
  have h1 := h1.trans a2
  have h2 := h2.trans b2
  rw [abs_le] at *
  constructor <;> linarith

/-! ## C144 for samples -/

/-- C144: amplifying by two volumes one after the other, or by their product, differs by one step at most (four units for
the floats). -/
theorem C144_mul_assoc {x y z : c.T} (vx : Valid c x) (vy : Valid c y) (vz : Valid c z) :
    StepsApart 1 4 c (c.mul (c.mul x y) z) (c.mul x (c.mul y z)) := by
  cases c
  · show |_ - _| ≤ _
    rw [(C02_ch8 _ _).2, (C02_ch8 _ _).2, (C02_ch8 _ _).2, (C02_ch8 _ _).2]
    exact mulZ_assoc (M := 127) (by norm_num) (i8_range x) (i8_range y) (i8_range z)
  · show |_ - _| ≤ _
    rw [(C02_ch16 _ _).2, (C02_ch16 _ _).2, (C02_ch16 _ _).2, (C02_ch16 _ _).2]
    exact mulZ_assoc (M := 32767) (by norm_num) (i16_range x) (i16_range y) (i16_range z)
  · exact fl_mul_assoc vx vy vz
  · exact fl_mul_assoc vx vy vz

example := C144_mul_assoc (c := .ch8) (x := 100#8) (y := -77#8) (z := 55#8) trivial trivial trivial
example := C144_mul_assoc (c := .ch32) (x := lit 0.75) (y := lit (-0.625)) (z := lit 0.5) (by decide +kernel) (by decide +kernel)
  (by decide +kernel)

/-- C144: amplifying a mix that does not clip, or mixing what is amplified, differs by two steps at most (five units for the
floats). -/
theorem C144_distrib {x y z : c.T} (vx : Valid c x) (vy : Valid c y) (vz : Valid c z) {p q : ℚ} (hx : Stored c x p)
    (hy : Stored c y q) (hs : lo c ≤ p + q ∧ p + q ≤ hi c) :
    StepsApart 2 5 c (c.mul (c.add x y) z) (c.add (c.mul x z) (c.mul y z)) := by
  cases c
  · show |_ - _| ≤ _
    rw [(C02_ch8 _ _).2, C01_ch8_add, C01_ch8_add, (C02_ch8 _ _).2, (C02_ch8 _ _).2]
    rw [show p = _ from hx, show q = _ from hy] at hs
    have hs : -127 - 1 ≤ BitVec.toInt x + BitVec.toInt y ∧ BitVec.toInt x + BitVec.toInt y ≤ 127 :=
      ⟨by have := hs.1; simp only [lo] at this; norm_num; exact_mod_cast this,
        by have := hs.2; simp only [hi] at this; exact_mod_cast this⟩
    have := mulZ_distrib (M := 127) (by norm_num) (i8_range x) (i8_range y) (i8_range z) hs
    rwa [show clampZ (-128) 127 (BitVec.toInt x + BitVec.toInt y) = BitVec.toInt x + BitVec.toInt y by unfold clampZ; omega]
  · show |_ - _| ≤ _
    rw [(C02_ch16 _ _).2, C01_ch16_add, C01_ch16_add, (C02_ch16 _ _).2, (C02_ch16 _ _).2]
    rw [show p = _ from hx, show q = _ from hy] at hs
    have hs : -32767 - 1 ≤ BitVec.toInt x + BitVec.toInt y ∧ BitVec.toInt x + BitVec.toInt y ≤ 32767 :=
      ⟨by have := hs.1; simp only [lo] at this; norm_num; exact_mod_cast this,
        by have := hs.2; simp only [hi] at this; exact_mod_cast this⟩
    have := mulZ_distrib (M := 32767) (by norm_num) (i16_range x) (i16_range y) (i16_range z) hs
    rwa [show clampZ (-32768) 32767 (BitVec.toInt x + BitVec.toInt y) = BitVec.toInt x + BitVec.toInt y by unfold clampZ; omega]
  · obtain ⟨p', e1, r1⟩ := vx
    obtain ⟨q', e2, r2⟩ := vy
    rw [Is.unique e1 hx] at r1
    rw [Is.unique e2 hy] at r2
    exact fl_distrib hx hy (abs_le.mpr r1) (abs_le.mpr r2) vz (abs_le.mpr hs)
  · obtain ⟨p', e1, r1⟩ := vx
    obtain ⟨q', e2, r2⟩ := vy
    rw [Is.unique e1 hx] at r1
    rw [Is.unique e2 hy] at r2
    exact fl_distrib hx hy (abs_le.mpr r1) (abs_le.mpr r2) vz (abs_le.mpr hs)

example := C144_distrib (c := .ch8) (x := 100#8) (y := -77#8) (z := 55#8) trivial trivial trivial (p := 100) (q := -77)
  (by decide +kernel) (by decide +kernel) (by norm_num [lo, hi])
example := C144_distrib (c := .ch64) (x := lit 0.75) (y := lit (-0.625)) (z := lit 0.5) (by decide +kernel) (by decide +kernel)
  (by decide +kernel) (p := 0.75) (q := -0.625) (by decide +kernel) (by decide +kernel) (by norm_num [lo, hi])

/-- The integer part: saturating sums of three samples. -/
theorem clampZ_assoc {m M a b d : ℤ} (hm : m ≤ 0) (hM : 0 ≤ M) (ha : m ≤ a ∧ a ≤ M) (hb : m ≤ b ∧ b ≤ M) (hd : m ≤ d ∧ d ≤ M)
    (h : (m ≤ a + b ∧ a + b ≤ M ∧ m ≤ b + d ∧ b + d ≤ M) ∨ (0 ≤ a ∧ 0 ≤ b ∧ 0 ≤ d) ∨ (a ≤ 0 ∧ b ≤ 0 ∧ d ≤ 0)) :
    clampZ m M (clampZ m M (a + b) + d) = clampZ m M (a + clampZ m M (b + d)) := by
  unfold clampZ; omega

theorem clampQ_above {x : ℚ} (h : 1 ≤ x) : clampQ x = 1 := by
  unfold clampQ; rw [min_eq_left h, max_eq_right (by norm_num)]

theorem clampQ_below {x : ℚ} (h : x ≤ -1) : clampQ x = -1 := by
  unfold clampQ; rw [min_eq_right (by linarith), max_eq_left h]

theorem clampQ_twice {x d : ℚ} (h : (-1 ≤ x ∧ x ≤ 1) ∨ (0 ≤ x ∧ 0 ≤ d) ∨ (x ≤ 0 ∧ d ≤ 0)) : clampQ (clampQ x + d) = clampQ (x + d) := by
  rcases h with h | h | h
  · rw [clampQ_in (abs_le.mpr h)]
  · rcases le_total x 1 with h1 | h1
    · rw [clampQ_in (abs_le.mpr ⟨by linarith, h1⟩)]
    · rw [clampQ_above h1, clampQ_above (by linarith), clampQ_above (by linarith)]
  · rcases le_total (-1) x with h1 | h1
    · rw [clampQ_in (abs_le.mpr ⟨h1, by linarith⟩)]
    · rw [clampQ_below h1, clampQ_below (by linarith), clampQ_below (by linarith)]

theorem clampQ_assoc {a b d : ℚ}
    (h : (-1 ≤ a + b ∧ a + b ≤ 1 ∧ -1 ≤ b + d ∧ b + d ≤ 1) ∨ (0 ≤ a ∧ 0 ≤ b ∧ 0 ≤ d) ∨ (a ≤ 0 ∧ b ≤ 0 ∧ d ≤ 0)) :
    clampQ (clampQ (a + b) + d) = clampQ (a + clampQ (b + d)) := by
  rw [add_comm a (clampQ _), clampQ_twice, clampQ_twice, show a + b + d = b + d + a by ring]
  · rcases h with h | h | h
    · exact .inl h.2.2
    · exact .inr (.inl ⟨by linarith, h.1⟩)
    · exact .inr (.inr ⟨by linarith, h.1⟩)
  · rcases h with h | h | h
    · exact .inl ⟨h.1, h.2.1⟩
    · exact .inr (.inl ⟨by linarith, h.2.2⟩)
    · exact .inr (.inr ⟨by linarith, h.2.2⟩)

/-- C144: mixing three samples in either grouping gives the same (four units for the floats), if neither of the first two mixes
clips, or if the samples are on the same side of zero (even if they clip). -/
theorem C144_add_assoc {x y z : c.T} (vx : Valid c x) (vy : Valid c y) (vz : Valid c z) {p q r : ℚ} (hx : Stored c x p)
    (hy : Stored c y q) (hz : Stored c z r)
    (h : (lo c ≤ p + q ∧ p + q ≤ hi c ∧ lo c ≤ q + r ∧ q + r ≤ hi c) ∨ (0 ≤ p ∧ 0 ≤ q ∧ 0 ≤ r) ∨ (p ≤ 0 ∧ q ≤ 0 ∧ r ≤ 0)) :
    StepsApart 0 4 c (c.add (c.add x y) z) (c.add x (c.add y z)) := by
  cases c
  · show |_ - _| ≤ _
    rw [C01_ch8_add, C01_ch8_add, C01_ch8_add, C01_ch8_add]
    rw [show p = _ from hx, show q = _ from hy, show r = _ from hz] at h
    simp only [lo, hi] at h
    have h : (-128 ≤ x.toInt + y.toInt ∧ x.toInt + y.toInt ≤ 127 ∧ -128 ≤ y.toInt + z.toInt ∧ y.toInt + z.toInt ≤ 127) ∨
      (0 ≤ x.toInt ∧ 0 ≤ y.toInt ∧ 0 ≤ z.toInt) ∨ (x.toInt ≤ 0 ∧ y.toInt ≤ 0 ∧ z.toInt ≤ 0) := by exact_mod_cast h
    rw [clampZ_assoc (by norm_num) (by norm_num) (i8_range x) (i8_range y) (i8_range z) h]; simp
  · show |_ - _| ≤ _
    rw [C01_ch16_add, C01_ch16_add, C01_ch16_add, C01_ch16_add]
    rw [show p = _ from hx, show q = _ from hy, show r = _ from hz] at h
    simp only [lo, hi] at h
    have h : (-32768 ≤ x.toInt + y.toInt ∧ x.toInt + y.toInt ≤ 32767 ∧ -32768 ≤ y.toInt + z.toInt ∧ y.toInt + z.toInt ≤ 32767) ∨
      (0 ≤ x.toInt ∧ 0 ≤ y.toInt ∧ 0 ≤ z.toInt) ∨ (x.toInt ≤ 0 ∧ y.toInt ≤ 0 ∧ z.toInt ≤ 0) := by exact_mod_cast h
    rw [clampZ_assoc (by norm_num) (by norm_num) (i16_range x) (i16_range y) (i16_range z) h]; simp
  all_goals
    obtain ⟨p', e1, r1⟩ := vx
    obtain ⟨q', e2, r2⟩ := vy
    obtain ⟨r', e3, r3⟩ := vz
    rw [Is.unique e1 hx] at r1
    rw [Is.unique e2 hy] at r2
    rw [Is.unique e3 hz] at r3
    exact fl_add_assoc hx hy hz (abs_le.mpr r1) (abs_le.mpr r2) (abs_le.mpr r3) (clampQ_assoc h)

example := C144_add_assoc (c := .ch8) (x := 100#8) (y := 77#8) (z := 55#8) trivial trivial trivial (p := 100) (q := 77) (r := 55)
  (by decide +kernel) (by decide +kernel) (by decide +kernel) (.inr (.inl (by norm_num)))
example := C144_add_assoc (c := .ch32) (x := lit 0.75) (y := lit (-0.625)) (z := lit 0.5) (by decide +kernel) (by decide +kernel)
  (by decide +kernel) (p := 0.75) (q := -0.625) (r := 0.5) (by decide +kernel) (by decide +kernel) (by decide +kernel)
  (.inl (by norm_num [lo, hi]))

/-! ## C144 for streams -/

theorem blend_amplify_nth {a b : Src k c} (hk : k.builtin = true) {i : Nat} {x y : Option (Frame k c)}
    (ha : a.nth i = .ok x) (hb : b.nth i = .ok y) :
    (Src.blend a b .amplify).nth i = .ok (x.bind fun x => y.map fun y => x.mul y) := by
  cases x with
  | none => simp only [Src.nth, ha, bind, Except.bind, pure, Except.pure, Option.bind]
  | some x =>
    cases y with
    | none => simp only [Src.nth, ha, hb, bind, Except.bind, pure, Except.pure, Option.bind, Option.map]
    | some y => exact (C79_ops a b i x y y ha hb (C21_id hk y)).2.2.2.2

theorem blend_plus_nth {a b : Src k c} (hk : k.builtin = true) {i : Nat} {x y : Option (Frame k c)}
    (ha : a.nth i = .ok x) (hb : b.nth i = .ok y) :
    (Src.blend a b .plus).nth i = .ok (x.bind fun x => y.map fun y => x.add y) := by
  cases x with
  | none => simp only [Src.nth, ha, bind, Except.bind, pure, Except.pure, Option.bind]
  | some x =>
    cases y with
    | none => simp only [Src.nth, ha, hb, bind, Except.bind, pure, Except.pure, Option.bind, Option.map]
    | some y => exact (C79_ops a b i x y y ha hb (C21_id hk y)).2.2.2.1

/-- C144 for streams: changing the volume of a stream twice is changing it once by the product of the volumes (which may
change with time), up to one step (four units for floats): same length, same rate. -/
theorem C144_volumes (hk : k.builtin = true) (a b d : Src k c) (ha : a.safe = true) (hb : b.safe = true) (hd : d.safe = true)
    (ia : ∀ i f, a.nth i = .ok (some f) → f.InRange) (ib : ∀ i f, b.nth i = .ok (some f) → f.InRange)
    (id : ∀ i f, d.nth i = .ok (some f) → f.InRange) :
    let s := Src.blend (.blend a b .amplify) d .amplify
    let t := Src.blend a (.blend b d .amplify) .amplify
    s.len = t.len ∧ s.rate = t.rate ∧ ∀ i, ∃ x y, s.nth i = .ok x ∧ t.nth i = .ok y ∧ FramesApart 1 4 x y := by
  intro s t
  refine ⟨?_, ?_, fun i => ?_⟩
  · simp only [s, t, Src.len]
    cases a.len <;> cases b.len <;> cases d.len <;> simp
  · simp only [s, t, Src.rate]
  · obtain ⟨x, hx⟩ := a.safe_nth ha i
    obtain ⟨y, hy⟩ := b.safe_nth hb i
    obtain ⟨z, hz⟩ := d.safe_nth hd i
    refine ⟨_, _, blend_amplify_nth hk (blend_amplify_nth hk hx hy) hz, blend_amplify_nth hk hx (blend_amplify_nth hk hy hz), ?_⟩
    cases x <;> cases y <;> cases z <;> try trivial
    rename_i x y z
    intro j hj
    have v1 := (frame_inRange_iff x).mp (ia i x hx) j hj
    have v2 := (frame_inRange_iff y).mp (ib i y hy) j hj
    have v3 := (frame_inRange_iff z).mp (id i z hz) j hj
    simpa [Frame.mul] using C144_mul_assoc v1 v2 v3

/-- C144 for streams: changing the volume of a mix that does not clip is mixing the streams with changed volume, up to two steps
(five units for floats). -/
theorem C144_mix_volume (hk : k.builtin = true) (a b d : Src k c) (ha : a.safe = true) (hb : b.safe = true) (hd : d.safe = true)
    (ia : ∀ i f, a.nth i = .ok (some f) → f.InRange) (ib : ∀ i f, b.nth i = .ok (some f) → f.InRange)
    (id : ∀ i f, d.nth i = .ok (some f) → f.InRange)
    (hs : ∀ i f g, a.nth i = .ok (some f) → b.nth i = .ok (some g) → ∀ j (hj : j < k.chans), ∃ p q, Stored c f[j] p ∧
      Stored c g[j] q ∧ lo c ≤ p + q ∧ p + q ≤ hi c) :
    let s := Src.blend (.blend a b .plus) d .amplify
    let t := Src.blend (.blend a d .amplify) (.blend b d .amplify) .plus
    s.len = t.len ∧ ∀ i, ∃ x y, s.nth i = .ok x ∧ t.nth i = .ok y ∧ FramesApart 2 5 x y := by
  intro s t
  refine ⟨?_, fun i => ?_⟩
  · simp only [s, t, Src.len]
    cases a.len <;> cases b.len <;> cases d.len <;> simp
  · obtain ⟨x, hx⟩ := a.safe_nth ha i
    obtain ⟨y, hy⟩ := b.safe_nth hb i
    obtain ⟨z, hz⟩ := d.safe_nth hd i
    refine ⟨_, _, blend_amplify_nth hk (blend_plus_nth hk hx hy) hz,
      blend_plus_nth hk (blend_amplify_nth hk hx hz) (blend_amplify_nth hk hy hz), ?_⟩
    cases x <;> cases y <;> cases z <;> try trivial
    rename_i x y z
    intro j hj
    have v1 := (frame_inRange_iff x).mp (ia i x hx) j hj
    have v2 := (frame_inRange_iff y).mp (ib i y hy) j hj
    have v3 := (frame_inRange_iff z).mp (id i z hz) j hj
    obtain ⟨p, q, h1, h2, h3⟩ := hs i x y hx hy j hj
    simpa [Frame.mul, Frame.add] using C144_distrib v1 v2 v3 h1 h2 h3

/-- C144 for streams: mixing three streams in either grouping, if no two that are mixed first clip. -/
theorem C144_mixes (hk : k.builtin = true) (a b d : Src k c) (ha : a.safe = true) (hb : b.safe = true) (hd : d.safe = true)
    (ia : ∀ i f, a.nth i = .ok (some f) → f.InRange) (ib : ∀ i f, b.nth i = .ok (some f) → f.InRange)
    (id : ∀ i f, d.nth i = .ok (some f) → f.InRange)
    (hs : ∀ i f g h, a.nth i = .ok (some f) → b.nth i = .ok (some g) → d.nth i = .ok (some h) → ∀ j (hj : j < k.chans),
      ∃ p q r, Stored c f[j] p ∧ Stored c g[j] q ∧ Stored c h[j] r ∧
        lo c ≤ p + q ∧ p + q ≤ hi c ∧ lo c ≤ q + r ∧ q + r ≤ hi c) :
    let s := Src.blend (.blend a b .plus) d .plus
    let t := Src.blend a (.blend b d .plus) .plus
    s.len = t.len ∧ s.rate = t.rate ∧ ∀ i, ∃ x y, s.nth i = .ok x ∧ t.nth i = .ok y ∧ FramesApart 0 4 x y := by
  intro s t
  refine ⟨?_, ?_, fun i => ?_⟩
  · simp only [s, t, Src.len]
    cases a.len <;> cases b.len <;> cases d.len <;> simp
  · simp only [s, t, Src.rate]
  · obtain ⟨x, hx⟩ := a.safe_nth ha i
    obtain ⟨y, hy⟩ := b.safe_nth hb i
    obtain ⟨z, hz⟩ := d.safe_nth hd i
    refine ⟨_, _, blend_plus_nth hk (blend_plus_nth hk hx hy) hz, blend_plus_nth hk hx (blend_plus_nth hk hy hz), ?_⟩
    cases x <;> cases y <;> cases z <;> try trivial
    rename_i x y z
    intro j hj
    have v1 := (frame_inRange_iff x).mp (ia i x hx) j hj
    have v2 := (frame_inRange_iff y).mp (ib i y hy) j hj
    have v3 := (frame_inRange_iff z).mp (id i z hz) j hj
    obtain ⟨p, q, r, h1, h2, h3, h4⟩ := hs i x y z hx hy hz j hj
    simpa [Frame.add] using C144_add_assoc v1 v2 v3 h1 h2 h3 (.inl h4)

example := C144_volumes (k := .mono) (c := .ch8) rfl (.audio (exAudio 8)) (.frame #v[90#8]) (.frame #v[-33#8]) rfl rfl rfl
  (fun _ _ _ => trivial) (fun _ _ _ => trivial) (fun _ _ _ => trivial)

example := C144_mix_volume (k := .mono) (c := .ch8) rfl (.frame #v[31#8]) (.frame #v[90#8]) (.frame #v[-33#8]) rfl rfl rfl
  (fun _ _ _ => trivial) (fun _ _ _ => trivial) (fun _ _ _ => trivial) (by
    intro i f g hf hg j hj
    cases hf; cases hg
    obtain rfl : j = 0 := by simpa [Kind.chans] using hj
    exact ⟨31, 90, by decide +kernel +revert, by decide +kernel +revert, by norm_num [lo, hi]⟩)

example := C144_mixes (k := .mono) (c := .ch8) rfl (.frame #v[31#8]) (.frame #v[90#8]) (.frame #v[-33#8]) rfl rfl rfl
  (fun _ _ _ => trivial) (fun _ _ _ => trivial) (fun _ _ _ => trivial) (by
    intro i f g h hf hg hh j hj
    cases hf; cases hg; cases hh
    obtain rfl : j = 0 := by simpa [Kind.chans] using hj
    exact ⟨31, 90, -33, by decide +kernel +revert, by decide +kernel +revert, by decide +kernel +revert, by norm_num [lo, hi]⟩)

/-- C144 is false without these tolerances and conditions: the bounds of one and two steps are attained, and after clipping the
results are far apart (here, for Ch8, 64 instead of 100 and 27 instead of 100). -/
theorem C144_false :
    (ChTy.ch8.mul (ChTy.ch8.mul (10#8) (19#8)) (87#8) = 0#8 ∧ ChTy.ch8.mul (10#8) (ChTy.ch8.mul (19#8) (87#8)) = 1#8) ∧
    (ChTy.ch8.mul (ChTy.ch8.add (-128#8) (127#8)) (-128#8) = 1#8 ∧
      ChTy.ch8.add (ChTy.ch8.mul (-128#8) (-128#8)) (ChTy.ch8.mul (127#8) (-128#8)) = -1#8) ∧
    (ChTy.ch8.mul (ChTy.ch8.add (100#8) (100#8)) (64#8) = 64#8 ∧
      ChTy.ch8.add (ChTy.ch8.mul (100#8) (64#8)) (ChTy.ch8.mul (100#8) (64#8)) = 100#8) ∧
    (ChTy.ch8.add (ChTy.ch8.add (100#8) (100#8)) (-100#8) = 27#8 ∧
      ChTy.ch8.add (100#8) (ChTy.ch8.add (100#8) (-100#8)) = 100#8) := by
  decide +kernel

end Fon
