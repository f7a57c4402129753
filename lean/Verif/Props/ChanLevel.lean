import Verif.Props.ChanCross

/-!
# C68, C69: the operators compared with real arithmetic on levels
-/

namespace Fon
open Fmt Fl

/-! ## C69: the operators approximate real arithmetic -/

/-- Moving a point already in range closer to a clamped point. -/
theorem clampQ_close {r t e : ℚ} (h1 : -1 ≤ r) (h2 : r ≤ 1) (h : |r - t| ≤ e) : |r - clampQ t| ≤ e := by
  have : |clampQ t - r| ≤ |t - r| := clamp_near h1 h2
  rw [abs_sub_comm] at h ⊢
  exact this.trans h

theorem clampQ_lip (s t : ℚ) : |clampQ s - clampQ t| ≤ |s - t| := by
  simp only [clampQ, max_def, min_def]
  split_ifs <;> rw [abs_le] <;> constructor <;>
    linarith [le_abs_self (s - t), neg_abs_le (s - t)]

theorem Level.unique {c : ChTy} {x : c.T} {p q : ℚ} (h : Level c x p) (h' : Level c x q) : p = q := by
  cases c
  · exact Eq.trans h (Eq.symm h')
  · exact Eq.trans h (Eq.symm h')
  · exact Is.unique h h'
  · exact Is.unique h h'

theorem Level.range {c : ChTy} {x : c.T} (v : Valid c x) {p : ℚ} (h : Level c x p) : -1 ≤ p ∧ p ≤ 1 := by
  cases c
  · have := i8_range x
    have h1 : (-128:ℚ) ≤ BitVec.toInt x := by exact_mod_cast this.1
    have h2 : (BitVec.toInt x : ℚ) ≤ 127 := by exact_mod_cast this.2
    simp only [Level] at h; subst h
    constructor
    · rw [le_div_iff₀ (by norm_num)]; linarith
    · rw [div_le_iff₀ (by norm_num)]; linarith
  · have := i16_range x
    have h1 : (-32768:ℚ) ≤ BitVec.toInt x := by exact_mod_cast this.1
    have h2 : (BitVec.toInt x : ℚ) ≤ 32767 := by exact_mod_cast this.2
    simp only [Level] at h; subst h
    constructor
    · rw [le_div_iff₀ (by norm_num)]; linarith
    · rw [div_le_iff₀ (by norm_num)]; linarith
  · obtain ⟨q, hq, h1, h2⟩ := v; rw [Is.unique h hq]; exact ⟨h1, h2⟩
  · obtain ⟨q, hq, h1, h2⟩ := v; rw [Is.unique h hq]; exact ⟨h1, h2⟩

theorem Valid.level {c : ChTy} {x : c.T} (v : Valid c x) : ∃ q, Level c x q := by
  cases c
  · exact ⟨_, rfl⟩
  · exact ⟨_, rfl⟩
  · obtain ⟨q, hq, _⟩ := v; exact ⟨q, hq⟩
  · obtain ⟨q, hq, _⟩ := v; exact ⟨q, hq⟩

theorem level_sum {m : ℤ} (hm : 0 ≤ m) (s k : ℤ) (hk : 0 ≤ k ∧ k ≤ 2) :
    |(2 * (clampZ (-m - 1) m s : ℤ) + 1 : ℚ) / (2 * m + 1) - clampQ ((2 * s + k) / (2 * m + 1))| ≤
      1 / (2 * m + 1) := by
  have hM : (0:ℚ) < 2 * m + 1 := by exact_mod_cast (by omega : 0 < 2 * m + 1)
  have hk1 : (0:ℚ) ≤ k := by exact_mod_cast hk.1
  have hk2 : (k:ℚ) ≤ 2 := by exact_mod_cast hk.2
  by_cases h1 : m < s
  · have e : clampZ (-m - 1) m s = m := by unfold clampZ; omega
    have h1' : (m:ℚ) + 1 ≤ s := by exact_mod_cast h1
    have : (1:ℚ) ≤ (2 * s + k) / (2 * m + 1) := by rw [le_div_iff₀ hM]; linarith
    rw [e, div_self hM.ne', show clampQ _ = 1 by simp only [clampQ, max_def, min_def]; split_ifs <;> linarith]
    simpa using hM.le
  by_cases h2 : s < -m - 1
  · have e : clampZ (-m - 1) m s = -m - 1 := by unfold clampZ; omega
    have h2' : (s:ℚ) + 1 ≤ -m - 1 := by exact_mod_cast h2
    have : (2 * s + k) / (2 * m + 1) ≤ (-1:ℚ) := by rw [div_le_iff₀ hM]; linarith
    rw [e, show clampQ _ = -1 by simp only [clampQ, max_def, min_def]; split_ifs <;> linarith]
    rw [show (2 * ((-m - 1 : ℤ):ℚ) + 1) / (2 * m + 1) = -1 by rw [div_eq_iff hM.ne']; push_cast; ring]
    simpa using hM.le
  · have e : clampZ (-m - 1) m s = s := by unfold clampZ; omega
    have h1' : (s:ℚ) ≤ m := by exact_mod_cast not_lt.mp h1
    have h2' : (-m - 1:ℚ) ≤ s := by exact_mod_cast not_lt.mp h2
    rw [e]
    apply clampQ_close
    · rw [le_div_iff₀ hM]; linarith
    · rw [div_le_iff₀ hM]; linarith
    · rw [← sub_div, abs_div, abs_of_pos hM]
      apply div_le_div_of_nonneg_right _ hM.le
      rw [abs_le]; constructor <;> linarith

theorem clamp_rnd_near {f : Fmt} [Std f] {s : ℚ} (h : |s| ≤ 2) : |clampQ (f.rnd s) - clampQ s| ≤ f.u :=
  (clampQ_lip _ _).trans (err_le_two h)

/-- C69: a sum is the clamped sum of the levels, up to one unit. -/
theorem C69_add {c : ChTy} {a b : c.T} (va : Valid c a) (vb : Valid c b) {p q : ℚ} (ha : Level c a p)
    (hb : Level c b q) : ∃ r, Level c (c.add a b) r ∧ |r - clampQ (p + q)| ≤ ulp c := by
  have r1 := ha.range va
  have r2 := hb.range vb
  have h3 : |p + q| ≤ 2 := abs_le.mpr ⟨by linarith, by linarith⟩
  cases c
  · refine ⟨_, rfl, ?_⟩
    rw [C01_ch8_add, show p = (2 * (BitVec.toInt a) + 1) / 255 from ha,
      show q = (2 * (BitVec.toInt b) + 1) / 255 from hb]
    have := level_sum (m := 127) (by norm_num) (BitVec.toInt a + BitVec.toInt b) 2 (by norm_num)
    norm_num at this
    rw [← add_div, show (2 * (BitVec.toInt a : ℚ) + 1 + (2 * BitVec.toInt b + 1)) =
      2 * (BitVec.toInt a + BitVec.toInt b) + 2 by ring]
    exact this
  · refine ⟨_, rfl, ?_⟩
    rw [C01_ch16_add, show p = (2 * (BitVec.toInt a) + 1) / 65535 from ha,
      show q = (2 * (BitVec.toInt b) + 1) / 65535 from hb]
    have := level_sum (m := 32767) (by norm_num) (BitVec.toInt a + BitVec.toInt b) 2 (by norm_num)
    norm_num at this
    rw [← add_div, show (2 * (BitVec.toInt a : ℚ) + 1 + (2 * BitVec.toInt b + 1)) =
      2 * (BitVec.toInt a + BitVec.toInt b) + 2 by ring]
    exact this
  · exact ⟨_, clamp1_is (Is.add ha hb (small2 h3)), clamp_rnd_near h3⟩
  · exact ⟨_, clamp1_is (Is.add ha hb (small2 h3)), clamp_rnd_near h3⟩

example := C69_add (c := .ch8) (a := 100#8) (b := -50#8) trivial trivial (p := 201 / 255) (q := -99 / 255)
  (by decide +kernel) (by decide +kernel)
example := C69_add (c := .ch32) (a := lit 0.25) (b := lit (-0.75)) (by decide +kernel) (by decide +kernel) (p := 0.25)
  (q := -0.75) (by decide +kernel) (by decide +kernel)

/-- C69: a difference is the clamped difference of the levels, up to one unit. -/
theorem C69_sub {c : ChTy} {a b : c.T} (va : Valid c a) (vb : Valid c b) {p q : ℚ} (ha : Level c a p)
    (hb : Level c b q) : ∃ r, Level c (c.sub a b) r ∧ |r - clampQ (p - q)| ≤ ulp c := by
  have r1 := ha.range va
  have r2 := hb.range vb
  have h3 : |p - q| ≤ 2 := abs_le.mpr ⟨by linarith, by linarith⟩
  cases c
  · refine ⟨_, rfl, ?_⟩
    rw [C01_ch8_sub, show p = (2 * (BitVec.toInt a) + 1) / 255 from ha,
      show q = (2 * (BitVec.toInt b) + 1) / 255 from hb]
    have := level_sum (m := 127) (by norm_num) (BitVec.toInt a - BitVec.toInt b) 0 (by norm_num)
    norm_num at this
    rw [← sub_div, show (2 * (BitVec.toInt a : ℚ) + 1 - (2 * BitVec.toInt b + 1)) =
      2 * (BitVec.toInt a - BitVec.toInt b) by ring]
    norm_num
    exact this
  · refine ⟨_, rfl, ?_⟩
    rw [C01_ch16_sub, show p = (2 * (BitVec.toInt a) + 1) / 65535 from ha,
      show q = (2 * (BitVec.toInt b) + 1) / 65535 from hb]
    have := level_sum (m := 32767) (by norm_num) (BitVec.toInt a - BitVec.toInt b) 0 (by norm_num)
    norm_num at this
    rw [← sub_div, show (2 * (BitVec.toInt a : ℚ) + 1 - (2 * BitVec.toInt b + 1)) =
      2 * (BitVec.toInt a - BitVec.toInt b) by ring]
    norm_num
    exact this
  · exact ⟨_, clamp1_is (Is.sub ha hb (small2 h3)), clamp_rnd_near h3⟩
  · exact ⟨_, clamp1_is (Is.sub ha hb (small2 h3)), clamp_rnd_near h3⟩

example := C69_sub (c := .ch8) (a := 100#8) (b := -50#8) trivial trivial (p := 201 / 255) (q := -99 / 255)
  (by decide +kernel) (by decide +kernel)
example := C69_sub (c := .ch32) (a := lit 0.25) (b := lit (-0.75)) (by decide +kernel) (by decide +kernel) (p := 0.25)
  (q := -0.75) (by decide +kernel) (by decide +kernel)

theorem tdiv_pos_cases (P m : ℤ) (hm : 0 < m) :
    (0 ≤ P ∧ m * P.tdiv m ≤ P ∧ P < m * P.tdiv m + m) ∨ (P ≤ 0 ∧ P ≤ m * P.tdiv m ∧ m * P.tdiv m < P + m) := by
  rcases le_total 0 P with h | h
  · left
    rw [Int.tdiv_eq_ediv_of_nonneg h]
    have h1 := Int.emod_nonneg P hm.ne'
    have h2 := Int.emod_lt_of_pos P hm
    have h3 := Int.mul_ediv_add_emod P m
    refine ⟨h, ?_, ?_⟩ <;> linarith
  · right
    have e : P.tdiv m = -((-P) / m) := by
      rw [← Int.tdiv_eq_ediv_of_nonneg (by omega), Int.neg_tdiv, neg_neg]
    rw [e]
    have h1 := Int.emod_nonneg (-P) hm.ne'
    have h2 := Int.emod_lt_of_pos (-P) hm
    have h3 := Int.mul_ediv_add_emod (-P) m
    refine ⟨h, ?_, ?_⟩ <;> linarith

theorem level_prod8 {a b : ℤ} (ha : -128 ≤ a ∧ a ≤ 127) (hb : -128 ≤ b ∧ b ≤ 127) :
    |(2 * clampZ (-128) 127 ((a * b).tdiv 127) + 1) * 255 - (2 * a + 1) * (2 * b + 1)| ≤ 4 * 255 := by
  have c1 := mul_nonneg (sub_nonneg.mpr ha.2) (sub_nonneg.mpr hb.2)
  have c2 := mul_nonneg (by omega : 0 ≤ a + 128) (by omega : 0 ≤ b + 128)
  have c3 := mul_nonneg (by omega : 0 ≤ a + 128) (sub_nonneg.mpr hb.2)
  have c4 := mul_nonneg (sub_nonneg.mpr ha.2) (by omega : 0 ≤ b + 128)
  have e : (2 * a + 1) * (2 * b + 1) = 4 * (a * b) + 2 * a + 2 * b + 1 := by ring
  rw [e]
  ring_nf at c1 c2 c3 c4
  generalize hP : a * b = P at *
  have := tdiv_pos_cases P 127 (by norm_num)
  generalize P.tdiv 127 = r at *
  unfold clampZ
  rw [abs_le]
  constructor <;> omega

theorem level_prod16 {a b : ℤ} (ha : -32768 ≤ a ∧ a ≤ 32767) (hb : -32768 ≤ b ∧ b ≤ 32767) :
    |(2 * clampZ (-32768) 32767 ((a * b).tdiv 32767) + 1) * 65535 - (2 * a + 1) * (2 * b + 1)| ≤ 4 * 65535 := by
  have c1 := mul_nonneg (sub_nonneg.mpr ha.2) (sub_nonneg.mpr hb.2)
  have c2 := mul_nonneg (by omega : 0 ≤ a + 32768) (by omega : 0 ≤ b + 32768)
  have c3 := mul_nonneg (by omega : 0 ≤ a + 32768) (sub_nonneg.mpr hb.2)
  have c4 := mul_nonneg (sub_nonneg.mpr ha.2) (by omega : 0 ≤ b + 32768)
  have e : (2 * a + 1) * (2 * b + 1) = 4 * (a * b) + 2 * a + 2 * b + 1 := by ring
  rw [e]
  ring_nf at c1 c2 c3 c4
  generalize hP : a * b = P at *
  have := tdiv_pos_cases P 32767 (by norm_num)
  generalize P.tdiv 32767 = r at *
  unfold clampZ
  rw [abs_le]
  constructor <;> omega

theorem level_quot {x P M : ℤ} (hM : 0 < M) (h : |x * M - P| ≤ 4 * M) : |(x / M - P / (M * M) : ℚ)| ≤ 4 * (1 / M) := by
  have hM' : (0:ℚ) < M := by exact_mod_cast hM
  have h' : |(x * M - P : ℚ)| ≤ 4 * M := by exact_mod_cast h
  rw [show (x / M - P / (M * M) : ℚ) = (x * M - P) / (M * M) by field_simp, abs_div,
    abs_of_pos (mul_pos hM' hM'), div_le_iff₀ (mul_pos hM' hM')]
  calc _ ≤ _ := h'
    _ = _ := by field_simp

theorem ulp_ch32 : ulp .ch32 = binary32.u := rfl
theorem ulp_ch64 : ulp .ch64 = binary64.u := rfl
theorem ulp_pos (c : ChTy) : 0 < ulp c := by
  cases c
  · norm_num [ulp]
  · norm_num [ulp]
  · exact two_zpow_pos _
  · exact two_zpow_pos _

/-- C69: a product is the product of the levels, up to four units. -/
theorem C69_mul {c : ChTy} {a b : c.T} (va : Valid c a) (vb : Valid c b) {p q : ℚ} (ha : Level c a p)
    (hb : Level c b q) : ∃ r, Level c (c.mul a b) r ∧ |r - p * q| ≤ 4 * ulp c := by
  have r1 := ha.range va
  have r2 := hb.range vb
  have h3 : |p * q| ≤ 2 := by
    rw [abs_mul]
    have := abs_le.mpr r1
    have := abs_le.mpr r2
    nlinarith [abs_nonneg p, abs_nonneg q]
  cases c
  · refine ⟨_, rfl, ?_⟩
    rw [(C02_ch8 a b).2, show p = (2 * (BitVec.toInt a) + 1) / 255 from ha,
      show q = (2 * (BitVec.toInt b) + 1) / 255 from hb]
    have := level_quot (M := 255) (by norm_num) (level_prod8 (i8_range a) (i8_range b))
    push_cast at this
    rw [div_mul_div_comm]
    exact this
  · refine ⟨_, rfl, ?_⟩
    rw [(C02_ch16 a b).2, show p = (2 * (BitVec.toInt a) + 1) / 65535 from ha,
      show q = (2 * (BitVec.toInt b) + 1) / 65535 from hb]
    have := level_quot (M := 65535) (by norm_num) (level_prod16 (i16_range a) (i16_range b))
    push_cast at this
    rw [div_mul_div_comm]
    exact this
  · refine ⟨_, Is.mul ha hb (small2 h3), (err_le_two h3).trans ?_⟩
    rw [ulp_ch32]; linarith [Fmt.u_pos (f := binary32)]
  · refine ⟨_, Is.mul ha hb (small2 h3), (err_le_two h3).trans ?_⟩
    rw [ulp_ch64]; linarith [Fmt.u_pos (f := binary64)]

example := C69_mul (c := .ch8) (a := 100#8) (b := -50#8) trivial trivial (p := 201 / 255) (q := -99 / 255)
  (by decide +kernel) (by decide +kernel)

/-- C69: negation negates the level exactly. -/
theorem C69_neg {c : ChTy} {a : c.T} {p : ℚ} (ha : Level c a p) : Level c (c.neg a) (-p) := by
  cases c
  · show -p = (2 * ((ChTy.ch8.neg a).toInt : ℚ) + 1) / 255
    rw [(C04_ch8 a).2, show p = (2 * (BitVec.toInt a) + 1) / 255 from ha]; push_cast; ring
  · show -p = (2 * ((ChTy.ch16.neg a).toInt : ℚ) + 1) / 65535
    rw [(C04_ch16 a).2, show p = (2 * (BitVec.toInt a) + 1) / 65535 from ha]; push_cast; ring
  · exact Is.neg ha
  · exact Is.neg ha

example := C69_neg (c := .ch8) (a := -128#8) (p := -1) (by decide +kernel)

/-- C69: `lerp` is the line `p + s * (q - p)` with the difference clamped, up to six units. -/
theorem C69_lerp {c : ChTy} {a b t : c.T} (va : Valid c a) (vb : Valid c b) (vt : Valid c t) {p q s : ℚ}
    (ha : Level c a p) (hb : Level c b q) (ht : Level c t s) :
    ∃ r, Level c (c.lerp a b t) r ∧ |r - clampQ (p + s * clampQ (q - p))| ≤ 6 * ulp c := by
  obtain ⟨d, hd, ed⟩ := C69_sub vb va hb ha
  obtain ⟨m, hm, em⟩ := C69_mul vt Valid.sub ht hd
  obtain ⟨r, hr, er⟩ := C69_add va (vt.mul Valid.sub) ha hm
  refine ⟨r, hr, ?_⟩
  have hs := abs_le.mpr (ht.range vt)
  have e1 : |s * d - s * clampQ (q - p)| ≤ ulp c := by
    rw [← mul_sub, abs_mul]
    nlinarith [abs_nonneg s, abs_nonneg (d - clampQ (q - p))]
  have e2 := clampQ_lip (p + m) (p + s * clampQ (q - p))
  rw [show p + m - (p + s * clampQ (q - p)) = (m - s * d) + (s * d - s * clampQ (q - p)) by ring] at e2
  have e3 := abs_add_le (m - s * d) (s * d - s * clampQ (q - p))
  have e4 := abs_sub_le r (clampQ (p + m)) (clampQ (p + s * clampQ (q - p)))
  linarith

example := C69_lerp (c := .ch8) (a := 100#8) (b := -50#8) (t := 20#8) trivial trivial trivial (p := 201 / 255)
  (q := -99 / 255) (s := 41 / 255) (by decide +kernel) (by decide +kernel) (by decide +kernel)

example : Level .ch8 (100#8) (201 / 255) ∧ Level .ch8 (-50#8) (-99 / 255) ∧
    Level .ch8 (ChTy.ch8.mul (100#8) (-50#8)) (-77 / 255) := by
  simp only [Level]; decide +kernel

/-! ## C68: division -/

theorem Is.div_clamp {f : Fmt} [Std f] {x y : Fl f} {p q : ℚ} (hx : x.Is p) (hy : y.Is q) (hq : q ≠ 0) :
    ∃ r, (ChF.div x y).Is r ∧ |r - clampQ (p / q)| ≤ f.u := by
  have one : |f.rnd 1| ≤ f.maxF := by rw [rnd_of_rep rep_one, abs_one]; exact one_le_maxF
  by_cases h : |p / q| ≤ 2
  · exact ⟨_, clamp1_is (hx.div hy hq (small2 h)), clamp_rnd_near h⟩
  push Not at h
  have h2 : f.Rep 2 := by
    have := rep_pow (f := f) 1 (by norm_num) (by norm_num); rwa [zpow_one] at this
  by_cases hm : |f.rnd (p / q)| ≤ f.maxF
  · refine ⟨_, clamp1_is (hx.div hy hq hm), ?_⟩
    rcases le_total 0 (p / q) with h0 | h0
    · rw [abs_of_nonneg h0] at h
      have := le_rnd_of_gen h2.gen h.le
      rw [show clampQ (f.rnd (p / q)) = 1 by simp only [clampQ, max_def, min_def]; split_ifs <;> linarith,
        show clampQ (p / q) = 1 by simp only [clampQ, max_def, min_def]; split_ifs <;> linarith]
      simpa using (Fmt.u_pos (f := f)).le
    · rw [abs_of_nonpos h0] at h
      have := rnd_le_of_gen h2.neg.gen (by linarith : p / q ≤ -2)
      rw [show clampQ (f.rnd (p / q)) = -1 by simp only [clampQ, max_def, min_def]; split_ifs <;> linarith,
        show clampQ (p / q) = -1 by simp only [clampQ, max_def, min_def]; split_ifs <;> linarith]
      simpa using (Fmt.u_pos (f := f)).le
  · have e : Fl.div x y = .inf (decide (p / q < 0)) := by
      obtain ⟨_, _, rfl⟩ := hx; obtain ⟨_, _, rfl⟩ := hy
      simp only [Fl.div, if_neg hq, ofQ, dif_neg hm]
    rw [ChF.div, e, clamp1_inf]
    rcases le_total 0 (p / q) with h0 | h0
    · rw [abs_of_nonneg h0] at h
      rw [show decide (p / q < 0) = false by simpa using h0]
      refine ⟨1, is_one, ?_⟩
      rw [show clampQ (p / q) = 1 by simp only [clampQ, max_def, min_def]; split_ifs <;> linarith]
      simpa using (Fmt.u_pos (f := f)).le
    · rw [abs_of_nonpos h0] at h
      rw [show decide (p / q < 0) = true by simp; linarith]
      refine ⟨-1, is_neg_one, ?_⟩
      rw [show clampQ (p / q) = -1 by simp only [clampQ, max_def, min_def]; split_ifs <;> linarith]
      simpa using (Fmt.u_pos (f := f)).le

/-- C68 for the float formats: a quotient is the clamped quotient of the levels, up to one unit. The claim for
all formats, `∃ d, c.div a b = .ok d ∧ ∃ r, Level c d r ∧ |r - clampQ (p / q)| ≤ k * ulp c` for a small `k`, is
false for the integer formats (`C68_false`). -/
theorem C68_partial {c : ChTy} (hc : c = .ch32 ∨ c = .ch64) {a b : c.T} {p q : ℚ} (ha : Level c a p) (hb : Level c b q)
    (hq : q ≠ 0) : ∃ d, c.div a b = .ok d ∧ ∃ r, Level c d r ∧ |r - clampQ (p / q)| ≤ ulp c := by
  rcases hc with rfl | rfl
  · exact ⟨_, rfl, Is.div_clamp ha hb hq⟩
  · exact ⟨_, rfl, Is.div_clamp ha hb hq⟩

example := C68_partial (c := .ch32) (.inl rfl) (a := lit 0.25) (b := lit (-0.75)) (p := 0.25) (q := -0.75)
  (by decide +kernel) (by decide +kernel) (by norm_num)

/-- C68 is false for the integer formats: 63 / 126 stands for about one half, but the result is full scale. -/
theorem C68_false :
    (∃ (a b d : Ch8) (p q r : ℚ), Level .ch8 a p ∧ Level .ch8 b q ∧ ChTy.ch8.div a b = .ok d ∧ Level .ch8 d r ∧
      120 * ulp .ch8 < |r - clampQ (p / q)|) ∧
    (∃ (a b d : Ch16) (p q r : ℚ), Level .ch16 a p ∧ Level .ch16 b q ∧ ChTy.ch16.div a b = .ok d ∧ Level .ch16 d r ∧
      32000 * ulp .ch16 < |r - clampQ (p / q)|) := by
  constructor
  · refine ⟨63#8, 126#8, 127#8, 127 / 255, 253 / 255, 1, ?_⟩
    simp only [Level, ulp]; decide +kernel
  · refine ⟨16383#16, 32766#16, 32767#16, 32767 / 65535, 65533 / 65535, 1, ?_⟩
    simp only [Level, ulp]; decide +kernel

/-- C68: where the integer formats saturate: from quotients of 127/256 and 32767/65536 on. -/
theorem C68_saturates :
    (∀ a b : Ch8, 0 < b.toInt → 127 * b.toInt ≤ 256 * a.toInt → ChTy.ch8.div a b = .ok ChTy.ch8.MAX) ∧
    (∀ a b : Ch16, 0 < b.toInt → 32767 * b.toInt ≤ 65536 * a.toInt → ChTy.ch16.div a b = .ok ChTy.ch16.MAX) := by
  constructor
  · intro a b hb h
    obtain ⟨c, e, hc⟩ := C03_ch8 a b
    rw [e]; congr 1; apply BitVec.eq_of_toInt_eq
    rw [hc, show (ChTy.ch8.MAX : BitVec 8).toInt = 127 by decide, quot, if_neg (by omega)]
    have : 127 ≤ (a.toInt * 2 ^ 8).tdiv b.toInt := by
      rw [Int.tdiv_eq_ediv_of_nonneg (by omega)]
      exact (Int.le_ediv_iff_mul_le hb).mpr (by omega)
    unfold clampZ; omega
  · intro a b hb h
    obtain ⟨c, e, hc⟩ := C03_ch16_partial a b (by
      rintro ⟨-, h⟩; omega)
    rw [e]; congr 1; apply BitVec.eq_of_toInt_eq
    rw [hc, show (ChTy.ch16.MAX : BitVec 16).toInt = 32767 by decide, quot, if_neg (by omega)]
    have : 32767 ≤ (a.toInt * 2 ^ 16).tdiv b.toInt := by
      rw [Int.tdiv_eq_ediv_of_nonneg (by omega)]
      exact (Int.le_ediv_iff_mul_le hb).mpr (by omega)
    unfold clampZ; omega

example : ChTy.ch8.div (30#8) (60#8) = .ok ChTy.ch8.MAX ∧ ChTy.ch8.div (29#8) (60#8) = .ok 123#8 := by decide +kernel
example : Level .ch64 (lit 1) 1 ∧ Level .ch64 (lit 0) 0 := ⟨is_one, is_zero⟩

end Fon
