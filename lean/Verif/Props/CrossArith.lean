import Verif.Props.ChanLevel

/-!
# C88: arithmetic before and after a format conversion
-/

namespace Fon
open Fmt Fl

theorem u32_eq : binary32.u = ulp .ch32 := by decide +kernel

theorem u64_eq : binary64.u = ulp .ch64 := by decide +kernel

/-- An integer conversion that lands within one step of the point on the integer scale. -/
theorem level_of_quant {M : ℚ} (hM : 255 ≤ M) {F : ℤ} {p : ℚ} (h1 : (F:ℚ) - 1 / 256 ≤ p * (M / 2))
    (h2 : p * (M / 2) < F + 1 + 1 / 256) : |(2 * (F:ℚ) + 1) / M - p| ≤ 3 * (1 / M) := by
  have h0 : 0 < M := by linarith
  have e : (2 * (F:ℚ) + 1) / M - p = (2 * (F:ℚ) + 1 - p * M) / M := by field_simp
  rw [e, abs_div, abs_of_pos h0, show 3 * (1 / M) = 3 / M by ring, div_le_div_iff_of_pos_right h0, abs_le]
  constructor <;> linarith

/-- C88: a conversion between any two formats moves the level of a sample by at most three units of the format
converted to. -/
theorem C88_conv (d s : ChTy) (x : s.T) (hx : Valid s x) (p : ℚ) (hp : Level s x p) :
    ∃ q, Level d (ChTy.conv d s x) q ∧ |q - p| ≤ 3 * ulp d := by
  have hpos : ∀ c : ChTy, 0 < ulp c := by intro c; cases c <;> decide +kernel
  have hr := hp.range hx
  by_cases hds : d = s
  · subst hds
    refine ⟨p, ?_, by rw [sub_self, abs_zero]; linarith [hpos d]⟩
    cases d <;> exact hp
  cases d <;> cases s <;> simp only [not_true_eq_false, reduceCtorEq, not_false_eq_true] at hds
  · -- 16 → 8
    refine ⟨_, rfl, ?_⟩
    rw [show p = (2 * (BitVec.toInt x) + 1) / 65535 from hp, ofCh16_value x]
    have hd := Int.mul_ediv_add_emod (BitVec.toInt x) 256
    have hm0 := Int.emod_nonneg (BitVec.toInt x) (by norm_num : (256:ℤ) ≠ 0)
    have hm1 := Int.emod_lt_of_pos (BitVec.toInt x) (by norm_num : (0:ℤ) < 256)
    have hy := i16_range x
    generalize BitVec.toInt x % 256 = r at *
    have hkr : -128 ≤ BitVec.toInt x / 256 ∧ BitVec.toInt x / 256 ≤ 127 := by omega
    generalize BitVec.toInt x / 256 = K at *
    have hd' : (256:ℚ) * K + r = BitVec.toInt x := by exact_mod_cast hd
    have q1 : (0:ℚ) ≤ r := by exact_mod_cast hm0
    have q2 : (r:ℚ) ≤ 255 := by exact_mod_cast (by omega : r ≤ 255)
    have q3 : (-128:ℚ) ≤ K := by exact_mod_cast hkr.1
    have q4 : (K:ℚ) ≤ 127 := by exact_mod_cast hkr.2
    show _ ≤ 3 * (1 / 255 : ℚ)
    rw [← hd', abs_le]
    constructor <;> linarith
  · -- 32 → 8
    have hm : |binary32.rnd (p * 127.5)| ≤ binary32.maxF := small (by
      rw [abs_mul]; have := abs_le.mpr hr; norm_num; linarith)
    refine ⟨_, rfl, ?_⟩
    rw [show BitVec.toInt (ChTy.conv .ch8 .ch32 x) = _ from quant_is (by norm_num) rep_s8 hp hm]
    have b := quant8_bounds (f := binary32) hr.1 hr.2
    exact level_of_quant (M := 255) (by norm_num) (by convert b.1 using 2; norm_num) (by convert b.2 using 2; norm_num)
  · -- 64 → 8
    have hm : |binary64.rnd (p * 127.5)| ≤ binary64.maxF := small (by
      rw [abs_mul]; have := abs_le.mpr hr; norm_num; linarith)
    refine ⟨_, rfl, ?_⟩
    rw [show BitVec.toInt (ChTy.conv .ch8 .ch64 x) = _ from quant_is (by norm_num) rep_s8 hp hm]
    have b := quant8_bounds (f := binary64) hr.1 hr.2
    exact level_of_quant (M := 255) (by norm_num) (by convert b.1 using 2; norm_num) (by convert b.2 using 2; norm_num)
  · -- 8 → 16: exact
    refine ⟨p, ?_, by rw [sub_self, abs_zero]; linarith [hpos .ch16]⟩
    show p = (2 * ((ChTy.conv .ch16 .ch8 x).toInt : ℚ) + 1) / 65535
    rw [C05_value x, show p = (2 * (BitVec.toInt x) + 1) / 255 from hp]
    push_cast; ring
  · -- 32 → 16
    have hm : |binary32.rnd (p * 32767.5)| ≤ binary32.maxF := small (by
      rw [abs_mul]; have := abs_le.mpr hr; norm_num; linarith)
    refine ⟨_, rfl, ?_⟩
    rw [show BitVec.toInt (ChTy.conv .ch16 .ch32 x) = _ from quant_is (by norm_num) rep_s16 hp hm]
    have b := quant16_bounds (f := binary32) hr.1 hr.2
    exact level_of_quant (M := 65535) (by norm_num) (by convert b.1 using 2; norm_num) (by convert b.2 using 2; norm_num)
  · -- 64 → 16
    have hm : |binary64.rnd (p * 32767.5)| ≤ binary64.maxF := small (by
      rw [abs_mul]; have := abs_le.mpr hr; norm_num; linarith)
    refine ⟨_, rfl, ?_⟩
    rw [show BitVec.toInt (ChTy.conv .ch16 .ch64 x) = _ from quant_is (by norm_num) rep_s16 hp hm]
    have b := quant16_bounds (f := binary64) hr.1 hr.2
    exact level_of_quant (M := 65535) (by norm_num) (by convert b.1 using 2; norm_num) (by convert b.2 using 2; norm_num)
  · refine ⟨_, ofCh8_is (f := binary32) x, ?_⟩
    rw [show p = (2 * (BitVec.toInt x) + 1) / 255 from hp, ← u32_eq]
    exact ofCh8_err x
  · refine ⟨_, ofCh16_is (f := binary32) x, ?_⟩
    rw [show p = (2 * (BitVec.toInt x) + 1) / 65535 from hp, ← u32_eq]
    exact ofCh16_err x
  · -- 64 → 32
    have ha := abs_le.mpr hr
    refine ⟨clampQ (binary32.rnd p), clamp1_is (Is.cast binary32 hp
      ((abs_rnd_le_of_rep rep_one ha).trans one_le_maxF)), ?_⟩
    have e := err_le_two (f := binary32) (ha.trans (by norm_num))
    rw [← u32_eq]
    exact (clampQ_near hr.1 hr.2).trans (e.trans (by linarith [Fmt.u_pos (f := binary32)]))
  · refine ⟨_, ofCh8_is (f := binary64) x, ?_⟩
    rw [show p = (2 * (BitVec.toInt x) + 1) / 255 from hp, ← u64_eq]
    exact ofCh8_err x
  · refine ⟨_, ofCh16_is (f := binary64) x, ?_⟩
    rw [show p = (2 * (BitVec.toInt x) + 1) / 65535 from hp, ← u64_eq]
    exact ofCh16_err x
  · -- 32 → 64: exact
    refine ⟨clampQ p, clamp1_is (widen_is hp), ?_⟩
    rw [clampQ_of_range hr.1 hr.2, sub_self, abs_zero]; linarith [hpos .ch64]

example := C88_conv .ch8 .ch32 (lit (-0.75)) (by decide +kernel) (-0.75) (by decide +kernel)

/-- C88: adding and then converting lands within ten units of the target format and one of the source format of
converting and then adding. -/
theorem C88_add (d s : ChTy) (a b : s.T) (va : Valid s a) (vb : Valid s b) (u v : ℚ)
    (hu : Level d (ChTy.conv d s (s.add a b)) u)
    (hv : Level d (d.add (ChTy.conv d s a) (ChTy.conv d s b)) v) : |u - v| ≤ 10 * ulp d + ulp s := by
  obtain ⟨p, hp⟩ := va.level
  obtain ⟨q, hq⟩ := vb.level
  obtain ⟨r, hr, er⟩ := C69_add va vb hp hq
  obtain ⟨u', hu', eu⟩ := C88_conv d s _ Valid.add r hr
  obtain ⟨p', hp', ep⟩ := C88_conv d s a va p hp
  obtain ⟨q', hq', eq⟩ := C88_conv d s b vb q hq
  obtain ⟨v', hv', ev⟩ := C69_add va.conv vb.conv hp' hq'
  rw [hu.unique hu', hv.unique hv']
  have hl := clampQ_lip (p' + q') (p + q)
  have : |p' + q' - (p + q)| ≤ 6 * ulp d := by
    rw [abs_le] at *; constructor <;> linarith
  have hl' := hl.trans this
  rw [abs_le] at er eu ev hl' ⊢
  constructor <;> linarith

example := C88_add .ch8 .ch16 255#16 1#16 trivial trivial (3 / 255) (1 / 255) (by decide +kernel) (by decide +kernel)

theorem C88_sub (d s : ChTy) (a b : s.T) (va : Valid s a) (vb : Valid s b) (u v : ℚ)
    (hu : Level d (ChTy.conv d s (s.sub a b)) u)
    (hv : Level d (d.sub (ChTy.conv d s a) (ChTy.conv d s b)) v) : |u - v| ≤ 10 * ulp d + ulp s := by
  obtain ⟨p, hp⟩ := va.level
  obtain ⟨q, hq⟩ := vb.level
  obtain ⟨r, hr, er⟩ := C69_sub va vb hp hq
  obtain ⟨u', hu', eu⟩ := C88_conv d s _ Valid.sub r hr
  obtain ⟨p', hp', ep⟩ := C88_conv d s a va p hp
  obtain ⟨q', hq', eq⟩ := C88_conv d s b vb q hq
  obtain ⟨v', hv', ev⟩ := C69_sub va.conv vb.conv hp' hq'
  rw [hu.unique hu', hv.unique hv']
  have hl := clampQ_lip (p' - q') (p - q)
  have : |p' - q' - (p - q)| ≤ 6 * ulp d := by
    rw [abs_le] at *; constructor <;> linarith
  have hl' := hl.trans this
  rw [abs_le] at er eu ev hl' ⊢
  constructor <;> linarith

example := C88_sub .ch8 .ch16 255#16 (-1#16) trivial trivial (3 / 255) (3 / 255) (by decide +kernel) (by decide +kernel)

theorem C88_mul (d s : ChTy) (a b : s.T) (va : Valid s a) (vb : Valid s b) (u v : ℚ)
    (hu : Level d (ChTy.conv d s (s.mul a b)) u)
    (hv : Level d (d.mul (ChTy.conv d s a) (ChTy.conv d s b)) v) : |u - v| ≤ 13 * ulp d + 4 * ulp s := by
  obtain ⟨p, hp⟩ := va.level
  obtain ⟨q, hq⟩ := vb.level
  obtain ⟨r, hr, er⟩ := C69_mul va vb hp hq
  obtain ⟨u', hu', eu⟩ := C88_conv d s _ (va.mul vb) r hr
  obtain ⟨p', hp', ep⟩ := C88_conv d s a va p hp
  obtain ⟨q', hq', eq⟩ := C88_conv d s b vb q hq
  obtain ⟨v', hv', ev⟩ := C69_mul va.conv vb.conv hp' hq'
  rw [hu.unique hu', hv.unique hv']
  have rp := abs_le.mpr (hp'.range va.conv)
  have rq := abs_le.mpr (hq.range vb)
  have : |p' * q' - p * q| ≤ 6 * ulp d := by
    rw [show p' * q' - p * q = p' * (q' - q) + (p' - p) * q by ring]
    have e1 : |p' * (q' - q)| ≤ 3 * ulp d := by
      rw [abs_mul]; nlinarith [abs_nonneg (q' - q), abs_nonneg p']
    have e2 : |(p' - p) * q| ≤ 3 * ulp d := by
      rw [abs_mul]; nlinarith [abs_nonneg (p' - p), abs_nonneg q]
    exact (abs_add_le _ _).trans (by linarith)
  rw [abs_le] at er eu ev this ⊢
  constructor <;> linarith

example := C88_mul .ch8 .ch16 25500#16 (-20000#16) trivial trivial (-121 / 255) (-121 / 255) (by decide +kernel) (by decide +kernel)

/-- Negating and converting commute up to the two conversions. -/
theorem C88_neg (d s : ChTy) (a : s.T) (va : Valid s a) (u v : ℚ)
    (hu : Level d (ChTy.conv d s (s.neg a)) u)
    (hv : Level d (d.neg (ChTy.conv d s a)) v) : |u - v| ≤ 6 * ulp d := by
  obtain ⟨p, hp⟩ := va.level
  obtain ⟨u', hu', eu⟩ := C88_conv d s _ va.neg _ (C69_neg hp)
  obtain ⟨p', hp', ep⟩ := C88_conv d s a va p hp
  rw [hu.unique hu', hv.unique (C69_neg hp')]
  rw [abs_le] at *
  constructor <;> linarith

example := C88_neg .ch8 .ch16 25500#16 trivial (-199 / 255) (-199 / 255) (by decide +kernel) (by decide +kernel)

/-- They do not commute exactly. -/
theorem C88_false : ¬ ∀ (d s : ChTy) (a b : s.T), Valid s a → Valid s b →
    ChTy.conv d s (s.add a b) = d.add (ChTy.conv d s a) (ChTy.conv d s b) := by
  intro h
  exact absurd (h .ch8 .ch16 (255#16) (1#16) trivial trivial) (by decide +kernel)

example : Valid .ch16 (255#16) ∧ Level .ch8 (ChTy.conv .ch8 .ch16 (ChTy.ch16.add 255#16 1#16)) (3 / 255) ∧
    Level .ch8 (ChTy.ch8.add (ChTy.conv .ch8 .ch16 255#16) (ChTy.conv .ch8 .ch16 1#16)) (1 / 255) := by
  refine ⟨trivial, ?_, ?_⟩
  · show (3 / 255 : ℚ) = (2 * ((ChTy.conv .ch8 .ch16 (ChTy.ch16.add 255#16 1#16)).toInt : ℚ) + 1) / 255
    rw [show (ChTy.conv .ch8 .ch16 (ChTy.ch16.add 255#16 1#16)).toInt = 1 by decide +kernel]; norm_num
  · show (1 / 255 : ℚ) = (2 * ((ChTy.ch8.add (ChTy.conv .ch8 .ch16 255#16) (ChTy.conv .ch8 .ch16 1#16)).toInt : ℚ) + 1) / 255
    rw [show (ChTy.ch8.add (ChTy.conv .ch8 .ch16 255#16) (ChTy.conv .ch8 .ch16 1#16)).toInt = 0 by decide +kernel]; norm_num

end Fon
