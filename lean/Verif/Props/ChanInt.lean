import Verif.Spec.Chan
import Verif.Proofs.Fl

/-!
# C01 - C05: integer channels
-/

namespace Fon

/-! ## C01 -/

/-- C01, Ch8 `+`: the sum clamped to the range. -/
theorem C01_ch8_add (a b : Ch8) :
    (ChTy.ch8.add a b).toInt = clampZ (-128) 127 (a.toInt + b.toInt) := toInt_sat (by norm_num) _
/-- C01, Ch8 `-`. -/
theorem C01_ch8_sub (a b : Ch8) :
    (ChTy.ch8.sub a b).toInt = clampZ (-128) 127 (a.toInt - b.toInt) := toInt_sat (by norm_num) _
/-- C01, Ch16 `+`. -/
theorem C01_ch16_add (a b : Ch16) :
    (ChTy.ch16.add a b).toInt = clampZ (-32768) 32767 (a.toInt + b.toInt) :=
  toInt_sat (by norm_num) _
/-- C01, Ch16 `-`. -/
theorem C01_ch16_sub (a b : Ch16) :
    (ChTy.ch16.sub a b).toInt = clampZ (-32768) 32767 (a.toInt - b.toInt) :=
  toInt_sat (by norm_num) _

example : ChTy.ch8.add (100#8) (100#8) = 127#8 := by decide
example : ChTy.ch16.sub (-30000#16) (30000#16) = -32768#16 := by decide
example : ChTy.ch8.add (100#8) (-30#8) = 70#8 := by decide

/-! ## C02 -/

/-- C02: the overflow-checked code of `Ch8 * Ch8` returns, and its value is the scaled product. -/
theorem C02_ch8 (a b : Ch8) : Ch8.mulR a b = .ok (ChTy.ch8.mul a b) ∧
    (ChTy.ch8.mul a b).toInt = clampZ (-128) 127 ((a.toInt * b.toInt).tdiv 127) := by
  obtain ⟨c, h, hc⟩ := Ch8.mulR_val a b
  have e : ChTy.ch8.mul a b = c := R.get_eq h
  rw [e]
  refine ⟨h, ?_⟩
  have := i8_range c
  unfold clampZ; omega

/-- C02 for Ch16. -/
theorem C02_ch16 (a b : Ch16) : Ch16.mulR a b = .ok (ChTy.ch16.mul a b) ∧
    (ChTy.ch16.mul a b).toInt = clampZ (-32768) 32767 ((a.toInt * b.toInt).tdiv 32767) := by
  obtain ⟨c, h, hc⟩ := Ch16.mulR_val a b
  have e : ChTy.ch16.mul a b = c := R.get_eq h
  rw [e]
  refine ⟨h, ?_⟩
  have := i16_range c
  unfold clampZ; omega

/-- C02: `MAX` is a unit of Ch8 multiplication. -/
theorem C02_ch8_unit (a : Ch8) : ChTy.ch8.mul a ChTy.ch8.MAX = a ∧ ChTy.ch8.mul ChTy.ch8.MAX a = a := by
  have h : (ChTy.ch8.MAX : BitVec 8).toInt = 127 := by decide
  have := i8_range a
  constructor <;> apply BitVec.eq_of_toInt_eq <;> rw [(C02_ch8 _ _).2, h]
  · rw [Int.mul_tdiv_cancel _ (by norm_num)]; unfold clampZ; omega
  · rw [Int.mul_tdiv_cancel_left _ (by norm_num)]; unfold clampZ; omega

/-- C02: `MAX` is a unit of Ch16 multiplication. -/
theorem C02_ch16_unit (a : Ch16) :
    ChTy.ch16.mul a ChTy.ch16.MAX = a ∧ ChTy.ch16.mul ChTy.ch16.MAX a = a := by
  have h : (ChTy.ch16.MAX : BitVec 16).toInt = 32767 := by decide
  have := i16_range a
  constructor <;> apply BitVec.eq_of_toInt_eq <;> rw [(C02_ch16 _ _).2, h]
  · rw [Int.mul_tdiv_cancel _ (by norm_num)]; unfold clampZ; omega
  · rw [Int.mul_tdiv_cancel_left _ (by norm_num)]; unfold clampZ; omega

/-- C02: `MID` annihilates in Ch8. -/
theorem C02_ch8_zero (a : Ch8) : ChTy.ch8.mul a ChTy.ch8.MID = ChTy.ch8.MID ∧
    ChTy.ch8.mul ChTy.ch8.MID a = ChTy.ch8.MID := by
  have h : (ChTy.ch8.MID : BitVec 8).toInt = 0 := by decide
  constructor <;> apply BitVec.eq_of_toInt_eq <;> rw [(C02_ch8 _ _).2, h] <;> simp [clampZ]

/-- C02: `MID` annihilates in Ch16. -/
theorem C02_ch16_zero (a : Ch16) : ChTy.ch16.mul a ChTy.ch16.MID = ChTy.ch16.MID ∧
    ChTy.ch16.mul ChTy.ch16.MID a = ChTy.ch16.MID := by
  have h : (ChTy.ch16.MID : BitVec 16).toInt = 0 := by decide
  constructor <;> apply BitVec.eq_of_toInt_eq <;> rw [(C02_ch16 _ _).2, h] <;> simp [clampZ]

/-- C02: Ch8 multiplication commutes. -/
theorem C02_ch8_comm (a b : Ch8) : ChTy.ch8.mul a b = ChTy.ch8.mul b a := by
  apply BitVec.eq_of_toInt_eq; rw [(C02_ch8 _ _).2, (C02_ch8 _ _).2, mul_comm]

/-- C02: Ch16 multiplication commutes. -/
theorem C02_ch16_comm (a b : Ch16) : ChTy.ch16.mul a b = ChTy.ch16.mul b a := by
  apply BitVec.eq_of_toInt_eq; rw [(C02_ch16 _ _).2, (C02_ch16 _ _).2, mul_comm]

example : Ch8.mulR (-128#8) (-128#8) = .ok 127#8 := by decide
example : Ch8.mulR (100#8) (-50#8) = .ok (-39#8) := by decide
example : Ch16.mulR (-32768#16) (-32768#16) = .ok 32767#16 := by decide

/-! ## C03 -/

theorem toInt_shl {n : Nat} (a : BitVec n) (m k : Nat) (h : n + k ≤ m) (hn : 0 < n) :
    ((a.signExtend m) <<< k).toInt = a.toInt * 2 ^ k := by
  have h1 := toInt_ge n a hn
  have h2 := toInt_le n a hn
  have e : (a.signExtend m) <<< k = BitVec.ofInt m (a.toInt * 2 ^ k) := by
    have : (a.signExtend m) = BitVec.ofInt m a.toInt := rfl
    rw [this]
    apply BitVec.eq_of_toNat_eq
    rw [BitVec.toNat_shiftLeft, Nat.shiftLeft_eq, BitVec.toNat_ofInt, BitVec.toNat_ofInt]
    apply Int.natCast_inj.mp
    have hm : (0:ℤ) < 2 ^ m := by positivity
    push_cast
    rw [Int.toNat_of_nonneg (Int.emod_nonneg _ (by positivity)),
      Int.toNat_of_nonneg (Int.emod_nonneg _ (by positivity))]
    rw [Int.mul_emod, Int.emod_emod, ← Int.mul_emod]
  rw [e]
  apply toInt_ofInt_range (by omega)
  obtain ⟨d, rfl⟩ : ∃ d, m = n + k + d := ⟨m - (n + k), by omega⟩
  have hp : (0:ℤ) < 2 ^ k := by positivity
  have hd : (1:ℤ) ≤ 2 ^ d := one_le_pow₀ (by norm_num)
  have hq : (0:ℤ) < 2 ^ (n - 1) := by positivity
  have e2 : n + k + d - 1 = (n - 1) + k + d := by omega
  have e3 : (2:ℤ) ^ (n - 1 + k) = 2 ^ (n-1) * 2 ^ k := pow_add _ _ _
  unfold iMin iMax at *
  rw [e2, pow_add, e3]
  have hx : (2:ℤ) ^ (n-1) * 2 ^ k ≤ 2 ^ (n-1) * 2 ^ k * 2 ^ d := by
    nlinarith [mul_pos hq hp]
  constructor <;> nlinarith [mul_pos hq hp]

/-- Bound on truncated division when the divisor is arbitrary. -/
theorem abs_tdiv_le (x y : ℤ) : |x.tdiv y| ≤ |x| := by
  rw [Int.abs_eq_natAbs, Int.abs_eq_natAbs, Int.natAbs_tdiv]
  exact_mod_cast Nat.div_le_self _ _

/-- C03 for Ch8: division always returns, with the stated value. -/
theorem C03_ch8 (a b : Ch8) :
    ∃ c, ChTy.ch8.div a b = .ok c ∧ c.toInt = quot 8 (-128) 127 a.toInt b.toInt := by
  have ha := i8_range a
  have hb := i8_range b
  unfold quot
  by_cases hb0 : b = 0#8
  · subst hb0; exact ⟨127#8, by simp [ChTy.div, Ch8.div], by simp⟩
  have hb1 : b.toInt ≠ 0 := fun h => hb0 (BitVec.eq_of_toInt_eq (by rw [h]; decide))
  have e1 := toInt_shl a 32 8 (by norm_num) (by norm_num)
  have e2 : (b.signExtend 32).toInt = b.toInt := toInt_signExtend b (by norm_num)
  have hle := abs_tdiv_le (a.toInt * 2 ^ 8) b.toInt
  have hle2 : |a.toInt * 2 ^ 8| ≤ 32768 := by rw [abs_le]; omega
  have hq := abs_le.mp (hle.trans hle2)
  set q := (a.toInt * 2 ^ 8).tdiv b.toInt with hqd
  have e3 : divI (a.signExtend 32 <<< 8) (b.signExtend 32) = .ok (BitVec.ofInt 32 q) := by
    rw [divI_ok (by rw [e2]; exact hb1)] <;> rw [e1, e2]
    rw [← hqd]; simp [iMin, iMax]; omega
  have e4 : (BitVec.ofInt 32 q).toInt = q :=
    toInt_ofInt_range (by norm_num) (by simp [iMin, iMax]; omega)
  have h127 : (127#32).toInt = 127 := by decide
  have h128 : (-128#32).toInt = -128 := by decide
  refine ⟨(smax (smin (BitVec.ofInt 32 q) (127#32)) (-128#32)).setWidth 8, ?_, ?_⟩
  · simp only [ChTy.div, Ch8.div, ne_eq, hb0, not_false_eq_true, if_true, e3, bind, Except.bind,
      pure, Except.pure]
  · rw [if_neg hb1, toInt_setWidth_range (by norm_num) _ (by norm_num)] <;>
      rw [toInt_smax, toInt_smin, e4, h127, h128]
    · unfold clampZ; rw [max_comm, min_comm]
    · simp [iMin, iMax]

/-- C03 for Ch16: division returns, with the stated value, for every pair but `MIN / -1`. -/
theorem C03_ch16_partial (a b : Ch16) (hab : ¬ (a.toInt = -32768 ∧ b.toInt = -1)) :
    ∃ c, ChTy.ch16.div a b = .ok c ∧ c.toInt = quot 16 (-32768) 32767 a.toInt b.toInt := by
  have ha := i16_range a
  have hb := i16_range b
  unfold quot
  by_cases hb0 : b = 0#16
  · subst hb0; exact ⟨32767#16, by simp [ChTy.div, Ch16.div], by simp⟩
  have hb1 : b.toInt ≠ 0 := fun h => hb0 (BitVec.eq_of_toInt_eq (by rw [h]; decide))
  have e1 := toInt_shl a 32 16 (by norm_num) (by norm_num)
  have e2 : (b.signExtend 32).toInt = b.toInt := toInt_signExtend b (by norm_num)
  have hq : -2147483648 ≤ (a.toInt * 2 ^ 16).tdiv b.toInt ∧
      (a.toInt * 2 ^ 16).tdiv b.toInt ≤ 2147483647 := by
    by_cases h : a.toInt = -32768
    · have hb2 : b.toInt ≠ -1 := fun h2 => hab ⟨h, h2⟩
      by_cases hb3 : b.toInt = 1
      · rw [hb3, h]; decide
      · have h2 : (2:ℕ) ≤ b.toInt.natAbs := by omega
        have : |(a.toInt * 2 ^ 16).tdiv b.toInt| ≤ 1073741824 := by
          rw [Int.abs_eq_natAbs, Int.natAbs_tdiv, h]
          have : (-32768 * 2 ^ 16 : ℤ).natAbs / b.toInt.natAbs ≤ (-32768 * 2 ^ 16 : ℤ).natAbs / 2 :=
            Nat.div_le_div_left h2 (by norm_num)
          have h3 : (-32768 * 2 ^ 16 : ℤ).natAbs / 2 = 1073741824 := by decide
          show (((-32768 * 2 ^ 16 : ℤ).natAbs / b.toInt.natAbs : ℕ) : ℤ) ≤ _
          rw [h3] at this; omega
        have := abs_le.mp this; omega
    · have hle := abs_tdiv_le (a.toInt * 2 ^ 16) b.toInt
      have hle2 : |a.toInt * 2 ^ 16| ≤ 2147483647 := by rw [abs_le]; omega
      have hq := abs_le.mp (hle.trans hle2)
      omega
  set q := (a.toInt * 2 ^ 16).tdiv b.toInt with hqd
  have e3 : divI (a.signExtend 32 <<< 16) (b.signExtend 32) = .ok (BitVec.ofInt 32 q) := by
    rw [divI_ok (by rw [e2]; exact hb1)] <;> rw [e1, e2]
    rw [← hqd]; simp [iMin, iMax]; omega
  have e4 : (BitVec.ofInt 32 q).toInt = q :=
    toInt_ofInt_range (by norm_num) (by simp [iMin, iMax]; omega)
  have h127 : (32767#32).toInt = 32767 := by decide
  have h128 : (-32768#32).toInt = -32768 := by decide
  refine ⟨(smax (smin (BitVec.ofInt 32 q) (32767#32)) (-32768#32)).setWidth 16, ?_, ?_⟩
  · simp only [ChTy.div, Ch16.div, ne_eq, hb0, not_false_eq_true, if_true, e3, bind, Except.bind,
      pure, Except.pure]
  · rw [if_neg hb1, toInt_setWidth_range (by norm_num) _ (by norm_num)] <;>
      rw [toInt_smax, toInt_smin, e4, h127, h128]
    · unfold clampZ; rw [max_comm, min_comm]
    · simp [iMin, iMax]

example : ∃ c, ChTy.ch16.div (-32768#16) (-2#16) = .ok c ∧ c.toInt = quot 16 (-32768) 32767 (-32768) (-2) :=
  C03_ch16_partial (-32768#16) (-2#16) (by decide)

/-- C03 as stated is false: `Ch16(-32768) / Ch16(-1)` panics. -/
theorem C03_false : ¬ ∀ a b : Ch16, ∃ c, ChTy.ch16.div a b = .ok c := by
  intro h
  obtain ⟨c, h⟩ := h (-32768#16) (-1#16)
  have : ChTy.ch16.div (-32768#16) (-1#16) = .error .overflow := by decide
  rw [this] at h; cases h

/-- C03: that pair is the only one that panics. -/
theorem C03_ch16_panics_iff (a b : Ch16) :
    ChTy.ch16.div a b = .error .overflow ↔ a = -32768#16 ∧ b = -1#16 := by
  constructor
  · intro h
    by_contra hc
    obtain ⟨c, h', _⟩ := C03_ch16_partial a b (by
      rintro ⟨h1, h2⟩
      exact hc ⟨BitVec.eq_of_toInt_eq (by rw [h1]; decide), BitVec.eq_of_toInt_eq (by rw [h2]; decide)⟩)
    rw [h'] at h; cases h
  · rintro ⟨rfl, rfl⟩; decide

example : ChTy.ch8.div (50#8) (-100#8) = .ok (-128#8) := by decide
example : ChTy.ch8.div (3#8) (100#8) = .ok (7#8) := by decide
example : ChTy.ch8.div (-128#8) (-1#8) = .ok (127#8) := by decide
example : ChTy.ch16.div (30#16) (-10000#16) = .ok (-196#16) := by decide

/-! ## C04 -/

/-- C04: the overflow-checked code of `-x` on Ch8 returns `-1 - x`. -/
theorem C04_ch8 (a : Ch8) : Ch8.negR a = .ok (ChTy.ch8.neg a) ∧ (ChTy.ch8.neg a).toInt = -1 - a.toInt := by
  refine ⟨R.ok_get _ _, ?_⟩
  have h : Ch8.negR a = .ok (BitVec.ofInt 8 (255 - a.toNat)) := by
    have := a.isLt; unfold Ch8.negR chkU; rw [if_pos (by omega)]
  have e : ChTy.ch8.neg a = BitVec.ofInt 8 (255 - a.toNat) := R.get_eq h
  rw [e]
  revert a; decide +kernel

/-- C04 for Ch16. -/
theorem C04_ch16 (a : Ch16) :
    Ch16.negR a = .ok (ChTy.ch16.neg a) ∧ (ChTy.ch16.neg a).toInt = -1 - a.toInt := by
  refine ⟨R.ok_get _ _, ?_⟩
  have h : Ch16.negR a = .ok (BitVec.ofInt 16 (65535 - a.toNat)) := by
    have := a.isLt; unfold Ch16.negR chkU; rw [if_pos (by omega)]
  have e : ChTy.ch16.neg a = BitVec.ofInt 16 (65535 - a.toNat) := R.get_eq h
  have hr := i16_range a
  have h2 : (65535 - a.toNat : ℤ) = (-1 - a.toInt) + 65536 * (if 0 ≤ a.toInt then 1 else 0) := by
    have hx := BitVec.toInt_eq_toNat_cond (x := a)
    have hl := a.isLt
    split at hx <;> split <;> omega
  rw [e, h2]
  have : BitVec.ofInt 16 ((-1 - a.toInt) + 65536 * (if 0 ≤ a.toInt then 1 else 0)) =
      BitVec.ofInt 16 (-1 - a.toInt) := by
    rw [BitVec.ofInt_add, BitVec.ofInt_mul]
    have : BitVec.ofInt 16 65536 = 0#16 := by decide
    rw [this]; simp
  rw [this]
  exact toInt_ofInt_range (by norm_num) (by simp [iMin, iMax]; omega)

/-- C04: negation is an involution in every format. -/
theorem C04_involution (c : ChTy) (x : c.T) : c.neg (c.neg x) = x := by
  cases c with
  | ch8 => apply BitVec.eq_of_toInt_eq; rw [(C04_ch8 _).2, (C04_ch8 _).2]; ring
  | ch16 => apply BitVec.eq_of_toInt_eq; rw [(C04_ch16 _).2, (C04_ch16 _).2]; ring
  | ch32 | ch64 =>
    simp only [ChTy.neg, ChF.neg]
    cases x with
    | nan => rfl
    | inf s => simp [Fl.neg]
    | fin q nz h =>
      simp only [Fl.neg, neg_neg, Fl.fin.injEq, true_and]
      by_cases hq : q = 0
      · simp [hq]
      · have := h.2; cases nz <;> simp_all

/-- C04: negation reverses the order of Ch8. -/
theorem C04_ch8_antitone (a b : Ch8) (h : a.toInt < b.toInt) :
    (ChTy.ch8.neg b).toInt < (ChTy.ch8.neg a).toInt := by
  rw [(C04_ch8 _).2, (C04_ch8 _).2]; omega

example : (ChTy.ch8.neg (7#8)).toInt < (ChTy.ch8.neg (-128#8)).toInt := C04_ch8_antitone _ _ (by decide)

/-- C04: negation reverses the order of Ch16. -/
theorem C04_ch16_antitone (a b : Ch16) (h : a.toInt < b.toInt) :
    (ChTy.ch16.neg b).toInt < (ChTy.ch16.neg a).toInt := by
  rw [(C04_ch16 _).2, (C04_ch16 _).2]; omega

example : (ChTy.ch16.neg (7#16)).toInt < (ChTy.ch16.neg (-300#16)).toInt := C04_ch16_antitone _ _ (by decide)

/-- C04: negation exchanges `MIN` and `MAX` in every format. -/
theorem C04_swap (c : ChTy) : c.neg c.MIN = c.MAX ∧ c.neg c.MAX = c.MIN := by
  cases c <;> decide +kernel

/-- C04: on floats negation flips the sign of the number. -/
theorem C04_float {f : Fmt} (x : Fl f) (q : ℚ) (h : x.Is q) : (ChF.neg x).Is (-q) := h.neg

example : (ChF.neg (Fl.lit 0.375 : F32)).Is (-0.375) := C04_float _ _ (by decide +kernel)

example : ChTy.ch8.neg (-128#8) = 127#8 := by decide
example : (5#8).toInt < (7#8).toInt := by decide
example : (Fl.lit 0.5 : F32).Is 0.5 :=
  Fl.is_lit (Fmt.rep_dyadic 1 (-1) (by norm_num) (by decide) (by decide) (by decide))

/-! ## C05 -/

/-- C05: the value of `Ch16::from(Ch8)`. -/
theorem C05_value (c : Ch8) : (ChTy.conv .ch16 .ch8 c).toInt = 257 * c.toInt + 128 := by
  revert c; show ∀ c : BitVec 8, (Ch16.ofCh8 c).toInt = 257 * c.toInt + 128; decide +kernel

/-- The value of `Ch8::from(Ch16)`: rounds down. -/
theorem ofCh16_value (c : Ch16) : (ChTy.conv .ch8 .ch16 c).toInt = c.toInt / 256 := by
  show ((c.sshiftRight 8).setWidth 8).toInt = _
  have h : (c.sshiftRight 8).toInt = c.toInt / 256 := by
    rw [BitVec.toInt_sshiftRight, Int.shiftRight_eq_div_pow]; rfl
  have := i16_range c
  rw [toInt_setWidth_range (by norm_num) _ (by norm_num)] <;> rw [h]
  simp [iMin, iMax]; omega

/-- C05: widening is strictly increasing. -/
theorem C05_strictMono (a b : Ch8) (h : a.toInt < b.toInt) :
    (ChTy.conv .ch16 .ch8 a).toInt < (ChTy.conv .ch16 .ch8 b).toInt := by
  rw [C05_value, C05_value]; omega

example : (ChTy.conv .ch16 .ch8 (-3#8)).toInt < (ChTy.conv .ch16 .ch8 (2#8)).toInt := C05_strictMono _ _ (by decide)

/-- C05: widening maps the end points to the end points. -/
theorem C05_endpoints : ChTy.conv .ch16 .ch8 ChTy.ch8.MIN = ChTy.ch16.MIN ∧
    ChTy.conv .ch16 .ch8 ChTy.ch8.MAX = ChTy.ch16.MAX := by decide

/-- C05: widening then narrowing is the identity. -/
theorem C05_roundtrip (c : Ch8) : ChTy.conv .ch8 .ch16 (ChTy.conv .ch16 .ch8 c) = c := by
  apply BitVec.eq_of_toInt_eq
  have := i8_range c
  rw [ofCh16_value, C05_value]
  omega

example : ChTy.conv .ch16 .ch8 (-3#8) = (-643#16) := by decide

end Fon
