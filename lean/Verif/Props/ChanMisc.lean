import Verif.Props.ChanFloat
import Verif.Proofs.Vec

/-!
# C11, C15 - C18: closure, silence, agreement of conversions, lerp, commutativity
-/

namespace Fon
open Fmt Fl

/-! ## C11 -/

theorem inRange_abs {f : Fmt} {x : Fl f} : x.InRange ↔ ∃ q, x.Is q ∧ |q| ≤ 1 := by
  simp [Fl.InRange, abs_le]

theorem InRange.mul {f : Fmt} {x y : Fl f} (hx : x.InRange) (hy : y.InRange) : (x.mul y).InRange := by
  rw [inRange_abs] at *
  obtain ⟨p, hp, hp1⟩ := hx
  obtain ⟨q, hq, hq1⟩ := hy
  have : |p * q| ≤ 1 := by
    rw [abs_mul]; exact mul_le_one₀ hp1 (abs_nonneg _) hq1
  have := abs_rnd_le_of_rep (f := f) rep_one this
  exact ⟨_, hp.mul hq (this.trans one_le_maxF), this⟩

theorem InRange.neg {f : Fmt} {x : Fl f} (hx : x.InRange) : x.neg.InRange := by
  rw [inRange_abs] at *
  obtain ⟨p, hp, hp1⟩ := hx
  exact ⟨_, hp.neg, by rwa [abs_neg]⟩

theorem InRange.cast {f g : Fmt} {x : Fl f} (hx : x.InRange) : (x.cast g).InRange := by
  rw [inRange_abs] at *
  obtain ⟨p, hp, hp1⟩ := hx
  have := abs_rnd_le_of_rep (f := g) rep_one hp1
  exact ⟨_, hp.cast g (this.trans one_le_maxF), this⟩

theorem inRange_zero {f : Fmt} : (lit 0 : Fl f).InRange := ⟨0, is_zero, by norm_num, by norm_num⟩

theorem Valid.add {c : ChTy} {a b : c.T} : Valid c (c.add a b) := by
  cases c <;> simp only [Valid, ChTy.add]
  · exact clamp1_inRange _
  · exact clamp1_inRange _

theorem Valid.sub {c : ChTy} {a b : c.T} : Valid c (c.sub a b) := by
  cases c <;> simp only [Valid, ChTy.sub]
  · exact clamp1_inRange _
  · exact clamp1_inRange _

theorem Valid.mul {c : ChTy} {a b : c.T} (ha : Valid c a) (hb : Valid c b) : Valid c (c.mul a b) := by
  cases c <;> simp only [Valid, ChTy.mul]
  · exact InRange.mul ha hb
  · exact InRange.mul ha hb

theorem Valid.div {c : ChTy} {a b v : c.T} (h : c.div a b = .ok v) : Valid c v := by
  cases c <;> simp only [Valid, ChTy.div] at *
  · cases h; exact clamp1_inRange _
  · cases h; exact clamp1_inRange _

theorem Valid.neg {c : ChTy} {a : c.T} (ha : Valid c a) : Valid c (c.neg a) := by
  cases c <;> simp only [Valid, ChTy.neg]
  · exact InRange.neg ha
  · exact InRange.neg ha

theorem Valid.lerp {c : ChTy} {a b t : c.T} : Valid c (c.lerp a b t) := Valid.add

theorem Valid.toF64 {c : ChTy} {a : c.T} (ha : Valid c a) : (c.toF64 a).InRange := by
  cases c
  · exact C08_range_ch8 a
  · exact C08_range_ch16 a
  · exact InRange.cast ha
  · exact ha

theorem Valid.ofF64 {c : ChTy} {x : F64} (h : x.InRange) : Valid c (c.ofF64 x) := by
  cases c
  · trivial
  · trivial
  · exact InRange.cast h
  · exact h

theorem Valid.conv {d s : ChTy} {a : s.T} (ha : Valid s a) : Valid d (ChTy.conv d s a) := by
  cases d
  · trivial
  · trivial
  · cases s
    · exact C08_range_ch8 a
    · exact C08_range_ch16 a
    · exact ha
    · exact clamp1_inRange _
  · cases s
    · exact C08_range_ch8 a
    · exact C08_range_ch16 a
    · exact clamp1_inRange _
    · exact ha

theorem Valid.consts (c : ChTy) : Valid c c.MIN ∧ Valid c c.MID ∧ Valid c c.MAX ∧ Valid c c.dflt := by
  cases c
  · exact ⟨trivial, trivial, trivial, trivial⟩
  · exact ⟨trivial, trivial, trivial, trivial⟩
  · exact ⟨inRange_neg_one, inRange_zero, inRange_one, inRange_zero⟩
  · exact ⟨inRange_neg_one, inRange_zero, inRange_one, inRange_zero⟩

/-- C11: whatever a program over channels computes is in range. -/
theorem C11_closed {c : ChTy} (e : CExpr c) (v : c.T) (h : e.eval = .ok v) : Valid c v := by
  induction e with
  | new8 _ | new16 _ => trivial
  | new32 x | new64 x => cases h; exact clamp1_inRange _
  | @MIN c => cases h; exact (Valid.consts c).1
  | @MID c => cases h; exact (Valid.consts c).2.1
  | @MAX c => cases h; exact (Valid.consts c).2.2.1
  | @dflt c => cases h; exact (Valid.consts c).2.2.2
  | add a b iha ihb =>
    obtain ⟨x, _, h⟩ := R.bind_ok h; obtain ⟨y, _, h⟩ := R.bind_ok h; cases h; exact Valid.add
  | sub a b iha ihb =>
    obtain ⟨x, _, h⟩ := R.bind_ok h; obtain ⟨y, _, h⟩ := R.bind_ok h; cases h; exact Valid.sub
  | mul a b iha ihb =>
    obtain ⟨x, hx, h⟩ := R.bind_ok h; obtain ⟨y, hy, h⟩ := R.bind_ok h; cases h
    exact Valid.mul (iha _ hx) (ihb _ hy)
  | div a b iha ihb =>
    obtain ⟨x, _, h⟩ := R.bind_ok h; obtain ⟨y, _, h⟩ := R.bind_ok h; exact Valid.div h
  | neg a iha =>
    obtain ⟨x, hx, h⟩ := R.bind_ok h; cases h; exact Valid.neg (iha _ hx)
  | lerp a b t _ _ _ =>
    obtain ⟨x, _, h⟩ := R.bind_ok h; obtain ⟨y, _, h⟩ := R.bind_ok h
    obtain ⟨z, _, h⟩ := R.bind_ok h; cases h; exact Valid.lerp
  | conv d a iha =>
    obtain ⟨x, hx, h⟩ := R.bind_ok h; cases h; exact Valid.conv (iha _ hx)
  | via d a iha =>
    obtain ⟨x, hx, h⟩ := R.bind_ok h; cases h; exact Valid.ofF64 (Valid.toF64 (iha _ hx))

example : Valid .ch32 (ChTy.ch32.mul (ChTy.ch32.neg (ChF.new .nan)) (ChTy.conv .ch32 .ch8 (50#8))) :=
  C11_closed (.mul (.neg (.new32 .nan)) (.conv .ch32 (.new8 (50#8)))) _ rfl

/-- C11: also its `to_f64` is in range. -/
theorem C11_toF64 {c : ChTy} (e : CExpr c) (v : c.T) (h : e.eval = .ok v) : (c.toF64 v).InRange :=
  Valid.toF64 (C11_closed e v h)

example : (ChTy.ch8.toF64 (ChTy.ch8.neg (50#8))).InRange := C11_toF64 (.neg (.new8 (50#8))) _ rfl

example : ∃ v, (CExpr.mul (.neg (.new32 .nan)) (.conv .ch32 (.div (.new8 (50#8)) (.new8 (-70#8))))).eval
    = .ok v := ⟨_, rfl⟩

/-! ## C15 -/

/-- C15, what is true: `From` keeps silence when the source is a float format, for equal formats, and
from Ch16 to Ch8.  Missing: conversion of integer silence to anything wider, see `C15_false`. -/
theorem C15_partial (d s : ChTy) (h : s = .ch32 ∨ s = .ch64 ∨ d = s ∨ (s = .ch16 ∧ d = .ch8)) :
    ChTy.conv d s s.MID = d.MID := by
  revert h; cases d <;> cases s <;> decide +kernel

example : ChTy.conv .ch8 .ch16 ChTy.ch16.MID = ChTy.ch8.MID := C15_partial _ _ (by decide)

/-- C15 as stated is false, in each of the remaining cases. -/
theorem C15_false (d s : ChTy) (h : ¬ (s = .ch32 ∨ s = .ch64 ∨ d = s ∨ (s = .ch16 ∧ d = .ch8))) :
    ChTy.conv d s s.MID ≠ d.MID := by
  revert h; cases d <;> cases s <;> decide +kernel

example : ChTy.conv .ch64 .ch16 ChTy.ch16.MID ≠ ChTy.ch64.MID := C15_false _ _ (by decide)

/-- C15 as stated is false: the negation. -/
theorem C15_not : ¬ ∀ d s : ChTy, ChTy.conv d s s.MID = d.MID := by
  intro h; exact C15_false .ch16 .ch8 (by decide) (h .ch16 .ch8)

/-- C15: frame conversion (via f64) keeps silence in the same cases. -/
theorem C15_via (d s : ChTy) : d.ofF64 (s.toF64 s.MID) = d.MID ↔
    (s = .ch32 ∨ s = .ch64 ∨ d = s ∨ (s = .ch16 ∧ d = .ch8)) := by
  cases d <;> cases s <;> decide +kernel

example : ChTy.conv .ch16 .ch8 ChTy.ch8.MID = 128#16 := by decide

/-! ## C16 -/

/-- C16, what is true: the two conversions agree for the pairs in `agree` on in-range samples.
Missing: the other five pairs, for which the property is false (`C16_false`). -/
theorem C16_partial (d s : ChTy) (h : agree d s = true) (x : s.T) (hx : Valid s x) :
    ChTy.conv d s x = d.ofF64 (s.toF64 x) := by
  cases d <;> cases s <;> simp only [agree, Bool.false_eq_true] at h
  · exact (C06_f64 x).symm
  · show Ch8.ofCh64 x = Ch8.ofCh64 (ChF.new x)
    rw [new_of_inRange hx]
  · show Ch16.ofCh8 x = Ch16.ofCh64 (ChF.new (ChF.ofCh8 x))
    rw [new_of_inRange (C08_range_ch8 x)]
    symm
    refine quant16_back _ (ofCh8_is x) ?_
    have h1 := ofCh8_err (f := binary64) x
    have h2 := three_u_le (f := binary64)
    have h3 : (2 * ((Ch16.ofCh8 x).toInt : ℚ) + 1) / 65535 = (2 * x.toInt + 1) / 255 := by
      have := C05_value x
      change (Ch16.ofCh8 x).toInt = _ at this
      rw [this]; push_cast; ring
    rw [h3]; exact h1.trans h2
  · exact (C07_f64 x).symm
  · show Ch16.ofCh64 x = Ch16.ofCh64 (ChF.new x)
    rw [new_of_inRange hx]
  · exact (C14_all x).symm
  · show ChF.new (Fl.cast binary32 x) = Fl.cast binary32 x
    exact new_of_inRange (InRange.cast hx)
  · rfl
  · rfl
  · show ChF.new (Fl.cast binary64 x) = Fl.cast binary64 x
    exact new_of_inRange (InRange.cast hx)
  · rfl

example : ChTy.conv .ch16 .ch8 (-77#8) = ChTy.ch16.ofF64 (ChTy.ch8.toF64 (-77#8)) := C16_partial _ _ rfl _ trivial

/-- C16 is false for each of the other pairs, already for samples made by public constructors. -/
theorem C16_false :
    (ChTy.conv .ch8 .ch16 (256#16) ≠ ChTy.ch8.ofF64 (ChTy.ch16.toF64 (256#16))) ∧
    (ChTy.conv .ch8 .ch32 (ChF.new (lit (-1e-10))) ≠ ChTy.ch8.ofF64 (ChTy.ch32.toF64 (ChF.new (lit (-1e-10))))) ∧
    (ChTy.conv .ch16 .ch32 (ChF.new (lit (-1e-15))) ≠ ChTy.ch16.ofF64 (ChTy.ch32.toF64 (ChF.new (lit (-1e-15))))) ∧
    (ChTy.conv .ch32 .ch8 (-64#8) ≠ ChTy.ch32.ofF64 (ChTy.ch8.toF64 (-64#8))) ∧
    (ChTy.conv .ch32 .ch16 (-32704#16) ≠ ChTy.ch32.ofF64 (ChTy.ch16.toF64 (-32704#16))) := by
  decide +kernel

/-- C16 as stated is false: the negation. -/
theorem C16_not : ¬ ∀ (d s : ChTy) (x : s.T), Valid s x → ChTy.conv d s x = d.ofF64 (s.toF64 x) := by
  intro h; exact C16_false.1 (h .ch8 .ch16 _ trivial)

example : agree .ch64 .ch16 = true ∧ agree .ch16 .ch8 = true := by decide

/-! ## C17 -/

theorem clampQ_near {s q : ℚ} (h1 : -1 ≤ q) (h2 : q ≤ 1) : |clampQ s - q| ≤ |s - q| := by
  unfold clampQ
  rcases max_cases (-1) (min 1 s) with ⟨h3, h4⟩ | ⟨h3, h4⟩ <;>
  rcases min_cases 1 s with ⟨h5, h6⟩ | ⟨h5, h6⟩ <;>
  rcases abs_cases (s - q) with ⟨h7, h8⟩ | ⟨h7, h8⟩ <;>
  rw [h7, h3, abs_le] <;> constructor <;> linarith

/-- C17, first half, Ch8. -/
theorem C17_mid_ch8 (a b : Ch8) : ChTy.ch8.lerp a b ChTy.ch8.MID = a := by
  show ChTy.ch8.add a (ChTy.ch8.mul ChTy.ch8.MID _) = a
  rw [(C02_ch8_zero _).2]
  apply BitVec.eq_of_toInt_eq
  have := i8_range a
  rw [C01_ch8_add, show (ChTy.ch8.MID : BitVec 8).toInt = 0 by decide]
  unfold clampZ; omega

/-- C17, first half, Ch16. -/
theorem C17_mid_ch16 (a b : Ch16) : ChTy.ch16.lerp a b ChTy.ch16.MID = a := by
  show ChTy.ch16.add a (ChTy.ch16.mul ChTy.ch16.MID _) = a
  rw [(C02_ch16_zero _).2]
  apply BitVec.eq_of_toInt_eq
  have := i16_range a
  rw [C01_ch16_add, show (ChTy.ch16.MID : BitVec 16).toInt = 0 by decide]
  unfold clampZ; omega

/-- C17, first half, floats: an in-range `a` comes back as the same number, whatever `b` is. -/
theorem C17_mid_float {f : Fmt} (a b : Fl f) (p : ℚ) (ha : a.Is p) (h : -1 ≤ p ∧ p ≤ 1) :
    (ChF.add a (ChF.mul ChF.MID (ChF.sub b a))).Is p := by
  obtain ⟨q, hq, _⟩ := clamp1_inRange (Fl.sub b a)
  have h1 : (ChF.mul ChF.MID (ChF.sub b a)).Is 0 := by
    have := (is_zero (f := f)).mul hq (by rw [zero_mul, rnd_zero, abs_zero]; exact maxF_pos.le)
    rwa [zero_mul, rnd_zero] at this
  have h2 := clamp1_is (ha.add h1 (by rw [add_zero, rnd_of_rep ha.rep]; exact ha.rep.le_maxF))
  rwa [add_zero, rnd_of_rep ha.rep, clampQ_of_range h.1 h.2] at h2

example : (ChF.add (lit 0.375 : F64) (ChF.mul ChF.MID (ChF.sub (lit (-1)) (lit 0.375)))).Is 0.375 :=
  C17_mid_float _ _ _ (by decide +kernel) (by norm_num)

/-- C17, second half, Ch8: holds exactly when the difference does not saturate. -/
theorem C17_max_ch8_partial (a b : Ch8) :
    ChTy.ch8.lerp a b ChTy.ch8.MAX = b ↔ -128 ≤ b.toInt - a.toInt ∧ b.toInt - a.toInt ≤ 127 := by
  have ha := i8_range a
  have hb := i8_range b
  have : (ChTy.ch8.lerp a b ChTy.ch8.MAX).toInt =
      clampZ (-128) 127 (a.toInt + clampZ (-128) 127 (b.toInt - a.toInt)) := by
    show (ChTy.ch8.add a (ChTy.ch8.mul ChTy.ch8.MAX _)).toInt = _
    rw [(C02_ch8_unit _).2, C01_ch8_add, C01_ch8_sub]
  rw [← BitVec.toInt_inj, this]
  unfold clampZ; omega

/-- C17, second half, Ch16: holds exactly when the difference does not saturate. -/
theorem C17_max_ch16_partial (a b : Ch16) :
    ChTy.ch16.lerp a b ChTy.ch16.MAX = b ↔
      -32768 ≤ b.toInt - a.toInt ∧ b.toInt - a.toInt ≤ 32767 := by
  have ha := i16_range a
  have hb := i16_range b
  have : (ChTy.ch16.lerp a b ChTy.ch16.MAX).toInt =
      clampZ (-32768) 32767 (a.toInt + clampZ (-32768) 32767 (b.toInt - a.toInt)) := by
    show (ChTy.ch16.add a (ChTy.ch16.mul ChTy.ch16.MAX _)).toInt = _
    rw [(C02_ch16_unit _).2, C01_ch16_add, C01_ch16_sub]
  rw [← BitVec.toInt_inj, this]
  unfold clampZ; omega

/-- C17, second half, floats: in-range samples at distance at most 1 give `b` up to rounding; if the
difference is a number of the format they give `b` exactly. -/
theorem C17_max_float_partial {f : Fmt} [Std f] (a b : Fl f) (p q : ℚ) (ha : a.Is p) (hb : b.Is q)
    (hq : -1 ≤ q ∧ q ≤ 1) (h : |q - p| ≤ 1) :
    ∃ r, (ChF.add a (ChF.mul ChF.MAX (ChF.sub b a))).Is r ∧ |r - q| ≤ 2 * f.u ∧
      (f.Rep (q - p) → r = q) := by
  have hd1 := abs_rnd_le_of_rep (f := f) rep_one h
  have e1 := err_lt_u (f := f) 1 (lt_of_le_of_lt h (by norm_num)) (by norm_num)
  rw [show (2:ℚ) ^ (1 - 1 : ℤ) = 1 by norm_num, one_mul] at e1
  have hu := Fmt.u_le (f := f)
  have hu0 := Fmt.u_pos (f := f)
  have hs : (ChF.sub b a).Is (f.rnd (q - p)) := by
    have := clamp1_is (hb.sub ha (hd1.trans one_le_maxF))
    rwa [clampQ_of_range (abs_le.mp hd1).1 (abs_le.mp hd1).2] at this
  have hm : (ChF.mul ChF.MAX (ChF.sub b a)).Is (f.rnd (q - p)) := by
    have := (is_one (f := f)).mul hs (by rw [one_mul, rnd_rnd]; exact hd1.trans one_le_maxF)
    rwa [one_mul, rnd_rnd] at this
  rw [abs_le] at e1
  have hb2 : |p + f.rnd (q - p)| < 2 ^ (1:ℤ) := by
    rw [zpow_one, abs_lt]; constructor <;> linarith
  have e2 := err_lt_u (f := f) 1 hb2 (by norm_num)
  rw [show (2:ℚ) ^ (1 - 1 : ℤ) = 1 by norm_num, one_mul, abs_le] at e2
  refine ⟨_, clamp1_is (ha.add hm (small (hb2.le.trans (by norm_num)))), ?_, ?_⟩
  · refine (clampQ_near hq.1 hq.2).trans ?_
    rw [abs_le]; constructor <;> linarith
  · intro hr
    rw [rnd_of_rep hr, show p + (q - p) = q by ring, rnd_of_rep hb.rep, clampQ_of_range hq.1 hq.2]

example := C17_max_float_partial (lit 0.1 : F64) (lit (-0.3)) _ _ (by decide +kernel : (lit 0.1 : F64).Is
  (binary64.rnd 0.1)) (by decide +kernel : (lit (-0.3) : F64).Is (binary64.rnd (-0.3))) (by decide +kernel)
  (by decide +kernel)

/-- C17 as stated is false: from end to end the difference saturates. -/
theorem C17_false : ChTy.ch8.lerp ChTy.ch8.MIN ChTy.ch8.MAX ChTy.ch8.MAX ≠ ChTy.ch8.MAX ∧
    ChTy.ch16.lerp ChTy.ch16.MIN ChTy.ch16.MAX ChTy.ch16.MAX ≠ ChTy.ch16.MAX ∧
    (ChTy.ch32.lerp ChTy.ch32.MIN ChTy.ch32.MAX ChTy.ch32.MAX).eq ChTy.ch32.MAX = false ∧
    (ChTy.ch64.lerp ChTy.ch64.MIN ChTy.ch64.MAX ChTy.ch64.MAX).eq ChTy.ch64.MAX = false := by
  decide +kernel

/-- C17: also in range rounding can lose `b`: `1.0.lerp(1e-20, MAX)` is 0. -/
theorem C17_false_rounding :
    (ChTy.ch64.lerp (lit 1) (lit 1e-20) ChTy.ch64.MAX).eq (lit 1e-20) = false := by decide +kernel

example : ChTy.ch8.lerp (-20#8) (90#8) ChTy.ch8.MAX = 90#8 := by decide
example : binary64.Rep (0.5 - 0.25) ∧ (lit 0.5 : F64).Is 0.5 := ⟨rep_dyadic 1 (-2) (by norm_num) (by decide)
  (by decide) (by decide), is_lit (rep_dyadic 1 (-1) (by norm_num) (by decide) (by decide) (by decide))⟩

/-! ## C18 -/

theorem Fl.add_comm' {f : Fmt} (x y : Fl f) : x.add y = y.add x := by
  cases x <;> cases y <;> simp only [Fl.add]
  · rename_i a b; by_cases h : a = b
    · simp [h]
    · simp [h, Ne.symm h]
  · rw [_root_.add_comm, Bool.and_comm]

theorem Fl.mul_comm' {f : Fmt} (x y : Fl f) : x.mul y = y.mul x := by
  cases x <;> cases y <;> simp only [Fl.mul, Bool.xor_comm]
  rw [_root_.mul_comm, Bool.xor_comm]

/-- C18: `+` commutes in every channel format, on all values. -/
theorem C18_add (c : ChTy) (a b : c.T) : c.add a b = c.add b a := by
  cases c
  · apply BitVec.eq_of_toInt_eq; rw [C01_ch8_add, C01_ch8_add, add_comm]
  · apply BitVec.eq_of_toInt_eq; rw [C01_ch16_add, C01_ch16_add, add_comm]
  · simp only [ChTy.add, ChF.add, Fl.add_comm' a b]
  · simp only [ChTy.add, ChF.add, Fl.add_comm' a b]

/-- C18: `*` commutes in every channel format, on all values. -/
theorem C18_mul (c : ChTy) (a b : c.T) : c.mul a b = c.mul b a := by
  cases c
  · exact C02_ch8_comm a b
  · exact C02_ch16_comm a b
  · exact Fl.mul_comm' a b
  · exact Fl.mul_comm' a b

end Fon
