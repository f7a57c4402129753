import Verif.Model.Mixed
import Verif.Props.CrossArith

/-!
# C90, C91: operators with an operand of another type
-/

namespace Fon
open Fmt Fl

/-! ## C90: another format -/

/-- C90: adding a sample of any other format adds its level, up to four units of the left operand's format. -/
theorem C90_add (c s : ChTy) (a : c.T) (b : s.T) (va : Valid c a) (vb : Valid s b) (p q : ℚ) (ha : Level c a p)
    (hb : Level s b q) : ∃ r, Level c (c.addInto s a b) r ∧ |r - clampQ (p + q)| ≤ 4 * ulp c := by
  obtain ⟨q', hq', eq⟩ := C88_conv c s b vb q hb
  obtain ⟨r, hr, er⟩ := C69_add va vb.conv ha hq'
  refine ⟨r, hr, ?_⟩
  have hl : |clampQ (p + q') - clampQ (p + q)| ≤ 3 * ulp c :=
    (clampQ_lip _ _).trans (by rw [show p + q' - (p + q) = q' - q by ring]; exact eq)
  rw [abs_le] at *
  constructor <;> linarith

example := C90_add .ch16 .ch8 (100#16) (1#8) trivial trivial (201 / 65535) (3 / 255) (by decide +kernel) (by decide +kernel)

theorem C90_sub (c s : ChTy) (a : c.T) (b : s.T) (va : Valid c a) (vb : Valid s b) (p q : ℚ) (ha : Level c a p)
    (hb : Level s b q) : ∃ r, Level c (c.subInto s a b) r ∧ |r - clampQ (p - q)| ≤ 4 * ulp c := by
  obtain ⟨q', hq', eq⟩ := C88_conv c s b vb q hb
  obtain ⟨r, hr, er⟩ := C69_sub va vb.conv ha hq'
  refine ⟨r, hr, ?_⟩
  have hl : |clampQ (p - q') - clampQ (p - q)| ≤ 3 * ulp c :=
    (clampQ_lip _ _).trans (by rw [show p - q' - (p - q) = -(q' - q) by ring, abs_neg]; exact eq)
  rw [abs_le] at *
  constructor <;> linarith

example := C90_sub .ch8 .ch32 (100#8) (lit 0.5) trivial (by decide +kernel) (201 / 255) 0.5 (by decide +kernel) (by decide +kernel)

theorem C90_mul (c s : ChTy) (a : c.T) (b : s.T) (va : Valid c a) (vb : Valid s b) (p q : ℚ) (ha : Level c a p)
    (hb : Level s b q) : ∃ r, Level c (c.mulInto s a b) r ∧ |r - p * q| ≤ 7 * ulp c := by
  obtain ⟨q', hq', eq⟩ := C88_conv c s b vb q hb
  obtain ⟨r, hr, er⟩ := C69_mul va vb.conv ha hq'
  refine ⟨r, hr, ?_⟩
  have rp := abs_le.mpr (ha.range va)
  have e : |p * q' - p * q| ≤ 3 * ulp c := by
    rw [← mul_sub, abs_mul]; nlinarith [abs_nonneg p, abs_nonneg (q' - q)]
  rw [abs_le] at *
  constructor <;> linarith

example := C90_mul .ch32 .ch8 (lit 0.5) (100#8) (by decide +kernel) trivial 0.5 (201 / 255) (by decide +kernel) (by decide +kernel)

/-- Dividing panics only for `Ch16::MIN` by a sample that converts to -1. -/
theorem C90_div_panics (c s : ChTy) (a : c.T) (b : s.T) :
    c.divInto s a b = .error .overflow ↔ c = .ch16 ∧ HEq a (-32768#16) ∧ HEq (ChTy.conv c s b) (-1#16) := by
  cases c
  · obtain ⟨v, hv, _⟩ := C03_ch8 a (ChTy.conv .ch8 s b)
    constructor
    · intro he; rw [show ChTy.divInto .ch8 s a b = _ from hv] at he; cases he
    · rintro ⟨h, _⟩; cases h
  · rw [heq_iff_eq, heq_iff_eq]
    constructor
    · intro h; exact ⟨rfl, (C03_ch16_panics_iff a (ChTy.conv .ch16 s b)).mp h⟩
    · rintro ⟨_, h⟩; exact (C03_ch16_panics_iff a (ChTy.conv .ch16 s b)).mpr h
  · constructor
    · intro he; cases he
    · rintro ⟨h, _⟩; cases h
  · constructor
    · intro he; cases he
    · rintro ⟨h, _⟩; cases h

/-- Not only -1 itself: a float sample of level just below 0 also converts to -1. -/
example : ChTy.divInto .ch16 .ch32 (-32768#16) (lit (-1 / 65536) : F32) = .error .overflow := by decide +kernel

example : Valid .ch32 (lit 0.5 : F32) ∧ Level .ch32 (lit 0.5 : F32) (1 / 2) ∧
    ChTy.addInto .ch16 .ch8 (100#16) (1#8) = 485#16 ∧ ChTy.subInto .ch8 .ch32 (100#8) (lit 0.5 : F32) = 37#8 := by
  have h : (lit 0.5 : F32).Is (1 / 2) := by
    have := is_lit (f := binary32) (q := 0.5) (rep_dyadic 1 (-1) (by norm_num) (by decide) (by decide) (by decide))
    convert this using 1; norm_num
  exact ⟨⟨_, h, by norm_num, by norm_num⟩, h, by decide +kernel, by decide +kernel⟩

/-! ## C91: a raw `f32`

The claim: a number written next to a `Ch32` operator acts with its own value, `a op x = clamp (a op x)`. -/

/-- C91, what happens: the number is clamped to [-1, 1] before the operation. -/
theorem C91_clamps (a : Ch32) (x : F32) (p q : ℚ) (ha : a.Is p) (hp : |p| ≤ 1) (hx : x.Is q) :
    (a.addRaw x).Is (clampQ (binary32.rnd (p + clampQ q))) ∧
    (a.subRaw x).Is (clampQ (binary32.rnd (p - clampQ q))) ∧
    (a.mulRaw x).Is (binary32.rnd (p * clampQ q)) := by
  have hc : |clampQ q| ≤ 1 := abs_le.mpr (clampQ_range q)
  have hx' : (Ch32.ofRaw x).Is (clampQ q) := clamp1_is hx
  have h1 := abs_le.mp hp
  have h2 := abs_le.mp hc
  refine ⟨clamp1_is (ha.add hx' (small2 (abs_le.mpr ⟨by linarith, by linarith⟩))),
    clamp1_is (ha.sub hx' (small2 (abs_le.mpr ⟨by linarith, by linarith⟩))),
    ha.mul hx' (small2 ?_)⟩
  rw [abs_mul]; nlinarith [abs_nonneg p, abs_nonneg (clampQ q)]

example := C91_clamps (lit 0.25) (lit (-2)) 0.25 (-2) (by decide +kernel) (by norm_num [abs_le]) (by decide +kernel)

/-- C91 for numbers in [-1, 1].  Missing: numbers outside, which is where the claim is false (`C91_false`). -/
theorem C91_partial (a : Ch32) (x : F32) (p q : ℚ) (ha : a.Is p) (hp : |p| ≤ 1) (hx : x.Is q) (hq : |q| ≤ 1) :
    (a.addRaw x).Is (clampQ (binary32.rnd (p + q))) ∧
    (a.subRaw x).Is (clampQ (binary32.rnd (p - q))) ∧
    (a.mulRaw x).Is (binary32.rnd (p * q)) := by
  have := C91_clamps a x p q ha hp hx
  rwa [clampQ_of_range (abs_le.mp hq).1 (abs_le.mp hq).2] at this

example := C91_partial (lit 0.25) (lit (-0.5)) 0.25 (-0.5) (by decide +kernel) (by norm_num [abs_le]) (by decide +kernel)
  (by norm_num [abs_le])

/-- A `NaN` operand counts as 1, whatever the operator. -/
theorem C91_nan (a : Ch32) : a.addRaw .nan = a.addRaw (lit 1) ∧ a.subRaw .nan = a.subRaw (lit 1) ∧
    a.mulRaw .nan = a.mulRaw (lit 1) ∧ a.divRaw .nan = a.divRaw (lit 1) := by
  have : Ch32.ofRaw .nan = Ch32.ofRaw (lit 1) := by decide +kernel
  simp only [Ch32.addRaw, Ch32.subRaw, Ch32.mulRaw, Ch32.divRaw, this, and_self]

/-- C91 is false: -1 + 2.0 is 0 rather than 1, 0.25 * 2.0 is 0.25, 0.5 / 2.0 is 0.5, 0.5 + NaN is 1. -/
theorem C91_false : Ch32.addRaw (lit (-1)) (lit 2) = lit 0 ∧ Ch32.mulRaw (lit (1 / 4)) (lit 2) = lit (1 / 4) ∧
    Ch32.divRaw (lit (1 / 2)) (lit 2) = lit (1 / 2) ∧ Ch32.addRaw (lit (1 / 2)) .nan = lit 1 := by
  refine ⟨?_, ?_, ?_, ?_⟩ <;> decide +kernel

example : (lit (1 / 4) : F32).Is (1 / 4) ∧ |(1 / 4 : ℚ)| ≤ 1 ∧ (lit (-2) : F32).Is (-2) ∧
    Ch32.addRaw (lit (1 / 4)) (lit (-2)) = lit (-3 / 4) :=
  ⟨is_lit (rep_dyadic 1 (-2) (by norm_num) (by decide) (by decide) (by decide)), by norm_num [abs_le],
    is_lit (rep_dyadic (-1) 1 (by norm_num) (by decide) (by decide) (by decide)), by decide +kernel⟩

end Fon
