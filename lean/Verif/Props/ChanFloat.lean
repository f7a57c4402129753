import Verif.Proofs.Conv
import Verif.Props.ChanInt

/-!
# C06 - C10, C12 - C14: float channels and conversions
-/

namespace Fon
open Fmt Fl

/-! ## C08 -/

/-- The float value of an integer sample lies in `[-1, 1]`. -/
theorem C08_range_ch8 {f : Fmt} [StdEnd f] (c : Ch8) : (ChF.ofCh8 c : Fl f).InRange :=
  ⟨_, ofCh8_is c, ofCh8_range c⟩
theorem C08_range_ch16 {f : Fmt} [StdEnd f] (c : Ch16) : (ChF.ofCh16 c : Fl f).InRange :=
  ⟨_, ofCh16_is c, ofCh16_range c⟩

/-- C08, range, in terms of the API: `From` into Ch32 and Ch64, and `to_f64`. -/
theorem C08_range (x : Ch8) (y : Ch16) :
    (ChTy.conv .ch32 .ch8 x).InRange ∧ (ChTy.conv .ch64 .ch8 x).InRange ∧
    (ChTy.conv .ch32 .ch16 y).InRange ∧ (ChTy.conv .ch64 .ch16 y).InRange ∧
    (ChTy.ch8.toF64 x).InRange ∧ (ChTy.ch16.toF64 y).InRange :=
  ⟨C08_range_ch8 x, C08_range_ch8 x, C08_range_ch16 y, C08_range_ch16 y, C08_range_ch8 x,
    C08_range_ch16 y⟩

example := C08_range_ch8 (f := binary32) 77#8
example := C08_range_ch16 (f := binary64) 777#16
example := C08_range 77#8 777#16

/-- C08: `MIN` becomes exactly -1.0 and `MAX` exactly 1.0. -/
theorem C08_endpoints :
    ChTy.conv .ch32 .ch8 ChTy.ch8.MIN = lit (-1) ∧ ChTy.conv .ch32 .ch8 ChTy.ch8.MAX = lit 1 ∧
    ChTy.conv .ch64 .ch8 ChTy.ch8.MIN = lit (-1) ∧ ChTy.conv .ch64 .ch8 ChTy.ch8.MAX = lit 1 ∧
    ChTy.conv .ch32 .ch16 ChTy.ch16.MIN = lit (-1) ∧ ChTy.conv .ch32 .ch16 ChTy.ch16.MAX = lit 1 ∧
    ChTy.conv .ch64 .ch16 ChTy.ch16.MIN = lit (-1) ∧ ChTy.conv .ch64 .ch16 ChTy.ch16.MAX = lit 1 ∧
    ChTy.ch8.toF64 ChTy.ch8.MIN = lit (-1) ∧ ChTy.ch8.toF64 ChTy.ch8.MAX = lit 1 ∧
    ChTy.ch16.toF64 ChTy.ch16.MIN = lit (-1) ∧ ChTy.ch16.toF64 ChTy.ch16.MAX = lit 1 := by
  decide +kernel

/-- Strict monotonicity, Ch8. -/
theorem C08_strict_ch8 {f : Fmt} [StdEnd f] (a b : Ch8) (h : a.toInt < b.toInt) :
    (ChF.ofCh8 a : Fl f).lt (ChF.ofCh8 b) = true := by
  rw [(ofCh8_is a).lt (ofCh8_is b), decide_eq_true_eq]
  have ha := ofCh8_err (f := f) a
  have hb := ofCh8_err (f := f) b
  have hu := Fmt.u_le (f := f)
  have hab : (a.toInt : ℚ) + 1 ≤ b.toInt := by exact_mod_cast h
  rw [abs_le] at ha hb
  linarith

example : (ChF.ofCh8 (-3#8) : F32).lt (ChF.ofCh8 (2#8)) = true := C08_strict_ch8 _ _ (by decide)

/-- Strict monotonicity, Ch16. -/
theorem C08_strict_ch16 {f : Fmt} [StdEnd f] (a b : Ch16) (h : a.toInt < b.toInt) :
    (ChF.ofCh16 a : Fl f).lt (ChF.ofCh16 b) = true := by
  rw [(ofCh16_is a).lt (ofCh16_is b), decide_eq_true_eq]
  have ha := ofCh16_err (f := f) a
  have hb := ofCh16_err (f := f) b
  have hu := Fmt.u_le (f := f)
  have hab : (a.toInt : ℚ) + 1 ≤ b.toInt := by exact_mod_cast h
  rw [abs_le] at ha hb
  linarith

example : (ChF.ofCh16 (-300#16) : F64).lt (ChF.ofCh16 (-299#16)) = true := C08_strict_ch16 _ _ (by decide)

/-- C08: a larger Ch8 sample gives a strictly larger float, in both formats and via `to_f64`. -/
theorem C08_ch8 (a b : Ch8) (h : a.toInt < b.toInt) :
    (ChTy.conv .ch32 .ch8 a).lt (ChTy.conv .ch32 .ch8 b) = true ∧
    (ChTy.conv .ch64 .ch8 a).lt (ChTy.conv .ch64 .ch8 b) = true ∧
    (ChTy.ch8.toF64 a).lt (ChTy.ch8.toF64 b) = true :=
  ⟨C08_strict_ch8 a b h, C08_strict_ch8 a b h, C08_strict_ch8 a b h⟩

example := C08_ch8 (126#8) (127#8) (by decide)

/-- C08: a larger Ch16 sample gives a strictly larger float, in both formats and via `to_f64`. -/
theorem C08_ch16 (a b : Ch16) (h : a.toInt < b.toInt) :
    (ChTy.conv .ch32 .ch16 a).lt (ChTy.conv .ch32 .ch16 b) = true ∧
    (ChTy.conv .ch64 .ch16 a).lt (ChTy.conv .ch64 .ch16 b) = true ∧
    (ChTy.ch16.toF64 a).lt (ChTy.ch16.toF64 b) = true :=
  ⟨C08_strict_ch16 a b h, C08_strict_ch16 a b h, C08_strict_ch16 a b h⟩

example := C08_ch16 (1000#16) (1001#16) (by decide)

example : (1000#16).toInt < (1001#16).toInt := by decide

/-! ## C06, C07 -/

theorem new_of_inRange {f : Fmt} {x : Fl f} (h : x.InRange) : ChF.new x = x := clamp1_of_inRange h

/-- C06: Ch8 -> Ch64 -> Ch8. -/
theorem C06_ch64 (c : Ch8) : ChTy.conv .ch8 .ch64 (ChTy.conv .ch64 .ch8 c) = c :=
  quant8_back c (ofCh8_is c) ((ofCh8_err c).trans three_u_le)
/-- C06: Ch8 -> Ch32 -> Ch8. -/
theorem C06_ch32 (c : Ch8) : ChTy.conv .ch8 .ch32 (ChTy.conv .ch32 .ch8 c) = c :=
  quant8_back c (ofCh8_is c) ((ofCh8_err c).trans three_u_le)
/-- C06: `Ch8::from_f64(x.to_f64())`. -/
theorem C06_f64 (c : Ch8) : ChTy.ch8.ofF64 (ChTy.ch8.toF64 c) = c := by
  show ChTy.conv .ch8 .ch64 (ChF.new (ChF.ofCh8 c)) = c
  rw [new_of_inRange (C08_range_ch8 c)]; exact C06_ch64 c

/-- C07: Ch16 -> Ch64 -> Ch16. -/
theorem C07_ch64 (c : Ch16) : ChTy.conv .ch16 .ch64 (ChTy.conv .ch64 .ch16 c) = c :=
  quant16_back c (ofCh16_is c) ((ofCh16_err c).trans three_u_le)
/-- C07: Ch16 -> Ch32 -> Ch16. -/
theorem C07_ch32 (c : Ch16) : ChTy.conv .ch16 .ch32 (ChTy.conv .ch32 .ch16 c) = c :=
  quant16_back c (ofCh16_is c) ((ofCh16_err c).trans three_u_le)
/-- C07: `Ch16::from_f64(x.to_f64())`. -/
theorem C07_f64 (c : Ch16) : ChTy.ch16.ofF64 (ChTy.ch16.toF64 c) = c := by
  show ChTy.conv .ch16 .ch64 (ChF.new (ChF.ofCh16 c)) = c
  rw [new_of_inRange (C08_range_ch16 c)]; exact C07_ch64 c

example : ChTy.conv .ch32 .ch16 (12345#16) ≠ lit 0 := by decide +kernel

/-! ## C09 -/

/-- C09: every float constructor lands in `[-1, 1]`, for every argument. -/
theorem C09_range (x : F32) (y : F64) :
    (ChF.new x).InRange ∧ (ChF.new y).InRange ∧
    (ChTy.conv .ch32 .ch64 y).InRange ∧ (ChTy.conv .ch64 .ch32 x).InRange :=
  ⟨clamp1_inRange _, clamp1_inRange _, clamp1_inRange _, clamp1_inRange _⟩

/-- C09: in-range arguments of `new` are unchanged. -/
theorem C09_id {f : Fmt} (x : Fl f) (h : x.InRange) : ChF.new x = x := clamp1_of_inRange h

example : ChF.new (lit (-0.3) : F64) = lit (-0.3) := C09_id _ (by decide +kernel)

/-- C09: finite arguments are clamped. -/
theorem C09_clamp {f : Fmt} (x : Fl f) (q : ℚ) (h : x.Is q) : (ChF.new x).Is (clampQ q) :=
  clamp1_is h

example : (ChF.new (lit 3.5 : F32)).Is (clampQ 3.5) := C09_clamp _ _ (by decide +kernel)

/-- C09: NaN becomes 1.0 and infinities the end points. -/
theorem C09_special {f : Fmt} : (ChF.new .nan : Fl f) = lit 1 ∧ (ChF.new (.inf false) : Fl f) = lit 1 ∧
    (ChF.new (.inf true) : Fl f) = lit (-1) :=
  ⟨clamp1_nan, by simp [ChF.new, clamp1_inf], by simp [ChF.new, clamp1_inf]⟩

/-- A number of binary32 is a number of binary64. -/
theorem rep_widen {q : ℚ} (h : binary32.Rep q) : binary64.Rep q := by
  obtain ⟨m, e, h1, h2, h3, h4⟩ := h
  exact ⟨m, e, lt_trans h1 (by norm_num [binary32, binary64]), by simp [binary32, binary64] at *; omega,
    by simp [binary32, binary64] at *; omega, h4⟩

/-- Widening to f64 keeps the number. -/
theorem widen_is {x : F32} {q : ℚ} (h : x.Is q) : (x.cast binary64).Is q := by
  have hr := rep_widen h.rep
  have := h.cast binary64 (by rw [rnd_of_rep hr]; exact hr.le_maxF)
  rwa [rnd_of_rep hr] at this

/-- C09: conversion Ch32 -> Ch64 of an in-range sample keeps its value; Ch64 -> Ch32 rounds it. -/
theorem C09_conv_value (x : F32) (y : F64) (p q : ℚ) (hx : x.Is p) (hy : y.Is q)
    (h1 : -1 ≤ p ∧ p ≤ 1) (h2 : -1 ≤ q ∧ q ≤ 1) :
    (ChTy.conv .ch64 .ch32 x).Is p ∧ (ChTy.conv .ch32 .ch64 y).Is (binary32.rnd q) := by
  constructor
  · show (clamp1 (x.cast binary64)).Is p
    have := widen_is hx
    rw [clamp1_of_inRange ⟨p, this, h1⟩]; exact this
  · show (clamp1 (y.cast binary32)).Is _
    have hr : |binary32.rnd q| ≤ 1 := abs_rnd_le_of_rep rep_one (abs_le.mpr h2)
    have := hy.cast binary32 (hr.trans one_le_maxF)
    rw [clamp1_of_inRange ⟨_, this, abs_le.mp hr⟩]; exact this

example : (ChTy.conv .ch64 .ch32 (lit 0.375)).Is 0.375 ∧
    (ChTy.conv .ch32 .ch64 (lit 0.1)).Is (binary32.rnd (binary64.rnd 0.1)) :=
  C09_conv_value _ _ _ _ (by decide +kernel) (by decide +kernel) (by norm_num) (by decide +kernel)

example : ChF.new (lit 3.5 : F32) = lit 1 := by decide +kernel
example : (lit 0.25 : F64).InRange := ⟨0.25, is_lit (rep_dyadic 1 (-2) (by norm_num) (by decide)
  (by decide) (by decide)), by norm_num, by norm_num⟩

/-! ## C10 -/

/-- C10: float `+`, `-`, `/` are in range for all operands. -/
theorem C10_range {f : Fmt} (a b : Fl f) :
    (ChF.add a b).InRange ∧ (ChF.sub a b).InRange ∧ (ChF.div a b).InRange :=
  ⟨clamp1_inRange _, clamp1_inRange _, clamp1_inRange _⟩

/-- C10: `+` is the IEEE sum clamped. -/
theorem C10_add {f : Fmt} (a b : Fl f) (p q : ℚ) (ha : a.Is p) (hb : b.Is q)
    (h : |f.rnd (p + q)| ≤ f.maxF) : (ChF.add a b).Is (clampQ (f.rnd (p + q))) :=
  clamp1_is (ha.add hb h)
/-- C10: `-` is the IEEE difference clamped. -/
theorem C10_sub {f : Fmt} (a b : Fl f) (p q : ℚ) (ha : a.Is p) (hb : b.Is q)
    (h : |f.rnd (p - q)| ≤ f.maxF) : (ChF.sub a b).Is (clampQ (f.rnd (p - q))) :=
  clamp1_is (ha.sub hb h)
/-- C10: `/` is the IEEE quotient clamped. -/
theorem C10_div {f : Fmt} (a b : Fl f) (p q : ℚ) (ha : a.Is p) (hb : b.Is q) (hq : q ≠ 0)
    (h : |f.rnd (p / q)| ≤ f.maxF) : (ChF.div a b).Is (clampQ (f.rnd (p / q))) :=
  clamp1_is (ha.div hb hq h)
/-- C10: when the IEEE result overflows or is an infinity the result is an end point, and a NaN
result becomes 1.0. -/
theorem C10_special {f : Fmt} (a b : Fl f) :
    (Fl.add a b = .nan → ChF.add a b = lit 1) ∧ (Fl.sub a b = .nan → ChF.sub a b = lit 1) ∧
    (Fl.div a b = .nan → ChF.div a b = lit 1) ∧
    (∀ s, Fl.add a b = .inf s → ChF.add a b = lit (if s then -1 else 1)) ∧
    (∀ s, Fl.sub a b = .inf s → ChF.sub a b = lit (if s then -1 else 1)) ∧
    (∀ s, Fl.div a b = .inf s → ChF.div a b = lit (if s then -1 else 1)) := by
  refine ⟨?_, ?_, ?_, ?_, ?_, ?_⟩
  · intro h; rw [ChF.add, h, clamp1_nan]
  · intro h; rw [ChF.sub, h, clamp1_nan]
  · intro h; rw [ChF.div, h, clamp1_nan]
  · intro s h; rw [ChF.add, h, clamp1_inf]; cases s <;> rfl
  · intro s h; rw [ChF.sub, h, clamp1_inf]; cases s <;> rfl
  · intro s h; rw [ChF.div, h, clamp1_inf]; cases s <;> rfl

example : (ChF.div (lit 0.25 : F64) (lit 0.75)).Is (clampQ (binary64.rnd (0.25 / 0.75))) :=
  C10_div _ _ _ _ (by decide +kernel) (by decide +kernel) (by norm_num) (by decide +kernel)

example : (ChF.sub (lit 0.75 : F32) (lit (-0.125))).Is (clampQ (binary32.rnd (0.75 - -0.125))) :=
  C10_sub _ _ _ _ (by decide +kernel) (by decide +kernel) (by decide +kernel)

example : (ChF.add (lit 0.75 : F64) (lit 0.5)).Is (clampQ (binary64.rnd (0.75 + 0.5))) :=
  C10_add _ _ _ _ (by decide +kernel) (by decide +kernel) (by decide +kernel)

/-- C10 as one equation for all operands: the IEEE result passed through `new`. -/
theorem C10_eq {f : Fmt} (a b : Fl f) : ChF.add a b = ChF.new (Fl.add a b) ∧
    ChF.sub a b = ChF.new (Fl.sub a b) ∧ ChF.div a b = ChF.new (Fl.div a b) := ⟨rfl, rfl, rfl⟩

example : ChTy.ch64.add (lit 0.75) (lit 0.5) = lit 1 := by decide +kernel
example : ChTy.ch64.div (lit 0.5) (lit 0) = .ok (lit 1) := by decide +kernel
example : ChTy.ch64.sub (.inf true) (.inf true) = lit 1 := by decide +kernel

/-! ## C14 -/

theorem ofQ_nz {g : Fmt} {q : ℚ} {nz : Bool} (hr : g.Rep q) (h : nz = true → q = 0) :
    Fl.ofQ g nz q = .fin q nz ⟨hr, h⟩ := by
  have e := rnd_of_rep hr
  unfold Fl.ofQ
  simp only [e]
  rw [dif_pos hr.le_maxF]
  congr 1
  cases nz with
  | false => simp; intro h1; exact h1.symm ▸ (by simp)
  | true => simp [h rfl]

/-- C14: `Ch32::from_f64(x.to_f64())` is `x`, for every f32 (zeros keep their sign, NaN is NaN). -/
theorem C14_all (x : Ch32) : ChTy.ch32.ofF64 (ChTy.ch32.toF64 x) = x := by
  show Fl.cast binary32 (Fl.cast binary64 x) = x
  cases x with
  | nan => rfl
  | inf s => rfl
  | fin q nz h =>
    show Fl.cast binary32 (Fl.ofQ binary64 nz q) = _
    rw [ofQ_nz (rep_widen h.1) h.2]
    exact ofQ_nz h.1 h.2

/-- C14: Ch32 -> Ch64 -> Ch32 is the identity on in-range samples. -/
theorem C14_conv (x : Ch32) (h : x.InRange) : ChTy.conv .ch32 .ch64 (ChTy.conv .ch64 .ch32 x) = x := by
  show ChF.new (Fl.cast binary32 (ChF.new (Fl.cast binary64 x))) = x
  obtain ⟨q, hq, h1⟩ := h
  rw [new_of_inRange ⟨q, widen_is hq, h1⟩]
  have := C14_all x
  change Fl.cast binary32 (Fl.cast binary64 x) = x at this
  rw [this]; exact new_of_inRange ⟨q, hq, h1⟩

example : ChTy.conv .ch32 .ch64 (ChTy.conv .ch64 .ch32 (lit 0.1)) = lit 0.1 := C14_conv _ (by decide +kernel)

example : (lit 0.1 : F32).InRange := by
  refine ⟨binary32.rnd 0.1, is_lit_rnd (by decide +kernel), by decide +kernel, by decide +kernel⟩

/-! ## C12 -/

/-- Value of quantising a finite number (`From<Ch32>`/`From<Ch64>` into an integer format). -/
def quantV (f : Fmt) (n : Nat) (s p : ℚ) : ℤ := clampZ (iMin n) (iMax n) (floorE f.eps (f.rnd (p * s)))

theorem quant_is {f : Fmt} {n : Nat} (hn : 0 < n) {s : ℚ} (hs : f.Rep s) {x : Fl f} {p : ℚ} (hx : x.Is p)
    (h : |f.rnd (p * s)| ≤ f.maxF) : (Math.floorI n (x.mul (lit s))).toInt = quantV f n s p :=
  floorI_is hn (hx.mul (is_lit hs) h)

theorem quantV_mono {f : Fmt} {n : Nat} {s p q : ℚ} (hs : 0 ≤ s) (h : p ≤ q) :
    quantV f n s p ≤ quantV f n s q := by
  have := floorE_mono (eps := f.eps) (rnd_mono (f := f) (mul_le_mul_of_nonneg_right h hs))
  unfold quantV clampZ; omega

theorem rep_s8 {f : Fmt} [Std f] : f.Rep 127.5 := by
  have := rep_half_int (f := f) (n := 255) (by decide)
  rwa [show ((255:ℤ):ℚ) / 2 = 127.5 by norm_num] at this
theorem rep_s16 {f : Fmt} [Std f] : f.Rep 32767.5 := by
  have := rep_half_int (f := f) (n := 65535) (by decide)
  rwa [show ((65535:ℤ):ℚ) / 2 = 32767.5 by norm_num] at this

theorem ofF64_ch8_is {x : F64} {q : ℚ} (h : x.Is q) :
    (ChTy.ch8.ofF64 x).toInt = quantV binary64 8 127.5 (clampQ q) := by
  refine quant_is (by norm_num) rep_s8 (clamp1_is h) (small ?_)
  have := abs_le.mpr (clampQ_range q)
  rw [abs_mul]; norm_num; linarith
theorem ofF64_ch16_is {x : F64} {q : ℚ} (h : x.Is q) :
    (ChTy.ch16.ofF64 x).toInt = quantV binary64 16 32767.5 (clampQ q) := by
  refine quant_is (by norm_num) rep_s16 (clamp1_is h) (small ?_)
  have := abs_le.mpr (clampQ_range q)
  rw [abs_mul]; norm_num; linarith

theorem ofF64_eq_new (x : F64) : ChTy.ch8.ofF64 x = ChTy.ch8.ofF64 (clamp1 x) ∧
    ChTy.ch16.ofF64 x = ChTy.ch16.ofF64 (clamp1 x) := by
  have : ChF.new (clamp1 x) = ChF.new x := clamp1_of_inRange (clamp1_inRange x)
  constructor <;> simp only [ChTy.ofF64, this]

/-- The clamped value of any float that is not NaN. -/
theorem clamp1_mono {f : Fmt} {x y : Fl f} (h : x.le y = true) :
    ∃ p q, (clamp1 x).Is p ∧ (clamp1 y).Is q ∧ p ≤ q := by
  cases x with
  | nan => simp [Fl.le, Fl.lt, Fl.eq] at h
  | inf s =>
    cases s with
    | true =>
      obtain ⟨q, hq, h1, _⟩ := clamp1_inRange y
      exact ⟨-1, q, by rw [clamp1_inf]; exact is_neg_one, hq, h1⟩
    | false =>
      cases y with
      | nan => simp [Fl.le, Fl.lt, Fl.eq] at h
      | inf t => cases t <;> simp [Fl.le, Fl.lt, Fl.eq] at h
                 exact ⟨1, 1, by rw [clamp1_inf]; exact is_one, by rw [clamp1_inf]; exact is_one, le_rfl⟩
      | fin q nz hq => simp [Fl.le, Fl.lt, Fl.eq] at h
  | fin p nz hp =>
    cases y with
    | nan => simp [Fl.le, Fl.lt, Fl.eq] at h
    | inf t =>
      cases t with
      | true => simp [Fl.le, Fl.lt, Fl.eq] at h
      | false =>
        exact ⟨_, 1, clamp1_is is_fin, by rw [clamp1_inf]; exact is_one, (clampQ_range p).2⟩
    | fin q nz' hq =>
      have : p ≤ q := by
        have := (is_fin (h := hp)).le (is_fin (h := hq))
        rw [this] at h; simpa using h
      exact ⟨_, _, clamp1_is is_fin, clamp1_is is_fin, clampQ_mono this⟩

/-- C12: `from_f64` into Ch8 and Ch16 is monotone on all ordered pairs of f64 (infinities included). -/
theorem C12_ofF64_mono (x y : F64) (h : x.le y = true) :
    (ChTy.ch8.ofF64 x).toInt ≤ (ChTy.ch8.ofF64 y).toInt ∧
    (ChTy.ch16.ofF64 x).toInt ≤ (ChTy.ch16.ofF64 y).toInt := by
  obtain ⟨p, q, hp, hq, hpq⟩ := clamp1_mono h
  rw [(ofF64_eq_new x).1, (ofF64_eq_new y).1, (ofF64_eq_new x).2, (ofF64_eq_new y).2,
    ofF64_ch8_is hp, ofF64_ch8_is hq, ofF64_ch16_is hp, ofF64_ch16_is hq]
  exact ⟨quantV_mono (by norm_num) (clampQ_mono hpq), quantV_mono (by norm_num) (clampQ_mono hpq)⟩

example := C12_ofF64_mono (lit (-0.3)) (.inf false) (by decide +kernel)

/-- C12: inputs at least 1.0, and NaN, give `MAX`; inputs at most -1.0 give `MIN`. -/
theorem C12_saturate (x : F64) :
    ((lit 1 : F64).le x = true ∨ x = .nan → ChTy.ch8.ofF64 x = ChTy.ch8.MAX ∧ ChTy.ch16.ofF64 x = ChTy.ch16.MAX) ∧
    (x.le (lit (-1)) = true → ChTy.ch8.ofF64 x = ChTy.ch8.MIN ∧ ChTy.ch16.ofF64 x = ChTy.ch16.MIN) := by
  have h1 : ChTy.ch8.ofF64 (lit 1) = ChTy.ch8.MAX ∧ ChTy.ch16.ofF64 (lit 1) = ChTy.ch16.MAX := by
    decide +kernel
  have h2 : ChTy.ch8.ofF64 (lit (-1)) = ChTy.ch8.MIN ∧ ChTy.ch16.ofF64 (lit (-1)) = ChTy.ch16.MIN := by
    decide +kernel
  constructor
  · rintro (h | rfl)
    · have := C12_ofF64_mono _ _ h
      rw [h1.1, h1.2] at this
      have a := i8_range (ChTy.ch8.ofF64 x)
      have b := i16_range (ChTy.ch16.ofF64 x)
      have e1 : (ChTy.ch8.MAX : BitVec 8).toInt = 127 := by decide
      have e2 : (ChTy.ch16.MAX : BitVec 16).toInt = 32767 := by decide
      rw [e1, e2] at this
      exact ⟨BitVec.eq_of_toInt_eq (by rw [e1]; omega), BitVec.eq_of_toInt_eq (by rw [e2]; omega)⟩
    · decide +kernel
  · intro h
    have := C12_ofF64_mono _ _ h
    rw [h2.1, h2.2] at this
    have a := i8_range (ChTy.ch8.ofF64 x)
    have b := i16_range (ChTy.ch16.ofF64 x)
    have e1 : (ChTy.ch8.MIN : BitVec 8).toInt = -128 := by decide
    have e2 : (ChTy.ch16.MIN : BitVec 16).toInt = -32768 := by decide
    rw [e1, e2] at this
    exact ⟨BitVec.eq_of_toInt_eq (by rw [e1]; omega), BitVec.eq_of_toInt_eq (by rw [e2]; omega)⟩

/-- C12: `From<Ch64>` is monotone on finite samples as long as scaling does not overflow.  Missing from
the property: infinite samples and finite ones whose scaled value overflows, see `C12_false`. -/
theorem C12_ch64_partial (x y : Ch64) (p q : ℚ) (hx : x.Is p) (hy : y.Is q) (h : p ≤ q)
    (h1 : |p| ≤ 2 ^ (84:ℤ)) (h2 : |q| ≤ 2 ^ (84:ℤ)) :
    (ChTy.conv .ch8 .ch64 x).toInt ≤ (ChTy.conv .ch8 .ch64 y).toInt ∧
    (ChTy.conv .ch16 .ch64 x).toInt ≤ (ChTy.conv .ch16 .ch64 y).toInt := by
  have hs : ∀ r s : ℚ, |r| ≤ 2 ^ (84:ℤ) → |s| ≤ 2 ^ (16:ℤ) → |binary64.rnd (r * s)| ≤ binary64.maxF := by
    intro r s h h'
    apply small
    rw [abs_mul, show (2:ℚ) ^ (100:ℤ) = 2 ^ (84:ℤ) * 2 ^ (16:ℤ) by norm_num]
    exact mul_le_mul h h' (abs_nonneg _) (by norm_num)
  simp only [ChTy.conv, Ch8.ofCh64, Ch16.ofCh64]
  rw [quant_is (by norm_num) rep_s8 hx (hs _ _ h1 (by norm_num [abs_of_pos])),
    quant_is (by norm_num) rep_s8 hy (hs _ _ h2 (by norm_num [abs_of_pos])),
    quant_is (by norm_num) rep_s16 hx (hs _ _ h1 (by norm_num [abs_of_pos])),
    quant_is (by norm_num) rep_s16 hy (hs _ _ h2 (by norm_num [abs_of_pos]))]
  exact ⟨quantV_mono (by norm_num) h, quantV_mono (by norm_num) h⟩

example := C12_ch64_partial (lit (-0.25)) (lit 100) (-0.25) 100 (by decide +kernel) (by decide +kernel) (by norm_num)
  (by norm_num) (by norm_num)

/-- C12: the same for `From<Ch32>`. -/
theorem C12_ch32_partial (x y : Ch32) (p q : ℚ) (hx : x.Is p) (hy : y.Is q) (h : p ≤ q)
    (h1 : |p| ≤ 2 ^ (84:ℤ)) (h2 : |q| ≤ 2 ^ (84:ℤ)) :
    (ChTy.conv .ch8 .ch32 x).toInt ≤ (ChTy.conv .ch8 .ch32 y).toInt ∧
    (ChTy.conv .ch16 .ch32 x).toInt ≤ (ChTy.conv .ch16 .ch32 y).toInt := by
  have hs : ∀ r s : ℚ, |r| ≤ 2 ^ (84:ℤ) → |s| ≤ 2 ^ (16:ℤ) → |binary32.rnd (r * s)| ≤ binary32.maxF := by
    intro r s h h'
    apply small
    rw [abs_mul, show (2:ℚ) ^ (100:ℤ) = 2 ^ (84:ℤ) * 2 ^ (16:ℤ) by norm_num]
    exact mul_le_mul h h' (abs_nonneg _) (by norm_num)
  simp only [ChTy.conv, Ch8.ofCh32, Ch16.ofCh32]
  rw [quant_is (by norm_num) rep_s8 hx (hs _ _ h1 (by norm_num [abs_of_pos])),
    quant_is (by norm_num) rep_s8 hy (hs _ _ h2 (by norm_num [abs_of_pos])),
    quant_is (by norm_num) rep_s16 hx (hs _ _ h1 (by norm_num [abs_of_pos])),
    quant_is (by norm_num) rep_s16 hy (hs _ _ h2 (by norm_num [abs_of_pos]))]
  exact ⟨quantV_mono (by norm_num) h, quantV_mono (by norm_num) h⟩

example := C12_ch32_partial (lit (-0.25)) (lit 100) (-0.25) 100 (by decide +kernel) (by decide +kernel) (by norm_num)
  (by norm_num) (by norm_num)

/-- C12 as stated is false: a Ch64 holding minus infinity (which `Ch64::from_f64` and
`with_f64_buffer` let in) becomes 0, above the sample for -1.0. -/
theorem C12_false : ¬ ∀ x y : Ch64, x.le y = true →
    (ChTy.conv .ch8 .ch64 x).toInt ≤ (ChTy.conv .ch8 .ch64 y).toInt := by
  intro h
  exact absurd (h (ChTy.ch64.ofF64 (.inf true)) (lit (-1)) (by decide +kernel)) (by decide +kernel)

/-- C12: also a finite sample can overflow to that. -/
theorem C12_false_finite : ChTy.conv .ch8 .ch64 (lit (-1.7e308)) = 0#8 := by decide +kernel

example : (lit (-0.3) : F64).le (lit 0.2) = true := by decide +kernel

/-! ## C13 -/

theorem quant_err {n : Nat} {k : ℤ} (hk : 0 ≤ k) {M : ℤ} (hM : 255 ≤ M) (hM' : M ≤ 65535)
    (hMk : (M:ℚ) + 1 = 2 ^ (k + 1)) (hlo : 2 * iMin n + 1 = -M) (hhi : 2 * iMax n + 1 = M)
    {v : ℚ} (h1 : -1 ≤ v) (h2 : v ≤ 1) :
    |((2 * (quantV binary64 n (M / 2) v : ℚ) + 1) / M) - v| ≤ 1 / M + 2 * binary64.u := by
  have hMq : (255:ℚ) ≤ M := by exact_mod_cast hM
  have hM0 : (0:ℚ) < M := by linarith
  have hu := Fmt.u_le (f := binary64)
  have hu0 := Fmt.u_pos (f := binary64)
  have b0 : |v * (M / 2)| ≤ M / 2 := by
    rw [abs_mul, abs_of_pos (by linarith : (0:ℚ) < M / 2)]
    exact mul_le_of_le_one_left (by linarith) (abs_le.mpr ⟨h1, h2⟩)
  have hr : binary64.Rep ((M:ℚ) / 2) := rep_half_int (by rw [abs_lt]; omega)
  have b1 := abs_rnd_le_of_rep hr b0
  have hk2 : (2:ℚ) ^ (k + 1) = 2 * 2 ^ k := by rw [zpow_add₀ (by norm_num)]; ring
  have e1 := err_lt_u (f := binary64) k (lt_of_le_of_lt b0 (by linarith)) (by linarith)
  rw [show (2:ℚ) ^ (k - 1) = 2 ^ k / 2 by rw [zpow_sub₀ (by norm_num)]; ring] at e1
  set z := binary64.rnd (v * (M / 2)) with hz
  have hF := floorE_bounds (eps := binary64.eps) (q := z) (Fmt.eps_pos).le
  set F := floorE binary64.eps z with hFd
  rw [Fmt.eps_eq] at hF
  rw [abs_le] at b1
  have c1 : F ≤ iMax n := by
    have h : (2 * F : ℚ) < (M:ℚ) + 1 := by linarith
    have : 2 * F < M + 1 := by exact_mod_cast h
    omega
  have c2 : iMin n ≤ F := by
    have h : -(M:ℚ) - 2 < 2 * (F:ℚ) := by linarith
    have : -M - 2 < 2 * F := by exact_mod_cast h
    omega
  have hq : quantV binary64 n (M / 2) v = F := by
    unfold quantV; rw [← hz, ← hFd]; unfold clampZ; omega
  rw [hq]
  have e2 : ((2 * (F:ℚ) + 1) / M) - v = ((2 * F + 1) - 2 * (v * (M / 2))) / M := by
    field_simp
  rw [e2, abs_div, abs_of_pos hM0, div_le_iff₀ hM0, add_mul, div_mul_cancel₀ _ hM0.ne']
  rw [abs_le] at e1
  have h3 : 2 ^ k * binary64.u ≤ M * binary64.u := mul_le_mul_of_nonneg_right (by linarith) hu0.le
  have h4 : 255 * binary64.u ≤ M * binary64.u := mul_le_mul_of_nonneg_right (by linarith) hu0.le
  rw [abs_le]; constructor <;> linarith

/-- C13 for Ch8: `Ch8::from_f64(x).to_f64()` is a number within `1/255 + 2^-50` of `x`. -/
theorem C13_ch8 (x : F64) (q : ℚ) (hx : x.Is q) (h1 : -1 ≤ q) (h2 : q ≤ 1) :
    ∃ r, (ChTy.ch8.toF64 (ChTy.ch8.ofF64 x)).Is r ∧ |r - q| ≤ 1 / 255 + 2 ^ (-50 : ℤ) := by
  refine ⟨_, ofCh8_is (f := binary64) _, ?_⟩
  have e1 := ofCh8_err (f := binary64) (ChTy.ch8.ofF64 x)
  rw [ofF64_ch8_is hx, clampQ_of_range h1 h2] at e1 ⊢
  have e2 := quant_err (n := 8) (k := 7) (M := 255) (by norm_num) (by norm_num) (by norm_num)
    (by norm_num) (by simp [iMin]) (by simp [iMax]) h1 h2
  rw [show (((255:ℤ):ℚ) / 2) = 127.5 by norm_num, show ((255:ℤ):ℚ) = 255 by norm_num] at e2
  have e3 : 5 * binary64.u ≤ 2 ^ (-50:ℤ) := by decide +kernel
  generalize (2:ℚ) ^ (-50:ℤ) = t at *
  rw [abs_le] at *
  constructor <;> linarith

example := C13_ch8 (lit 0.375) 0.375 (by decide +kernel) (by norm_num) (by norm_num)

/-- C13 for Ch16: `Ch16::from_f64(x).to_f64()` is a number within `1/65535 + 2^-50` of `x`. -/
theorem C13_ch16 (x : F64) (q : ℚ) (hx : x.Is q) (h1 : -1 ≤ q) (h2 : q ≤ 1) :
    ∃ r, (ChTy.ch16.toF64 (ChTy.ch16.ofF64 x)).Is r ∧ |r - q| ≤ 1 / 65535 + 2 ^ (-50 : ℤ) := by
  refine ⟨_, ofCh16_is (f := binary64) _, ?_⟩
  have e1 := ofCh16_err (f := binary64) (ChTy.ch16.ofF64 x)
  rw [ofF64_ch16_is hx, clampQ_of_range h1 h2] at e1 ⊢
  have e2 := quant_err (n := 16) (k := 15) (M := 65535) (by norm_num) (by norm_num) (by norm_num)
    (by norm_num) (by simp [iMin]) (by simp [iMax]) h1 h2
  rw [show (((65535:ℤ):ℚ) / 2) = 32767.5 by norm_num, show ((65535:ℤ):ℚ) = 65535 by norm_num] at e2
  have e3 : 5 * binary64.u ≤ 2 ^ (-50:ℤ) := by decide +kernel
  generalize (2:ℚ) ^ (-50:ℤ) = t at *
  rw [abs_le] at *
  constructor <;> linarith

example := C13_ch16 (lit (-0.7)) (binary64.rnd (-0.7)) (by decide +kernel) (by decide +kernel) (by decide +kernel)

example : (lit 0.375 : F64).Is 0.375 := is_lit (rep_dyadic 3 (-3) (by norm_num) (by decide) (by decide)
  (by decide))

end Fon
