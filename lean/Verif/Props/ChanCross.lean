import Verif.Props.ChanAlg
import Verif.Spec.Level

/-!
# C67 - C69, C71 - C73: the formats compared with each other
-/

namespace Fon
open Fmt Fl

/-! ## C67: inverting and converting commute -/

/-- C67, within the integer formats. -/
theorem C67_int (x : Ch8) (y : Ch16) :
    ChTy.conv .ch16 .ch8 (ChTy.ch8.neg x) = ChTy.ch16.neg (ChTy.conv .ch16 .ch8 x) ∧
    ChTy.conv .ch8 .ch16 (ChTy.ch16.neg y) = ChTy.ch8.neg (ChTy.conv .ch8 .ch16 y) := by
  constructor <;> apply BitVec.eq_of_toInt_eq
  · rw [C05_value, (C04_ch8 _).2, (C04_ch16 _).2, C05_value]; ring
  · rw [ofCh16_value, (C04_ch16 _).2, (C04_ch8 _).2, ofCh16_value]; omega

/-- C67, within the float formats. -/
theorem C67_float (x : Ch32) (y : Ch64) (hx : x.InRange) (hy : y.InRange) :
    ∃ p q, (ChTy.conv .ch64 .ch32 x).Is p ∧ (ChTy.conv .ch64 .ch32 (ChTy.ch32.neg x)).Is (-p) ∧
      (ChTy.conv .ch32 .ch64 y).Is q ∧ (ChTy.conv .ch32 .ch64 (ChTy.ch64.neg y)).Is (-q) := by
  obtain ⟨p, hp, p1, p2⟩ := hx
  obtain ⟨q, hq, q1, q2⟩ := hy
  have hs : |binary32.rnd q| ≤ 1 := abs_rnd_le_of_rep rep_one (abs_le.mpr ⟨q1, q2⟩)
  have h1 := abs_le.mp hs
  refine ⟨p, binary32.rnd q, ?_, ?_, ?_, ?_⟩
  · have := clamp1_is (widen_is hp); rwa [clampQ_of_range p1 p2] at this
  · have := clamp1_is (widen_is hp.neg)
    rwa [clampQ_of_range (by linarith) (by linarith)] at this
  · have := clamp1_is (hq.cast binary32 (hs.trans one_le_maxF))
    rwa [clampQ_of_range h1.1 h1.2] at this
  · have := clamp1_is (hq.neg.cast binary32 (by rw [rnd_neg, abs_neg]; exact hs.trans one_le_maxF))
    rw [rnd_neg] at this
    rwa [clampQ_of_range (by linarith) (by linarith)] at this

example := C67_float (lit 0.7) (lit (-0.1)) (by decide +kernel) (by decide +kernel)

/-- C67, from integers to floats: true up to the rounding of both conversions, `6u`. -/
theorem C67_widen_partial {f : Fmt} [StdEnd f] (x : Ch8) (y : Ch16) :
    (∃ p q, (ChF.ofCh8 (Ch8.neg x) : Fl f).Is p ∧ (ChF.neg (ChF.ofCh8 x : Fl f)).Is q ∧ |p - q| ≤ 6 * f.u) ∧
    (∃ p q, (ChF.ofCh16 (Ch16.neg y) : Fl f).Is p ∧ (ChF.neg (ChF.ofCh16 y : Fl f)).Is q ∧ |p - q| ≤ 6 * f.u) := by
  constructor
  · refine ⟨_, _, ofCh8_is _, (ofCh8_is x).neg, ?_⟩
    have e1 := ofCh8_err (f := f) (Ch8.neg x)
    have e2 := ofCh8_err (f := f) x
    have : (Ch8.neg x).toInt = -1 - x.toInt := (C04_ch8 x).2
    rw [this] at e1 ⊢
    push_cast at e1
    rw [show (2 * (-1 - (x.toInt:ℚ)) + 1) / 255 = -((2 * x.toInt + 1) / 255) by ring] at e1
    rw [abs_le] at *; constructor <;> linarith
  · refine ⟨_, _, ofCh16_is _, (ofCh16_is y).neg, ?_⟩
    have e1 := ofCh16_err (f := f) (Ch16.neg y)
    have e2 := ofCh16_err (f := f) y
    have : (Ch16.neg y).toInt = -1 - y.toInt := (C04_ch16 y).2
    rw [this] at e1 ⊢
    push_cast at e1
    rw [show (2 * (-1 - (y.toInt:ℚ)) + 1) / 65535 = -((2 * y.toInt + 1) / 65535) by ring] at e1
    rw [abs_le] at *; constructor <;> linarith

example := C67_widen_partial (f := binary32) (100#8) (-32768#16)

/-- C67: the sample nearest to the inverted `f64` value of an integer sample is the inverted sample. -/
theorem C67_via_f64 (x : Ch8) (y : Ch16) :
    ChTy.ch8.ofF64 (Fl.neg (ChTy.ch8.toF64 x)) = ChTy.ch8.neg x ∧
    ChTy.ch16.ofF64 (Fl.neg (ChTy.ch16.toF64 y)) = ChTy.ch16.neg y := by
  constructor
  · show Math.floorI 8 ((ChF.new (Fl.neg (ChF.ofCh8 x : F64))).mul (lit 127.5)) = Ch8.neg x
    rw [new_of_inRange (InRange.neg (C08_range_ch8 x))]
    refine quant8_back _ (ofCh8_is x).neg ?_
    have e2 := (ofCh8_err (f := binary64) x).trans three_u_le
    have : (Ch8.neg x).toInt = -1 - x.toInt := (C04_ch8 x).2
    rw [this]; push_cast
    rw [show (2 * (-1 - (x.toInt:ℚ)) + 1) / 255 = -((2 * x.toInt + 1) / 255) by ring, ← abs_neg]
    rw [show ∀ a b : ℚ, -(-a - -b) = a - b by intros; ring]
    exact e2
  · show Math.floorI 16 ((ChF.new (Fl.neg (ChF.ofCh16 y : F64))).mul (lit 32767.5)) = Ch16.neg y
    rw [new_of_inRange (InRange.neg (C08_range_ch16 y))]
    refine quant16_back _ (ofCh16_is y).neg ?_
    have e2 := (ofCh16_err (f := binary64) y).trans three_u_le
    have : (Ch16.neg y).toInt = -1 - y.toInt := (C04_ch16 y).2
    rw [this]; push_cast
    rw [show (2 * (-1 - (y.toInt:ℚ)) + 1) / 65535 = -((2 * y.toInt + 1) / 65535) by ring, ← abs_neg]
    rw [show ∀ a b : ℚ, -(-a - -b) = a - b by intros; ring]
    exact e2

theorem floorE_neg {eps q : ℚ} (he : 0 ≤ eps) :
    -1 - floorE eps q ≤ floorE eps (-q) ∧ floorE eps (-q) ≤ -floorE eps q := by
  have key : ∀ q : ℚ, 0 < q → -1 - ⌊q⌋ ≤ -ceilE eps q ∧ -ceilE eps q ≤ -⌊q⌋ := by
    intro q _; unfold ceilE; split <;> omega
  unfold floorE
  rcases lt_trichotomy q 0 with h | rfl | h
  · have := key (-q) (by linarith)
    rw [if_pos h, if_neg (show ¬ -q < 0 by linarith)]; omega
  · simp
  · have := key q h
    rw [if_pos (show -q < 0 by linarith), if_neg (show ¬ q < 0 by linarith), neg_neg]; omega

theorem quantV_neg {f : Fmt} {n : Nat} (hn : iMin n = -1 - iMax n) (h0 : 0 ≤ iMax n) {s p : ℚ} :
    -1 - quantV f n s p ≤ quantV f n s (-p) ∧ quantV f n s (-p) ≤ -quantV f n s p := by
  have := floorE_neg (q := f.rnd (p * s)) (Fmt.eps_pos (f := f)).le
  unfold quantV clampZ
  rw [neg_mul, rnd_neg, hn]
  omega

/-- C67, from floats to integers: the inverted conversion is at most one step below the conversion of the inverted
sample. -/
theorem C67_narrow_partial {f : Fmt} [Std f] (x : Fl f) (q : ℚ) (hx : x.Is q) (hq : |q| ≤ 1) :
    (let a := Math.floorI 8 (x.mul (lit 127.5)); let b := Math.floorI 8 (x.neg.mul (lit 127.5))
     (Ch8.neg a).toInt ≤ b.toInt ∧ b.toInt ≤ (Ch8.neg a).toInt + 1) ∧
    (let a := Math.floorI 16 (x.mul (lit 32767.5)); let b := Math.floorI 16 (x.neg.mul (lit 32767.5))
     (Ch16.neg a).toInt ≤ b.toInt ∧ b.toInt ≤ (Ch16.neg a).toInt + 1) := by
  have hb : ∀ s : ℚ, |s| ≤ 65536 → ∀ q : ℚ, |q| ≤ 1 → |f.rnd (q * s)| ≤ f.maxF := by
    intro s hs q hq
    apply small
    rw [abs_mul]
    have := mul_le_mul hq hs (abs_nonneg _) (by norm_num)
    exact this.trans (by norm_num)
  constructor
  · dsimp only
    have e1 := quant_is (n := 8) (by norm_num) rep_s8 hx (hb _ (by norm_num [abs_of_pos]) q hq)
    have e2 := quant_is (n := 8) (by norm_num) rep_s8 hx.neg (hb _ (by norm_num [abs_of_pos]) (-q) (by rwa [abs_neg]))
    have : ∀ a : Ch8, (Ch8.neg a).toInt = -1 - a.toInt := fun a => (C04_ch8 a).2
    rw [this, e1, e2]
    have := quantV_neg (f := f) (n := 8) (s := 127.5) (p := q) (by simp [iMin, iMax]) (by simp [iMax])
    omega
  · dsimp only
    have e1 := quant_is (n := 16) (by norm_num) rep_s16 hx (hb _ (by norm_num [abs_of_pos]) q hq)
    have e2 := quant_is (n := 16) (by norm_num) rep_s16 hx.neg (hb _ (by norm_num [abs_of_pos]) (-q) (by rwa [abs_neg]))
    have : ∀ a : Ch16, (Ch16.neg a).toInt = -1 - a.toInt := fun a => (C04_ch16 a).2
    rw [this, e1, e2]
    have := quantV_neg (f := f) (n := 16) (s := 32767.5) (p := q) (by simp [iMin, iMax]) (by simp [iMax])
    omega

example := C67_narrow_partial (f := binary32) (lit 0.25) 0.25 (by decide +kernel) (by norm_num [abs_le])

theorem floorE_neg_iff {eps q : ℚ} (he : 0 ≤ eps) :
    floorE eps (-q) = -1 - floorE eps q ↔ eps < |q| - ⌊|q|⌋ := by
  have key : ∀ q : ℚ, -ceilE eps q = -1 - ⌊q⌋ ↔ eps < q - ⌊q⌋ := by
    intro q; unfold ceilE; split <;> rename_i h
    · exact ⟨fun _ => h, fun _ => by ring⟩
    · exact ⟨fun e => by omega, fun e => absurd e h⟩
  unfold floorE
  rcases lt_trichotomy q 0 with h | rfl | h
  · rw [if_pos h, if_neg (show ¬ -q < 0 by linarith), abs_of_neg h, ← key]; omega
  · simpa using he
  · rw [if_pos (show -q < 0 by linarith), if_neg (show ¬ q < 0 by linarith), neg_neg, abs_of_pos h, key]

theorem quantV_neg_iff {f : Fmt} {n : Nat} (hn : iMin n = -1 - iMax n) {s p : ℚ} (hs : f.Rep s) (h0 : 0 ≤ s)
    (hM : s < iMax n + 1) (hp : |p| ≤ 1) :
    quantV f n s (-p) = -1 - quantV f n s p ↔ f.eps < |f.rnd (p * s)| - ⌊|f.rnd (p * s)|⌋ := by
  have hv : |f.rnd (p * s)| ≤ s := abs_rnd_le_of_rep hs (by
    rw [abs_mul, abs_of_nonneg h0]; exact mul_le_of_le_one_left h0 hp)
  have hin : ∀ v : ℚ, |v| ≤ s → iMin n ≤ floorE f.eps v ∧ floorE f.eps v ≤ iMax n := by
    intro v h
    rw [abs_le] at h
    have ha : ∀ w : ℚ, 0 ≤ w → w ≤ s → 0 ≤ ⌊w⌋ ∧ ⌊w⌋ ≤ iMax n := fun w h0 h1 =>
      ⟨Int.floor_nonneg.2 h0, Int.lt_add_one_iff.1 (Int.floor_lt.2 (by push_cast; linarith))⟩
    rw [hn]
    unfold floorE ceilE
    split
    · have := ha (-v) (by linarith) (by linarith)
      split <;> omega
    · have := ha v (by linarith) (by linarith)
      omega
  have e1 := hin _ hv
  have e2 := hin _ (by rwa [abs_neg])
  rw [← floorE_neg_iff (Fmt.eps_pos (f := f)).le]
  unfold quantV clampZ
  rw [neg_mul, rnd_neg]
  omega

/-- C67, from floats to integers: inverting and converting commute exactly if the scaled sample is not an integer (more
precisely: if its fractional part is larger than epsilon, which is the resolution of `math::floor_*`). -/
theorem C67_narrow_iff {f : Fmt} [Std f] (x : Fl f) (q : ℚ) (hx : x.Is q) (hq : |q| ≤ 1) :
    (Math.floorI 8 (x.neg.mul (lit 127.5)) = Ch8.neg (Math.floorI 8 (x.mul (lit 127.5))) ↔
      2 ^ (1 - (f.prec : ℤ)) < Int.fract |f.rnd (q * 127.5)|) ∧
    (Math.floorI 16 (x.neg.mul (lit 32767.5)) = Ch16.neg (Math.floorI 16 (x.mul (lit 32767.5))) ↔
      2 ^ (1 - (f.prec : ℤ)) < Int.fract |f.rnd (q * 32767.5)|) := by
  have hb : ∀ s : ℚ, |s| ≤ 65536 → ∀ q : ℚ, |q| ≤ 1 → |f.rnd (q * s)| ≤ f.maxF := by
    intro s hs q hq
    apply small
    rw [abs_mul]
    have := mul_le_mul hq hs (abs_nonneg _) (by norm_num)
    exact this.trans (by norm_num)
  constructor
  · have e1 := quant_is (n := 8) (by norm_num) rep_s8 hx (hb _ (by norm_num [abs_of_pos]) q hq)
    have e2 := quant_is (n := 8) (by norm_num) rep_s8 hx.neg (hb _ (by norm_num [abs_of_pos]) (-q) (by rwa [abs_neg]))
    have : ∀ a : Ch8, (Ch8.neg a).toInt = -1 - a.toInt := fun a => (C04_ch8 a).2
    rw [← BitVec.toInt_inj, this, e1, e2]
    exact quantV_neg_iff (by simp [iMin, iMax]) rep_s8 (by norm_num) (by norm_num [iMax]) hq
  · have e1 := quant_is (n := 16) (by norm_num) rep_s16 hx (hb _ (by norm_num [abs_of_pos]) q hq)
    have e2 := quant_is (n := 16) (by norm_num) rep_s16 hx.neg (hb _ (by norm_num [abs_of_pos]) (-q) (by rwa [abs_neg]))
    have : ∀ a : Ch16, (Ch16.neg a).toInt = -1 - a.toInt := fun a => (C04_ch16 a).2
    rw [← BitVec.toInt_inj, this, e1, e2]
    exact quantV_neg_iff (by simp [iMin, iMax]) rep_s16 (by norm_num) (by norm_num [iMax]) hq

example := C67_narrow_iff (f := binary32) (lit 0.25) 0.25 (by decide +kernel) (by norm_num [abs_le])
-- 0.25 * 127.5 has a fraction, 0 has none
example : Math.floorI 8 ((lit 0.25 : F32).neg.mul (lit 127.5)) = Ch8.neg (Math.floorI 8 ((lit 0.25 : F32).mul (lit 127.5))) ∧
    Math.floorI 8 ((lit 0 : F32).neg.mul (lit 127.5)) ≠ Ch8.neg (Math.floorI 8 ((lit 0 : F32).mul (lit 127.5))) := by
  decide +kernel

/-- C67 as stated is false: silence converts to 0, inverted 8-bit silence is -1; and from integers to floats the
rounding differs. -/
theorem C67_false : ChTy.conv .ch8 .ch32 (ChTy.ch32.neg ChTy.ch32.MID) ≠ ChTy.ch8.neg (ChTy.conv .ch8 .ch32 ChTy.ch32.MID) ∧
    ChTy.conv .ch16 .ch64 (ChTy.ch64.neg ChTy.ch64.MID) ≠ ChTy.ch16.neg (ChTy.conv .ch16 .ch64 ChTy.ch64.MID) ∧
    ∃ x : Ch8, ChTy.conv .ch32 .ch8 (ChTy.ch8.neg x) ≠ ChTy.ch32.neg (ChTy.conv .ch32 .ch8 x) := by
  refine ⟨by decide +kernel, by decide +kernel, ?_⟩
  exact ⟨3#8, by decide +kernel⟩

example : (lit 0.5 : F32).Is 0.5 ∧ |(0.5 : ℚ)| ≤ 1 :=
  ⟨is_lit (rep_dyadic 1 (-1) (by norm_num) (by decide) (by decide) (by decide)), by norm_num [abs_le]⟩

/-! ## C71: requantising -/

/-- C71: quantising twice is quantising once, for every `f64` whatsoever. -/
theorem C71_idempotent (c : ChTy) (x : F64) : c.ofF64 (c.toF64 (c.ofF64 x)) = c.ofF64 x := by
  cases c
  · exact C06_f64 _
  · exact C07_f64 _
  · exact C14_all _
  · rfl

/-- C71: no sample changes on the way to `f64` and back. -/
theorem C71_all (c : ChTy) (x : c.T) : c.ofF64 (c.toF64 x) = x := by
  cases c
  · exact C06_f64 _
  · exact C07_f64 _
  · exact C14_all _
  · rfl

example : ChTy.ch8.ofF64 (lit 0.3) = 38#8 := by decide +kernel

/-! ## C72: narrowing -/

/-- C72: Ch16 to Ch8 and back is off by at most 255 of 65535 steps, less than one step of Ch8. -/
theorem C72_error (y : Ch16) :
    |(ChTy.conv .ch16 .ch8 (ChTy.conv .ch8 .ch16 y)).toInt - y.toInt| ≤ 255 := by
  have := i16_range y
  rw [C05_value, ofCh16_value, abs_le]; omega

/-- C72: narrowing is monotone and hits every Ch8 sample. -/
theorem C72_mono (y z : Ch16) (h : y.toInt ≤ z.toInt) :
    (ChTy.conv .ch8 .ch16 y).toInt ≤ (ChTy.conv .ch8 .ch16 z).toInt := by
  rw [ofCh16_value, ofCh16_value]; omega
theorem C72_onto (x : Ch8) : ∃ y : Ch16, ChTy.conv .ch8 .ch16 y = x := ⟨_, C05_roundtrip x⟩

example := C72_mono (-32513#16) (77#16) (by decide)

/-- C72: each Ch8 sample is the image of exactly the 256 consecutive Ch16 samples starting at `256 x`. -/
theorem C72_fibre (x : Ch8) (y : Ch16) :
    ChTy.conv .ch8 .ch16 y = x ↔ 256 * x.toInt ≤ y.toInt ∧ y.toInt < 256 * x.toInt + 256 := by
  rw [← BitVec.toInt_inj, ofCh16_value]; omega

example : (ChTy.conv .ch16 .ch8 (ChTy.conv .ch8 .ch16 (-32513#16))).toInt - (-32513#16 : Ch16).toInt = -255 := by decide

/-! ## C73: the two ways of converting -/

theorem StepNear.refl {c : ChTy} (x : c.T) (h : Valid c x) : StepNear c x x := by
  have h32 := Fmt.u_pos (f := binary32)
  cases c
  · simp [StepNear]
  · simp [StepNear]
  · obtain ⟨q, hq, _⟩ := h
    exact ⟨q, q, hq, hq, by rw [sub_self, abs_zero]; linarith⟩
  · rfl

/-- The integer a number is quantised to is the floor, up to `2^-8`. -/
theorem quantV_bounds {f : Fmt} [Std f] {n : Nat} {k : ℤ} (hk : 0 ≤ k) (hk' : k ≤ 15) {M : ℤ} (hM : 255 ≤ M)
    (hM' : M ≤ 65535) (hMk : (M:ℚ) + 1 = 2 ^ (k + 1)) (hlo : 2 * iMin n + 1 = -M) (hhi : 2 * iMax n + 1 = M)
    {v : ℚ} (h1 : -1 ≤ v) (h2 : v ≤ 1) :
    (quantV f n (M / 2) v : ℚ) - 1 / 256 ≤ v * (M / 2) ∧ v * (M / 2) < quantV f n (M / 2) v + 1 + 1 / 256 := by
  have hMq : (255:ℚ) ≤ M := by exact_mod_cast hM
  have hM0 : (0:ℚ) < M := by linarith
  have hu := Fmt.u_le (f := f)
  have hu0 := Fmt.u_pos (f := f)
  have b0 : |v * (M / 2)| ≤ M / 2 := by
    rw [abs_mul, abs_of_pos (by linarith : (0:ℚ) < M / 2)]
    exact mul_le_of_le_one_left (by linarith) (abs_le.mpr ⟨h1, h2⟩)
  have hr : f.Rep ((M:ℚ) / 2) := rep_half_int (by rw [abs_lt]; omega)
  have b1 := abs_rnd_le_of_rep hr b0
  have hk2 : (2:ℚ) ^ (k + 1) = 2 * 2 ^ k := by rw [zpow_add₀ (by norm_num)]; ring
  have e1 := err_lt_u (f := f) k (lt_of_le_of_lt b0 (by linarith)) (by linarith)
  have hk3 : (2:ℚ) ^ (k - 1) ≤ 2 ^ (14:ℤ) := zpow_le_zpow_right₀ (by norm_num) (by omega)
  have e1' : |f.rnd (v * (M / 2)) - v * (M / 2)| ≤ 1 / 1024 := by
    refine e1.trans ?_
    calc _ ≤ (2:ℚ) ^ (14:ℤ) * (1 / 16777216) := mul_le_mul hk3 hu hu0.le (by norm_num)
      _ ≤ _ := by norm_num
  set z := f.rnd (v * (M / 2)) with hz
  have hF := floorE_bounds (eps := f.eps) (q := z) (Fmt.eps_pos).le
  set F := floorE f.eps z with hFd
  rw [Fmt.eps_eq] at hF
  rw [abs_le] at b1 e1'
  have c1 : F ≤ iMax n := by
    have h : (2 * F : ℚ) < (M:ℚ) + 1 := by linarith
    have : 2 * F < M + 1 := by exact_mod_cast h
    omega
  have c2 : iMin n ≤ F := by
    have h : -(M:ℚ) - 2 < 2 * (F:ℚ) := by linarith
    have : -M - 2 < 2 * F := by exact_mod_cast h
    omega
  have hq : quantV f n (M / 2) v = F := by
    unfold quantV; rw [← hz, ← hFd]; unfold clampZ; omega
  rw [hq]
  constructor <;> linarith

theorem quant8_bounds {f : Fmt} [Std f] {v : ℚ} (h1 : -1 ≤ v) (h2 : v ≤ 1) :
    (quantV f 8 127.5 v : ℚ) - 1 / 256 ≤ v * 127.5 ∧ v * 127.5 < quantV f 8 127.5 v + 1 + 1 / 256 := by
  have := quantV_bounds (f := f) (n := 8) (k := 7) (M := 255) (by norm_num) (by norm_num) (by norm_num) (by norm_num)
    (by norm_num) (by simp [iMin]) (by simp [iMax]) h1 h2
  rwa [show (((255:ℤ):ℚ) / 2) = 127.5 by norm_num] at this

theorem quant16_bounds {f : Fmt} [Std f] {v : ℚ} (h1 : -1 ≤ v) (h2 : v ≤ 1) :
    (quantV f 16 32767.5 v : ℚ) - 1 / 256 ≤ v * 32767.5 ∧ v * 32767.5 < quantV f 16 32767.5 v + 1 + 1 / 256 := by
  have := quantV_bounds (f := f) (n := 16) (k := 15) (M := 65535) (by norm_num) (by norm_num) (by norm_num) (by norm_num)
    (by norm_num) (by simp [iMin]) (by simp [iMax]) h1 h2
  rwa [show (((65535:ℤ):ℚ) / 2) = 32767.5 by norm_num] at this

theorem abs_le_one_of {a b : ℤ} (h1 : (a:ℚ) - b < 2) (h2 : (b:ℚ) - a < 2) : |a - b| ≤ 1 := by
  have h1' : ((a - b : ℤ) : ℚ) < ((2:ℤ):ℚ) := by push_cast; exact h1
  have h2' : ((b - a : ℤ) : ℚ) < ((2:ℤ):ℚ) := by push_cast; exact h2
  rw [Int.cast_lt] at h1' h2'
  rw [abs_le]; omega

theorem via16_8 (y : Ch16) : |(Ch8.ofCh16 y).toInt - (ChTy.ch8.ofF64 (ChTy.ch16.toF64 y)).toInt| ≤ 1 := by
  have hk : (Ch8.ofCh16 y).toInt = y.toInt / 256 := ofCh16_value y
  have hy := i16_range y
  have hr := ofCh16_range (f := binary64) y
  have he := ofCh16_err (f := binary64) y
  have hu := Fmt.u_le (f := binary64)
  rw [ofF64_ch8_is (show (ChTy.ch16.toF64 y).Is _ from ofCh16_is (f := binary64) y), clampQ_of_range hr.1 hr.2, hk]
  have hb := quant8_bounds (f := binary64) hr.1 hr.2
  generalize convV binary64 65535 y.toInt = v at *
  generalize quantV binary64 8 127.5 v = F at *
  have hd := Int.mul_ediv_add_emod y.toInt 256
  have hm0 := Int.emod_nonneg y.toInt (by norm_num : (256:ℤ) ≠ 0)
  have hm1 := Int.emod_lt_of_pos y.toInt (by norm_num : (0:ℤ) < 256)
  generalize y.toInt % 256 = r at *
  have hkr : -128 ≤ y.toInt / 256 ∧ y.toInt / 256 ≤ 127 := by omega
  generalize y.toInt / 256 = K at *
  have hd' : (256:ℚ) * K + r = y.toInt := by exact_mod_cast hd
  have q1 : (0:ℚ) ≤ r := by exact_mod_cast hm0
  have q2 : (r:ℚ) ≤ 255 := by exact_mod_cast (by omega : r ≤ 255)
  have q3 : (-128:ℚ) ≤ K := by exact_mod_cast hkr.1
  have q4 : (K:ℚ) ≤ 127 := by exact_mod_cast hkr.2
  rw [← hd', abs_le] at he
  apply abs_le_one_of <;> linarith

theorem conv32_near {v w : ℚ} {t : ℚ} (hv : |v - t| ≤ 3 * binary32.u) (hw : |w - t| ≤ 3 * binary64.u)
    (hw1 : |w| ≤ 1) : |v - binary32.rnd w| ≤ 5 * binary32.u := by
  have h1 := err_le_two (f := binary32) (hw1.trans (by norm_num))
  have h3 : 3 * binary64.u ≤ binary32.u := by decide +kernel
  rw [abs_le] at *
  constructor <;> linarith

/-- C73: converting directly and via `f64` differ by at most one step, for every pair of formats. -/
theorem C73_step (d s : ChTy) (x : s.T) (hx : Valid s x) :
    StepNear d (ChTy.conv d s x) (d.ofF64 (s.toF64 x)) := by
  by_cases h : agree d s = true
  · rw [C16_partial d s h x hx]
    exact StepNear.refl _ (Valid.ofF64 hx.toF64)
  · cases d <;> cases s <;> simp only [agree, not_true_eq_false] at h
    · exact via16_8 x
    · obtain ⟨p, hp, h1, h2⟩ := hx
      have hw : (Fl.cast binary64 x).Is p := widen_is hp
      have hm : |binary32.rnd (p * 127.5)| ≤ binary32.maxF := small (by
        rw [abs_mul]; have := abs_le.mpr ⟨h1, h2⟩; norm_num; linarith)
      have e1 : (Ch8.ofCh32 x).toInt = quantV binary32 8 127.5 p := quant_is (by norm_num) rep_s8 hp hm
      have e2 := ofF64_ch8_is hw
      rw [clampQ_of_range h1 h2] at e2
      show |(Ch8.ofCh32 x).toInt - (ChTy.ch8.ofF64 (Fl.cast binary64 x)).toInt| ≤ 1
      rw [e1, e2]
      have b1 := quant8_bounds (f := binary32) h1 h2
      have b2 := quant8_bounds (f := binary64) h1 h2
      apply abs_le_one_of <;> linarith
    · obtain ⟨p, hp, h1, h2⟩ := hx
      have hw : (Fl.cast binary64 x).Is p := widen_is hp
      have hm : |binary32.rnd (p * 32767.5)| ≤ binary32.maxF := small (by
        rw [abs_mul]; have := abs_le.mpr ⟨h1, h2⟩; norm_num; linarith)
      have e1 : (Ch16.ofCh32 x).toInt = quantV binary32 16 32767.5 p := quant_is (by norm_num) rep_s16 hp hm
      have e2 := ofF64_ch16_is hw
      rw [clampQ_of_range h1 h2] at e2
      show |(Ch16.ofCh32 x).toInt - (ChTy.ch16.ofF64 (Fl.cast binary64 x)).toInt| ≤ 1
      rw [e1, e2]
      have b1 := quant16_bounds (f := binary32) h1 h2
      have b2 := quant16_bounds (f := binary64) h1 h2
      apply abs_le_one_of <;> linarith
    · have hr := abs_le.mpr (ofCh8_range (f := binary64) x)
      exact ⟨_, _, ofCh8_is x, (ofCh8_is (f := binary64) x).cast binary32
        ((abs_rnd_le_of_rep rep_one hr).trans one_le_maxF),
        conv32_near (ofCh8_err x) (ofCh8_err x) hr⟩
    · have hr := abs_le.mpr (ofCh16_range (f := binary64) x)
      exact ⟨_, _, ofCh16_is x, (ofCh16_is (f := binary64) x).cast binary32
        ((abs_rnd_le_of_rep rep_one hr).trans one_le_maxF),
        conv32_near (ofCh16_err x) (ofCh16_err x) hr⟩

example := C73_step .ch16 .ch32 (lit 0.7) (by decide +kernel)

example : Valid .ch16 (256#16) ∧ (Ch8.ofCh16 (256#16)).toInt = 1 ∧
    (ChTy.ch8.ofF64 (ChTy.ch16.toF64 (256#16))).toInt = 0 := ⟨trivial, by decide, by decide +kernel⟩

end Fon
