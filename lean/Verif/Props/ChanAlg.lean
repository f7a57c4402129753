import Verif.Props.ChanMisc
import Verif.Model.Frame

/-!
# C62 - C66, C70: laws of channel arithmetic

Neutral samples, monotone operators, `lerp` stays between its ends, products are never louder, the order of
mixing, equality and order of samples.
-/

namespace Fon
open Fmt Fl

/-! ## C70: equality and order -/

theorem Stored.of_valid {c : ChTy} {x : c.T} (h : Valid c x) : ∃ q, Stored c x q := by
  cases c
  · exact ⟨_, rfl⟩
  · exact ⟨_, rfl⟩
  · obtain ⟨q, hq, _⟩ := h; exact ⟨q, hq⟩
  · obtain ⟨q, hq, _⟩ := h; exact ⟨q, hq⟩

/-- C70: `<` and `==` of samples are those of the stored numbers. -/
theorem C70_order {c : ChTy} {a b : c.T} {p q : ℚ} (ha : Stored c a p) (hb : Stored c b q) :
    (c.lt a b = true ↔ p < q) ∧ (c.beq a b = true ↔ p = q) ∧ (c.le a b = true ↔ p ≤ q) := by
  have key : (c.lt a b = true ↔ p < q) ∧ (c.beq a b = true ↔ p = q) := by
    cases c
    · simp only [Stored] at ha hb; subst ha hb
      simp [ChTy.lt, ChTy.beq, BitVec.toInt_inj]
    · simp only [Stored] at ha hb; subst ha hb
      simp [ChTy.lt, ChTy.beq, BitVec.toInt_inj]
    · exact ⟨by rw [show ChTy.ch32.lt a b = Fl.lt a b from rfl, Is.lt ha hb]; simp,
        by rw [show ChTy.ch32.beq a b = Fl.eq a b from rfl, Is.eq ha hb]; simp⟩
    · exact ⟨by rw [show ChTy.ch64.lt a b = Fl.lt a b from rfl, Is.lt ha hb]; simp,
        by rw [show ChTy.ch64.beq a b = Fl.eq a b from rfl, Is.eq ha hb]; simp⟩
  refine ⟨key.1, key.2, ?_⟩
  rw [ChTy.le, Bool.or_eq_true, key.1, key.2, le_iff_lt_or_eq]

example := C70_order (c := .ch8) (a := -5#8) (b := 3#8) (p := -5) (q := 3) (by decide +kernel) (by decide +kernel)

/-- C70, what is true: on samples that hold a number, `==` is an equivalence relation, and `<` is a strict
total order compatible with it.  Missing: float samples holding NaN, see `C70_false`. -/
theorem C70_partial {c : ChTy} {x y z : c.T} {p q r : ℚ} (hx : Stored c x p) (hy : Stored c y q)
    (hz : Stored c z r) :
    c.beq x x = true ∧ (c.beq x y = true → c.beq y x = true) ∧
    (c.beq x y = true → c.beq y z = true → c.beq x z = true) ∧
    c.lt x x = false ∧ (c.lt x y = true → c.lt y z = true → c.lt x z = true) ∧
    (c.lt x y = true ∨ c.beq x y = true ∨ c.lt y x = true) ∧
    (c.beq x y = true → c.lt x y = false) := by
  have h : ∀ b : Bool, b = false ↔ ¬ b = true := by intro b; cases b <;> simp
  rw [h, h, (C70_order hx hx).2.1, (C70_order hx hx).1, (C70_order hx hy).2.1, (C70_order hy hx).2.1,
    (C70_order hy hz).2.1, (C70_order hx hz).2.1, (C70_order hx hy).1, (C70_order hy hz).1,
    (C70_order hx hz).1, (C70_order hy hx).1]
  refine ⟨rfl, Eq.symm, Eq.trans, lt_irrefl _, lt_trans, lt_trichotomy p q, fun h => h ▸ lt_irrefl _⟩

example := C70_partial (c := .ch32) (x := lit (-0.5)) (y := lit 0.25) (z := lit 1) (p := -0.5) (q := 0.25) (r := 1)
  (by decide +kernel) (by decide +kernel) (by decide +kernel)

/-- C70 for the integer formats: no restriction. -/
theorem C70_int (x y : Ch8) (u v : Ch16) :
    (ChTy.ch8.beq x y = true ↔ x = y) ∧ (ChTy.ch16.beq u v = true ↔ u = v) := by
  simp [ChTy.beq]

/-- C70 as stated is false: `Ch64::from_f64(NaN)` (and `Ch32::from_f64(NaN)`) is not equal to itself, although
`Eq` is implemented. -/
theorem C70_false : ∃ c : ChTy, ∃ x : F64, c.beq (c.ofF64 x) (c.ofF64 x) = false :=
  ⟨.ch64, .nan, by decide +kernel⟩

/-- Equality of frames (derived `PartialEq`) is equality of all channels. -/
theorem C70_frame {k : Kind} {c : ChTy} (a b : Frame k c) :
    a.beq b = true ↔ ∀ i (h : i < k.chans), c.beq a[i] b[i] = true := by
  unfold Frame.beq
  rw [Vector.all_eq_true]
  constructor <;> intro h i hi <;> simpa using h i hi

example : Stored .ch8 (-5#8) (-5) ∧ Stored .ch64 (lit 1) 1 := ⟨by simp only [Stored]; decide +kernel, is_one⟩

/-! ## C62: neutral samples -/

theorem eq_of_is {f : Fmt} {x y : Fl f} {q : ℚ} (hx : x.Is q) (hy : y.Is q) : x.eq y = true := by
  rw [hx.eq hy]; simp

section
variable {f : Fmt} {x : Fl f} {q : ℚ}

theorem add_zero_is (hx : x.Is q) (h : |q| ≤ 1) : (ChF.add x (lit 0)).Is q := by
  have := clamp1_is (hx.add is_zero (by rw [add_zero, rnd_of_rep hx.rep]; exact hx.rep.le_maxF))
  rwa [add_zero, rnd_of_rep hx.rep, clampQ_of_range (abs_le.mp h).1 (abs_le.mp h).2] at this

theorem sub_zero_is (hx : x.Is q) (h : |q| ≤ 1) : (ChF.sub x (lit 0)).Is q := by
  have := clamp1_is (hx.sub is_zero (by rw [sub_zero, rnd_of_rep hx.rep]; exact hx.rep.le_maxF))
  rwa [sub_zero, rnd_of_rep hx.rep, clampQ_of_range (abs_le.mp h).1 (abs_le.mp h).2] at this

theorem sub_self_is (hx : x.Is q) : (ChF.sub x x).Is 0 := by
  have := clamp1_is (hx.sub hx (by rw [sub_self, rnd_zero, abs_zero]; exact maxF_pos.le))
  rwa [sub_self, rnd_zero, clampQ_of_range (by norm_num) (by norm_num)] at this

theorem mul_one_is (hx : x.Is q) : (ChF.mul x (lit 1)).Is q := by
  have := hx.mul is_one (by rw [mul_one, rnd_of_rep hx.rep]; exact hx.rep.le_maxF)
  rwa [mul_one, rnd_of_rep hx.rep] at this

theorem mul_zero_is (hx : x.Is q) : (ChF.mul x (lit 0)).Is 0 := by
  have := hx.mul is_zero (by rw [mul_zero, rnd_zero, abs_zero]; exact maxF_pos.le)
  rwa [mul_zero, rnd_zero] at this

end

/-- C62: silence is neutral for `+` and `-`, full volume is neutral for `*`, silence absorbs under `*`, and a
sample minus itself is silence; for every in-range sample of every format, compared with Rust's `==`. -/
theorem C62_neutral (c : ChTy) (x : c.T) (hx : Valid c x) :
    c.beq (c.add x c.MID) x = true ∧ c.beq (c.add c.MID x) x = true ∧ c.beq (c.sub x c.MID) x = true ∧
    c.beq (c.mul x c.MAX) x = true ∧ c.beq (c.mul c.MAX x) x = true ∧
    c.beq (c.mul x c.MID) c.MID = true ∧ c.beq (c.mul c.MID x) c.MID = true ∧
    c.beq (c.sub x x) c.MID = true := by
  rw [C18_add c c.MID x, C18_mul c c.MAX x, C18_mul c c.MID x]
  cases c
  · have h := i8_range x
    have e : (ChTy.ch8.MID : BitVec 8).toInt = 0 := by decide
    have h1 : ChTy.ch8.add x ChTy.ch8.MID = x :=
      BitVec.eq_of_toInt_eq (by rw [C01_ch8_add, e]; unfold clampZ; omega)
    have h2 : ChTy.ch8.sub x ChTy.ch8.MID = x :=
      BitVec.eq_of_toInt_eq (by rw [C01_ch8_sub, e]; unfold clampZ; omega)
    have h3 : ChTy.ch8.sub x x = ChTy.ch8.MID :=
      BitVec.eq_of_toInt_eq (by rw [C01_ch8_sub, e]; unfold clampZ; omega)
    rw [h1, h2, h3, (C02_ch8_unit x).1, (C02_ch8_zero x).1]
    simp [ChTy.beq]
  · have h := i16_range x
    have e : (ChTy.ch16.MID : BitVec 16).toInt = 0 := by decide
    have h1 : ChTy.ch16.add x ChTy.ch16.MID = x :=
      BitVec.eq_of_toInt_eq (by rw [C01_ch16_add, e]; unfold clampZ; omega)
    have h2 : ChTy.ch16.sub x ChTy.ch16.MID = x :=
      BitVec.eq_of_toInt_eq (by rw [C01_ch16_sub, e]; unfold clampZ; omega)
    have h3 : ChTy.ch16.sub x x = ChTy.ch16.MID :=
      BitVec.eq_of_toInt_eq (by rw [C01_ch16_sub, e]; unfold clampZ; omega)
    rw [h1, h2, h3, (C02_ch16_unit x).1, (C02_ch16_zero x).1]
    simp [ChTy.beq]
  all_goals
    obtain ⟨q, hq, h⟩ := inRange_abs.mp hx
    exact ⟨eq_of_is (add_zero_is hq h) hq, eq_of_is (add_zero_is hq h) hq, eq_of_is (sub_zero_is hq h) hq,
      eq_of_is (mul_one_is hq) hq, eq_of_is (mul_one_is hq) hq, eq_of_is (mul_zero_is hq) is_zero,
      eq_of_is (mul_zero_is hq) is_zero, eq_of_is (sub_self_is hq) is_zero⟩

example := C62_neutral .ch32 (lit 0.7) (by decide +kernel)

theorem div_self_int {m k n : ℤ} (hk : n < k) (hn : 0 ≤ n) (hm : m ≤ 0) (x : ℤ) (hx : x ≠ 0) :
    clampZ m n ((x * k).tdiv x) = n := by
  rw [Int.mul_tdiv_cancel_left _ hx]; unfold clampZ; omega

theorem is_nonzero_eq {f : Fmt} {x y : Fl f} {q : ℚ} (hx : x.Is q) (hy : y.Is q) (h : q ≠ 0) : x = y := by
  obtain ⟨nz, hn, rfl⟩ := hx
  obtain ⟨mz, hm, rfl⟩ := hy
  cases nz <;> cases mz
  · rfl
  · exact absurd (hm.2 rfl) h
  · exact absurd (hn.2 rfl) h
  · rfl

theorem div_self_float {f : Fmt} {x : Fl f} {q : ℚ} (hx : x.Is q) : ChF.div x x = lit 1 := by
  by_cases h : q = 0
  · subst h
    obtain ⟨nz, hn, rfl⟩ := hx
    simp [ChF.div, Fl.div, clamp1_nan]
  · have h1 : f.rnd (q / q) = 1 := by rw [div_self h]; exact rnd_of_rep rep_one
    have := clamp1_is (hx.div hx h (by rw [h1, abs_one]; exact one_le_maxF))
    rw [h1, clampQ_of_range (by norm_num) le_rfl] at this
    exact is_nonzero_eq this is_one one_ne_zero

/-- C62: a sample divided by itself is full volume, in every format and also for silence. -/
theorem C62_div_self (c : ChTy) (x : c.T) (hx : Valid c x) : c.div x x = .ok c.MAX := by
  cases c
  · obtain ⟨v, h, h1⟩ := C03_ch8 x x
    rw [h]; congr 1
    apply BitVec.eq_of_toInt_eq
    rw [h1, show (ChTy.ch8.MAX : BitVec 8).toInt = 127 by decide]
    unfold quot
    split_ifs with h0
    · rfl
    · exact div_self_int (by norm_num) (by norm_num) (by norm_num) _ h0
  · obtain ⟨v, h, h1⟩ := C03_ch16_partial x x (by omega)
    rw [h]; congr 1
    apply BitVec.eq_of_toInt_eq
    rw [h1, show (ChTy.ch16.MAX : BitVec 16).toInt = 32767 by decide]
    unfold quot
    split_ifs with h0
    · rfl
    · exact div_self_int (by norm_num) (by norm_num) (by norm_num) _ h0
  all_goals
    obtain ⟨q, hq, h⟩ := inRange_abs.mp hx
    exact congrArg Except.ok (div_self_float hq)

example := C62_div_self .ch64 (lit (-0.7)) (by decide +kernel)

example : Valid .ch32 (ChF.new (lit 0.7)) := C09_range (lit 0.7) (lit 0) |>.1

/-! ## C63: monotone operators -/

/-- Rounding and saturation of sums and differences, on stored numbers. -/
def sumF : ChTy → ℚ → ℚ
  | .ch8, s => max (-128) (min 127 s)
  | .ch16, s => max (-32768) (min 32767 s)
  | .ch32, s => clampQ (binary32.rnd s)
  | .ch64, s => clampQ (binary64.rnd s)

/-- Scaling and rounding of products, on stored numbers. -/
def prodF : ChTy → ℚ → ℚ
  | .ch8, s => max (-128) (min 127 (truncQ (s / 127)))
  | .ch16, s => max (-32768) (min 32767 (truncQ (s / 32767)))
  | .ch32, s => binary32.rnd s
  | .ch64, s => binary64.rnd s

theorem truncQ_mono {p q : ℚ} (h : p ≤ q) : truncQ p ≤ truncQ q := by
  unfold truncQ
  split_ifs with h1 h2 h2
  · exact Int.floor_mono h
  · linarith
  · push Not at h1
    exact (Int.ceil_le.mpr (by push_cast; exact h1.le : p ≤ ((0:ℤ):ℚ))).trans (Int.floor_nonneg.mpr h2)
  · exact Int.ceil_mono h

theorem truncQ_div (a m : ℤ) (hm : 0 < m) : truncQ ((a:ℚ) / m) = a.tdiv m := by
  have hm' : (0:ℚ) < m := by exact_mod_cast hm
  unfold truncQ
  split_ifs with h
  · have ha : 0 ≤ a := by
      have := mul_nonneg h hm'.le
      rw [div_mul_cancel₀ _ hm'.ne'] at this
      exact_mod_cast this
    rw [Int.tdiv_eq_ediv_of_nonneg ha, Int.floor_eq_iff]
    have h1 := Int.emod_nonneg a hm.ne'
    have h2 := Int.emod_lt_of_pos a hm
    have h3 := Int.mul_ediv_add_emod a m
    have h3' : (m:ℚ) * ((a / m : ℤ):ℚ) + ((a % m : ℤ):ℚ) = a := by exact_mod_cast h3
    have h1' : (0:ℚ) ≤ ((a % m : ℤ):ℚ) := by exact_mod_cast h1
    have h2' : ((a % m : ℤ):ℚ) < m := by exact_mod_cast h2
    rw [le_div_iff₀ hm', div_lt_iff₀ hm']
    constructor <;> nlinarith
  · push Not at h
    have ha : a ≤ 0 := by
      by_contra hc
      push Not at hc
      have : (0:ℚ) < a := by exact_mod_cast hc
      have := div_pos this hm'
      linarith
    have e : a.tdiv m = -((-a) / m) := by
      rw [← Int.tdiv_eq_ediv_of_nonneg (by omega), Int.neg_tdiv, neg_neg]
    rw [e, Int.ceil_eq_iff]
    have h1 := Int.emod_nonneg (-a) hm.ne'
    have h2 := Int.emod_lt_of_pos (-a) hm
    have h3 := Int.mul_ediv_add_emod (-a) m
    have h3' : (m:ℚ) * (((-a) / m : ℤ):ℚ) + (((-a) % m : ℤ):ℚ) = -a := by exact_mod_cast h3
    have h1' : (0:ℚ) ≤ (((-a) % m : ℤ):ℚ) := by exact_mod_cast h1
    have h2' : (((-a) % m : ℤ):ℚ) < m := by exact_mod_cast h2
    push_cast
    rw [div_le_iff₀ hm', lt_div_iff₀ hm']
    constructor <;> nlinarith

theorem sumF_mono (c : ChTy) {s t : ℚ} (h : s ≤ t) : sumF c s ≤ sumF c t := by
  cases c
  · exact max_le_max le_rfl (min_le_min le_rfl h)
  · exact max_le_max le_rfl (min_le_min le_rfl h)
  · exact clampQ_mono (rnd_mono h)
  · exact clampQ_mono (rnd_mono h)

theorem prodF_mono (c : ChTy) {s t : ℚ} (h : s ≤ t) : prodF c s ≤ prodF c t := by
  have h1 : ∀ m : ℚ, 0 < m → s / m ≤ t / m := fun m hm => div_le_div_of_nonneg_right h hm.le
  cases c
  · exact max_le_max le_rfl (min_le_min le_rfl (by exact_mod_cast truncQ_mono (h1 127 (by norm_num))))
  · exact max_le_max le_rfl (min_le_min le_rfl (by exact_mod_cast truncQ_mono (h1 32767 (by norm_num))))
  · exact rnd_mono h
  · exact rnd_mono h

theorem prodF_zero (c : ChTy) : prodF c 0 = 0 := by
  cases c
  · simp [prodF, truncQ]
  · simp [prodF, truncQ]
  · exact rnd_zero
  · exact rnd_zero

theorem clampZ_cast (lo hi z : ℤ) : ((clampZ lo hi z : ℤ) : ℚ) = max (lo:ℚ) (min (hi:ℚ) z) := by
  unfold clampZ; push_cast; rfl

/-- In-range samples, as a bound on the stored number. -/
theorem Valid.stored {c : ChTy} {x : c.T} (h : Valid c x) : ∃ q, Stored c x q ∧
    (match c with | .ch8 => -128 ≤ q ∧ q ≤ 127 | .ch16 => -32768 ≤ q ∧ q ≤ 32767 | _ => -1 ≤ q ∧ q ≤ 1) := by
  cases c
  · have := i8_range x; exact ⟨_, rfl, by exact_mod_cast this.1, by exact_mod_cast this.2⟩
  · have := i16_range x; exact ⟨_, rfl, by exact_mod_cast this.1, by exact_mod_cast this.2⟩
  · obtain ⟨q, hq, h⟩ := h; exact ⟨q, hq, h⟩
  · obtain ⟨q, hq, h⟩ := h; exact ⟨q, hq, h⟩

theorem Stored.unique {c : ChTy} {x : c.T} {p q : ℚ} (h : Stored c x p) (h' : Stored c x q) : p = q := by
  cases c
  · exact h.trans h'.symm
  · exact h.trans h'.symm
  · exact Is.unique h h'
  · exact Is.unique h h'

theorem Valid.abs_le {c : ChTy} {x : c.T} (h : Valid c x) {q : ℚ} (hq : Stored c x q) :
    (c = .ch32 ∨ c = .ch64 → |q| ≤ 1) := by
  obtain ⟨r, hr, h⟩ := h.stored
  rw [Stored.unique hq hr]
  rintro (rfl | rfl) <;> exact _root_.abs_le.mpr h

theorem small2 {f : Fmt} [Std f] {q : ℚ} (h : |q| ≤ 2) : |f.rnd q| ≤ f.maxF :=
  small (h.trans (by norm_num))

theorem stored_add {c : ChTy} {a b : c.T} (va : Valid c a) (vb : Valid c b) {p q : ℚ} (ha : Stored c a p)
    (hb : Stored c b q) : Stored c (c.add a b) (sumF c (p + q)) := by
  have h1 := va.abs_le ha
  have h2 := vb.abs_le hb
  have h3 : c = .ch32 ∨ c = .ch64 → |p + q| ≤ 2 := fun h => (abs_add_le _ _).trans (by linarith [h1 h, h2 h])
  cases c
  · simp only [Stored] at *; subst ha hb
    rw [C01_ch8_add, clampZ_cast]; push_cast; rfl
  · simp only [Stored] at *; subst ha hb
    rw [C01_ch16_add, clampZ_cast]; push_cast; rfl
  · exact clamp1_is (Is.add ha hb (small2 (h3 (.inl rfl))))
  · exact clamp1_is (Is.add ha hb (small2 (h3 (.inr rfl))))

theorem stored_sub {c : ChTy} {a b : c.T} (va : Valid c a) (vb : Valid c b) {p q : ℚ} (ha : Stored c a p)
    (hb : Stored c b q) : Stored c (c.sub a b) (sumF c (p - q)) := by
  have h1 := va.abs_le ha
  have h2 := vb.abs_le hb
  have h3 : c = .ch32 ∨ c = .ch64 → |p - q| ≤ 2 := fun h => (abs_sub _ _).trans (by linarith [h1 h, h2 h])
  cases c
  · simp only [Stored] at *; subst ha hb
    rw [C01_ch8_sub, clampZ_cast]; push_cast; rfl
  · simp only [Stored] at *; subst ha hb
    rw [C01_ch16_sub, clampZ_cast]; push_cast; rfl
  · exact clamp1_is (Is.sub ha hb (small2 (h3 (.inl rfl))))
  · exact clamp1_is (Is.sub ha hb (small2 (h3 (.inr rfl))))

theorem stored_mul {c : ChTy} {a b : c.T} (va : Valid c a) (vb : Valid c b) {p q : ℚ} (ha : Stored c a p)
    (hb : Stored c b q) : Stored c (c.mul a b) (prodF c (p * q)) := by
  have h1 := va.abs_le ha
  have h2 := vb.abs_le hb
  have h3 : c = .ch32 ∨ c = .ch64 → |p * q| ≤ 2 := fun h => by
    rw [abs_mul]; have := h1 h; have := h2 h
    nlinarith [abs_nonneg p, abs_nonneg q]
  cases c
  · simp only [Stored] at *; subst ha hb
    have := truncQ_div (BitVec.toInt a * BitVec.toInt b) 127 (by norm_num)
    push_cast at this
    rw [(C02_ch8 a b).2]; simp only [prodF]; rw [this, clampZ_cast]; push_cast; rfl
  · simp only [Stored] at *; subst ha hb
    have := truncQ_div (BitVec.toInt a * BitVec.toInt b) 32767 (by norm_num)
    push_cast at this
    rw [(C02_ch16 a b).2]; simp only [prodF]; rw [this, clampZ_cast]; push_cast; rfl
  · exact Is.mul ha hb (small2 (h3 (.inl rfl)))
  · exact Is.mul ha hb (small2 (h3 (.inr rfl)))

/-- Stored number of a negated sample. -/
def negF : ChTy → ℚ → ℚ
  | .ch8, q => -1 - q
  | .ch16, q => -1 - q
  | _, q => -q

theorem stored_neg {c : ChTy} {a : c.T} {p : ℚ} (ha : Stored c a p) : Stored c (c.neg a) (negF c p) := by
  cases c
  · simp only [Stored] at *; subst ha; rw [(C04_ch8 a).2]; push_cast; rfl
  · simp only [Stored] at *; subst ha; rw [(C04_ch16 a).2]; push_cast; rfl
  · exact Is.neg ha
  · exact Is.neg ha

theorem stored_mid (c : ChTy) : Stored c c.MID 0 := by
  cases c
  · simp only [Stored]; decide +kernel
  · simp only [Stored]; decide +kernel
  · exact is_zero
  · exact is_zero

theorem stored_lerp {c : ChTy} {a b t : c.T} (va : Valid c a) (vb : Valid c b) (vt : Valid c t) {p q s : ℚ}
    (ha : Stored c a p) (hb : Stored c b q) (ht : Stored c t s) :
    Stored c (c.lerp a b t) (sumF c (p + prodF c (s * sumF c (q - p)))) :=
  stored_add va (vt.mul Valid.sub) ha (stored_mul vt Valid.sub ht (stored_sub vb va hb ha))

section C63
variable {c : ChTy} {a a' b b' t t' : c.T}

/-- C63: a louder summand never gives a smaller sum. -/
theorem C63_add (va : Valid c a) (va' : Valid c a') (vb : Valid c b) (vb' : Valid c b')
    (h : c.le a a' = true) (h' : c.le b b' = true) : c.le (c.add a b) (c.add a' b') = true := by
  obtain ⟨p, hp, _⟩ := va.stored; obtain ⟨p', hp', _⟩ := va'.stored
  obtain ⟨q, hq, _⟩ := vb.stored; obtain ⟨q', hq', _⟩ := vb'.stored
  rw [(C70_order hp hp').2.2] at h
  rw [(C70_order hq hq').2.2] at h'
  rw [(C70_order (stored_add va vb hp hq) (stored_add va' vb' hp' hq')).2.2]
  exact sumF_mono c (add_le_add h h')

example := C63_add (c := .ch32) (a := lit 0.25) (a' := lit 0.7) (b := lit (-1)) (b' := lit 0.5) (by decide +kernel)
  (by decide +kernel) (by decide +kernel) (by decide +kernel) (by decide +kernel) (by decide +kernel)

/-- C63: subtraction is monotone in the first and antitone in the second operand. -/
theorem C63_sub (va : Valid c a) (va' : Valid c a') (vb : Valid c b) (vb' : Valid c b')
    (h : c.le a a' = true) (h' : c.le b b' = true) : c.le (c.sub a b') (c.sub a' b) = true := by
  obtain ⟨p, hp, _⟩ := va.stored; obtain ⟨p', hp', _⟩ := va'.stored
  obtain ⟨q, hq, _⟩ := vb.stored; obtain ⟨q', hq', _⟩ := vb'.stored
  rw [(C70_order hp hp').2.2] at h
  rw [(C70_order hq hq').2.2] at h'
  rw [(C70_order (stored_sub va vb' hp hq') (stored_sub va' vb hp' hq)).2.2]
  exact sumF_mono c (sub_le_sub h h')

example := C63_sub (c := .ch32) (a := lit 0.25) (a' := lit 0.7) (b := lit (-1)) (b' := lit 0.5) (by decide +kernel)
  (by decide +kernel) (by decide +kernel) (by decide +kernel) (by decide +kernel) (by decide +kernel)

/-- C63: multiplying by a sample that is not negative is monotone, by one that is not positive antitone. -/
theorem C63_mul (va : Valid c a) (va' : Valid c a') (vt : Valid c t) (h : c.le a a' = true) :
    (c.le c.MID t = true → c.le (c.mul t a) (c.mul t a') = true) ∧
    (c.le t c.MID = true → c.le (c.mul t a') (c.mul t a) = true) := by
  obtain ⟨p, hp, _⟩ := va.stored; obtain ⟨p', hp', _⟩ := va'.stored
  obtain ⟨s, hs, _⟩ := vt.stored
  rw [(C70_order hp hp').2.2] at h
  rw [(C70_order (stored_mul vt va hs hp) (stored_mul vt va' hs hp')).2.2,
    (C70_order (stored_mul vt va' hs hp') (stored_mul vt va hs hp)).2.2,
    (C70_order (stored_mid c) hs).2.2, (C70_order hs (stored_mid c)).2.2]
  exact ⟨fun h0 => prodF_mono c (mul_le_mul_of_nonneg_left h h0),
    fun h0 => prodF_mono c (mul_le_mul_of_nonpos_left h h0)⟩

example := C63_mul (c := .ch32) (a := lit 0.25) (a' := lit 0.7) (t := lit (-0.1)) (by decide +kernel)
  (by decide +kernel) (by decide +kernel) (by decide +kernel)

/-- C63: negation is antitone. -/
theorem C63_neg (va : Valid c a) (va' : Valid c a') (h : c.le a a' = true) :
    c.le (c.neg a') (c.neg a) = true := by
  obtain ⟨p, hp, _⟩ := va.stored; obtain ⟨p', hp', _⟩ := va'.stored
  rw [(C70_order hp hp').2.2] at h
  rw [(C70_order (stored_neg hp') (stored_neg hp)).2.2]
  cases c <;> simp only [negF] <;> linarith

example := C63_neg (c := .ch32) (a := lit 0.25) (a' := lit 0.7) (by decide +kernel) (by decide +kernel) (by decide +kernel)

theorem sumF_zero (c : ChTy) : sumF c 0 = 0 := by
  cases c
  · simp [sumF]
  · simp [sumF]
  · simp [sumF, rnd_zero, clampQ]
  · simp [sumF, rnd_zero, clampQ]

theorem sumF_nonneg (c : ChTy) {s : ℚ} (h : 0 ≤ s) : 0 ≤ sumF c s := by
  rw [← sumF_zero c]; exact sumF_mono c h
theorem sumF_nonpos (c : ChTy) {s : ℚ} (h : s ≤ 0) : sumF c s ≤ 0 := by
  rw [← sumF_zero c]; exact sumF_mono c h

/-- C63: `lerp` moves monotonically from `self` towards `rhs` as `t` grows. -/
theorem C63_lerp (va : Valid c a) (vb : Valid c b) (vt : Valid c t) (vt' : Valid c t')
    (h : c.le t t' = true) :
    (c.le a b = true → c.le (c.lerp a b t) (c.lerp a b t') = true) ∧
    (c.le b a = true → c.le (c.lerp a b t') (c.lerp a b t) = true) := by
  obtain ⟨p, hp, _⟩ := va.stored; obtain ⟨q, hq, _⟩ := vb.stored
  obtain ⟨s, hs, _⟩ := vt.stored; obtain ⟨s', hs', _⟩ := vt'.stored
  rw [(C70_order hs hs').2.2] at h
  rw [(C70_order (stored_lerp va vb vt hp hq hs) (stored_lerp va vb vt' hp hq hs')).2.2,
    (C70_order (stored_lerp va vb vt' hp hq hs') (stored_lerp va vb vt hp hq hs)).2.2,
    (C70_order hp hq).2.2, (C70_order hq hp).2.2]
  refine ⟨fun h0 => sumF_mono c (add_le_add le_rfl (prodF_mono c ?_)),
    fun h0 => sumF_mono c (add_le_add le_rfl (prodF_mono c ?_))⟩
  · exact mul_le_mul_of_nonneg_right h (sumF_nonneg c (by linarith))
  · exact mul_le_mul_of_nonpos_right h (sumF_nonpos c (by linarith))

example := C63_lerp (c := .ch32) (a := lit 0.25) (b := lit 0.7) (t := lit 0.1) (t' := lit 0.9) (by decide +kernel)
  (by decide +kernel) (by decide +kernel) (by decide +kernel) (by decide +kernel)

end C63

example : ChTy.ch8.le (-5#8) (3#8) = true ∧ ChTy.ch64.le ChTy.ch64.MID (lit 0.25) = true := by decide +kernel

/-! ## C64: `lerp` stays between its ends -/

/-- C64, 8 bits. -/
theorem C64_ch8 (a b t : Ch8) (ht : 0 ≤ t.toInt) :
    (a.toInt ≤ b.toInt → a.toInt ≤ (ChTy.ch8.lerp a b t).toInt ∧ (ChTy.ch8.lerp a b t).toInt ≤ b.toInt) ∧
    (b.toInt ≤ a.toInt → b.toInt ≤ (ChTy.ch8.lerp a b t).toInt ∧ (ChTy.ch8.lerp a b t).toInt ≤ a.toInt) := by
  have ra := i8_range a
  have rb := i8_range b
  have rt := i8_range t
  unfold ChTy.lerp
  rw [C01_ch8_add, (C02_ch8 t _).2, C01_ch8_sub]
  unfold clampZ
  generalize hd : max (-128) (min 127 (b.toInt - a.toInt)) = d
  constructor
  · intro h
    have h0 : 0 ≤ d := by omega
    have := tdiv_bounds (x := t.toInt * d) (d := 127) (lo := 0) (hi := d) (by norm_num) (by positivity)
      (by nlinarith)
    omega
  · intro h
    have h0 : d ≤ 0 := by omega
    have := tdiv_bounds (x := t.toInt * d) (d := 127) (lo := d) (hi := 0) (by norm_num) (by nlinarith)
      (by nlinarith)
    omega

example := C64_ch8 (10#8) (100#8) (23#8) (by decide)

/-- C64, 16 bits. -/
theorem C64_ch16 (a b t : Ch16) (ht : 0 ≤ t.toInt) :
    (a.toInt ≤ b.toInt → a.toInt ≤ (ChTy.ch16.lerp a b t).toInt ∧ (ChTy.ch16.lerp a b t).toInt ≤ b.toInt) ∧
    (b.toInt ≤ a.toInt → b.toInt ≤ (ChTy.ch16.lerp a b t).toInt ∧ (ChTy.ch16.lerp a b t).toInt ≤ a.toInt) := by
  have ra := i16_range a
  have rb := i16_range b
  have rt := i16_range t
  unfold ChTy.lerp
  rw [C01_ch16_add, (C02_ch16 t _).2, C01_ch16_sub]
  unfold clampZ
  generalize hd : max (-32768) (min 32767 (b.toInt - a.toInt)) = d
  constructor
  · intro h
    have h0 : 0 ≤ d := by omega
    have := tdiv_bounds (x := t.toInt * d) (d := 32767) (lo := 0) (hi := d) (by norm_num) (by positivity)
      (by nlinarith)
    omega
  · intro h
    have h0 : d ≤ 0 := by omega
    have := tdiv_bounds (x := t.toInt * d) (d := 32767) (lo := d) (hi := 0) (by norm_num) (by nlinarith)
      (by nlinarith)
    omega

example := C64_ch16 (1000#16) (-100#16) (2300#16) (by decide)

/-- The value of a float `lerp`. -/
def lerpV (f : Fmt) (p q s : ℚ) : ℚ := clampQ (f.rnd (p + f.rnd (s * clampQ (f.rnd (q - p)))))

theorem clampQ_neg (q : ℚ) : clampQ (-q) = -clampQ q := by
  simp only [clampQ, max_def, min_def]
  split_ifs <;> linarith

theorem lerpV_neg (f : Fmt) (p q s : ℚ) : lerpV f (-p) (-q) s = -lerpV f p q s := by
  unfold lerpV
  rw [show -q - -p = -(q - p) by ring, rnd_neg, clampQ_neg, mul_neg, rnd_neg,
    show ∀ m, -p + -m = -(p + m) by intro m; ring, rnd_neg, clampQ_neg]

theorem gen_clampQ {f : Fmt} {q : ℚ} (h : f.Gen q) : f.Gen (clampQ q) := by
  rcases le_total q (-1) with h1 | h1
  · rw [show clampQ q = -1 by simp only [clampQ, max_def, min_def]; split_ifs <;> linarith]
    exact rep_one.neg.gen
  · rcases le_total 1 q with h2 | h2
    · rw [show clampQ q = 1 by simp only [clampQ, max_def, min_def]; split_ifs <;> linarith]
      exact rep_one.gen
    · rwa [clampQ_of_range h1 h2]

theorem lerpV_up {f : Fmt} [Std f] {p q s : ℚ} (gp : f.Gen p) (hp : -1 ≤ p) (hq : q ≤ 1) (h : p ≤ q)
    (hs : 0 ≤ s) (hs1 : s ≤ 1) : p ≤ lerpV f p q s ∧ lerpV f p q s ≤ q + 2 * f.u := by
  have hu := Fmt.u_pos (f := f)
  have hu' := Fmt.u_le (f := f)
  unfold lerpV
  generalize hd : clampQ (f.rnd (q - p)) = d
  have hr := clampQ_range (f.rnd (q - p))
  have d0 : 0 ≤ d := by
    rw [← hd, show (0:ℚ) = clampQ 0 by simp [clampQ]]; exact clampQ_mono (rnd_nonneg (by linarith))
  have m0 : 0 ≤ f.rnd (s * d) := rnd_nonneg (by positivity)
  have m1 : f.rnd (s * d) ≤ d := rnd_le_of_gen (hd ▸ gen_clampQ (gen_rnd _)) (by nlinarith)
  have top : p + d ≤ q + f.u := by
    rcases le_total (q - p) 1 with h1 | h1
    · have e1 := err_lt_u (f := f) (q := q - p) 1 (by rw [abs_of_nonneg (by linarith)]; norm_num; linarith) (by norm_num)
      rw [show (2:ℚ) ^ (1 - 1 : ℤ) = 1 by norm_num, one_mul, abs_le] at e1
      have : d ≤ f.rnd (q - p) := by
        rw [← hd]; unfold clampQ
        exact max_le (by have := rnd_nonneg (f := f) (q := q - p) (by linarith); linarith) (min_le_right _ _)
      linarith
    · rw [hd] at hr; linarith
  have e2 := err_lt_u (f := f) (q := p + f.rnd (s * d)) 1
    (by rw [abs_lt]; norm_num; constructor <;> linarith) (by norm_num)
  rw [show (2:ℚ) ^ (1 - 1 : ℤ) = 1 by norm_num, one_mul, abs_le] at e2
  constructor
  · rw [← clampQ_of_range hp (by linarith : p ≤ 1)]
    exact clampQ_mono (by rw [clampQ_of_range hp (by linarith : p ≤ 1)]; exact le_rnd_of_gen gp (by linarith))
  · unfold clampQ
    exact max_le (by linarith) ((min_le_right _ _).trans (by linarith))

/-- C64, floats: `lerp` never undershoots `self` and overshoots `rhs` by at most `2u`, two roundings. -/
theorem C64_float_partial {f : Fmt} [Std f] (a b t : Fl f) (p q s : ℚ) (ha : a.Is p) (hb : b.Is q)
    (ht : t.Is s) (hp : -1 ≤ p ∧ p ≤ 1) (hq : -1 ≤ q ∧ q ≤ 1) (hs : 0 ≤ s ∧ s ≤ 1) :
    ∃ r, (ChF.add a (ChF.mul t (ChF.sub b a))).Is r ∧ (p ≤ q → p ≤ r ∧ r ≤ q + 2 * f.u) ∧
      (q ≤ p → q - 2 * f.u ≤ r ∧ r ≤ p) := by
  refine ⟨lerpV f p q s, ?_, fun h => lerpV_up ha.rep.gen hp.1 hq.2 h hs.1 hs.2, fun h => ?_⟩
  · have h1 : (ChF.sub b a).Is _ := clamp1_is (hb.sub ha (small2 (by rw [abs_le]; constructor <;> linarith)))
    have hr := clampQ_range (f.rnd (q - p))
    have hm1 : |s * clampQ (f.rnd (q - p))| ≤ 1 := by
      rw [abs_mul]
      have := abs_le.mpr hr
      have := abs_le.mpr ⟨by linarith [hs.1], hs.2⟩
      nlinarith [abs_nonneg s, abs_nonneg (clampQ (f.rnd (q - p)))]
    have hm := abs_rnd_le_of_rep (f := f) rep_one hm1
    refine clamp1_is (ha.add (ht.mul h1 (hm.trans one_le_maxF)) (small2 ?_))
    rw [abs_le] at *; constructor <;> linarith
  · have := lerpV_up (f := f) (p := -p) (q := -q) (s := s) ha.rep.neg.gen (by linarith) (by linarith)
      (by linarith) hs.1 hs.2
    rw [lerpV_neg] at this
    constructor <;> linarith

example := C64_float_partial (f := binary32) (lit 0.25) (lit 0.75) (lit 0.5) 0.25 0.75 0.5 (by decide +kernel)
  (by decide +kernel) (by decide +kernel) (by norm_num) (by norm_num) (by norm_num)

/-- C64 as stated fails for floats: `(-0.5).lerp(3 * 2^-54, MAX)` is `2^-52`. -/
theorem C64_false : ChTy.ch64.lt (lit (3 / 18014398509481984))
    (ChTy.ch64.lerp (lit (-0.5)) (lit (3 / 18014398509481984)) ChTy.ch64.MAX) = true := by decide +kernel

example : ∃ a b t : Ch8, 0 ≤ t.toInt ∧ a.toInt ≤ b.toInt ∧ ChTy.ch8.lerp a b t = 26#8 :=
  ⟨10#8, 100#8, 23#8, by decide⟩

/-! ## C65: products are never louder -/

theorem abs_tdiv_le_of {z d k : ℤ} (hd : 0 < d) (h1 : z < d * (k + 1)) (h2 : -z < d * (k + 1)) :
    |z.tdiv d| ≤ k := by
  have key : ∀ w : ℤ, 0 ≤ w → w < d * (k + 1) → 0 ≤ w.tdiv d ∧ w.tdiv d ≤ k := by
    intro w hw hk
    rw [Int.tdiv_eq_ediv_of_nonneg hw]
    exact ⟨Int.ediv_nonneg hw hd.le, Int.lt_add_one_iff.mp (Int.ediv_lt_of_lt_mul hd (by linarith))⟩
  rcases le_or_gt 0 z with hz | hz
  · have := key z hz h1
    rw [abs_of_nonneg this.1]; exact this.2
  · have := key (-z) (by omega) h2
    rw [Int.neg_tdiv] at this
    rw [abs_of_nonpos (by omega)]; exact this.2

/-- The product of two integer samples never exceeds either factor, with one exception. -/
theorem mul_quiet {M x y : ℤ} (hM : 0 < M) (hx : -M - 1 ≤ x ∧ x ≤ M) (hy : -M - 1 ≤ y ∧ y ≤ M)
    (h : ¬ (x = M ∧ y = -M - 1)) : |clampZ (-M - 1) M ((x * y).tdiv M)| ≤ |x| := by
  rcases eq_or_ne y (-M - 1) with rfl | hy'
  · rcases eq_or_ne x (-M) with rfl | h1
    · rw [show -M * (-M - 1) = (M + 1) * M by ring, Int.mul_tdiv_cancel _ hM.ne']
      rw [abs_neg, abs_of_pos hM]; unfold clampZ; rw [abs_le]; omega
    · rcases eq_or_ne x (-M - 1) with rfl | h2
      · have e : |-M - 1| = M + 1 := by rw [abs_of_neg (by omega)]; ring
        rw [e]; unfold clampZ; rw [abs_le]; omega
      · have : |(x * (-M - 1)).tdiv M| ≤ |x| := by
          have hb : |x| ≤ M - 1 := by rw [abs_le]; omega
          have h3 := le_abs_self x
          have h4 := neg_le_abs x
          apply abs_tdiv_le_of hM <;> nlinarith
        have hb : |x| ≤ M - 1 := by rw [abs_le]; omega
        rw [abs_le] at this ⊢; unfold clampZ; omega
  · have : |(x * y).tdiv M| ≤ |x| := by
      have hb : |y| ≤ M := by rw [abs_le]; omega
      have h3 := le_abs_self (x * y)
      have h4 := neg_le_abs (x * y)
      rw [abs_mul] at h3 h4
      have := mul_le_mul_of_nonneg_left hb (abs_nonneg x)
      apply abs_tdiv_le_of hM <;> nlinarith
    have hb : |x| ≤ M + 1 := by rw [abs_le]; omega
    rw [abs_le] at this ⊢; unfold clampZ; omega

/-- C65, 8 bits: true with exactly one exception, `MAX * MIN` (see `C65_false`). -/
theorem C65_ch8_partial (a b : Ch8) (h : ¬ (a = ChTy.ch8.MAX ∧ b = ChTy.ch8.MIN)) :
    |(ChTy.ch8.mul a b).toInt| ≤ |a.toInt| := by
  have h' : ¬ (a.toInt = 127 ∧ b.toInt = -127 - 1) := fun hc => h
    ⟨by rw [← BitVec.toInt_inj, hc.1]; decide, by rw [← BitVec.toInt_inj, hc.2]; decide⟩
  have ra := i8_range a
  have rb := i8_range b
  rw [(C02_ch8 a b).2]
  exact mul_quiet (M := 127) (by norm_num) (by omega) (by omega) h'

example := C65_ch8_partial (100#8) (-128#8) (by decide)

/-- C65, 16 bits. -/
theorem C65_ch16_partial (a b : Ch16) (h : ¬ (a = ChTy.ch16.MAX ∧ b = ChTy.ch16.MIN)) :
    |(ChTy.ch16.mul a b).toInt| ≤ |a.toInt| := by
  have h' : ¬ (a.toInt = 32767 ∧ b.toInt = -32767 - 1) := fun hc => h
    ⟨by rw [← BitVec.toInt_inj, hc.1]; decide, by rw [← BitVec.toInt_inj, hc.2]; decide⟩
  have ra := i16_range a
  have rb := i16_range b
  rw [(C02_ch16 a b).2]
  exact mul_quiet (M := 32767) (by norm_num) (by omega) (by omega) h'

example := C65_ch16_partial (100#16) (-32768#16) (by decide)

/-- C65, floats: no exception. -/
theorem C65_float {f : Fmt} [Std f] (a b : Fl f) (p q : ℚ) (ha : a.Is p) (hb : b.Is q) (hp : |p| ≤ 1)
    (hq : |q| ≤ 1) : ∃ r, (ChF.mul a b).Is r ∧ |r| ≤ |p| ∧ |r| ≤ |q| := by
  have h1 : |p * q| ≤ |p| := by rw [abs_mul]; nlinarith [abs_nonneg p]
  have h2 : |p * q| ≤ |q| := by rw [abs_mul]; nlinarith [abs_nonneg q]
  exact ⟨_, ha.mul hb (small2 (by linarith)), abs_rnd_le_of_rep ha.rep.abs h1, abs_rnd_le_of_rep hb.rep.abs h2⟩

example := C65_float (f := binary32) (lit 0.25) (lit (-0.75)) 0.25 (-0.75) (by decide +kernel) (by decide +kernel)
  (by norm_num [abs_le]) (by norm_num [abs_le])

/-- C65: the exception. -/
theorem C65_false : (ChTy.ch8.mul ChTy.ch8.MAX ChTy.ch8.MIN).toInt = -128 ∧ ChTy.ch8.MAX.toInt = 127 ∧
    (ChTy.ch16.mul ChTy.ch16.MAX ChTy.ch16.MIN).toInt = -32768 ∧ ChTy.ch16.MAX.toInt = 32767 := by decide

/-- C65: the product has the sign of the product (zero counts as both). -/
theorem C65_sign {c : ChTy} {a b : c.T} (va : Valid c a) (vb : Valid c b) {p q : ℚ} (ha : Stored c a p)
    (hb : Stored c b q) : (0 ≤ p * q → c.le c.MID (c.mul a b) = true) ∧
      (p * q ≤ 0 → c.le (c.mul a b) c.MID = true) := by
  rw [(C70_order (stored_mid c) (stored_mul va vb ha hb)).2.2,
    (C70_order (stored_mul va vb ha hb) (stored_mid c)).2.2]
  constructor <;> intro h <;> have := prodF_mono c h <;> rwa [prodF_zero] at this

example := C65_sign (c := .ch32) (a := lit 0.25) (b := lit (-0.75)) (by decide +kernel) (by decide +kernel)
  (p := 0.25) (q := -0.75) (by decide +kernel) (by decide +kernel)

example : ¬ ((100#8 : Ch8) = ChTy.ch8.MAX ∧ (-128#8 : Ch8) = ChTy.ch8.MIN) ∧
    ChTy.ch8.mul (100#8) (-128#8) = -100#8 := by decide
example : (lit 0.5 : F32).Is 0.5 ∧ |(0.5 : ℚ)| ≤ 1 :=
  ⟨is_lit (rep_dyadic 1 (-1) (by norm_num) (by decide) (by decide) (by decide)), by norm_num [abs_le]⟩

/-! ## C66: the order in which samples are mixed -/

theorem err_le_two {f : Fmt} [Std f] {q : ℚ} (h : |q| ≤ 2) : |f.rnd q - q| ≤ f.u := by
  have hu := Fmt.u_pos (f := f)
  rcases h.lt_or_eq with h | h
  · have := err_lt_u (f := f) 1 (by rw [zpow_one]; exact h) (by norm_num)
    rwa [show (2:ℚ) ^ (1 - 1 : ℤ) = 1 by norm_num, one_mul] at this
  · have r2 : f.Rep 2 := by
      have := rep_pow (f := f) 1 (by norm_num) (by norm_num); rwa [zpow_one] at this
    rcases abs_eq (by norm_num : (0:ℚ) ≤ 2) |>.mp h with rfl | rfl
    · rw [rnd_of_rep r2]; simpa using hu.le
    · rw [rnd_of_rep r2.neg]; simpa using hu.le

theorem clamp_near {l h s q : ℚ} (h1 : l ≤ q) (h2 : q ≤ h) : |max l (min h s) - q| ≤ |s - q| := by
  simp only [max_def, min_def]
  split_ifs <;> rw [abs_le] <;> constructor <;>
    linarith [le_abs_self (s - q), neg_abs_le (s - q)]

theorem sumF_near (c : ChTy) {s q : ℚ} (hs : c = .ch32 ∨ c = .ch64 → |s| ≤ 2) (h1 : lo c ≤ q)
    (h2 : q ≤ hi c) : |sumF c s - q| ≤ |s - q| + addTol c := by
  cases c
  · simp only [addTol, add_zero]; exact clamp_near (s := s) h1 h2
  · simp only [addTol, add_zero]; exact clamp_near (s := s) h1 h2
  · refine (clampQ_near h1 h2).trans ?_
    have := err_le_two (f := binary32) (hs (.inl rfl))
    calc _ = |(s - q) + (binary32.rnd s - s)| := by congr 1; ring
      _ ≤ _ := abs_add_le _ _
      _ ≤ _ := by simp only [addTol]; linarith
  · refine (clampQ_near h1 h2).trans ?_
    have := err_le_two (f := binary64) (hs (.inr rfl))
    calc _ = |(s - q) + (binary64.rnd s - s)| := by congr 1; ring
      _ ≤ _ := abs_add_le _ _
      _ ≤ _ := by simp only [addTol]; linarith

theorem mix_fold {c : ChTy} : ∀ (l : List c.T) (qs : List ℚ) (_ : List.Forall₂ (fun x q => Valid c x ∧ Stored c x q) l qs)
    (acc : c.T) (_ : Valid c acc) (r S e : ℚ) (_ : Stored c acc r) (_ : |r - S| ≤ e)
    (_ : ∀ k, lo c ≤ S + (qs.take k).sum ∧ S + (qs.take k).sum ≤ hi c),
    ∃ r', Valid c (l.foldl c.add acc) ∧ Stored c (l.foldl c.add acc) r' ∧
      |r' - (S + qs.sum)| ≤ e + l.length * addTol c := by
  intro l qs h
  induction h with
  | nil => intro acc va r S e ha he _; exact ⟨r, va, ha, by simpa using he⟩
  | @cons x q l qs hx _ ih =>
    intro acc va r S e ha he hr
    have h3 : c = .ch32 ∨ c = .ch64 → |r + q| ≤ 2 := fun h => (abs_add_le _ _).trans (by
      linarith [va.abs_le ha h, hx.1.abs_le hx.2 h])
    have h1 := hr 1
    simp only [List.take_succ_cons, List.take_zero, List.sum_cons, List.sum_nil, add_zero] at h1
    have hn := sumF_near c h3 h1.1 h1.2
    rw [show r + q - (S + q) = r - S by ring] at hn
    obtain ⟨r', v', hs', e'⟩ := ih (c.add acc x) Valid.add (sumF c (r + q)) (S + q) (e + addTol c)
      (stored_add va hx.1 ha hx.2) (by linarith) (fun k => by
        have := hr (k + 1)
        simpa [List.take_succ_cons, add_assoc] using this)
    refine ⟨r', v', hs', ?_⟩
    simp only [List.sum_cons, List.length_cons]
    rw [show S + (q + qs.sum) = S + q + qs.sum by ring]
    push_cast
    linarith

/-- C66: if no partial sum leaves the range, mixing gives the sum: exactly for the integer formats, up to one
rounding per sample for the floats. Two orders of the same samples hence agree. -/
theorem C66_partial {c : ChTy} (l : List c.T) (qs : List ℚ)
    (h : List.Forall₂ (fun x q => Valid c x ∧ Stored c x q) l qs)
    (hr : ∀ k, lo c ≤ (qs.take k).sum ∧ (qs.take k).sum ≤ hi c) :
    ∃ r, Stored c (mixAll c l) r ∧ |r - qs.sum| ≤ l.length * addTol c := by
  obtain ⟨r, _, h1, h2⟩ := mix_fold l qs h c.MID (Valid.consts c).2.1 0 0 0 (stored_mid c) (by simp)
    (by simpa using hr)
  exact ⟨r, h1, by simpa using h2⟩

example := C66_partial (c := .ch8) [100#8, -60#8] [100, -60]
  (.cons (by decide +kernel) (.cons (by decide +kernel) .nil)) (by
    intro k
    rcases k with _ | _ | k <;> norm_num [lo, hi])

/-- C66: two orders. -/
theorem C66_orders {c : ChTy} (l l' : List c.T) (qs qs' : List ℚ)
    (h : List.Forall₂ (fun x q => Valid c x ∧ Stored c x q) l qs)
    (h' : List.Forall₂ (fun x q => Valid c x ∧ Stored c x q) l' qs') (hp : qs.Perm qs')
    (hr : ∀ k, lo c ≤ (qs.take k).sum ∧ (qs.take k).sum ≤ hi c)
    (hr' : ∀ k, lo c ≤ (qs'.take k).sum ∧ (qs'.take k).sum ≤ hi c) :
    ∃ r r', Stored c (mixAll c l) r ∧ Stored c (mixAll c l') r' ∧ |r - r'| ≤ 2 * l.length * addTol c := by
  obtain ⟨r, h1, h2⟩ := C66_partial l qs h hr
  obtain ⟨r', h1', h2'⟩ := C66_partial l' qs' h' hr'
  refine ⟨r, r', h1, h1', ?_⟩
  have e : l'.length = l.length := by rw [h'.length_eq, h.length_eq, hp.length_eq]
  rw [hp.sum_eq] at h2
  rw [e] at h2'
  have := abs_sub_le r qs'.sum r'
  rw [abs_sub_comm qs'.sum r'] at this
  linarith

example := C66_orders (c := .ch8) [100#8, -60#8] [-60#8, 100#8] [100, -60] [-60, 100]
  (.cons (by decide +kernel) (.cons (by decide +kernel) .nil)) (.cons (by decide +kernel) (.cons (by decide +kernel) .nil))
  (.swap _ _ _) (by
    intro k
    rcases k with _ | _ | k <;> norm_num [lo, hi]) (by
    intro k
    rcases k with _ | _ | k <;> norm_num [lo, hi])

/-- C66 as stated is false: once a partial sum saturates, the order is heard. -/
theorem C66_false (c : ChTy) : ∃ l l' : List c.T, l.Perm l' ∧ c.beq (mixAll c l) (mixAll c l') = false := by
  refine ⟨[c.MAX, c.MAX, c.neg c.MAX], [c.MAX, c.neg c.MAX, c.MAX],
    List.Perm.cons _ (List.Perm.swap _ _ _), ?_⟩
  cases c <;> decide +kernel

example : ∃ (l : List Ch8) (qs : List ℚ), List.Forall₂ (fun x q => Valid .ch8 x ∧ Stored .ch8 x q) l qs ∧
    mixAll .ch8 l = 40#8 ∧ (∀ k, lo .ch8 ≤ (qs.take k).sum ∧ (qs.take k).sum ≤ hi .ch8) := by
  refine ⟨[100#8, -60#8], [100, -60], ?_, by decide, ?_⟩
  · refine .cons ⟨trivial, ?_⟩ (.cons ⟨trivial, ?_⟩ .nil) <;> simp only [Stored] <;> decide +kernel
  · intro k
    rcases k with _ | _ | k <;> norm_num [lo, hi]

end Fon
