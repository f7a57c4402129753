import Verif.Props.RoundTrip

/-!
# C114: a delayed signal is resampled to a delayed signal
-/

namespace Fon
open Fon.Fl hiding min max
open Fon.Fmt Fon.Sink
variable {k k' : Kind} {c c' : ChTy}

/-- A finite number that is not the negative zero. -/
def Plus {f : Fmt} (x : Fl f) (p : ℚ) : Prop := ∃ h, x = Fl.fin p false h

theorem Plus.is {f : Fmt} {x : Fl f} {p : ℚ} (h : Plus x p) : x.Is p := by
  obtain ⟨h, rfl⟩ := h; exact is_fin

theorem Plus.unique {f : Fmt} {x y : Fl f} {p : ℚ} (h : Plus x p) (h' : Plus y p) : x = y := by
  obtain ⟨_, rfl⟩ := h; obtain ⟨_, rfl⟩ := h'; rfl

theorem plus_ofQ {f : Fmt} {q : ℚ} (h0 : 0 ≤ q) (h : |f.rnd q| ≤ f.maxF) : Plus (Fl.ofQ f false q) (f.rnd q) := by
  have e : (decide (f.rnd q = 0) && (decide (q < 0) || (decide (q = 0) && false))) = false := by
    simp [not_lt.mpr h0]
  unfold Fl.ofQ Plus
  rw [dif_pos h]
  refine ⟨⟨rep_rnd h, by simp⟩, ?_⟩
  congr 1

theorem plus_zero {f : Fmt} : Plus (lit 0 : Fl f) 0 := ⟨_, lit_zero_eq⟩

theorem Plus.mul {f : Fmt} {x y : Fl f} {p q : ℚ} (hx : Plus x p) (hy : Plus y q) (hp : 0 ≤ p) (hq : 0 ≤ q)
    (h : |f.rnd (p * q)| ≤ f.maxF) : Plus (x.mul y) (f.rnd (p * q)) := by
  obtain ⟨_, rfl⟩ := hx; obtain ⟨_, rfl⟩ := hy
  simp only [Fl.mul, decide_eq_false (not_lt.mpr hp), decide_eq_false (not_lt.mpr hq), Bool.or_self, Bool.xor_self]
  exact plus_ofQ (mul_nonneg hp hq) h

theorem Plus.add {f : Fmt} {x y : Fl f} {p q : ℚ} (hx : Plus x p) (hy : Plus y q) (hp : 0 ≤ p + q)
    (h : |f.rnd (p + q)| ≤ f.maxF) : Plus (x.add y) (f.rnd (p + q)) := by
  obtain ⟨_, rfl⟩ := hx; obtain ⟨_, rfl⟩ := hy
  simp only [Fl.add, Bool.and_self]
  exact plus_ofQ hp h

theorem Plus.rem_one {f : Fmt} {x : Fl f} {p : ℚ} (hx : Plus x p) (h0 : 0 ≤ p) :
    Plus (x.rem (lit 1)) (p - ⌊p⌋) := by
  have hr := (rep_parts hx.is.rep h0).2.1
  obtain ⟨_, rfl⟩ := hx
  rw [lit_one_eq]
  simp only [Fl.rem, one_ne_zero, if_false, div_one, one_mul, truncQ_nonneg h0, decide_eq_false (not_lt.mpr h0),
    Bool.or_self]
  have := plus_ofQ (f := f) (q := p - ⌊p⌋) (by linarith [Int.floor_le p]) (by rw [rnd_of_rep hr]; exact hr.le_maxF)
  rwa [rnd_of_rep hr] at this

theorem Plus.min {f : Fmt} {x y : Fl f} {p q : ℚ} (hx : Plus x p) (hy : Plus y q) : Plus (x.min y) (Min.min p q) := by
  obtain ⟨_, rfl⟩ := hx; obtain ⟨_, rfl⟩ := hy
  simp only [Fl.min, Fl.lt, decide_eq_true_eq]
  split
  · rename_i h; rw [min_eq_right h.le]; exact ⟨_, rfl⟩
  · rename_i h; rw [min_eq_left (not_lt.mp h)]; exact ⟨_, rfl⟩

theorem Plus.sub {f : Fmt} {x y : Fl f} {p q : ℚ} (hx : Plus x p) (hy : Plus y q) (hle : q ≤ p)
    (h : |f.rnd (p - q)| ≤ f.maxF) : Plus (x.sub y) (f.rnd (p - q)) := by
  obtain ⟨_, rfl⟩ := hx; obtain ⟨_, rfl⟩ := hy
  simp only [Fl.sub, Fl.neg, Fl.add, Bool.false_and, ← sub_eq_add_neg]
  exact plus_ofQ (by linarith) h

theorem Plus.cast {f g : Fmt} {x : Fl f} {p : ℚ} (hx : Plus x p) (h0 : 0 ≤ p) (h : |g.rnd p| ≤ g.maxF) :
    Plus (Fl.cast g x) (g.rnd p) := by
  obtain ⟨_, rfl⟩ := hx
  exact plus_ofQ h0 h

theorem plus_of_pos {f : Fmt} {x : Fl f} {p : ℚ} (h : x.Is p) (h0 : 0 < p) : Plus x p := by
  obtain ⟨nz, hh, rfl⟩ := h
  cases nz with
  | false => exact ⟨_, rfl⟩
  | true => exact absurd (hh.2 rfl) h0.ne'

theorem plus_usize {n : Nat} (h : n ≤ 2 ^ 53) : Plus (f64OfUsize n) (n:ℚ) := by
  have hr := rep_nat53 h
  have := plus_ofQ (f := binary64) (q := (n:ℚ)) (by positivity) (by rw [rnd_of_rep hr]; exact hr.le_maxF)
  rw [rnd_of_rep hr] at this
  unfold f64OfUsize Fl.ofInt
  rwa [Int.cast_natCast]

section
variable {q : F64} {a m : Nat}

/-- The ratio times a number of frames is exact. -/
theorem mul_dyadic (hq : q.Is ((a:ℚ) / ((2 ^ m : Nat) : ℚ))) (h1 : 1 ≤ a) (hm : m ≤ 52) {j : Nat} (hj : a * j < 2 ^ 53) :
    Plus (q.mul (f64OfUsize j)) (((a * j : Nat) : ℚ) / ((2 ^ m : Nat) : ℚ)) := by
  have hr : binary64.Rep (((a * j : Nat) : ℚ) / ((2 ^ m : Nat) : ℚ)) := by
    refine rep_dyadic ((a * j : Nat) : ℤ) (-m : ℤ) ?_ ?_ ?_ ?_
    · push_cast; rw [zpow_neg, zpow_natCast]; field_simp
    · rw [abs_of_nonneg (by positivity)]
      exact_mod_cast hj
    · show (-1074 : ℤ) ≤ _; omega
    · show _ ≤ (971 : ℤ); omega
  have hj' : j ≤ 2 ^ 53 := (Nat.le_mul_of_pos_left j h1).trans hj.le
  have ha : (0:ℚ) < a := by exact_mod_cast h1
  have e : ((a:ℚ) / ((2 ^ m : Nat) : ℚ)) * j = ((a * j : Nat) : ℚ) / ((2 ^ m : Nat) : ℚ) := by push_cast; ring
  have := (plus_of_pos hq (by positivity)).mul (plus_usize hj') (by positivity) (by positivity)
    (by rw [e, rnd_of_rep hr]; exact hr.le_maxF)
  rwa [e, rnd_of_rep hr] at this

theorem pos_dyadic (hq : q.Is ((a:ℚ) / ((2 ^ m : Nat) : ℚ))) (h1 : 1 ≤ a) (hm : m ≤ 52) {j : Nat} (hj : a * j < 2 ^ 53) :
    Plus (posOf q (lit 0) j) (((a * j : Nat) : ℚ) / ((2 ^ m : Nat) : ℚ)) := by
  have h := mul_dyadic hq h1 hm hj
  have hr := h.is.rep
  have := h.add plus_zero (by positivity) (by rw [add_zero, rnd_of_rep hr]; exact hr.le_maxF)
  rwa [add_zero, rnd_of_rep hr] at this

theorem slot_dyadic (hq : q.Is ((a:ℚ) / ((2 ^ m : Nat) : ℚ))) (h1 : 1 ≤ a) (hm : m ≤ 52) {j : Nat} (hj : a * j < 2 ^ 53) :
    (posOf q (lit 0) j).toUsize = a * j / 2 ^ m := usize_pow (pos_dyadic hq h1 hm hj).is hj

theorem end_dyadic (hq : q.Is ((a:ℚ) / ((2 ^ m : Nat) : ℚ))) (h1 : 1 ≤ a) (hm : m ≤ 52) {j : Nat} (hj : a * j < 2 ^ 53) :
    (q.mul (f64OfUsize j)).toUsize = a * j / 2 ^ m := usize_pow (mul_dyadic hq h1 hm hj).is hj

/-- Frames that are a whole number of slots apart: the same weights, and slots that are so far apart. -/
theorem dyadic_apart (hq : q.Is ((a:ℚ) / ((2 ^ m : Nat) : ℚ))) (h1 : 1 ≤ a) (hm : m ≤ 52) {j d : Nat}
    (hj : a * (j + 2 ^ m * d) < 2 ^ 53) :
    (posOf q (lit 0) (j + 2 ^ m * d)).toUsize = (posOf q (lit 0) j).toUsize + a * d ∧
    hiSlot (posOf q (lit 0) (j + 2 ^ m * d)) = hiSlot (posOf q (lit 0) j) + a * d ∧
    hiWeight q (lit 0) (j + 2 ^ m * d) = hiWeight q (lit 0) j ∧
    loWeight q (lit 0) (j + 2 ^ m * d) = loWeight q (lit 0) j := by
  have hp : 0 < 2 ^ m := by positivity
  have e : a * (j + 2 ^ m * d) = a * j + 2 ^ m * (a * d) := by ring
  have hj' : a * j < 2 ^ 53 := by omega
  have p1 := pos_dyadic hq h1 hm hj
  have p2 := pos_dyadic hq h1 hm hj'
  have hf : (((a * (j + 2 ^ m * d) : Nat) : ℚ) / ((2 ^ m : Nat) : ℚ) - ⌊((a * (j + 2 ^ m * d) : Nat) : ℚ) / ((2 ^ m : Nat) : ℚ)⌋) =
      ((a * j : Nat) : ℚ) / ((2 ^ m : Nat) : ℚ) - ⌊((a * j : Nat) : ℚ) / ((2 ^ m : Nat) : ℚ)⌋ := by
    rw [frac_pow, frac_pow, e, Nat.add_mul_mod_self_left]
  have s : (posOf q (lit 0) (j + 2 ^ m * d)).toUsize = (posOf q (lit 0) j).toUsize + a * d := by
    rw [slot_dyadic hq h1 hm hj, slot_dyadic hq h1 hm hj', e, Nat.add_mul_div_left _ _ hp]
  have w : hiWeight q (lit 0) (j + 2 ^ m * d) = hiWeight q (lit 0) j := by
    have r1 := p1.rem_one (by positivity)
    rw [hf] at r1
    unfold hiWeight
    rw [r1.unique (p2.rem_one (by positivity))]
  refine ⟨s, ?_, w, by unfold loWeight; rw [w]⟩
  rw [hiSlot_is p1.is (by positivity), hiSlot_is p2.is (by positivity), hf, s]
  split <;> omega

/-- The weights are not the negative zero. -/
theorem plus_weights (hq : q.Is ((a:ℚ) / ((2 ^ m : Nat) : ℚ))) (h1 : 1 ≤ a) (hm : m ≤ 52) (ha : a ≤ 2 ^ 52) {j : Nat}
    (hj : a * j < 2 ^ 53) :
    (∃ v, Plus (hiWeight q (lit 0) j) v ∧ 0 ≤ v ∧ v ≤ 2 ^ 52) ∧ ∃ v, Plus (loWeight q (lit 0) j) v ∧ 0 ≤ v ∧ v ≤ 2 ^ 53 := by
  have ha0 : (0:ℚ) < a := by exact_mod_cast h1
  have hN : (1:ℚ) ≤ ((2 ^ m : Nat) : ℚ) := by exact_mod_cast Nat.one_le_two_pow
  have hq' := plus_of_pos hq (by positivity)
  have p := (pos_dyadic hq h1 hm hj).rem_one (by positivity)
  have hfr : 0 ≤ ((a * j : Nat) : ℚ) / ((2 ^ m : Nat) : ℚ) - ⌊((a * j : Nat) : ℚ) / ((2 ^ m : Nat) : ℚ)⌋ := by
    linarith [Int.floor_le (((a * j : Nat) : ℚ) / ((2 ^ m : Nat) : ℚ))]
  have hr : (a:ℚ) / ((2 ^ m : Nat) : ℚ) ≤ 2 ^ 52 :=
    (div_le_self ha0.le hN).trans (by exact_mod_cast ha)
  have hr0 : 0 ≤ (a:ℚ) / ((2 ^ m : Nat) : ℚ) := by positivity
  generalize ((a * j : Nat) : ℚ) / ((2 ^ m : Nat) : ℚ) - ⌊((a * j : Nat) : ℚ) / ((2 ^ m : Nat) : ℚ)⌋ = z at *
  generalize (a:ℚ) / ((2 ^ m : Nat) : ℚ) = r at *
  have hw := p.min hq'
  have h0 : 0 ≤ Min.min z r := le_min hfr hr0
  refine ⟨⟨_, hw, h0, (min_le_right _ _).trans hr⟩, ?_⟩
  have hs : |binary64.rnd (r - Min.min z r)| ≤ binary64.maxF := small (by
    rw [abs_of_nonneg (by linarith [min_le_right z r])]
    linarith [show (2:ℚ) ^ 52 ≤ 2 ^ 100 by norm_num])
  refine ⟨_, hq'.sub hw (min_le_right _ _) hs, ?_, ?_⟩
  · have := rnd_le_of_gen (f := binary64) (rep_zero (f := binary64)).gen (show -(r - Min.min z r) ≤ 0 by linarith [min_le_right z r])
    rw [rnd_neg] at this; linarith
  · have := rnd_le_of_gen (f := binary64) (rep_nat53 (n := 2 ^ 52) (by norm_num)).gen (show (r - Min.min z r) ≤ ((2 ^ 52 : Nat) : ℚ) by push_cast; linarith)
    push_cast at this
    linarith

end

theorem silent_float {f : Fmt} {w : Fl f} {v : ℚ} (h : Plus w v) (h0 : 0 ≤ v) :
    ChF.add (lit 0) (ChF.mul (lit 0) w) = (lit 0 : Fl f) := by
  have hm := (plus_zero (f := f)).mul h le_rfl h0 (by rw [zero_mul, rnd_zero]; simpa using maxF_pos.le)
  rw [zero_mul, rnd_zero] at hm
  have e : Fl.mul (lit 0) w = (lit 0 : Fl f) := hm.unique plus_zero
  show clamp1 (Fl.add (lit 0) (Fl.mul (lit 0) w)) = _
  rw [e]
  have ha := (plus_zero (f := f)).add plus_zero (by norm_num) (by rw [add_zero, rnd_zero]; simpa using maxF_pos.le)
  rw [add_zero, rnd_zero] at ha
  rw [ha.unique plus_zero]
  rw [lit_zero_eq, clamp1, lit_one_eq, lit_neg_one_eq]
  simp only [Fl.min, Fl.lt, decide_eq_true_eq]
  rw [if_neg (by norm_num)]
  simp only [Fl.max, Fl.lt, decide_eq_true_eq]
  rw [if_neg (by norm_num)]

/-- Silence stays silence. -/
theorem silent_unit {w : F64} {v : ℚ} (h : Plus w v) (h0 : 0 ≤ v) (h1 : v ≤ 2 ^ 53) :
    c.add c.dflt (c.mul c.dflt (c.ofF64 w)) = c.dflt := by
  cases c with
  | ch8 =>
    apply BitVec.eq_of_toInt_eq
    rw [C01_ch8_add, (C02_ch8 _ _).2]
    show clampZ (-128) 127 ((0#8).toInt + _) = (0#8).toInt
    simp [show (ChTy.ch8.dflt).toInt = 0 from rfl, clampZ]
  | ch16 =>
    apply BitVec.eq_of_toInt_eq
    rw [C01_ch16_add, (C02_ch16 _ _).2]
    simp [show (ChTy.ch16.dflt).toInt = 0 from rfl, clampZ]
  | ch32 =>
    have hr : |binary32.rnd v| ≤ binary32.maxF := small (by
      rw [abs_of_nonneg h0]; linarith [show (2:ℚ) ^ 53 ≤ 2 ^ 100 by norm_num])
    have hg := rnd_le_of_gen (f := binary32) (rep_zero (f := binary32)).gen (show -v ≤ 0 by linarith)
    rw [rnd_neg] at hg
    exact silent_float (h.cast (g := binary32) h0 hr) (by linarith)
  | ch64 => exact silent_float h h0

theorem silent_frame {w : F64} {v : ℚ} (h : Plus w v) (h0 : 0 ≤ v) (h1 : v ≤ 2 ^ 53) :
    (Frame.dflt : Frame k c).add ((Frame.dflt : Frame k c).mul (Frame.ofF64 w)) = Frame.dflt := by
  apply Vector.ext
  intro i hi
  have := silent_unit (c := c) h h0 h1
  simpa [Frame.add, Frame.mul, Frame.ofF64, Frame.dflt] using this

section
variable {q : F64} {a m : Nat}

theorem mixed_silent (hq : q.Is ((a:ℚ) / ((2 ^ m : Nat) : ℚ))) (h1 : 1 ≤ a) (hm : m ≤ 52) (ha : a ≤ 2 ^ 52)
    (g : Nat → Frame k c) (x n : Nat) (hn : a * n < 2 ^ 53) (hg : ∀ j, j < n → g j = Frame.dflt) :
    mixed q (lit 0) g x n Frame.dflt = Frame.dflt := by
  induction n with
  | zero => rfl
  | succ n ih =>
    have hn' : a * n < 2 ^ 53 := lt_of_le_of_lt (Nat.mul_le_mul_left a (Nat.le_succ n)) hn
    obtain ⟨⟨v, v1, v2, v3⟩, u, u1, u2, u3⟩ := plus_weights hq h1 hm ha hn'
    simp only [mixed]
    rw [ih hn' (fun j hj => hg j (by omega)), hg n (by omega), silent_frame u1 u2 u3,
      ite_self, silent_frame v1 v2 (by linarith), ite_self]

theorem mixed_delay (hq : q.Is ((a:ℚ) / ((2 ^ m : Nat) : ℚ))) (h1 : 1 ≤ a) (hm : m ≤ 52) (ha : a ≤ 2 ^ 52)
    (g g' : Nat → Frame k c) (d x n : Nat) (hn : a * (n + 2 ^ m * d) < 2 ^ 53)
    (hg : ∀ j, j < 2 ^ m * d → g' j = Frame.dflt) (hgg : ∀ j, j < n → g' (j + 2 ^ m * d) = g j) :
    mixed q (lit 0) g' (x + a * d) (n + 2 ^ m * d) Frame.dflt = mixed q (lit 0) g x n Frame.dflt := by
  induction n with
  | zero =>
    rw [Nat.zero_add] at hn ⊢
    exact mixed_silent hq h1 hm ha g' _ _ hn hg
  | succ n ih =>
    have hn' : a * (n + 2 ^ m * d) < 2 ^ 53 := lt_of_le_of_lt (Nat.mul_le_mul_left a (by omega)) hn
    obtain ⟨e1, e2, e3, e4⟩ := dyadic_apart hq h1 hm hn'
    rw [show n + 1 + 2 ^ m * d = (n + 2 ^ m * d) + 1 by omega]
    simp only [mixed]
    rw [e1, e2, e3, e4, ih hn' (fun j hj => hgg j (by omega)), hgg n (by omega)]
    simp only [Nat.add_right_cancel_iff]

theorem mixed_before (hq : q.Is ((a:ℚ) / ((2 ^ m : Nat) : ℚ))) (h1 : 1 ≤ a) (hm : m ≤ 52) (ha : a ≤ 2 ^ 52)
    (g' : Nat → Frame k c) (d x n : Nat) (hx : x < a * d) (hn : a * (n + 2 ^ m * d) < 2 ^ 53)
    (hg : ∀ j, j < 2 ^ m * d → g' j = Frame.dflt) :
    mixed q (lit 0) g' x (n + 2 ^ m * d) Frame.dflt = Frame.dflt := by
  induction n with
  | zero =>
    rw [Nat.zero_add] at hn ⊢
    exact mixed_silent hq h1 hm ha g' _ _ hn hg
  | succ n ih =>
    have hn' : a * (n + 2 ^ m * d) < 2 ^ 53 := lt_of_le_of_lt (Nat.mul_le_mul_left a (by omega)) hn
    obtain ⟨e1, e2, e3, e4⟩ := dyadic_apart hq h1 hm hn'
    rw [show n + 1 + 2 ^ m * d = (n + 2 ^ m * d) + 1 by omega]
    simp only [mixed]
    rw [e1, e2, ih hn', if_neg (by omega), if_neg (by omega)]

theorem leftOver_silent (hq : q.Is ((a:ℚ) / ((2 ^ m : Nat) : ℚ))) (h1 : 1 ≤ a) (hm : m ≤ 52) (ha : a ≤ 2 ^ 52)
    (len : Option Nat) (b : Nat) (g : Nat → Frame k c) (n : Nat) (hn : a * n < 2 ^ 53)
    (hg : ∀ j, j < n → g j = Frame.dflt) :
    leftOver q (lit 0) len b g n Frame.dflt = Frame.dflt := by
  induction n with
  | zero => rfl
  | succ n ih =>
    have hn' : a * n < 2 ^ 53 := lt_of_le_of_lt (Nat.mul_le_mul_left a (Nat.le_succ n)) hn
    obtain ⟨⟨v, v1, v2, v3⟩, -⟩ := plus_weights hq h1 hm ha hn'
    simp only [leftOver]
    rw [ih hn' (fun j hj => hg j (by omega)), hg n (by omega), silent_frame v1 v2 (by linarith), ite_self]

theorem leftOver_delay (hq : q.Is ((a:ℚ) / ((2 ^ m : Nat) : ℚ))) (h1 : 1 ≤ a) (hm : m ≤ 52) (ha : a ≤ 2 ^ 52)
    (len len' : Option Nat) (b b' : Nat) (g g' : Nat → Frame k c) (d n : Nat) (hn : a * (n + 2 ^ m * d) < 2 ^ 53)
    (hd : ∀ x, InDst q len' b' (x + a * d) ↔ InDst q len b x)
    (hg : ∀ j, j < 2 ^ m * d → g' j = Frame.dflt) (hgg : ∀ j, j < n → g' (j + 2 ^ m * d) = g j) :
    leftOver q (lit 0) len' b' g' (n + 2 ^ m * d) Frame.dflt = leftOver q (lit 0) len b g n Frame.dflt := by
  induction n with
  | zero =>
    rw [Nat.zero_add] at hn ⊢
    exact leftOver_silent hq h1 hm ha _ _ g' _ hn hg
  | succ n ih =>
    have hn' : a * (n + 2 ^ m * d) < 2 ^ 53 := lt_of_le_of_lt (Nat.mul_le_mul_left a (by omega)) hn
    obtain ⟨e1, e2, e3, e4⟩ := dyadic_apart hq h1 hm hn'
    rw [show n + 1 + 2 ^ m * d = (n + 2 ^ m * d) + 1 by omega]
    simp only [leftOver]
    rw [e2, e3, ih hn' (fun j hj => hgg j (by omega)), hgg n (by omega)]
    simp only [hd]

/-- The destination range moves. -/
theorem inDst_delay (hq : q.Is ((a:ℚ) / ((2 ^ m : Nat) : ℚ))) (h1 : 1 ≤ a) (hm : m ≤ 52) (len : Option Nat) (b d : Nat)
    (hl : ∀ l, len = some l → a * (l + 2 ^ m * d) < 2 ^ 53) (x : Nat) :
    (InDst q (len.map (· + 2 ^ m * d)) (b + a * d) (x + a * d) ↔ InDst q len b x) ∧
    (x < a * d → InDst q (len.map (· + 2 ^ m * d)) (b + a * d) x) := by
  have hp : 0 < 2 ^ m := by positivity
  cases len with
  | none => simp only [InDst, Option.map_none, reduceCtorEq, false_imp_iff, implies_true, and_true]; omega
  | some l =>
    have h := hl l rfl
    have e : a * (l + 2 ^ m * d) = a * l + 2 ^ m * (a * d) := by ring
    have e1 := end_dyadic hq h1 hm h
    rw [e, Nat.add_mul_div_left _ _ hp] at e1
    have e2 := end_dyadic hq h1 hm (show a * l < 2 ^ 53 by omega)
    simp only [InDst, Option.map_some, Option.some.injEq, forall_eq']
    rw [e1, e2]; omega

/-- The frames taken: those of the delay, and as many as before. -/
theorem takes_delay (hq : q.Is ((a:ℚ) / ((2 ^ m : Nat) : ℚ))) (h1 : 1 ≤ a) (hm : m ≤ 52) {len : Option Nat} {b n : Nat}
    (d : Nat) (hl : ∀ l, len = some l → a * (l + 2 ^ m * d) < 2 ^ 53) (a1 : Takes q (lit 0) len b n)
    (hn' : a * (n + 2 ^ m * d) < 2 ^ 53) : Takes q (lit 0) (len.map (· + 2 ^ m * d)) (b + a * d) (n + 2 ^ m * d) := by
  have hN : 0 < 2 ^ m := by positivity
  have hd := fun x => (inDst_delay hq h1 hm len b d hl x).1
  have hd' := fun x => (inDst_delay hq h1 hm len b d hl x).2
  have slot : ∀ j, j ≤ n → (posOf q (lit 0) (j + 2 ^ m * d)).toUsize = (posOf q (lit 0) j).toUsize + a * d := fun j hj =>
    (dyadic_apart hq h1 hm (lt_of_le_of_lt (Nat.mul_le_mul_left a (by omega)) hn')).1
  refine ⟨fun j hj => ?_, fun l hl => ?_, ?_⟩
  · rcases Nat.lt_or_ge j (2 ^ m * d) with hlt | hge
    · apply hd'
      have : a * j < a * (2 ^ m * d) := Nat.mul_lt_mul_of_pos_left hlt h1
      have : a * (2 ^ m * d) ≤ a * (n + 2 ^ m * d) := Nat.mul_le_mul_left a (by omega)
      rw [slot_dyadic hq h1 hm (by omega), Nat.div_lt_iff_lt_mul hN]
      calc a * j < a * (2 ^ m * d) := by assumption
        _ = a * d * 2 ^ m := by ring
    · obtain ⟨i, rfl⟩ := Nat.exists_eq_add_of_le' hge
      rw [slot i (by omega), hd]
      exact a1.1 i (by omega)
  · cases e : len with
    | none => rw [e] at hl; cases hl
    | some l0 =>
      rw [e] at hl; cases hl
      have := a1.2.1 l0 e
      show _ ≤ l0 + _
      omega
  · rcases a1.2.2 with e | e
    · left; rw [e]; rfl
    · right; rw [slot n le_rfl, hd]; exact e

end

/-! ## C114 -/

/-- C114 for ratios that are a dyadic fraction `a / 2^m` (all whole factors, halves, quarters, …): with `2^m * d` frames
of silence before a signal the result is the same with `a * d` frames of silence before it, bit for bit, and the same
frame is left over.  Missing: other ratios, for which it is false (`C114_false`). -/
theorem C114_partial (fuel fuel' a m d : Nat) (s s' t t' : Sink k c) (st st' : Src k' c') (it it' : It k' c')
    (h : s.stream fuel st = .ok (s', it)) (h' : t.stream fuel' st' = .ok (t', it'))
    (hr : t.rate = s.rate) (hr' : st'.rate = st.rate)
    (ho : s.res.offseti = lit 0) (ho' : t.res.offseti = lit 0)
    (hp : s.res.partial_ = Frame.dflt) (hp' : t.res.partial_ = Frame.dflt)
    (hq : (ratioOf s.rate st.rate).Is ((a:ℚ) / ((2 ^ m : Nat) : ℚ))) (h1 : 1 ≤ a) (ha : a ≤ 2 ^ 51) (hm : m ≤ 52)
    (hb : t.buf.length = s.buf.length + a * d) (hb' : 2 ^ m * t.buf.length ≤ 2 ^ 52)
    (hl : st'.len = st.len.map (· + 2 ^ m * d)) (hl' : ∀ l, st'.len = some l → a * l < 2 ^ 53)
    (hsil : ∀ j, j < 2 ^ m * d → ∀ f, st'.nth j = .ok (some f) → f.convert c = .ok (Frame.dflt : Frame k c))
    (hsh : ∀ j, st'.nth (j + 2 ^ m * d) = st.nth j) :
    (∀ x, x < a * d → t'.buf[x]? = some Frame.dflt) ∧
    (∀ x, InDst (ratioOf s.rate st.rate) st.len s.buf.length x → t'.buf[x + a * d]? = s'.buf[x]?) ∧
    t'.res.partial_ = s'.res.partial_ := by
  obtain ⟨n, g, a1, a2, a3, a4, -, -⟩ := C58_mix fuel s s' st it h
  obtain ⟨n', g', b1, b2, b3, b4, -, -⟩ := C58_mix fuel' t t' st' it' h'
  rw [ho] at a1 a3 a4
  rw [ho', hr, hr'] at b1 b3 b4
  rw [hp] at a4
  rw [hp'] at b4
  rw [hb] at b1 b3 b4
  rw [hl] at b1 b3 b4
  generalize ratioOf s.rate st.rate = q at *
  have hN : 0 < 2 ^ m := by positivity
  have hl2 : ∀ l, st.len = some l → a * (l + 2 ^ m * d) < 2 ^ 53 := fun l e => hl' _ (by rw [hl, e]; rfl)
  have hd := fun x => (inDst_delay hq h1 hm st.len s.buf.length d hl2 x).1
  have hd' := fun x => (inDst_delay hq h1 hm st.len s.buf.length d hl2 x).2
  have ha' : a ≤ 2 ^ 52 := ha.trans (by norm_num)
  have eb : 2 ^ m * t.buf.length = 2 ^ m * s.buf.length + a * (2 ^ m * d) := by rw [hb]; ring
  -- the frames are few enough for their positions to be exact
  have hn : a * n ≤ 2 ^ m * s.buf.length + a := by
    by_contra hc
    push Not at hc
    obtain ⟨j, hj1, hj2⟩ : ∃ j, 2 ^ m * s.buf.length ≤ a * j ∧ a * j < 2 ^ m * s.buf.length + a := by
      refine ⟨(2 ^ m * s.buf.length + a - 1) / a, ?_, ?_⟩
      · have := Nat.lt_div_mul_add (a := 2 ^ m * s.buf.length + a - 1) (b := a) (by omega)
        rw [Nat.mul_comm a]; omega
      · have := Nat.mul_div_le (2 ^ m * s.buf.length + a - 1) a; omega
    have hjn : j < n := Nat.lt_of_mul_lt_mul_left (a := a) (by omega)
    have := (a1.1 j hjn).1
    rw [slot_dyadic hq h1 hm (by omega), Nat.div_lt_iff_lt_mul hN, Nat.mul_comm s.buf.length] at this
    omega
  have en : a * (n + 2 ^ m * d) = a * n + a * (2 ^ m * d) := by ring
  have hn' : a * (n + 2 ^ m * d) < 2 ^ 53 := by omega
  -- the number of frames taken
  have ht := takes_delay hq h1 hm d hl2 a1 hn'
  cases takes_unique b1 ht
  have gs : ∀ j, j < 2 ^ m * d → g' j = Frame.dflt := by
    intro j hj
    obtain ⟨f, f1, f2⟩ := b2 j (by omega)
    have := hsil j hj f f1
    rw [f2] at this; exact Except.ok.inj this
  have gg : ∀ j, j < n → g' (j + 2 ^ m * d) = g j := by
    intro j hj
    obtain ⟨f, f1, f2⟩ := b2 (j + 2 ^ m * d) (by omega)
    obtain ⟨f', f3, f4⟩ := a2 j hj
    rw [hsh, f3] at f1
    cases f1
    rw [f4] at f2; exact (Except.ok.inj f2).symm
  refine ⟨fun x hx => ?_, fun x hx => ?_, ?_⟩
  · rw [b3 x (hd' x hx), mixed_before hq h1 hm ha' g' d x n hx hn' gs]
  · rw [b3 _ ((hd x).mpr hx), a3 x hx, mixed_delay hq h1 hm ha' g g' d x n hn' gs gg]
  · rw [b4, a4, leftOver_delay hq h1 hm ha' _ _ _ _ g g' d n hn' hd gs gg]

example := C114_partial (k := .mono) (c := .ch64) (k' := .mono) (c' := .ch64) 9 9 3 2 1
  ⟨lit 12, Resampler.dflt, List.replicate 2 #v[lit 0]⟩ _ ⟨lit 12, Resampler.dflt, List.replicate 5 #v[lit 0]⟩ _
  (.audio ⟨lit 16, [#v[lit 0.75], #v[lit 0.5], #v[lit 0.5]]⟩)
  (.audio ⟨lit 16, List.replicate 4 #v[lit 0] ++ [#v[lit 0.75], #v[lit 0.5], #v[lit 0.5]]⟩) _ _
  (R.returns₂ (x := (⟨lit 12, Resampler.dflt, List.replicate 2 #v[lit 0]⟩ : Sink .mono .ch64).stream 9
    (.audio (k := .mono) (c := .ch64) ⟨lit 16, [#v[lit 0.75], #v[lit 0.5], #v[lit 0.5]]⟩)) (by decide +kernel))
  (R.returns₂ (x := (⟨lit 12, Resampler.dflt, List.replicate 5 #v[lit 0]⟩ : Sink .mono .ch64).stream 9
    (.audio (k := .mono) (c := .ch64)
      ⟨lit 16, List.replicate 4 #v[lit 0] ++ [#v[lit 0.75], #v[lit 0.5], #v[lit 0.5]]⟩)) (by decide +kernel))
  rfl rfl rfl rfl rfl rfl (by decide +kernel) (by decide) (by decide) (by decide) rfl (by decide +kernel) rfl
  (by rintro _ ⟨⟩; decide) (by
    intro j hj f hf
    match j with
    | 0 | 1 | 2 | 3 => cases hf; decide +kernel
    | j + 4 => simp at hj) (fun j => rfl)

example : ((⟨lit 12, Resampler.dflt, List.replicate 2 #v[lit 0]⟩ : Sink .mono .ch64).stream 9
      (.audio (k := .mono) (c := .ch64) ⟨lit 16, [#v[lit 0.75], #v[lit 0.5], #v[lit 0.5]]⟩)).map (fun r => r.1.buf) =
      .ok [#v[lit 0.5625], #v[lit 0.5]] ∧
    ((⟨lit 12, Resampler.dflt, List.replicate 5 #v[lit 0]⟩ : Sink .mono .ch64).stream 9
      (.audio (k := .mono) (c := .ch64)
        ⟨lit 16, List.replicate 4 #v[lit 0] ++ [#v[lit 0.75], #v[lit 0.5], #v[lit 0.5]]⟩)).map (fun r => r.1.buf) =
      .ok [#v[lit 0], #v[lit 0], #v[lit 0], #v[lit 0.5625], #v[lit 0.5]] := by constructor <;> decide +kernel

/-- C114 is false, by example: from rate 10 to rate 3, ten frames of silence before a signal do not only move the result
by three slots; the positions and with them the weights are rounded differently. -/
theorem C114_false :
    ((⟨lit 3, Resampler.dflt, List.replicate 3 #v[lit 0]⟩ : Sink .mono .ch64).stream 40
      (.audio (k := .mono) (c := .ch64)
        ⟨lit 10, List.replicate 4 #v[lit 0] ++ #v[lit 0.75] :: List.replicate 5 #v[lit 0]⟩)).map (fun r => r.1.buf[1]?) =
      .ok (some #v[lit (5404319552844597 / 2 ^ 56)]) ∧
    ((⟨lit 3, Resampler.dflt, List.replicate 6 #v[lit 0]⟩ : Sink .mono .ch64).stream 40
      (.audio (k := .mono) (c := .ch64)
        ⟨lit 10, List.replicate 14 #v[lit 0] ++ #v[lit 0.75] :: List.replicate 5 #v[lit 0]⟩)).map (fun r => r.1.buf[4]?) =
      .ok (some #v[lit (5404319552844585 / 2 ^ 56)]) ∧
    (lit (5404319552844597 / 2 ^ 56) : F64) ≠ lit (5404319552844585 / 2 ^ 56) := by
  refine ⟨?_, ?_, ?_⟩ <;> decide +kernel

end Fon
