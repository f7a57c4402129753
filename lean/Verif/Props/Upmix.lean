import Verif.Props.Const
import Verif.Props.ChanLevel
import Verif.Props.Audio
import Verif.Props.Structure
import Verif.Spec.Upmix

/-!
# C101: upsampling at any ratio
-/

namespace Fon
open Fon.Fl hiding min max
open Fon.Fmt Fon.Sink
variable {k k' : Kind} {c c' : ChTy}

theorem min_lip (s t : ℚ) : |min s 1 - min t 1| ≤ |s - t| := by
  simp only [min_def]
  split_ifs <;> rw [abs_le] <;> constructor <;> linarith [le_abs_self (s - t), neg_abs_le (s - t)]

theorem gain_lip (c : ChTy) (s t : ℚ) : |gain c s - gain c t| ≤ |s - t| := by
  cases c
  · exact min_lip s t
  · exact min_lip s t
  · exact le_rfl
  · exact le_rfl

theorem gain_of_le (c : ChTy) {t : ℚ} (h : t ≤ 1) : gain c t = t := by
  cases c
  · exact min_eq_left h
  · exact min_eq_left h
  · rfl
  · rfl

theorem gain_le (c : ChTy) (t : ℚ) : gain c t ≤ t := by
  cases c
  · exact min_le_left _ _
  · exact min_le_left _ _
  · exact le_rfl
  · exact le_rfl

theorem err_one {f : Fmt} [Std f] (q : ℚ) : |f.rnd q - q| ≤ (|q| + 1) * f.u := by
  have hu := u_pos (f := f)
  rcases lt_or_ge |q| 1 with h | h
  · have := err_le_two (f := f) (q := q) (by linarith)
    nlinarith [abs_nonneg q]
  · have h2 : (2:ℚ) ^ (f.emin + f.prec - 1) ≤ |q| := by
      refine le_trans ?_ h
      have := Std.gap (f := f)
      exact zpow_le_one_of_nonpos₀ (by norm_num) (by omega)
    exact (rel_err_normal h2).trans (mul_le_mul_of_nonneg_right (by linarith) hu.le)

theorem float_up {f : Fmt} [Std f] {b v W : Fl f} {β w ω ω' : ℚ} (hb : valF b β) (hv : v.Is w) (hw : |w| ≤ 1)
    (hW : W.Is ω') (h0 : 0 ≤ ω') (h1 : ω ≤ 2 ^ 20) (hω : 0 ≤ ω) (he : |ω' - ω| ≤ (ω + 1) * f.u) :
    ∃ β', valF (ChF.add b (ChF.mul v W)) β' ∧ |β' - clampQ (β + w * ω)| ≤ f.u * (3 * ω + 6) := by
  obtain ⟨hb, hb1⟩ := hb
  have hu := u_pos (f := f)
  have hu1 : f.u ≤ 2 ^ (-24 : ℤ) := by
    have := Std.prec (f := f)
    exact zpow_le_zpow_right₀ (by norm_num) (by omega)
  have hu2 : (ω + 1) * f.u ≤ 1 / 8 := by
    calc (ω + 1) * f.u ≤ (2 ^ 20 + 1) * 2 ^ (-24 : ℤ) := mul_le_mul (by linarith) hu1 hu.le (by norm_num)
      _ ≤ 1 / 8 := by norm_num
  have he' := abs_le.mp he
  have p1 : |w * ω'| ≤ ω' := by
    rw [abs_mul, abs_of_nonneg h0]; exact mul_le_of_le_one_left h0 hw
  have p3 : |f.rnd (w * ω') - w * ω'| ≤ (ω + 2) * f.u :=
    (err_one _).trans (mul_le_mul_of_nonneg_right (by linarith) hu.le)
  have hP := hv.mul hW (small (p1.trans (by linarith : ω' ≤ 2 ^ 21) |>.trans (by norm_num)))
  set P := f.rnd (w * ω') with hPd
  have p2 : |P| ≤ ω + 1 := by
    have := abs_add_le (P - w * ω') (w * ω')
    rw [sub_add_cancel] at this
    nlinarith
  have s1 : |β + P| ≤ ω + 2 := (abs_add_le _ _).trans (by linarith)
  have s2 : |f.rnd (β + P) - (β + P)| ≤ (ω + 3) * f.u :=
    (err_one _).trans (mul_le_mul_of_nonneg_right (by linarith) hu.le)
  have hS := hb.add hP (small (s1.trans (by linarith : ω + 2 ≤ 2 ^ 21) |>.trans (by norm_num)))
  refine ⟨_, ⟨clamp1_is hS, abs_le.mpr (clampQ_range _)⟩, (clampQ_lip _ _).trans ?_⟩
  have t : |w * (ω' - ω)| ≤ (ω + 1) * f.u := by
    rw [abs_mul]
    exact (mul_le_of_le_one_left (abs_nonneg _) hw).trans he
  have e : f.rnd (β + P) - (β + w * ω) = (f.rnd (β + P) - (β + P)) + (P - w * ω') + w * (ω' - ω) := by ring
  rw [e]
  have := abs_add_three (f.rnd (β + P) - (β + P)) (P - w * ω') (w * (ω' - ω))
  nlinarith

theorem int_up {N b m v W : ℤ} {ω : ℚ} (hN : 127 ≤ N) (hv : |v| ≤ N)
    (he : |(W:ℚ) / N - ω| ≤ 9 / (8 * N)) (hm : m = (v * W).tdiv N) :
    |((clampZ (-N - 1) N (b + m) : ℤ) : ℚ) / N - clampQ ((b:ℚ) / N + v / N * ω)| ≤ 25 / (8 * N) := by
  have hN0 : (0:ℚ) < N := by exact_mod_cast (by omega : (0:ℤ) < N)
  have hvq : |(v:ℚ) / N| ≤ 1 := by
    rw [abs_div, abs_of_pos hN0, div_le_one hN0]; exact_mod_cast hv
  have hprod : |(m:ℚ) - v * W / N| ≤ 1 := by
    have e := Int.mul_tdiv_add_tmod (v * W) N
    rw [← hm] at e
    have h1 : |(v * W).tmod N| < N := by
      rw [abs_lt]
      exact ⟨Int.lt_tmod_of_pos _ (by omega), Int.tmod_lt_of_pos _ (by omega)⟩
    have e' : (m:ℚ) - v * W / N = -(((v * W).tmod N : ℤ) : ℚ) / N := by
      have : ((v * W : ℤ):ℚ) = N * m + (((v * W).tmod N : ℤ) : ℚ) := by
        exact_mod_cast e.symm
      push_cast at this
      rw [this]; field_simp; ring
    rw [e', abs_div, abs_neg, abs_of_pos hN0, div_le_one hN0]
    have : ((|(v * W).tmod N| : ℤ):ℚ) ≤ N := by exact_mod_cast h1.le
    simpa using this
  have hclamp : |((clampZ (-N - 1) N (b + m) : ℤ) : ℚ) / N - clampQ (((b + m : ℤ):ℚ) / N)| ≤ 1 / N := by
    have hz : clampQ (((b + m : ℤ):ℚ) / N) = ((clampZ (-N) N (b + m) : ℤ) : ℚ) / N := by
      have e : (((-N : ℤ)):ℚ) / N = -1 := by push_cast; field_simp
      have e1 : ((N : ℤ):ℚ) / N = 1 := by field_simp
      unfold clampQ clampZ
      rw [Int.cast_max, Int.cast_min, ← max_div_div_right hN0.le, ← min_div_div_right hN0.le, e, e1]
    rw [hz, ← sub_div, abs_div, abs_of_pos hN0]
    refine div_le_div_of_nonneg_right ?_ hN0.le
    have : |clampZ (-N - 1) N (b + m) - clampZ (-N) N (b + m)| ≤ 1 := by unfold clampZ; rw [abs_le]; omega
    exact_mod_cast this
  have t1 : |((m:ℚ) - v * W / N) / N| ≤ 1 / N := by
    rw [abs_div, abs_of_pos hN0]; exact div_le_div_of_nonneg_right hprod hN0.le
  have t2 : |(v:ℚ) / N * (W / N - ω)| ≤ 9 / (8 * N) := by
    rw [abs_mul]
    calc |(v:ℚ) / N| * |(W:ℚ) / N - ω| ≤ 1 * |(W:ℚ) / N - ω| := mul_le_mul_of_nonneg_right hvq (abs_nonneg _)
      _ ≤ _ := by rw [one_mul]; exact he
  have t3 : |clampQ (((b + m : ℤ):ℚ) / N) - clampQ ((b:ℚ) / N + v / N * ω)| ≤ 17 / (8 * N) := by
    refine (clampQ_lip _ _).trans ?_
    have e : ((b + m : ℤ):ℚ) / N - ((b:ℚ) / N + v / N * ω) = ((m:ℚ) - v * W / N) / N + (v:ℚ) / N * (W / N - ω) := by
      push_cast; field_simp; ring
    rw [e]
    have a2 := abs_add_le (((m:ℚ) - v * W / N) / N) ((v:ℚ) / N * (W / N - ω))
    have a3 : (1:ℚ) / N + 9 / (8 * N) = 17 / (8 * N) := by field_simp; norm_num
    linarith
  have := abs_sub_le (((clampZ (-N - 1) N (b + m) : ℤ) : ℚ) / N) (clampQ (((b + m : ℤ):ℚ) / N)) (clampQ ((b:ℚ) / N + v / N * ω))
  have a3 : (1:ℚ) / N + 17 / (8 * N) = 25 / (8 * N) := by field_simp; norm_num
  linarith

theorem clampQ_min {ω : ℚ} (h : 0 ≤ ω) : clampQ ω = min ω 1 := by
  rw [clampQ, max_eq_right, min_comm]
  exact le_min (by norm_num) (by linarith)

/-- Adding a sample with any weight, also one above 1. -/
theorem add_weighted {b v : c.T} {β w ω : ℚ} {W : F64} (hb : val c b β) (hv : val c v w) (hw : |w| ≤ 1) (hW : W.Is ω)
    (h0 : 0 ≤ ω) (h1 : ω ≤ 2 ^ 20) :
    ∃ β', val c (c.add b (c.mul v (c.ofF64 W))) β' ∧ |β' - clampQ (β + w * gain c ω)| ≤ mixErr c * (3 / 4 * ω + 3 / 2) := by
  cases c with
  | ch8 =>
    cases hb; cases hv
    have hv := int_of_val (by norm_num) rfl hw
    refine ⟨_, rfl, ?_⟩
    obtain ⟨e1, e2⟩ := weight_err (n := 8) (k := 7) (N := 127) (by norm_num) (by norm_num) (by norm_num) (by norm_num)
      (by decide) (by decide) (le_min h0 zero_le_one) (min_le_right ω 1)
    have eW : quantV binary64 8 (((2 * 127 + 1 : ℤ):ℚ) / 2) (min ω 1) = (ChTy.ch8.ofF64 W).toInt := by
      rw [ofF64_ch8_is hW, clampQ_min h0]; norm_num
    rw [eW] at e1 e2
    rw [C01_ch8_add, (C02_ch8 _ _).2]
    have ht := abs_le.mp (tdiv_le (by norm_num) hv e2)
    have := int_up (b := b.toInt) (by norm_num) hv e1 rfl
    rw [show clampZ (-128) 127 ((v.toInt * (ChTy.ch8.ofF64 W).toInt).tdiv 127) =
      (v.toInt * (ChTy.ch8.ofF64 W).toInt).tdiv 127 by unfold clampZ; omega]
    rw [show (-127 - 1 : ℤ) = -128 by norm_num] at this
    refine le_trans (b := 25 / (8 * 127)) ?_ ?_
    · push_cast at this ⊢
      exact this
    · change _ ≤ 17 / (8 * 127) * (3 / 4 * ω + 3 / 2)
      linarith
  | ch16 =>
    cases hb; cases hv
    have hv := int_of_val (by norm_num) rfl hw
    refine ⟨_, rfl, ?_⟩
    obtain ⟨e1, e2⟩ := weight_err (n := 16) (k := 15) (N := 32767) (by norm_num) (by norm_num) (by norm_num) (by norm_num)
      (by decide) (by decide) (le_min h0 zero_le_one) (min_le_right ω 1)
    have eW : quantV binary64 16 (((2 * 32767 + 1 : ℤ):ℚ) / 2) (min ω 1) = (ChTy.ch16.ofF64 W).toInt := by
      rw [ofF64_ch16_is hW, clampQ_min h0]; norm_num
    rw [eW] at e1 e2
    rw [C01_ch16_add, (C02_ch16 _ _).2]
    have ht := abs_le.mp (tdiv_le (by norm_num) hv e2)
    have := int_up (b := b.toInt) (by norm_num) hv e1 rfl
    rw [show clampZ (-32768) 32767 ((v.toInt * (ChTy.ch16.ofF64 W).toInt).tdiv 32767) =
      (v.toInt * (ChTy.ch16.ofF64 W).toInt).tdiv 32767 by unfold clampZ; omega]
    rw [show (-32767 - 1 : ℤ) = -32768 by norm_num] at this
    refine le_trans (b := 25 / (8 * 32767)) ?_ ?_
    · push_cast at this ⊢
      exact this
    · change _ ≤ 17 / (8 * 32767) * (3 / 4 * ω + 3 / 2)
      linarith
  | ch32 =>
    have hab : |ω| ≤ 2 ^ 20 := by rwa [abs_of_nonneg h0]
    have hc := hW.cast binary32 (small (hab.trans (by norm_num)))
    have he := err_one (f := binary32) ω
    rw [abs_of_nonneg h0] at he
    obtain ⟨β', g1, g2⟩ := float_up hb hv.1 hw hc (rnd_nonneg h0) h1 h0 he
    refine ⟨β', g1, g2.trans (le_of_eq ?_)⟩
    change 2 ^ (-24 : ℤ) * (3 * ω + 6) = 4 * 2 ^ (-24 : ℤ) * (3 / 4 * ω + 3 / 2)
    ring
  | ch64 =>
    obtain ⟨β', g1, g2⟩ := float_up hb hv.1 hw hW h0 h1 h0 (by
      rw [sub_self, abs_zero]; have := u_pos (f := binary64); positivity)
    refine ⟨β', g1, g2.trans (le_of_eq ?_)⟩
    change 2 ^ (-53 : ℤ) * (3 * ω + 6) = 4 * 2 ^ (-53 : ℤ) * (3 / 4 * ω + 3 / 2)
    ring


theorem mixErr_pos (c : ChTy) : 0 < mixErr c := by cases c <;> unfold mixErr <;> norm_num

theorem u_le_mixErr (c : ChTy) : 4 * 2 ^ (-53 : ℤ) ≤ mixErr c := by cases c <;> unfold mixErr <;> norm_num

theorem val_near {b : c.T} {β : ℚ} (h : val c b β) : |β - clampQ β| ≤ mixErr c := by
  have key : ∀ {n : ℕ} (x : BitVec n) (N : ℤ), 0 < N → -N - 1 ≤ x.toInt → x.toInt ≤ N →
      |((x.toInt : ℤ):ℚ) / N - clampQ ((x.toInt:ℚ) / N)| ≤ 1 / N := by
    intro n x N hN h1 h2
    have hN0 : (0:ℚ) < N := by exact_mod_cast hN
    have h1' : -(N:ℚ) - 1 ≤ x.toInt := by exact_mod_cast h1
    have h2' : (x.toInt:ℚ) ≤ N := by exact_mod_cast h2
    have g1 : -1 - 1 / (N:ℚ) ≤ (x.toInt:ℚ) / N := by
      rw [le_div_iff₀ hN0, sub_mul, div_mul_cancel₀ _ hN0.ne']; linarith
    have g2 : (x.toInt:ℚ) / N ≤ 1 := by rw [div_le_one hN0]; exact h2'
    have g3 : 0 < 1 / (N:ℚ) := by positivity
    unfold clampQ
    rw [min_eq_right g2]
    rcases max_cases (-1) ((x.toInt:ℚ) / N) with ⟨e, _⟩ | ⟨e, _⟩ <;> rw [e, abs_le] <;> constructor <;> linarith
  cases c with
  | ch8 =>
    cases h
    have := key b 127 (by norm_num) (by have := BitVec.le_toInt b; norm_num at this ⊢; exact this)
      (by have := BitVec.toInt_lt (x := b); norm_num at this; omega)
    refine le_trans ?_ (le_trans this ?_)
    · push_cast; exact le_rfl
    · change _ ≤ (17 / (8 * 127) : ℚ); norm_num
  | ch16 =>
    cases h
    have := key b 32767 (by norm_num) (by have := BitVec.le_toInt b; norm_num at this ⊢; exact this)
      (by have := BitVec.toInt_lt (x := b); norm_num at this; omega)
    refine le_trans ?_ (le_trans this ?_)
    · push_cast; exact le_rfl
    · change _ ≤ (17 / (8 * 32767) : ℚ); norm_num
  | ch32 => rw [clampQ_of_range (abs_le.mp h.2).1 (abs_le.mp h.2).2, sub_self, abs_zero]; exact (mixErr_pos _).le
  | ch64 => rw [clampQ_of_range (abs_le.mp h.2).1 (abs_le.mp h.2).2, sub_self, abs_zero]; exact (mixErr_pos _).le


/-- One frame. -/
theorem up_step {q off : F64} {r p w β : ℚ} {j x : Nat} {b v : c.T} (hq : q.Is r) (hr : 1 ≤ r) (hr1 : r ≤ 2 ^ 20)
    (hp : (posOf q off j).Is p) (hp0 : 0 ≤ p) (hp1 : p < 2 ^ 64) (hb : val c b β) (hv : val c v w) (hw : |w| ≤ 1) :
    let b1 := if (posOf q off j).toUsize = x then c.add b (c.mul v (c.ofF64 (loWeight q off j))) else b
    let b2 := if hiSlot (posOf q off j) = x then c.add b1 (c.mul v (c.ofF64 (hiWeight q off j))) else b1
    (⌊p⌋ = x → ∃ β2, val c b2 β2 ∧ |β2 - clampQ (β + w * upShare c r x p)| ≤ mixErr c * (r + 5 / 2)) ∧
    (⌊p⌋ + 1 = x → ∃ β2, val c b2 β2 ∧ |β2 - clampQ (β + w * upShare c r x p)| ≤ mixErr c * (5 / 2)) ∧
    (⌊p⌋ ≠ x → ⌊p⌋ + 1 ≠ x → b2 = b) := by
  intro b1 b2
  obtain ⟨h, l, hh, hl, e, h0, h1, l0, l1, hsum⟩ := weights_partial hq (by linarith) hp hp0
  have hε := mixErr_pos c
  have hu : (0:ℚ) < 2 ^ (-53:ℤ) := two_zpow_pos _
  have hε4 := u_le_mixErr c
  have hflz : 0 ≤ ⌊p⌋ := Int.floor_nonneg.mpr hp0
  have m1 : (⌊p⌋:ℚ) ≤ p := Int.floor_le p
  have m2 : p < ⌊p⌋ + 1 := Int.lt_floor_add_one p
  rw [min_eq_left (by linarith)] at e
  have hfl : (posOf q off j).toUsize = ⌊p⌋.toNat := toUsize_is hp hp0 hp1
  have hhi := hiSlot_is hp hp0
  rw [hfl, ← e] at hhi
  have e52 : (2:ℚ) ^ (-52:ℤ) = 2 * 2 ^ (-53:ℤ) := by
    rw [show (-52:ℤ) = 1 + -53 by norm_num, zpow_add₀ (by norm_num)]; norm_num
  rw [e52] at hhi
  have hlt : h < 1 := by linarith
  have wmul : ∀ t : ℚ, |w * t| ≤ |t| := fun t => by
    rw [abs_mul]; exact mul_le_of_le_one_left (abs_nonneg _) hw
  -- the lower weight
  have low : ∃ β1, val c (c.add b (c.mul v (c.ofF64 (loWeight q off j)))) β1 ∧
      |β1 - clampQ (β + w * gain c (r - h))| ≤ mixErr c * (r + 3 / 2) := by
    obtain ⟨β1, g1, g2⟩ := add_weighted hb hv hw hl l0 (l1.trans hr1)
    refine ⟨β1, g1, ?_⟩
    have t1 := clampQ_lip (β + w * gain c l) (β + w * gain c (r - h))
    rw [show β + w * gain c l - (β + w * gain c (r - h)) = w * (gain c l - gain c (r - h)) by ring] at t1
    have t2 := (wmul (gain c l - gain c (r - h))).trans (gain_lip c l (r - h))
    rw [show l - (r - h) = h + l - r by ring] at t2
    have t3 : (r - h) * 2 ^ (-53:ℤ) ≤ mixErr c * (1 / 4 * r) := by
      generalize (2:ℚ) ^ (-53:ℤ) = u at *
      nlinarith
    have t4 : mixErr c * (3 / 4 * l + 3 / 2) ≤ mixErr c * (3 / 4 * r + 3 / 2) :=
      mul_le_mul_of_nonneg_left (by linarith) hε.le
    have := abs_sub_le β1 (clampQ (β + w * gain c l)) (clampQ (β + w * gain c (r - h)))
    have t5 := t2.trans (hsum.trans t3)
    rw [show mixErr c * (r + 3 / 2) = mixErr c * (3 / 4 * r + 3 / 2) + mixErr c * (1 / 4 * r) by ring]
    linarith only [this, g2, t1, t5, t4]
  refine ⟨?_, ?_, ?_⟩
  · intro hx
    · -- the slot of the position
      have hs : upShare c r x p = gain c (r - h) := by rw [upShare, if_pos hx, e]
      have hx' : ⌊p⌋.toNat = x := by omega
      rw [hs]
      obtain ⟨β1, g1, g2⟩ := low
      have hb1 : b1 = c.add b (c.mul v (c.ofF64 (loWeight q off j))) := if_pos (hfl.trans hx')
      by_cases hc : 2 * 2 ^ (-53:ℤ) < h
      · rw [if_pos hc] at hhi
        have : b2 = b1 := if_neg (by omega)
        rw [this, hb1]
        exact ⟨β1, g1, g2.trans (mul_le_mul_of_nonneg_left (by linarith) hε.le)⟩
      · rw [if_neg hc] at hhi
        have : b2 = c.add b1 (c.mul v (c.ofF64 (hiWeight q off j))) := if_pos (hhi.trans hx')
        rw [this, hb1]
        obtain ⟨β2, f1, f2, _⟩ := (mixLaw c).tiny g1 hv hw hh h0 (by rw [e52]; exact not_lt.mp hc)
        refine ⟨β2, f1, ?_⟩
        have t4 := abs_sub_le β2 β1 (clampQ (β + w * gain c (r - h)))
        rw [e52] at f2
        linarith
  · intro hx
    · -- the slot after it
      have hx0 : ⌊p⌋ ≠ x := by omega
      have hs : upShare c r x p = h := by rw [upShare, if_neg hx0, if_pos hx, e]
      rw [hs]
      have hb1 : b1 = b := if_neg (by rw [hfl]; omega)
      by_cases hc : 2 * 2 ^ (-53:ℤ) < h
      · rw [if_pos hc] at hhi
        have : b2 = c.add b1 (c.mul v (c.ofF64 (hiWeight q off j))) := if_pos (by omega)
        rw [this, hb1]
        obtain ⟨β2, f1, f2⟩ := add_weighted hb hv hw hh h0 (by linarith)
        refine ⟨β2, f1, ?_⟩
        rw [gain_of_le c hlt.le] at f2
        exact f2.trans (mul_le_mul_of_nonneg_left (by linarith) hε.le)
      · rw [if_neg hc] at hhi
        have : b2 = b1 := if_neg (by omega)
        rw [this, hb1]
        refine ⟨β, hb, ?_⟩
        have t1 := clampQ_lip β (β + w * h)
        rw [show β - (β + w * h) = -(w * h) by ring, abs_neg] at t1
        have t3 := wmul h
        rw [abs_of_nonneg h0] at t3
        have t4 := abs_sub_le β (clampQ β) (clampQ (β + w * h))
        have t5 := val_near hb
        linarith [not_lt.mp hc]
  · intro hx hx'
    have hb1 : b1 = b := if_neg (by rw [hfl]; omega)
    have : b2 = b1 := if_neg (by rw [hhi]; split_ifs <;> omega)
    rw [this, hb1]

/-- Positions of later frames are in later slots. -/
theorem apart {r : ℚ} (hrep : binary64.Rep r) (hr : 1 ≤ r) {j : ℕ} (h : binary64.rnd (r * j) < 2 ^ 52) (hj : j ≤ 2 ^ 53) :
    ⌊binary64.rnd (r * j)⌋ < ⌊binary64.rnd (r * (j + 1 : ℕ))⌋ := by
  have h0 : 0 ≤ r * (j:ℚ) := by positivity
  set m := r * (j:ℚ) with hm
  have hm' : r * ((j + 1 : ℕ):ℚ) = m + r := by rw [hm]; push_cast; ring
  rw [hm', ← Int.add_one_le_iff, Int.le_floor]
  have ha0 : 0 ≤ binary64.rnd m := rnd_nonneg h0
  obtain ⟨x, hx⟩ := Int.eq_ofNat_of_zero_le (Int.floor_nonneg.mpr ha0)
  have hxq : ((⌊binary64.rnd m⌋ : ℤ):ℚ) = x := by rw [hx]; simp
  have f1 : (x:ℚ) ≤ binary64.rnd m := by rw [← hxq]; exact Int.floor_le _
  have f2 : binary64.rnd m < x + 1 := by rw [← hxq]; exact Int.lt_floor_add_one _
  have hx52 : x < 2 ^ 52 := by exact_mod_cast lt_of_le_of_lt f1 h
  have gx : binary64.Gen (x:ℚ) := (rep_nat53 (by omega)).gen
  have gx1 : binary64.Gen ((x:ℚ) + 1) := by
    have := (rep_nat53 (n := x + 1) (by omega)).gen
    push_cast at this; exact this
  push_cast
  rw [hxq]
  by_contra hc
  push Not at hc
  rcases le_or_gt (x:ℚ) m with hxm | hxm
  · have := le_rnd_of_gen (q := m + r) gx1 (by linarith)
    linarith
  · have hxe : binary64.rnd m = x := le_antisymm (rnd_le_of_gen gx hxm.le) f1
    set b := binary64.rnd (m + r) with hb
    have hbx : (x:ℚ) ≤ b := by rw [← hxe]; exact rnd_mono (by linarith)
    have hx1 : 1 ≤ x := by
      by_contra hx1
      have : x = 0 := by omega
      subst this
      simp at hxm; linarith
    have hx1q : (1:ℚ) ≤ x := by exact_mod_cast hx1
    -- one less is a float
    have gb : binary64.Gen (b - 1) := by
      obtain ⟨M, e, g1, g2, g3⟩ := gen_rnd (f := binary64) (m + r)
      rw [← hb] at g3
      rcases le_or_gt e 0 with he | he
      · have h1 : (1:ℚ) = ((2 ^ (-e).toNat : ℤ):ℚ) * 2 ^ e := by
          push_cast
          rw [← zpow_natCast, ← zpow_add₀ (by norm_num), Int.toNat_of_nonneg (by omega)]; simp
        have hb1 : b - 1 = ((M - 2 ^ (-e).toNat : ℤ):ℚ) * 2 ^ e := by
          rw [Int.cast_sub, sub_mul, ← g3, ← h1]
        refine ⟨_, e, ?_, g2, hb1⟩
        have hpos := two_zpow_pos e
        have i1 : (0:ℤ) ≤ M - 2 ^ (-e).toNat := by
          have : 0 ≤ ((M - 2 ^ (-e).toNat : ℤ):ℚ) * 2 ^ e := by rw [← hb1]; linarith
          have := nonneg_of_mul_nonneg_left this hpos
          exact_mod_cast this
        have i2 : (0:ℤ) < 2 ^ (-e).toNat := by positivity
        rw [abs_of_nonneg i1]
        have := le_abs_self M
        omega
      · have : b = ((M * 2 ^ e.toNat : ℤ):ℚ) := by
          rw [g3]; push_cast
          rw [← zpow_natCast, Int.toNat_of_nonneg (by omega)]
        rw [this] at hbx hc ⊢
        have i1 : (x:ℤ) ≤ M * 2 ^ e.toNat := by exact_mod_cast hbx
        have i2 : M * 2 ^ e.toNat < (x:ℤ) + 1 := by exact_mod_cast hc
        have i3 : M * 2 ^ e.toNat = x := by omega
        rw [i3]
        have := (rep_nat53 (n := x - 1) (by omega)).gen
        rw [Nat.cast_sub hx1] at this
        push_cast at this ⊢; exact this
    have n1 := rnd_nearest (f := binary64) m (b - 1) gb
    have n2 := rnd_nearest (f := binary64) (m + r) (x + 1) gx1
    rw [hxe, abs_of_pos (by linarith)] at n1
    rw [← hb] at n2
    -- the fraction of the position was lost by rounding, so the ratio is 1
    have k1 : m + r ≤ (b + x + 1) / 2 := by
      by_contra hk
      push Not at hk
      have : |(x:ℚ) + 1 - (m + r)| < |b - (m + r)| := by
        rw [abs_lt]
        have := neg_abs_le (b - (m + r))
        constructor <;> linarith [neg_abs_le (b - (m + r)), le_abs_self (b - (m + r))]
      linarith
    have k2 : (b - 1 + x) / 2 ≤ m := by
      rcases le_or_gt m (b - 1) with h3 | h3
      · rw [abs_of_nonneg (by linarith)] at n1; linarith
      · rw [abs_of_neg (by linarith)] at n1; linarith
    have hr1 : r = 1 := by linarith
    rw [hr1, one_mul] at hm
    have : binary64.rnd m = m := by rw [hm]; exact rnd_of_gen (rep_nat53 hj).gen
    linarith

/-- Positions of the frames that a fresh sink takes. -/
theorem up_pos {q : F64} {r : ℚ} {len : Option Nat} {B n : Nat} (hq : q.Is r) (hr : 1 ≤ r) (hr1 : r ≤ 2 ^ 20)
    (hB : B ≤ 2 ^ 52) (a1 : Takes q (lit 0) len B n) :
    n ≤ B ∧ (∀ j, j ≤ 2 ^ 53 → (q.mul (f64OfUsize j)).Is (binary64.rnd (r * j)) ∧
      (posOf q (lit 0) j).Is (binary64.rnd (r * j)) ∧ 0 ≤ binary64.rnd (r * j) ∧ (j:ℚ) ≤ binary64.rnd (r * j)) ∧
    (∀ j, j < n → binary64.rnd (r * j) < B) ∧
    (∀ j j', j < j' → j' ≤ n → ⌊binary64.rnd (r * j)⌋ < ⌊binary64.rnd (r * j')⌋) := by
  have hp : ∀ j : ℕ, j ≤ 2 ^ 53 → (q.mul (f64OfUsize j)).Is (binary64.rnd (r * j)) ∧
      (posOf q (lit 0) j).Is (binary64.rnd (r * j)) ∧ 0 ≤ binary64.rnd (r * j) ∧ (j:ℚ) ≤ binary64.rnd (r * j) := by
    intro j hj
    have hjq : (j:ℚ) ≤ 2 ^ 53 := by exact_mod_cast hj
    have h1 : (q.mul (f64OfUsize j)).Is (binary64.rnd (r * j)) := by
      refine hq.mul (is_usize hj) (small ?_)
      rw [abs_of_nonneg (by positivity)]
      calc r * j ≤ 2 ^ 20 * 2 ^ 53 := mul_le_mul hr1 hjq (by positivity) (by norm_num)
        _ ≤ _ := by norm_num
    have h2 : (j:ℚ) ≤ binary64.rnd (r * j) := le_rnd_of_gen (rep_nat53 hj).gen (by nlinarith [(j.cast_nonneg : (0:ℚ) ≤ j)])
    exact ⟨h1, add_zero' h1 is_zero, le_trans (by positivity) h2, h2⟩
  have hn : n ≤ B := by
    by_contra hc
    obtain ⟨_, p1, _, p3⟩ := hp B (by omega)
    have := le_toUsize p1 p3 (by omega)
    have := (a1.1 B (by omega)).1
    omega
  have hlt : ∀ j, j < n → binary64.rnd (r * j) < B := by
    intro j hj
    by_contra hc
    obtain ⟨_, p1, _, _⟩ := hp j (by omega)
    have := le_toUsize p1 (not_lt.mp hc) (by omega)
    have := (a1.1 j hj).1
    omega
  refine ⟨hn, hp, hlt, ?_⟩
  intro j j' hjj
  induction j', hjj using Nat.le_induction with
  | base =>
    intro hj
    have hBq : (B:ℚ) ≤ 2 ^ 52 := by exact_mod_cast hB
    exact apart hq.rep hr (lt_of_lt_of_le (hlt j (by omega)) hBq) (by omega)
  | succ m hm ih =>
    intro hj
    have hBq : (B:ℚ) ≤ 2 ^ 52 := by exact_mod_cast hB
    exact (ih (by omega)).trans (apart hq.rep hr (lt_of_lt_of_le (hlt m (by omega)) hBq) (by omega))

theorem up_mixed {q off : F64} {r : ℚ} (hq : q.Is r) (hr : 1 ≤ r) (hr1 : r ≤ 2 ^ 20) (i : Nat) (hi : i < k.chans)
    (P : Nat → ℚ) (w : Nat → ℚ) (g : Nat → Frame k c) (x n : Nat)
    (hp : ∀ j, j < n → (posOf q off j).Is (P j) ∧ 0 ≤ P j ∧ P j < 2 ^ 64)
    (hmono : ∀ j j', j < j' → j' < n → ⌊P j⌋ < ⌊P j'⌋)
    (hg : ∀ j, j < n → val c (g j)[i] (w j) ∧ |w j| ≤ 1) :
    ∃ β, val c (mixed q off g x n Frame.dflt)[i] β ∧
      |β - clampQ (∑ j ∈ Finset.range n, w j * upShare c r x (P j))| ≤ mixErr c * (r + 5) ∧
      ((∀ j, j < n → ⌊P j⌋ < x) → |β - clampQ (∑ j ∈ Finset.range n, w j * upShare c r x (P j))| ≤ mixErr c * (5 / 2) ∧
        |∑ j ∈ Finset.range n, w j * upShare c r x (P j)| ≤ 1) ∧
      ((∀ j, j < n → ⌊P j⌋ + 1 < x) → β = 0 ∧ ∑ j ∈ Finset.range n, w j * upShare c r x (P j) = 0) := by
  have hε := mixErr_pos c
  have hδ : 0 ≤ mixErr c * (r + 5) := by positivity
  have c0 : clampQ 0 = 0 := clampQ_of_range (by norm_num) (by norm_num)
  induction n with
  | zero =>
    refine ⟨0, ?_, ?_, ?_, ?_⟩
    · rw [mixed, dflt_get]; exact (mixLaw c).dflt
    all_goals simp [c0, hδ, hε.le]
  | succ n ih =>
    obtain ⟨β, hβ, d1, d2, d3⟩ := ih (fun j hj => hp j (by omega)) (fun j j' h h' => hmono j j' h (by omega))
      (fun j hj => hg j (by omega))
    obtain ⟨p1, p2, p3⟩ := hp n (by omega)
    obtain ⟨v1, v2⟩ := hg n (by omega)
    have hst := up_step (x := x) hq hr hr1 p1 p2 p3 hβ v1 v2
    have hget : (mixed q off g x (n + 1) Frame.dflt)[i] =
        (if hiSlot (posOf q off n) = x then
          c.add (if (posOf q off n).toUsize = x then c.add (mixed q off g x n Frame.dflt)[i]
            (c.mul (g n)[i] (c.ofF64 (loWeight q off n))) else (mixed q off g x n Frame.dflt)[i])
            (c.mul (g n)[i] (c.ofF64 (hiWeight q off n)))
          else (if (posOf q off n).toUsize = x then c.add (mixed q off g x n Frame.dflt)[i]
            (c.mul (g n)[i] (c.ofF64 (loWeight q off n))) else (mixed q off g x n Frame.dflt)[i])) := by
      simp only [mixed]
      split_ifs <;> simp only [add_mul_get]
    obtain ⟨s1, s1', s2⟩ := hst
    rw [← hget] at s1 s1' s2
    rw [Finset.sum_range_succ]
    set S := ∑ j ∈ Finset.range n, w j * upShare c r x (P j) with hS
    by_cases hA : ⌊P n⌋ = x
    · obtain ⟨β2, b1, b2⟩ := s1 hA
      obtain ⟨e1, e2⟩ := d2 (fun j hj => by have := hmono j n hj (by omega); omega)
      rw [clampQ_of_range (abs_le.mp e2).1 (abs_le.mp e2).2] at e1
      refine ⟨β2, b1, ?_, fun hh => ?_, fun hh => ?_⟩
      · have t1 := clampQ_lip (β + w n * upShare c r x (P n)) (S + w n * upShare c r x (P n))
        rw [add_sub_add_right_eq_sub] at t1
        have := abs_sub_le β2 (clampQ (β + w n * upShare c r x (P n))) (clampQ (S + w n * upShare c r x (P n)))
        linarith
      · have := hh n (by omega); omega
      · have := hh n (by omega); omega
    · by_cases hN : ⌊P n⌋ + 1 = x
      · obtain ⟨β2, b1, b2⟩ := s1' hN
        obtain ⟨e1, e2⟩ := d3 (fun j hj => by have := hmono j n hj (by omega); omega)
        rw [e1, zero_add] at b2
        rw [e2, zero_add]
        refine ⟨β2, b1, b2.trans (mul_le_mul_of_nonneg_left (by linarith) hε.le), fun _ => ⟨b2, ?_⟩, fun hh => ?_⟩
        · have : upShare c r x (P n) = P n - ⌊P n⌋ := by rw [upShare, if_neg hA, if_pos hN]
          rw [this, abs_mul]
          have f1 := Int.floor_le (P n)
          have f2 := Int.lt_floor_add_one (P n)
          exact mul_le_one₀ v2 (abs_nonneg _) (by rw [abs_of_nonneg (by linarith)]; linarith)
        · have := hh n (by omega); omega
      · have hz : upShare c r x (P n) = 0 := by rw [upShare, if_neg hA, if_neg hN]
        have := s2 hA hN
        rw [hz, mul_zero, add_zero, this]
        exact ⟨β, hβ, d1, fun hh => d2 (fun j hj => hh j (by omega)), fun hh => d3 (fun j hj => hh j (by omega))⟩

/-- C101: when the rate of the sink is at least that of the stream (ratio `r ≥ 1`), a slot of the destination range gets
the sum of `w j` times the share of frame `j`, clamped and up to a small error.  No two frames have their position in the
same slot, so at most two frames reach a slot.  For every channel format and layout and every finite or infinite stream. -/
theorem C101_mix (fuel : Nat) (s s' : Sink k c) (st : Src k' c') (it : It k' c')
    (h : s.stream fuel st = .ok (s', it)) (ho : s.res.offseti = lit 0) (r : ℚ)
    (hq : (ratioOf s.rate st.rate).Is r) (hr : 1 ≤ r) (hr1 : r ≤ 2 ^ 20) (hb : s.buf.length ≤ 2 ^ 52)
    (i : Nat) (hi : i < k.chans) (w : Nat → ℚ)
    (hw : ∀ j f, st.nth j = .ok (some f) → ∀ x : Frame k c, f.convert c = .ok x → SampleVal c x[i] (w j) ∧ |w j| ≤ 1) :
    ∃ n, Takes (ratioOf s.rate st.rate) (lit 0) st.len s.buf.length n ∧ n ≤ s.buf.length ∧
      (∀ j j', j < j' → j' ≤ n → ⌊binary64.rnd (r * j)⌋ < ⌊binary64.rnd (r * j')⌋) ∧
      ∀ x, InDst (ratioOf s.rate st.rate) st.len s.buf.length x →
        ∃ (y : Frame k c) (b : ℚ), s'.buf[x]? = some y ∧ SampleVal c y[i] b ∧
          |b - clampQ (∑ j ∈ Finset.range n, w j * upShare c r x (binary64.rnd (r * j)))| ≤ mixErr c * (r + 5) := by
  obtain ⟨n, g, a1, a2, a0, _⟩ := C58_mix fuel s s' st it h
  rw [ho] at a1 a0
  obtain ⟨hn, hp, hlt, hmono⟩ := up_pos hq hr hr1 hb a1
  refine ⟨n, a1, hn, hmono, fun x hin => ?_⟩
  obtain ⟨β, b1, b2, _⟩ := up_mixed (k := k) (c := c) hq hr hr1 i hi (fun j => binary64.rnd (r * j)) w g x n
    (fun j hj => ⟨(hp j (by omega)).2.1, (hp j (by omega)).2.2.1, (hlt j hj).trans_le (by
      have : (s.buf.length:ℚ) ≤ 2 ^ 52 := by exact_mod_cast hb
      linarith)⟩) (fun j j' h1 h2 => hmono j j' h1 h2.le) (fun j hj => by
      obtain ⟨f, f1, f2⟩ := a2 j hj
      obtain ⟨v1, v2⟩ := hw j f f1 _ f2
      exact ⟨val_of v1 v2, v2⟩)
  refine ⟨_, β, a0 x hin, of_val b1, b2⟩

example := C101_mix 6 (exSink 9 12) _ (.audio (exAudio 8)) _
  (R.returns₂ (x := (exSink 9 12).stream 6 (.audio (exAudio 8))) (by decide +kernel)) rfl (3 / 2)
  (by decide +kernel) (by norm_num) (by norm_num) (by decide +kernel) 0 (by decide)
  (fun j => if j < 5 then (j + 1) / 127 else 0) (by
    intro j f hf x hx
    match j with
    | 0 | 1 | 2 | 3 | 4 => cases hf; cases hx; decide +kernel
    | j + 5 => cases hf)

/-- C101: a slot is silent if no frame has its position in it or in the slot before it. -/
theorem C101_silent (fuel : Nat) (s s' : Sink k c) (st : Src k' c') (it : It k' c')
    (h : s.stream fuel st = .ok (s', it)) (ho : s.res.offseti = lit 0) (r : ℚ)
    (hq : (ratioOf s.rate st.rate).Is r) (hr : 1 ≤ r) (hr1 : r ≤ 2 ^ 20) (hb : s.buf.length ≤ 2 ^ 52)
    (x : Nat) (hx : InDst (ratioOf s.rate st.rate) st.len s.buf.length x)
    (hgap : ∀ j : ℕ, ⌊binary64.rnd (r * j)⌋ ≠ x ∧ ⌊binary64.rnd (r * j)⌋ + 1 ≠ x) :
    s'.buf[x]? = some Frame.dflt := by
  obtain ⟨n, g, a1, a2, a0, _⟩ := C58_mix fuel s s' st it h
  rw [ho] at a1 a0
  obtain ⟨hn, hp, hlt, _⟩ := up_pos hq hr hr1 hb a1
  have hBq : (s.buf.length:ℚ) ≤ 2 ^ 52 := by exact_mod_cast hb
  rw [a0 x hx]
  have key : ∀ m, m ≤ n → mixed (ratioOf s.rate st.rate) (lit 0) g x m (Frame.dflt : Frame k c) = Frame.dflt := by
    intro m
    induction m with
    | zero => intro _; rfl
    | succ m ih =>
      intro hm
      obtain ⟨_, p1, p2, _⟩ := hp m (by omega)
      obtain ⟨g1, g2⟩ := hgap m
      have hf := toUsize_is p1 p2 ((hlt m hm).trans_le (by linarith))
      have hfl := Int.floor_nonneg.mpr p2
      have hhi := hiSlot_is p1 p2
      simp only [mixed]
      rw [ih (by omega), if_neg, if_neg]
      · rw [hf]; omega
      · rw [hhi, hf]; split_ifs <;> omega
  rw [key n le_rfl]

/-- Slot 2 is silent when upsampling by 3. -/
example : ∃ s' it, (exSink 9 24).stream 6 (.audio (exAudio 8)) = .ok (s', it) ∧ s'.buf[2]? = some Frame.dflt := by
  refine ⟨_, _, R.returns₂ (x := (exSink 9 24).stream 6 (.audio (exAudio 8))) (by decide +kernel),
    C101_silent 6 (exSink 9 24) _ (.audio (exAudio 8)) _
    (R.returns₂ (x := (exSink 9 24).stream 6 (.audio (exAudio 8))) (by decide +kernel)) rfl 3
    (by decide +kernel) (by norm_num) (by norm_num) (by decide +kernel) 2 (by decide +kernel) fun j => ?_⟩
  match j with
  | 0 => decide +kernel
  | j + 1 =>
    have h : Fmt.rnd binary64 3 ≤ Fmt.rnd binary64 (3 * (j + 1 : ℕ)) := binary64.rnd_mono (by push_cast; nlinarith [(Nat.cast_nonneg j : (0:ℚ) ≤ j)])
    rw [show Fmt.rnd binary64 3 = 3 by decide +kernel] at h
    have : (3:ℤ) ≤ ⌊Fmt.rnd binary64 (3 * (j + 1 : ℕ))⌋ := Int.le_floor.mpr (by exact_mod_cast h)
    omega

theorem gain_mono (c : ChTy) {s t : ℚ} (h : s ≤ t) : gain c s ≤ gain c t := by
  cases c
  · exact min_le_min_right _ h
  · exact min_le_min_right _ h
  · exact h
  · exact h

/-- The shares of a slot at a ratio from 1 to 2. -/
theorem share_sum (c : ChTy) {r η : ℚ} (hr : 1 ≤ r) (hr2 : r ≤ 2) (hη : 0 ≤ η) (P : ℕ → ℚ) (n x : ℕ) (hP0 : P 0 = 0)
    (hP : ∀ j, j ≤ n → 0 ≤ P j ∧ |P j - r * j| ≤ η) (hmono : ∀ j j', j < j' → j' ≤ n → ⌊P j⌋ < ⌊P j'⌋)
    (hend : (x:ℚ) + 1 ≤ P n) :
    2 - r - 2 * η ≤ ∑ j ∈ Finset.range n, upShare c r x (P j) ∧
      ∑ j ∈ Finset.range n, upShare c r x (P j) ≤ gain c r + 2 * η := by
  have hg1 : 1 ≤ gain c r := by have := gain_mono c hr; rwa [gain_of_le c le_rfl] at this
  -- the last frame before the end of the slot
  classical
  have hex : ∃ a, (x:ℚ) + 1 ≤ P a := ⟨n, hend⟩
  obtain ⟨a, ha, hmin⟩ : ∃ a, (x:ℚ) + 1 ≤ P a ∧ ∀ b, b < a → P b < x + 1 :=
    ⟨Nat.find hex, Nat.find_spec hex, fun b hb => not_le.mp (Nat.find_min hex hb)⟩
  have han : a ≤ n := by
    by_contra hc
    have := hmin n (by omega)
    linarith
  have ha0 : a ≠ 0 := by
    rintro rfl
    rw [hP0] at ha
    have : (0:ℚ) ≤ x := by positivity
    linarith
  obtain ⟨j, rfl⟩ : ∃ j, a = j + 1 := ⟨a - 1, by omega⟩
  have hj := hmin j (by omega)
  obtain ⟨q1, q2⟩ := hP j (by omega)
  obtain ⟨q3, q4⟩ := hP (j + 1) han
  rw [abs_le] at q2 q4
  push_cast at q4
  have hfl : ⌊P j⌋ ≤ x := by
    have : ⌊P j⌋ < (x:ℤ) + 1 := Int.floor_lt.mpr (by push_cast; exact hj)
    omega
  have hfa : (x:ℤ) + 1 ≤ ⌊P (j + 1)⌋ := Int.le_floor.mpr (by push_cast; exact ha)
  have hz : ∀ b, b < n → b ≠ j → b + 1 ≠ j → upShare c r x (P b) = 0 := by
    intro b hb h1 h2
    have : ⌊P b⌋ ≠ x ∧ ⌊P b⌋ + 1 ≠ x := by
      rcases Nat.lt_or_gt_of_ne h1 with h | h
      · have i1 := hmono b (b + 1) (by omega) (by omega)
        have i2 := hmono (b + 1) j (by omega) (by omega)
        omega
      · rcases eq_or_ne b (j + 1) with rfl | hb'
        · omega
        · have := hmono (j + 1) b (by omega) (by omega)
          omega
    rw [upShare, if_neg this.1, if_neg this.2]
  have f1 := Int.floor_le (P j)
  have f2 := Int.lt_floor_add_one (P j)
  rcases Nat.eq_zero_or_pos j with rfl | hj0
  · -- the first frame
    rw [Finset.sum_eq_single 0 (fun b hb hb0 => hz b (Finset.mem_range.mp hb) hb0 (by omega))
      (fun hb => absurd (Finset.mem_range.mpr (by omega)) hb)]
    push_cast at q4
    have hx1 : (x:ℚ) + 1 ≤ r + η := by linarith
    unfold upShare
    rw [hP0] at *
    simp only [Int.floor_zero, Int.cast_zero, sub_zero]
    split_ifs with h1 h2
    · exact ⟨by linarith, by linarith⟩
    · exact ⟨by
        have : (x:ℚ) = 1 := by exact_mod_cast h2.symm
        linarith, by linarith⟩
    · refine ⟨?_, by linarith⟩
      have : (2:ℚ) ≤ x := by
        have : (2:ℤ) ≤ x := by omega
        exact_mod_cast this
      linarith
  · obtain ⟨i, rfl⟩ : ∃ i, j = i + 1 := ⟨j - 1, by omega⟩
    rw [Finset.sum_eq_add i (i + 1) (by omega) (fun b hb hb' => hz b (Finset.mem_range.mp hb) hb'.2 (by omega))
      (fun hb => absurd (Finset.mem_range.mpr (by omega)) hb) (fun hb => absurd (Finset.mem_range.mpr (by omega)) hb)]
    obtain ⟨q5, q6⟩ := hP i (by omega)
    rw [abs_le] at q6
    push_cast at q2 q4
    have hii := hmono i (i + 1) (by omega) (by omega)
    have f3 := Int.floor_le (P i)
    have f4 := Int.lt_floor_add_one (P i)
    have hiu : upShare c r x (P i) = if ⌊P i⌋ + 1 = x then P i - ⌊P i⌋ else 0 := by
      rw [upShare, if_neg (by omega)]
    rw [hiu]
    rcases hfl.lt_or_eq with hlt | heq
    · have i1 : ⌊P i⌋ + 1 ≠ x := by omega
      rw [if_neg i1, zero_add, upShare, if_neg (by omega)]
      split_ifs with h2
      · have : ((⌊P (i + 1)⌋ : ℤ):ℚ) + 1 = x := by exact_mod_cast congrArg (Int.cast : ℤ → ℚ) h2
        exact ⟨by linarith, by linarith⟩
      · have : ((⌊P (i + 1)⌋ : ℤ):ℚ) + 1 + 1 ≤ x := by
          have : ⌊P (i + 1)⌋ + 1 + 1 ≤ (x:ℤ) := by omega
          exact_mod_cast this
        exact ⟨by linarith, by linarith⟩
    · rw [upShare, if_pos heq, heq, Int.cast_natCast]
      have heq' : ((⌊P (i + 1)⌋ : ℤ):ℚ) = x := by rw [heq]; simp
      have gl := gain_le c (r - (P (i + 1) - x))
      have gm := gain_mono c (show r - (P (i + 1) - x) ≤ r by linarith)
      have gcase : gain c (r - (P (i + 1) - x)) = r - (P (i + 1) - x) ∨ 1 ≤ gain c (r - (P (i + 1) - x)) := by
        rcases le_total (r - (P (i + 1) - x)) 1 with h | h
        · exact .inl (gain_of_le c h)
        · have := gain_mono c h
          rw [gain_of_le c le_rfl] at this
          exact .inr this
      split_ifs with h2
      · have : ((⌊P i⌋ : ℤ):ℚ) + 1 = x := by exact_mod_cast congrArg (Int.cast : ℤ → ℚ) h2
        constructor
        · rcases gcase with h | h <;> linarith
        · linarith
      · have : ((⌊P i⌋ : ℤ):ℚ) + 1 + 1 ≤ x := by
          have : ⌊P i⌋ + 1 + 1 ≤ (x:ℤ) := by omega
          exact_mod_cast this
        constructor
        · rcases gcase with h | h <;> linarith
        · linarith

/-- C101: a constant signal of value `w` at a ratio `r` from 1 to 2 arrives with an amplitude between `2 - r` and `r`
times `w`; in the integer formats it is never louder than `w`. -/
theorem C101_const (fuel : Nat) (s s' : Sink k c) (st : Src k' c') (it : It k' c')
    (h : s.stream fuel st = .ok (s', it)) (ho : s.res.offseti = lit 0) (r : ℚ)
    (hq : (ratioOf s.rate st.rate).Is r) (hr : 1 ≤ r) (hr2 : r ≤ 2) (hb : s.buf.length ≤ 2 ^ 51)
    (i : Nat) (hi : i < k.chans) (w : ℚ)
    (hw : ∀ j f, st.nth j = .ok (some f) → ∀ x : Frame k c, f.convert c = .ok x → SampleVal c x[i] w) (hw1 : |w| ≤ 1)
    (x : Nat) (hx : InDst (ratioOf s.rate st.rate) st.len s.buf.length x) :
    let η : ℚ := (s.buf.length + 4) * 2 ^ (-53 : ℤ)
    ∃ (y : Frame k c) (b σ : ℚ), s'.buf[x]? = some y ∧ SampleVal c y[i] b ∧ |b - clampQ (w * σ)| ≤ mixErr c * (r + 5) ∧
      2 - r - 2 * η ≤ σ ∧ σ ≤ (match c with | .ch8 => 1 | .ch16 => 1 | .ch32 => r | .ch64 => r) + 2 * η := by
  intro η
  obtain ⟨n, a1, hn, hmono, ha⟩ := C101_mix fuel s s' st it h ho r hq hr (hr2.trans (by norm_num)) (by omega) i hi
    (fun _ => w) (fun j f h1 y h2 => ⟨hw j f h1 y h2, hw1⟩)
  obtain ⟨_, hp, hlt, _⟩ := up_pos hq hr (hr2.trans (by norm_num)) (by omega) a1
  obtain ⟨y, b, b1, b2, b3⟩ := ha x hx
  have hu0 : (0:ℚ) < 2 ^ (-53:ℤ) := two_zpow_pos _
  have hη0 : 0 ≤ η := by positivity
  have hBq : (s.buf.length:ℚ) ≤ 2 ^ 51 := by exact_mod_cast hb
  -- accuracy of the positions
  have hrel : ∀ j : ℕ, |binary64.rnd (r * j) - r * j| ≤ r * j * 2 ^ (-53:ℤ) := by
    intro j
    obtain ⟨m, hm⟩ := gen_mult hq.rep.gen
    have := rel_err (f := binary64) (q := r * j) (m * j) (by rw [hm]; push_cast; ring)
    rwa [abs_of_nonneg (show (0:ℚ) ≤ r * j from mul_nonneg (by linarith) j.cast_nonneg)] at this
  have hlen : ∀ j : ℕ, j ≤ n → r * j ≤ s.buf.length + 4 := by
    have hlt' : ∀ j : ℕ, j < n → r * j ≤ s.buf.length + 1 := by
      intro j hj
      have h1 := hlt j hj
      have h2 := (abs_le.mp (hrel j)).1
      by_contra hc
      push Not at hc
      have h3 : (s.buf.length + 1 : ℚ) * (1 - 2 ^ (-53:ℤ)) < r * j * (1 - 2 ^ (-53:ℤ)) :=
        mul_lt_mul_of_pos_right hc (by norm_num)
      have h4 : (s.buf.length + 1 : ℚ) * 2 ^ (-53:ℤ) ≤ (2 ^ 51 + 1) * 2 ^ (-53:ℤ) :=
        mul_le_mul_of_nonneg_right (by linarith) hu0.le
      have h5 : ((2:ℚ) ^ 51 + 1) * 2 ^ (-53:ℤ) ≤ 1 := by norm_num
      nlinarith
    intro j hj
    rcases Nat.eq_zero_or_pos j with rfl | hj0
    · push_cast; rw [mul_zero]; positivity
    · have := hlt' (j - 1) (by omega)
      rw [Nat.cast_sub hj0] at this
      push_cast at this
      linarith
  have hP : ∀ j : ℕ, j ≤ n → 0 ≤ binary64.rnd (r * j) ∧ |binary64.rnd (r * j) - r * j| ≤ η := by
    intro j hj
    refine ⟨(hp j (by omega)).2.2.1, (hrel j).trans ?_⟩
    exact mul_le_mul_of_nonneg_right (hlen j hj) hu0.le
  -- the end of the signal is after the slot
  have hend : (x:ℚ) + 1 ≤ binary64.rnd (r * n) := by
    obtain ⟨m1, p1, h0, _⟩ := hp n (by omega)
    have hlt : binary64.rnd (r * n) < 2 ^ 64 := by
      have h1 := hlen n le_rfl
      have h2 := (abs_le.mp (hP n le_rfl).2).2
      have h3 : η ≤ (2 ^ 51 + 4) * 2 ^ (-53:ℤ) := mul_le_mul_of_nonneg_right (by linarith) hu0.le
      have h4 : ((2:ℚ) ^ 51 + 4) * 2 ^ (-53:ℤ) ≤ 1 := by norm_num
      linarith
    have key : ∀ z : F64, z.Is (binary64.rnd (r * n)) → x < z.toUsize → (x:ℚ) + 1 ≤ binary64.rnd (r * n) := by
      intro z hz hxz
      rw [toUsize_is hz h0 hlt] at hxz
      have : ((x + 1 : ℕ) : ℤ) ≤ ⌊binary64.rnd (r * n)⌋ := by omega
      rw [Int.le_floor] at this
      push_cast at this; exact this
    rcases a1.2.2 with hl | hl
    · exact key _ m1 (hx.2 n hl)
    · refine key _ p1 ?_
      by_contra hc
      apply hl
      refine ⟨by have := hx.1; omega, fun l hl => ?_⟩
      have := hx.2 l hl
      omega
  obtain ⟨σ1, σ2⟩ := share_sum c hr hr2 hη0 (fun j => binary64.rnd (r * j)) n x (by simp [rnd_zero]) hP hmono hend
  rw [← Finset.mul_sum] at b3
  refine ⟨y, b, _, b1, b2, b3, σ1, σ2.trans ?_⟩
  cases c
  · exact add_le_add_left (min_le_right _ _) _
  · exact add_le_add_left (min_le_right _ _) _
  · exact le_rfl
  · exact le_rfl

/-- Four equal frames. -/
def exEven : Audio .mono .ch8 := ⟨lit 8, List.replicate 4 #v[50#8]⟩

example := C101_const 6 (exSink 6 12) _ (.audio exEven) _
  (R.returns₂ (x := (exSink 6 12).stream 6 (.audio exEven)) (by decide +kernel)) rfl (3 / 2)
  (by decide +kernel) (by norm_num) (by norm_num) (by decide +kernel) 0 (by decide) (50 / 127) (by
    intro j f hf x hx
    match j with
    | 0 | 1 | 2 | 3 => cases hf; cases hx; decide +kernel
    | j + 4 => cases hf) (by decide +kernel) 2 (by decide +kernel)

/-- A constant 0.5 at a ratio of 1.5: the amplitude is 1.5, 1 and 0.5 times that of the signal, over and over. In an
integer format it is 1, 1, 0.5. -/
example : ((⟨lit 12, Resampler.dflt, List.replicate 6 #v[lit 0]⟩ : Sink .mono .ch64).stream 9
      (.audio (k := .mono) (c := .ch64) ⟨lit 8, List.replicate 4 #v[lit 0.5]⟩)).map (fun r => r.1.buf) =
      .ok [#v[lit 0.75], #v[lit 0.5], #v[lit 0.25], #v[lit 0.75], #v[lit 0.5], #v[lit 0.25]] ∧
    ((exSink 6 12).stream 9 (.audio (k := .mono) (c := .ch8) ⟨lit 8, List.replicate 4 #v[50#8]⟩)).map (fun r => r.1.buf) =
      .ok [#v[50#8], #v[50#8], #v[24#8], #v[50#8], #v[50#8], #v[24#8]] := by constructor <;> decide +kernel

end Fon
