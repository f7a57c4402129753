import Verif.Proofs.DC

/-!
# Accuracy of adding a weighted sample, per channel format
-/

namespace Fon
open Fon.Fl hiding min max
open Fon.Fmt Fon.Sink

/-- Value of a float sample. -/
def valF {f : Fmt} (x : Fl f) (β : ℚ) : Prop := x.Is β ∧ |β| ≤ 1

theorem float_step {f : Fmt} [Std f] {b v W : Fl f} {β w ω ω' : ℚ} (hb : valF b β) (hv : v.Is w) (hw : |w| ≤ 1)
    (hW : W.Is ω') (h0 : 0 ≤ ω') (h1 : ω' ≤ 1) (he : |ω' - ω| ≤ f.u) :
    ∃ β', valF (ChF.add b (ChF.mul v W)) β' ∧ ∀ y, |y| ≤ 1 → |β' - y| ≤ |β + w * ω - y| + 4 * f.u := by
  obtain ⟨hb, hb1⟩ := hb
  have hone : f.Rep 1 := (is_one (f := f)).rep
  have p1 : |w * ω'| ≤ 1 := by
    rw [abs_mul, abs_of_nonneg h0]; exact mul_le_one₀ hw h0 h1
  have p2 := abs_rnd_le_of_rep hone p1
  have p3 : |f.rnd (w * ω') - w * ω'| ≤ f.u := by
    have := err_lt_u (f := f) 1 (lt_of_le_of_lt p1 (by norm_num)) (by norm_num)
    simpa using this
  have hP := hv.mul hW (p2.trans one_le_maxF)
  have s1 : |β + f.rnd (w * ω')| ≤ 2 := (abs_add_le _ _).trans (by linarith)
  have s2 : |f.rnd (β + f.rnd (w * ω')) - (β + f.rnd (w * ω'))| ≤ 2 * f.u := by
    have := err_lt_u (f := f) 2 (lt_of_le_of_lt s1 (by norm_num)) (by norm_num)
    simpa using this
  have hS := hb.add hP (small (s1.trans (by norm_num)))
  refine ⟨_, ⟨clamp1_is hS, abs_le.mpr (clampQ_range _)⟩, fun y hy => ?_⟩
  rw [abs_le] at hy
  refine (clampQ_near hy.1 hy.2).trans ?_
  have t : |w * (ω' - ω)| ≤ f.u := by
    rw [abs_mul]
    calc |w| * |ω' - ω| ≤ 1 * |ω' - ω| := mul_le_mul_of_nonneg_right hw (abs_nonneg _)
      _ ≤ f.u := by rw [one_mul]; exact he
  set S := f.rnd (β + f.rnd (w * ω'))
  set P := f.rnd (w * ω')
  have e : S - y = (S - (β + P)) + (P - w * ω') + w * (ω' - ω) + (β + w * ω - y) := by ring
  rw [e]
  have a1 := abs_add_le ((S - (β + P)) + (P - w * ω') + w * (ω' - ω)) (β + w * ω - y)
  have a2 := abs_add_le ((S - (β + P)) + (P - w * ω')) (w * (ω' - ω))
  have a3 := abs_add_le (S - (β + P)) (P - w * ω')
  linarith

/-- Rounding to nearest does not move further than to a sample that is near. -/
theorem float_tiny {f : Fmt} [Std f] {b v W : Fl f} {β w ω t : ℚ} (hb : valF b β) (hv : v.Is w) (hw : |w| ≤ 1)
    (hW : W.Is ω) (h0 : 0 ≤ ω) (h1 : ω ≤ t) (h52 : t ≤ 1) :
    ∃ β', valF (ChF.add b (ChF.mul v W)) β' ∧ |β' - β| ≤ 2 * t ∧ (ω = 0 → β' = β) := by
  obtain ⟨hb, hb1⟩ := hb
  have p1 : |w * ω| ≤ ω := by
    rw [abs_mul, abs_of_nonneg h0]; exact mul_le_of_le_one_left h0 hw
  have p2 := abs_rnd_le_of_rep hW.rep p1
  have hP := hv.mul hW (p2.trans ((h1.trans h52).trans one_le_maxF))
  have s1 : |β + f.rnd (w * ω)| ≤ 2 := (abs_add_le _ _).trans (by linarith)
  have hS := hb.add hP (small (s1.trans (by norm_num)))
  have key : |clampQ (f.rnd (β + f.rnd (w * ω))) - β| ≤ 2 * ω := by
    refine (clampQ_near (abs_le.mp hb1).1 (abs_le.mp hb1).2).trans ?_
    have a1 := rnd_nearest (β + f.rnd (w * ω)) β hb.rep.gen
    rw [show β - (β + f.rnd (w * ω)) = -f.rnd (w * ω) by ring, abs_neg] at a1
    have a2 := abs_sub_le (f.rnd (β + f.rnd (w * ω))) (β + f.rnd (w * ω)) β
    rw [add_sub_cancel_left] at a2
    linarith
  refine ⟨_, ⟨clamp1_is hS, abs_le.mpr (clampQ_range _)⟩, ?_, fun h => ?_⟩
  · exact key.trans (by linarith)
  · exact sub_eq_zero.mp (abs_nonpos_iff.mp (key.trans (by rw [h, mul_zero])))

theorem mixLaw_ch64 : MixLaw .ch64 valF (4 * binary64.u) where
  nonneg := by have := u_pos (f := binary64); linarith
  dflt := ⟨is_zero, by norm_num⟩
  step := by
    intro b v β w ω W hb hv hw hW h0 h1
    exact float_step hb hv.1 hw hW h0 h1 (by rw [sub_self, abs_zero]; exact u_pos.le)
  tiny := by
    intro b v β w ω W hb hv hw hW h0 h1
    exact float_tiny hb hv.1 hw hW h0 h1 (by norm_num)

theorem mixLaw_ch32 : MixLaw .ch32 valF (4 * binary32.u) where
  nonneg := by have := u_pos (f := binary32); linarith
  dflt := ⟨is_zero, by norm_num⟩
  step := by
    intro b v β w ω W hb hv hw hW h0 h1
    have hone : binary32.Rep 1 := (is_one (f := binary32)).rep
    have hab : |ω| ≤ 1 := by rwa [abs_of_nonneg h0]
    have hc := hW.cast binary32 (small (hab.trans (by norm_num)))
    have he : |binary32.rnd ω - ω| ≤ binary32.u := by
      have := err_lt_u (f := binary32) 1 (lt_of_le_of_lt hab (by norm_num)) (by norm_num)
      simpa using this
    exact float_step hb hv.1 hw hc (rnd_nonneg h0) (rnd_le_of_gen hone.gen h1) he
  tiny := by
    intro b v β w ω W hb hv hw hW h0 h1
    have h52 : binary32.Gen ((2:ℚ) ^ (-52:ℤ)) := ⟨1, -52, by decide, by decide, by norm_num⟩
    have hab : |ω| ≤ 1 := by rw [abs_of_nonneg h0]; exact h1.trans (by norm_num)
    have hc := hW.cast binary32 (small (hab.trans (by norm_num)))
    obtain ⟨β', b1, b2, b3⟩ := float_tiny hb hv.1 hw hc (rnd_nonneg h0) (rnd_le_of_gen h52 h1) (by norm_num)
    exact ⟨β', b1, b2, fun h => b3 (by rw [h, rnd_zero])⟩

theorem int_step {N b m v W : ℤ} {ω : ℚ} (hN : 127 ≤ N) (hv : |v| ≤ N) (hW : |W| ≤ N)
    (he : |(W:ℚ) / N - ω| ≤ 9 / (8 * N)) (hm : m = (v * W).tdiv N) (y : ℚ) (hy : |y| ≤ 1) :
    |((clampZ (-N - 1) N (b + m) : ℤ) : ℚ) / N - y| ≤ |(b:ℚ) / N + v / N * ω - y| + 17 / (8 * N) := by
  have hN0 : (0:ℚ) < N := by exact_mod_cast (by omega : (0:ℤ) < N)
  have hvq : |(v:ℚ) / N| ≤ 1 := by
    rw [abs_div, abs_of_pos hN0, div_le_one hN0]; exact_mod_cast hv
  -- the product
  have hprod : |(m:ℚ) - v * W / N| ≤ 1 := by
    have e := Int.mul_tdiv_add_tmod (v * W) N
    rw [← hm] at e
    have h1 : |(v * W).tmod N| < N := by
      rw [abs_lt]
      exact ⟨Int.lt_tmod_of_pos _ (by omega), Int.tmod_lt_of_pos _ (by omega)⟩
    have e' : (m:ℚ) - v * W / N = -(((v * W).tmod N : ℤ) : ℚ) / N := by
      have : ((v * W : ℤ):ℚ) = N * m + (((v * W).tmod N : ℤ) : ℚ) := by
        exact_mod_cast e.symm
      push_cast at this
      rw [this]; field_simp; ring
    rw [e', abs_div, abs_neg, abs_of_pos hN0, div_le_one hN0]
    have : ((|(v * W).tmod N| : ℤ):ℚ) ≤ N := by exact_mod_cast h1.le
    simpa using this
  have hclamp : |((clampZ (-N - 1) N (b + m) : ℤ) : ℚ) / N - y| ≤ |((b + m : ℤ):ℚ) / N - y| := by
    have e1 : ∀ z : ℚ, |z / N - y| = |z - N * y| / N := by
      intro z
      rw [← abs_of_pos hN0, ← abs_div, abs_of_pos hN0]; congr 1; field_simp
    rw [e1, e1]
    refine div_le_div_of_nonneg_right ?_ hN0.le
    rw [abs_le] at hy
    have y1 : -(N:ℚ) ≤ N * y := by nlinarith
    have y2 : N * y ≤ (N:ℚ) := by nlinarith
    unfold clampZ
    rcases max_cases (-N - 1) (min N (b + m)) with ⟨h3, h4⟩ | ⟨h3, h4⟩ <;>
    rcases min_cases N (b + m) with ⟨h5, h6⟩ | ⟨h5, h6⟩ <;> rw [h3]
    · omega
    · have : ((b + m : ℤ):ℚ) ≤ ((-N - 1 : ℤ):ℚ) := by exact_mod_cast (by omega)
      rw [abs_of_nonpos, abs_of_nonpos]
      · linarith
      · push_cast at this ⊢; linarith
      · push_cast; linarith
    · rw [h5]
      have : ((N:ℤ):ℚ) ≤ ((b + m : ℤ):ℚ) := by exact_mod_cast h6
      rw [abs_of_nonneg, abs_of_nonneg]
      · linarith
      · linarith
      · linarith
    · rw [h5]
  refine hclamp.trans ?_
  have t1 : |((m:ℚ) - v * W / N) / N| ≤ 1 / N := by
    rw [abs_div, abs_of_pos hN0]; exact div_le_div_of_nonneg_right hprod hN0.le
  have t2 : |(v:ℚ) / N * (W / N - ω)| ≤ 9 / (8 * N) := by
    rw [abs_mul]
    calc |(v:ℚ) / N| * |(W:ℚ) / N - ω| ≤ 1 * |(W:ℚ) / N - ω| := mul_le_mul_of_nonneg_right hvq (abs_nonneg _)
      _ ≤ _ := by rw [one_mul]; exact he
  have e : ((b + m : ℤ):ℚ) / N - y = ((m:ℚ) - v * W / N) / N + (v:ℚ) / N * (W / N - ω) + ((b:ℚ) / N + v / N * ω - y) := by
    push_cast; field_simp; ring
  rw [e]
  have a1 := abs_add_le (((m:ℚ) - v * W / N) / N + (v:ℚ) / N * (W / N - ω)) ((b:ℚ) / N + v / N * ω - y)
  have a2 := abs_add_le (((m:ℚ) - v * W / N) / N) ((v:ℚ) / N * (W / N - ω))
  have a3 : (1:ℚ) / N + 9 / (8 * N) = 17 / (8 * N) := by field_simp; norm_num
  linarith

/-- Accuracy of the weight. -/
theorem weight_err {n : Nat} {k : ℤ} (hk : 0 ≤ k) {N : ℤ} (hN : 127 ≤ N) (hN' : N ≤ 32767)
    (hMk : ((2 * N + 1 : ℤ):ℚ) + 1 = 2 ^ (k + 1)) (hlo : iMin n = -N - 1) (hhi : iMax n = N)
    {ω : ℚ} (h0 : 0 ≤ ω) (h1 : ω ≤ 1) :
    |(quantV binary64 n (((2 * N + 1 : ℤ):ℚ) / 2) ω : ℚ) / N - ω| ≤ 9 / (8 * N) ∧
    |quantV binary64 n (((2 * N + 1 : ℤ):ℚ) / 2) ω| ≤ N := by
  have hN0 : (127:ℚ) ≤ N := by exact_mod_cast hN
  have hN1 : (N:ℚ) ≤ 32767 := by exact_mod_cast hN'
  have hu : binary64.u ≤ 1 / 2 ^ 53 := by decide +kernel
  have hu0 := u_pos (f := binary64)
  have h := quant_err (n := n) hk (M := 2 * N + 1) (by omega) (by omega) hMk (by omega) (by omega)
    (v := ω) (by linarith) h1
  generalize quantV binary64 n (((2 * N + 1 : ℤ):ℚ) / 2) ω = W at *
  push_cast at h
  have hM0 : (0:ℚ) < 2 * N + 1 := by linarith
  have h' : |(2 * (W:ℚ) + 1) - (2 * N + 1) * ω| ≤ 1 + 2 * binary64.u * (2 * N + 1) := by
    have e : (2 * (W:ℚ) + 1) - (2 * N + 1) * ω = ((2 * W + 1) / (2 * N + 1) - ω) * (2 * N + 1) := by field_simp
    rw [e, abs_mul, abs_of_pos hM0]
    calc _ ≤ (1 / (2 * (N:ℚ) + 1) + 2 * binary64.u) * (2 * N + 1) := mul_le_mul_of_nonneg_right h hM0.le
      _ = _ := by field_simp
  have hsm : 2 * binary64.u * (2 * N + 1) ≤ 1 / 8 := by
    have : 2 * binary64.u * (2 * N + 1) ≤ 2 * (1 / 2 ^ 53) * 65535 := by
      apply mul_le_mul <;> linarith
    refine this.trans (by norm_num)
  rw [abs_le] at h'
  constructor
  · have e : (W:ℚ) / N - ω = (W - N * ω) / N := by field_simp
    rw [e, abs_div, abs_of_pos (by linarith : (0:ℚ) < N), show (9:ℚ) / (8 * N) = (9 / 8) / N by field_simp]
    refine div_le_div_of_nonneg_right ?_ (by linarith)
    rw [abs_le]; constructor <;> linarith
  · rw [abs_le]
    constructor
    · have : (-2:ℚ) < W := by nlinarith
      have : (-2:ℤ) < W := by exact_mod_cast this
      omega
    · have : (W:ℚ) < N + 1 := by nlinarith
      have : W < N + 1 := by exact_mod_cast this
      omega

/-- Value of an integer sample. -/
def valI {n : Nat} (N : ℤ) (x : BitVec n) (β : ℚ) : Prop := β = x.toInt / N

theorem int_of_val {N a : ℤ} {w : ℚ} (hN : 127 ≤ N) (h : w = a / N) (hw : |w| ≤ 1) : |a| ≤ N := by
  have hN0 : (0:ℚ) < N := by exact_mod_cast (by omega : (0:ℤ) < N)
  rw [h, abs_div, abs_of_pos hN0, div_le_one hN0] at hw
  exact_mod_cast hw

theorem tdiv_le {N v W : ℤ} (hN : 127 ≤ N) (hv : |v| ≤ N) (hW : |W| ≤ N) : |(v * W).tdiv N| ≤ N := by
  have h1 : |v * W| ≤ N * N := by rw [abs_mul]; exact mul_le_mul hv hW (abs_nonneg _) (by omega)
  rw [abs_le] at *
  constructor
  · have := Int.tdiv_le_tdiv (c := N) (by omega) h1.1
    rwa [show -(N * N) = (-N) * N by ring, Int.mul_tdiv_cancel _ (by omega)] at this
  · have := Int.tdiv_le_tdiv (c := N) (by omega) h1.2
    rwa [Int.mul_tdiv_cancel _ (by omega)] at this

theorem tiny_ch8 {W : F64} {ω : ℚ} (hW : W.Is ω) (h0 : 0 ≤ ω) (h1 : ω ≤ 2 ^ (-52 : ℤ)) : (ChTy.ch8.ofF64 W).toInt = 0 := by
  have h52 : (2:ℚ) ^ (-52:ℤ) ≤ 1 := by norm_num
  rw [ofF64_ch8_is hW, clampQ_of_range (by linarith) (h1.trans h52)]
  have a1 := quantV_mono (f := binary64) (n := 8) (s := 127.5) (by norm_num) h0
  have a2 := quantV_mono (f := binary64) (n := 8) (s := 127.5) (by norm_num) h1
  have e0 : quantV binary64 8 127.5 0 = 0 := by decide +kernel
  have e1 : quantV binary64 8 127.5 (2 ^ (-52 : ℤ)) = 0 := by decide +kernel
  omega

theorem mixLaw_ch8 : MixLaw .ch8 (valI 127) (17 / (8 * 127)) where
  nonneg := by norm_num
  dflt := by unfold valI; simp [ChTy.dflt]
  step := by
    rintro b v β w ω W rfl rfl hw hW h0 h1
    have hv := int_of_val (by norm_num) rfl hw
    refine ⟨_, rfl, fun y hy => ?_⟩
    obtain ⟨e1, e2⟩ := weight_err (n := 8) (k := 7) (N := 127) (by norm_num) (by norm_num) (by norm_num) (by norm_num)
      (by decide) (by decide) h0 h1
    have eW : quantV binary64 8 (((2 * 127 + 1 : ℤ):ℚ) / 2) ω = (ChTy.ch8.ofF64 W).toInt := by
      rw [ofF64_ch8_is hW, clampQ_of_range (by linarith) h1]; norm_num
    rw [eW] at e1 e2
    rw [C01_ch8_add, (C02_ch8 _ _).2]
    have ht := abs_le.mp (tdiv_le (by norm_num) hv e2)
    have := int_step (b := b.toInt) (by norm_num) hv e2 e1 rfl y hy
    rw [show clampZ (-128) 127 ((v.toInt * (ChTy.ch8.ofF64 W).toInt).tdiv 127) =
      (v.toInt * (ChTy.ch8.ofF64 W).toInt).tdiv 127 by unfold clampZ; omega]
    rw [show (-127 - 1 : ℤ) = -128 by norm_num] at this
    push_cast at this ⊢
    exact this
  tiny := by
    rintro b v β w ω W rfl rfl hw hW h0 h1
    refine ⟨_, rfl, ?_⟩
    have e : (ChTy.ch8.add b (ChTy.ch8.mul v (ChTy.ch8.ofF64 W))).toInt = b.toInt := by
      have := i8_range b
      rw [C01_ch8_add, (C02_ch8 _ _).2, tiny_ch8 hW h0 h1, mul_zero]
      simp only [Int.zero_tdiv]
      unfold clampZ; omega
    rw [e, sub_self, abs_zero]
    exact ⟨by norm_num, fun _ => rfl⟩

theorem tiny_ch16 {W : F64} {ω : ℚ} (hW : W.Is ω) (h0 : 0 ≤ ω) (h1 : ω ≤ 2 ^ (-52 : ℤ)) : (ChTy.ch16.ofF64 W).toInt = 0 := by
  have h52 : (2:ℚ) ^ (-52:ℤ) ≤ 1 := by norm_num
  rw [ofF64_ch16_is hW, clampQ_of_range (by linarith) (h1.trans h52)]
  have a1 := quantV_mono (f := binary64) (n := 16) (s := 32767.5) (by norm_num) h0
  have a2 := quantV_mono (f := binary64) (n := 16) (s := 32767.5) (by norm_num) h1
  have e0 : quantV binary64 16 32767.5 0 = 0 := by decide +kernel
  have e1 : quantV binary64 16 32767.5 (2 ^ (-52 : ℤ)) = 0 := by decide +kernel
  omega

theorem mixLaw_ch16 : MixLaw .ch16 (valI 32767) (17 / (8 * 32767)) where
  nonneg := by norm_num
  dflt := by unfold valI; simp [ChTy.dflt]
  step := by
    rintro b v β w ω W rfl rfl hw hW h0 h1
    have hv := int_of_val (by norm_num) rfl hw
    refine ⟨_, rfl, fun y hy => ?_⟩
    obtain ⟨e1, e2⟩ := weight_err (n := 16) (k := 15) (N := 32767) (by norm_num) (by norm_num) (by norm_num) (by norm_num)
      (by decide) (by decide) h0 h1
    have eW : quantV binary64 16 (((2 * 32767 + 1 : ℤ):ℚ) / 2) ω = (ChTy.ch16.ofF64 W).toInt := by
      rw [ofF64_ch16_is hW, clampQ_of_range (by linarith) h1]; norm_num
    rw [eW] at e1 e2
    rw [C01_ch16_add, (C02_ch16 _ _).2]
    have ht := abs_le.mp (tdiv_le (by norm_num) hv e2)
    have := int_step (b := b.toInt) (by norm_num) hv e2 e1 rfl y hy
    rw [show clampZ (-32768) 32767 ((v.toInt * (ChTy.ch16.ofF64 W).toInt).tdiv 32767) =
      (v.toInt * (ChTy.ch16.ofF64 W).toInt).tdiv 32767 by unfold clampZ; omega]
    rw [show (-32767 - 1 : ℤ) = -32768 by norm_num] at this
    push_cast at this ⊢
    exact this
  tiny := by
    rintro b v β w ω W rfl rfl hw hW h0 h1
    refine ⟨_, rfl, ?_⟩
    have e : (ChTy.ch16.add b (ChTy.ch16.mul v (ChTy.ch16.ofF64 W))).toInt = b.toInt := by
      have := i16_range b
      rw [C01_ch16_add, (C02_ch16 _ _).2, tiny_ch16 hW h0 h1, mul_zero]
      simp only [Int.zero_tdiv]
      unfold clampZ; omega
    rw [e, sub_self, abs_zero]
    exact ⟨by norm_num, fun _ => rfl⟩

end Fon
