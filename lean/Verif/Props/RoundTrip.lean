import Verif.Props.Upsample
import Verif.Props.ChanLevel
import Verif.Props.Structure
import Verif.Spec.RoundTrip

/-!
# C102: upsampling and back
-/

namespace Fon
open Fon.Fl hiding min max
open Fon.Fmt Fon.Sink
variable {k k' : Kind} {c c' : ChTy}

theorem keep_float {f : Fmt} {b v W : Fl f} {β w ω : ℚ} (hb : valF b β) (hv : v.Is w) (hW : W.Is ω)
    (h : w = 0 ∨ ω = 0) : valF (ChF.add b (ChF.mul v W)) β := by
  have h0 : w * ω = 0 := mul_eq_zero.mpr h
  have hm := hv.mul hW (by rw [h0, rnd_zero]; simpa using maxF_pos.le)
  rw [h0, rnd_zero] at hm
  have := clamp1_is (add_zero' hb.1 hm)
  obtain ⟨h1, h2⟩ := abs_le.mp hb.2
  rw [clampQ_of_range h1 h2] at this
  exact ⟨this, hb.2⟩

/-- Silence, or any sample with weight 0, changes nothing. -/
theorem keep {b v : c.T} {β w ω : ℚ} {W : F64} (hb : val c b β) (hv : SampleVal c v w) (hW : W.Is ω) (hω : |ω| ≤ 1)
    (h : w = 0 ∨ ω = 0) : val c (c.add b (c.mul v (c.ofF64 W))) β := by
  cases c with
  | ch8 =>
    have hz : (ChTy.ch8.mul v (ChTy.ch8.ofF64 W)).toInt = 0 := by
      rcases h with rfl | rfl
      · have : v.toInt = 0 := by
          have h1 : (0:ℚ) = v.toInt / 127 := hv
          have : (v.toInt : ℚ) = 0 := by linarith
          exact_mod_cast this
        rw [(C02_ch8 _ _).2, this]; simp [clampZ]
      · rw [(ofF64_one_zero is_one hW).2.1, show (0#8) = ChTy.ch8.MID from rfl, (C02_ch8_zero v).1]; decide
    have := i8_range b
    have e : (ChTy.ch8.add b (ChTy.ch8.mul v (ChTy.ch8.ofF64 W))).toInt = b.toInt := by
      rw [C01_ch8_add, hz]; unfold clampZ; omega
    show β = _ / _
    rw [e]; exact hb
  | ch16 =>
    have hz : (ChTy.ch16.mul v (ChTy.ch16.ofF64 W)).toInt = 0 := by
      rcases h with rfl | rfl
      · have : v.toInt = 0 := by
          have h1 : (0:ℚ) = v.toInt / 32767 := hv
          have : (v.toInt : ℚ) = 0 := by linarith
          exact_mod_cast this
        rw [(C02_ch16 _ _).2, this]; simp [clampZ]
      · rw [(ofF64_one_zero is_one hW).2.2.2, show (0#16) = ChTy.ch16.MID from rfl, (C02_ch16_zero v).1]; decide
    have := i16_range b
    have e : (ChTy.ch16.add b (ChTy.ch16.mul v (ChTy.ch16.ofF64 W))).toInt = b.toInt := by
      rw [C01_ch16_add, hz]; unfold clampZ; omega
    show β = _ / _
    rw [e]; exact hb
  | ch32 =>
    have hW' := hW.cast binary32 (small (by linarith [hω, show (1:ℚ) ≤ 2 ^ 100 by norm_num]))
    refine keep_float hb hv hW' ?_
    rcases h with rfl | rfl
    · exact .inl rfl
    · exact .inr rnd_zero
  | ch64 => exact keep_float hb hv hW h

theorem down_float {f : Fmt} [Std f] {b x u : Fl f} {N : Nat} (h1 : 1 ≤ N) (hb : b.Is 0) (hu : u.Is (1 / N : ℚ)) {p : ℚ}
    (hx : x.Is p) (hp : |p| ≤ 1) : valF (ChF.add b (ChF.mul x u)) (f.rnd (p / N)) := by
  have hN1 : (1:ℚ) ≤ N := by exact_mod_cast h1
  have hle : |p / N| ≤ 1 := by
    rw [abs_div, Nat.abs_cast, div_le_one (by linarith)]; linarith
  have hr : |f.rnd (p / N)| ≤ 1 := by
    obtain ⟨a, b⟩ := abs_le.mp hle
    have g1 : f.Gen (1:ℚ) := (rep_one (f := f)).gen
    rw [abs_le]
    refine ⟨?_, rnd_le_of_gen g1 b⟩
    have := rnd_le_of_gen g1 (show -(p / N) ≤ 1 by linarith)
    rw [rnd_neg] at this; linarith
  have e : p * (1 / N) = p / N := by ring
  have hm := hx.mul hu (by rw [e]; exact hr.trans one_le_maxF)
  rw [e] at hm
  have ha : (Fl.add b (x.mul u)).Is (f.rnd (p / N)) := by
    rw [Fl.add_comm']; exact add_zero' hm hb
  have := clamp1_is ha
  rw [clampQ_of_range (abs_le.mp hr).1 (abs_le.mp hr).2] at this
  exact ⟨this, hr⟩

theorem rep_inv_pow {f : Fmt} [Std f] {m : Nat} (hm : m ≤ 24) : f.Rep (1 / ((2 ^ m : Nat) : ℚ)) := by
  refine rep_dyadic 1 (-m) ?_ ?_ ?_ ?_
  · push_cast; rw [zpow_neg, zpow_natCast]; ring
  · rw [abs_one]; exact one_lt_pow₀ (by norm_num) (by have := f.hprec; omega)
  · have := Std.gap (f := f); omega
  · have := f.htop; omega

/-- The weight of an integer format. -/
theorem quant_pow {a n m : Nat} (ha : a < 2 ^ 24) (hm : m ≤ 24) (hn : ((a / 2 : Nat) : ℤ) ≤ iMax n) (hn' : iMin n ≤ 0) :
    quantV binary64 n ((a : ℚ) / 2) (1 / ((2 ^ m : Nat) : ℚ)) = ((a / (2 * 2 ^ m) : Nat) : ℤ) := by
  have e : (1 / ((2 ^ m : Nat) : ℚ)) * ((a:ℚ) / 2) = (a:ℚ) / ((2 * 2 ^ m : Nat) : ℚ) := by
    push_cast; field_simp
  have hr : binary64.Rep ((a:ℚ) / ((2 * 2 ^ m : Nat) : ℚ)) := by
    refine rep_dyadic (a : ℤ) (-(m + 1 : ℕ) : ℤ) ?_ ?_ ?_ ?_
    · push_cast; rw [show (-((m:ℤ) + 1)) = -((m + 1 : ℕ) : ℤ) by push_cast; ring, zpow_neg, zpow_natCast, pow_succ]
      field_simp
    · rw [abs_of_nonneg (by omega)]
      exact_mod_cast ha.trans (by decide)
    · show (-1074 : ℤ) ≤ _; omega
    · show _ ≤ (971 : ℤ); omega
  have h0 : (0:ℚ) ≤ (a:ℚ) / ((2 * 2 ^ m : Nat) : ℚ) := by positivity
  have hf : ⌊(a:ℚ) / ((2 * 2 ^ m : Nat) : ℚ)⌋ = ((a / (2 * 2 ^ m) : Nat) : ℤ) := by
    have := Rat.floor_intCast_div_natCast (a : ℤ) (2 * 2 ^ m)
    rw [Int.cast_natCast] at this
    rw [this]; push_cast; rfl
  unfold quantV floorE
  rw [e, rnd_of_rep hr, if_neg (not_lt.mpr h0), hf]
  have : a / (2 * 2 ^ m) ≤ a / 2 := Nat.div_le_div_left (Nat.le_mul_of_pos_right 2 (by positivity)) (by norm_num)
  unfold clampZ
  rw [min_eq_right (by omega), max_eq_right (hn'.trans (Int.natCast_nonneg _))]

/-- The only sample that is not silent. -/
theorem down_unit {b x : c.T} {W : F64} {m : Nat} (hm : m ≤ 24) (hW : W.Is (1 / ((2 ^ m : Nat) : ℚ)))
    (hb : val c b 0) {w : ℚ} (hx : val c x w) :
    ∃ β, val c (c.add b (c.mul x (c.ofF64 W))) β ∧ ∀ y, val c y β → Downed (2 ^ m) c x y := by
  have hN : 1 ≤ 2 ^ m := Nat.one_le_two_pow
  have hNq : (1:ℚ) ≤ ((2 ^ m : Nat) : ℚ) := by exact_mod_cast hN
  have hc : clampQ (1 / ((2 ^ m : Nat) : ℚ)) = 1 / ((2 ^ m : Nat) : ℚ) :=
    clampQ_of_range (le_trans (by norm_num) (show (0:ℚ) ≤ _ by positivity)) (by rw [div_le_one (by linarith)]; exact hNq)
  cases c with
  | ch8 =>
    have h0 : b.toInt = 0 := by
      have h1 : (0:ℚ) = b.toInt / (127:ℤ) := hb
      have : (b.toInt : ℚ) = 0 := by push_cast at h1; linarith
      exact_mod_cast this
    refine ⟨_, rfl, fun y hy => ?_⟩
    have hy' : ((ChTy.ch8.add b (ChTy.ch8.mul x (ChTy.ch8.ofF64 W))).toInt : ℚ) / (127:ℤ) = y.toInt / (127:ℤ) := hy
    have hy2 : (ChTy.ch8.add b (ChTy.ch8.mul x (ChTy.ch8.ofF64 W))).toInt = y.toInt := by
      rw [div_left_inj' (by norm_num)] at hy'; exact_mod_cast hy'
    have hq : (ChTy.ch8.ofF64 W).toInt = ((255 / (2 * 2 ^ m) : Nat) : ℤ) := by
      rw [ofF64_ch8_is hW, hc, show (127.5:ℚ) = ((255:Nat):ℚ) / 2 by norm_num]
      exact quant_pow (by norm_num) hm (by decide) (by decide)
    show y.toInt = _
    rw [← hy2, C01_ch8_add, h0, (C02_ch8 _ _).2, hq]
    have hx := i8_range x
    have hle : 255 / (2 * 2 ^ m) ≤ 127 := by
      have : 255 / (2 * 2 ^ m) ≤ 255 / 2 := Nat.div_le_div_left (by omega) (by norm_num)
      omega
    generalize 255 / (2 * 2 ^ m) = a at *
    have h1 : x.toInt * (a:ℤ) ≤ 127 * 127 := by nlinarith
    have h2 : -128 * 127 ≤ x.toInt * (a:ℤ) := by nlinarith
    generalize x.toInt * (a:ℤ) = z at *
    have h3 : -128 ≤ z.tdiv 127 ∧ z.tdiv 127 ≤ 127 := by
      rw [Int.tdiv_eq_ediv, show Int.sign 127 = 1 from rfl]; split <;> omega
    unfold clampZ; omega
  | ch16 =>
    have h0 : b.toInt = 0 := by
      have h1 : (0:ℚ) = b.toInt / (32767:ℤ) := hb
      have : (b.toInt : ℚ) = 0 := by push_cast at h1; linarith
      exact_mod_cast this
    refine ⟨_, rfl, fun y hy => ?_⟩
    have hy' : ((ChTy.ch16.add b (ChTy.ch16.mul x (ChTy.ch16.ofF64 W))).toInt : ℚ) / (32767:ℤ) = y.toInt / (32767:ℤ) := hy
    have hy2 : (ChTy.ch16.add b (ChTy.ch16.mul x (ChTy.ch16.ofF64 W))).toInt = y.toInt := by
      rw [div_left_inj' (by norm_num)] at hy'; exact_mod_cast hy'
    have hq : (ChTy.ch16.ofF64 W).toInt = ((65535 / (2 * 2 ^ m) : Nat) : ℤ) := by
      rw [ofF64_ch16_is hW, hc, show (32767.5:ℚ) = ((65535:Nat):ℚ) / 2 by norm_num]
      exact quant_pow (by norm_num) hm (by decide) (by decide)
    show y.toInt = _
    rw [← hy2, C01_ch16_add, h0, (C02_ch16 _ _).2, hq]
    have hx := i16_range x
    have hle : 65535 / (2 * 2 ^ m) ≤ 32767 := by
      have : 65535 / (2 * 2 ^ m) ≤ 65535 / 2 := Nat.div_le_div_left (by omega) (by norm_num)
      omega
    generalize 65535 / (2 * 2 ^ m) = a at *
    have h1 : x.toInt * (a:ℤ) ≤ 32767 * 32767 := by nlinarith
    have h2 : -32768 * 32767 ≤ x.toInt * (a:ℤ) := by nlinarith
    generalize x.toInt * (a:ℤ) = z at *
    have h3 : -32768 ≤ z.tdiv 32767 ∧ z.tdiv 32767 ≤ 32767 := by
      rw [Int.tdiv_eq_ediv, show Int.sign 32767 = 1 from rfl]; split <;> omega
    unfold clampZ; omega
  | ch32 =>
    have hr := rep_inv_pow (f := binary32) hm
    have hW' := hW.cast binary32 (by rw [rnd_of_rep hr]; exact hr.le_maxF)
    rw [rnd_of_rep hr] at hW'
    refine ⟨_, down_float hN hb.1 hW' hx.1 hx.2, fun y hy p hp _ => ?_⟩
    rw [hp.unique hx.1]; exact hy.1
  | ch64 =>
    refine ⟨_, down_float hN hb.1 hW hx.1 hx.2, fun y hy p hp _ => ?_⟩
    rw [hp.unique hx.1]; exact hy.1

section
variable {q : F64} {m : Nat}

theorem floor_pow (m j : Nat) : ⌊(j:ℚ) / ((2 ^ m : Nat) : ℚ)⌋ = ((j / 2 ^ m : Nat) : ℤ) := by
  have := Rat.floor_intCast_div_natCast (j : ℤ) (2 ^ m)
  rw [Int.cast_natCast] at this
  rw [this]; push_cast; rfl

theorem frac_pow (m j : Nat) :
    (j:ℚ) / ((2 ^ m : Nat) : ℚ) - ⌊(j:ℚ) / ((2 ^ m : Nat) : ℚ)⌋ = ((j % 2 ^ m : Nat) : ℚ) / ((2 ^ m : Nat) : ℚ) := by
  have hp : (0:ℚ) < ((2 ^ m : Nat) : ℚ) := by positivity
  rw [floor_pow, Int.cast_natCast, eq_div_iff hp.ne', sub_mul, div_mul_cancel₀ _ hp.ne']
  have := Nat.div_add_mod j (2 ^ m)
  have h : ((2 ^ m * (j / 2 ^ m) + j % 2 ^ m : Nat) : ℚ) = j := by rw [this]
  push_cast at h ⊢
  linarith

theorem mul_pow_is (hq : q.Is (1 / ((2 ^ m : Nat) : ℚ))) (hm : m ≤ 24) {j : Nat} (hj : j < 2 ^ 53) :
    (q.mul (f64OfUsize j)).Is ((j:ℚ) / ((2 ^ m : Nat) : ℚ)) := by
  have hr : binary64.Rep ((j:ℚ) / ((2 ^ m : Nat) : ℚ)) := by
    refine rep_dyadic (j : ℤ) (-m : ℤ) ?_ ?_ ?_ ?_
    · push_cast; rw [zpow_neg, zpow_natCast]; field_simp
    · rw [abs_of_nonneg (by omega)]
      exact_mod_cast hj
    · show (-1074 : ℤ) ≤ _; omega
    · show _ ≤ (971 : ℤ); omega
  have e : (1 / ((2 ^ m : Nat) : ℚ)) * j = (j:ℚ) / ((2 ^ m : Nat) : ℚ) := by ring
  have := hq.mul (is_usize hj.le) (by rw [e, rnd_of_rep hr]; exact hr.le_maxF)
  rwa [e, rnd_of_rep hr] at this

theorem pos_pow (hq : q.Is (1 / ((2 ^ m : Nat) : ℚ))) (hm : m ≤ 24) {j : Nat} (hj : j < 2 ^ 53) :
    (posOf q (lit 0) j).Is ((j:ℚ) / ((2 ^ m : Nat) : ℚ)) := add_zero' (mul_pow_is hq hm hj) is_zero

theorem usize_pow {x : F64} {j : Nat} (h : x.Is ((j:ℚ) / ((2 ^ m : Nat) : ℚ))) (hj : j < 2 ^ 53) :
    x.toUsize = j / 2 ^ m := by
  have hp : (1:ℚ) ≤ ((2 ^ m : Nat) : ℚ) := by exact_mod_cast Nat.one_le_two_pow
  have hj' : (j:ℚ) < 2 ^ 53 := by exact_mod_cast hj
  rw [toUsize_is h (by positivity) ?_, floor_pow, Int.toNat_natCast]
  refine lt_of_le_of_lt (div_le_self (by positivity) hp) (hj'.trans (by norm_num))

/-- Every `N`-th frame goes to one slot with weight `1 / N`. -/
theorem weights_dvd (hq : q.Is (1 / ((2 ^ m : Nat) : ℚ))) (hm : m ≤ 24) {j : Nat} (hj : j < 2 ^ 53) (hd : 2 ^ m ∣ j) :
    hiSlot (posOf q (lit 0) j) = j / 2 ^ m ∧ (hiWeight q (lit 0) j).Is 0 ∧
      (loWeight q (lit 0) j).Is (1 / ((2 ^ m : Nat) : ℚ)) := by
  have hp := pos_pow hq hm hj
  have hf := frac_pow m j
  rw [Nat.mod_eq_zero_of_dvd hd, Nat.cast_zero, zero_div] at hf
  have h1 : (hiWeight q (lit 0) j).Is 0 := by
    have := (hp.rem_one (by positivity)).min hq
    rwa [hf, min_eq_left (by positivity)] at this
  refine ⟨?_, h1, ?_⟩
  · rw [hiSlot_is hp (by positivity), hf, if_neg (not_lt.mpr (two_zpow_pos _).le), usize_pow hp hj]
  · have e : binary64.rnd (1 / ((2 ^ m : Nat) : ℚ) - 0) = 1 / ((2 ^ m : Nat) : ℚ) := by
      rw [sub_zero]; exact rnd_of_rep hq.rep
    have := hq.sub h1 (by rw [e]; exact hq.rep.le_maxF)
    rwa [e] at this

/-- The weights of the frames. -/
theorem weights_any (hq : q.Is (1 / ((2 ^ m : Nat) : ℚ))) (hm : m ≤ 24) {j : Nat} (hj : j < 2 ^ 53) :
    ∃ a b : ℚ, (hiWeight q (lit 0) j).Is a ∧ (loWeight q (lit 0) j).Is b ∧ |a| ≤ 1 ∧ |b| ≤ 1 := by
  have hp : (1:ℚ) ≤ ((2 ^ m : Nat) : ℚ) := by exact_mod_cast Nat.one_le_two_pow
  have h1 : 1 / ((2 ^ m : Nat) : ℚ) ≤ 1 := by rw [div_le_one (by linarith)]; exact hp
  obtain ⟨a, b, ha, hb, -, a0, a1, b0, b1, -⟩ := weights_partial hq (by positivity) (pos_pow hq hm hj) (by positivity)
  exact ⟨a, b, ha, hb, by rw [abs_of_nonneg a0]; linarith, by rw [abs_of_nonneg b0]; linarith⟩

/-- The slots after `n` frames. -/
theorem mixed_pow (hq : q.Is (1 / ((2 ^ m : Nat) : ℚ))) (hm : m ≤ 24) (g : Nat → Frame k c) (x n : Nat) (hn : n ≤ 2 ^ 53)
    (i : Nat) (hi : i < k.chans) (hv : ∀ j, j < n → ∃ w, val c (g j)[i] w ∧ (¬ 2 ^ m ∣ j → w = 0)) :
    ∃ β, val c (mixed q (lit 0) g x n Frame.dflt)[i] β ∧
      if 2 ^ m * x < n then ∀ y, val c y β → Downed (2 ^ m) c (g (2 ^ m * x))[i] y else β = 0 := by
  induction n with
  | zero => exact ⟨0, by show val c (Frame.dflt : Frame k c)[i] 0; rw [dflt_get]; exact (mixLaw c).dflt, by simp⟩
  | succ n ih =>
    obtain ⟨β, ih1, ih2⟩ := ih (by omega) (fun j hj => hv j (by omega))
    have hp := usize_pow (pos_pow hq hm (show n < 2 ^ 53 by omega)) (by omega)
    obtain ⟨w, hw, hz⟩ := hv n (by omega)
    have hmix : ∀ P : Frame k c → Prop, P (if hiSlot (posOf q (lit 0) n) = x then
        (if n / 2 ^ m = x then
          (mixed q (lit 0) g x n Frame.dflt).add ((g n).mul (Frame.ofF64 (loWeight q (lit 0) n)))
        else mixed q (lit 0) g x n Frame.dflt).add ((g n).mul (Frame.ofF64 (hiWeight q (lit 0) n)))
        else (if n / 2 ^ m = x then
          (mixed q (lit 0) g x n Frame.dflt).add ((g n).mul (Frame.ofF64 (loWeight q (lit 0) n)))
        else mixed q (lit 0) g x n Frame.dflt)) → P (mixed q (lit 0) g x (n + 1) Frame.dflt) := by
      intro P h
      rw [← hp] at h; exact h
    apply hmix (fun fr => ∃ β, val c fr[i] β ∧
      if 2 ^ m * x < n + 1 then ∀ y, val c y β → Downed (2 ^ m) c (g (2 ^ m * x))[i] y else β = 0)
    clear hmix
    generalize mixed q (lit 0) g x n Frame.dflt = b at *
    by_cases hd : 2 ^ m ∣ n
    · obtain ⟨e1, e2, e3⟩ := weights_dvd hq hm (show n < 2 ^ 53 by omega) hd
      rw [e1]
      obtain ⟨t, rfl⟩ := hd
      rw [Nat.mul_div_cancel_left t (by positivity)]
      by_cases ht : t = x
      · subst ht
        rw [if_neg (by omega)] at ih2
        subst ih2
        simp only [if_true]
        obtain ⟨β, g1, g2⟩ := down_unit hm e3 ih1 hw
        refine ⟨β, ?_, by rw [if_pos (by omega)]; exact g2⟩
        rw [add_mul_get, add_mul_get]
        exact keep g1 (of_val hw) e2 (by simp) (.inr rfl)
      · simp only [if_neg ht]
        refine ⟨β, ih1, ?_⟩
        have : (2 ^ m * x < 2 ^ m * t + 1) ↔ (2 ^ m * x < 2 ^ m * t) := by
          constructor
          · intro h
            rcases Nat.lt_or_eq_of_le (Nat.lt_succ_iff.mp h) with h | h
            · exact h
            · exact absurd (Nat.eq_of_mul_eq_mul_left (by positivity) h).symm ht
          · intro h; omega
        simpa only [this] using ih2
    · obtain ⟨a, b', ha, hb, ha1, hb1⟩ := weights_any hq hm (show n < 2 ^ 53 by omega)
      have hw0 := hz hd
      subst hw0
      have hne : 2 ^ m * x ≠ n := fun h => hd ⟨x, h.symm⟩
      have : (2 ^ m * x < n + 1) ↔ (2 ^ m * x < n) := by omega
      refine ⟨β, ?_, by simpa only [this] using ih2⟩
      have k1 : val c (if n / 2 ^ m = x then b.add ((g n).mul (Frame.ofF64 (loWeight q (lit 0) n))) else b)[i] β := by
        split
        · rw [add_mul_get]; exact keep ih1 (of_val hw) hb hb1 (.inl rfl)
        · exact ih1
      generalize (if n / 2 ^ m = x then b.add ((g n).mul (Frame.ofF64 (loWeight q (lit 0) n))) else b) = b2 at *
      split
      · rw [add_mul_get]; exact keep k1 (of_val hw) ha ha1 (.inl rfl)
      · exact k1

end

theorem inRange_val {x : Frame k c} (h : x.InRange) {i : Nat} (hi : i < k.chans) : ∃ w, val c x[i] w := by
  cases c with
  | ch8 => exact ⟨_, rfl⟩
  | ch16 => exact ⟨_, rfl⟩
  | ch32 =>
    obtain ⟨q, h1, h2⟩ := h x[i] (Vector.getElem_mem hi)
    exact ⟨q, h1, abs_le.mpr h2⟩
  | ch64 =>
    obtain ⟨q, h1, h2⟩ := h x[i] (Vector.getElem_mem hi)
    exact ⟨q, h1, abs_le.mpr h2⟩

/-- Downsampling by `N = 2^m` a signal that is silent but for every `N`-th frame: every slot gets the `N`-th part of one
frame. -/
theorem C102_pulse (fuel m : Nat) (s s' : Sink k c) (st : Src k' c') (it : It k' c')
    (h : s.stream fuel st = .ok (s', it)) (ho : s.res.offseti = lit 0)
    (hq : (ratioOf s.rate st.rate).Is (1 / ((2 ^ m : Nat) : ℚ))) (hm : m ≤ 24) (hb : 2 ^ m * s.buf.length ≤ 2 ^ 52)
    (i : Nat) (hi : i < k.chans)
    (hv : ∀ j f, st.nth j = .ok (some f) → ∀ x : Frame k c, f.convert c = .ok x →
      x.InRange ∧ (¬ 2 ^ m ∣ j → SampleVal c x[i] 0))
    (x : Nat) (hx : InDst (ratioOf s.rate st.rate) st.len s.buf.length x) :
    ∃ (y : Frame k c) (src : Frame k' c') (f : Frame k c), s'.buf[x]? = some y ∧
      st.nth (2 ^ m * x) = .ok (some src) ∧ src.convert c = .ok f ∧ Downed (2 ^ m) c f[i] y[i] := by
  obtain ⟨n, g, a1, a2, a3, _⟩ := C58_mix fuel s s' st it h
  rw [ho] at a1 a3
  generalize ratioOf s.rate st.rate = q at *
  have down : ∀ i j, InDst q st.len s.buf.length j → i ≤ j → InDst q st.len s.buf.length i := fun i j hj hij =>
    ⟨lt_of_le_of_lt hij hj.1, fun l hl => lt_of_le_of_lt hij (hj.2 l hl)⟩
  have hpos : 0 < 2 ^ m := by positivity
  have hn : n ≤ 2 ^ m * s.buf.length := by
    by_contra hc
    push Not at hc
    have := (a1.1 _ hc).1
    rw [usize_pow (pos_pow hq hm (by omega)) (by omega), Nat.mul_div_cancel_left _ hpos] at this
    omega
  have hxn : 2 ^ m * x < n := by
    by_contra hc
    push Not at hc
    have hle : n / 2 ^ m ≤ x := by
      have := Nat.div_le_div_right (c := 2 ^ m) hc
      rwa [Nat.mul_div_cancel_left _ hpos] at this
    rcases a1.2.2 with hl | hl
    · have := hx.2 n hl
      rw [usize_pow (mul_pow_is hq hm (by omega)) (by omega)] at this
      omega
    · rw [usize_pow (pos_pow hq hm (by omega)) (by omega)] at hl
      exact hl (down _ _ hx hle)
  obtain ⟨β, b1, b2⟩ := mixed_pow hq hm g x n (by omega) i hi (fun j hj => by
    obtain ⟨f, f1, f2⟩ := a2 j hj
    obtain ⟨h1, h0⟩ := hv j f f1 _ f2
    obtain ⟨w, hw⟩ := inRange_val h1 hi
    by_cases hd : 2 ^ m ∣ j
    · exact ⟨w, hw, fun hh => absurd hd hh⟩
    · exact ⟨0, val_of (h0 hd) (by simp), fun _ => rfl⟩)
  rw [if_pos hxn] at b2
  obtain ⟨src, e1, e2⟩ := a2 _ hxn
  exact ⟨_, src, _, a3 x hx, e1, e2, b2 _ b1⟩

/-- Every other frame is silent. -/
def exGaps : Audio .mono .ch64 := ⟨lit 16, [#v[lit 0.5], #v[lit 0], #v[lit (-1)], #v[lit 0]]⟩

example := C102_pulse 6 1 exFloat _ (.audio exGaps) _
  (R.returns₂ (x := exFloat.stream 6 (.audio exGaps)) (by decide +kernel)) rfl
  (by decide +kernel) (by norm_num) (by decide +kernel) 0 (by decide) (by
    intro j f hf x hx
    match j with
    | 0 | 1 | 2 | 3 => cases hf; cases hx; decide +kernel
    | j + 4 => cases hf) 1 (by decide +kernel)

/-! ## There and back -/

theorem rep_mul_pow {f : Fmt} [Std f] {p : ℚ} {m : Nat} (hm : m ≤ 24) (hp : f.Rep p) (h1 : |p| ≤ 1) :
    f.Rep (p * ((2 ^ m : Nat) : ℚ)) := by
  obtain ⟨a, e, h2, h3, h4, rfl⟩ := hp
  have het := Std.etop (f := f)
  rcases eq_or_ne a 0 with rfl | ha
  · exact ⟨0, e, h2, h3, h4, by simp⟩
  · have he : e ≤ 0 := by
      by_contra hc
      push Not at hc
      have h5 : (1:ℚ) < 2 ^ e := one_lt_zpow₀ (by norm_num) hc
      rw [abs_mul, abs_of_pos (two_zpow_pos e)] at h1
      have h6 : (1:ℚ) ≤ |(a:ℚ)| := by
        rw [← Int.cast_abs]; exact_mod_cast Int.one_le_abs ha
      nlinarith
    refine ⟨a, e + m, h2, by omega, by omega, ?_⟩
    push_cast
    rw [zpow_add₀ (by norm_num), zpow_natCast]; ring

theorem returned_float {f : Fmt} [Std f] {p : ℚ} {m : Nat} (hm : m ≤ 24) (hp : f.Rep p) (h1 : |p| ≤ 1) :
    |clampQ (f.rnd (p * ((2 ^ m : Nat) : ℚ)))| ≤ 1 ∧
    f.rnd (clampQ (f.rnd (p * ((2 ^ m : Nat) : ℚ))) / ((2 ^ m : Nat) : ℚ)) =
      max (-(1 / ((2 ^ m : Nat) : ℚ))) (min p (1 / ((2 ^ m : Nat) : ℚ))) := by
  refine ⟨abs_le.mpr (clampQ_range _), ?_⟩
  have hr := rep_inv_pow (f := f) hm
  rw [rnd_of_rep (rep_mul_pow hm hp h1)]
  have hN : (0:ℚ) < ((2 ^ m : Nat) : ℚ) := by positivity
  generalize ((2 ^ m : Nat) : ℚ) = N at *
  have e : clampQ (p * N) / N = max (-(1 / N)) (min p (1 / N)) := by
    unfold clampQ
    rw [← max_div_div_right hN.le, ← min_div_div_right hN.le, mul_div_cancel_right₀ _ hN.ne', min_comm, neg_div]
  rw [e]
  rcases max_choice (-(1 / N)) (min p (1 / N)) with h | h <;> rw [h]
  · rw [rnd_neg, rnd_of_rep hr]
  · rcases min_choice p (1 / N) with h | h <;> rw [h]
    · exact rnd_of_rep hp
    · exact rnd_of_rep hr

theorem returned {x z y : c.T} {m : Nat} (hm : m ≤ 24) {w : ℚ} (hx : val c x w) (h1 : Boosted (2 ^ m) c x z)
    (h2 : Downed (2 ^ m) c z y) : Returned (2 ^ m) c x y := by
  cases c with
  | ch8 => rw [show z = x from h1] at h2; exact h2
  | ch16 => rw [show z = x from h1] at h2; exact h2
  | ch32 =>
    intro p hp hp1
    obtain ⟨a, b⟩ := returned_float hm hp.rep hp1
    rw [← b]; exact h2 _ (h1 p hp hp1) a
  | ch64 =>
    intro p hp hp1
    obtain ⟨a, b⟩ := returned_float hm hp.rep hp1
    rw [← b]; exact h2 _ (h1 p hp hp1) a

/-- The frame that upsampling makes of a frame in range is in range. -/
theorem boosted_val {x z : c.T} {N : Nat} {w : ℚ} (hx : val c x w) (h : Boosted N c x z) : ∃ v, val c z v := by
  cases c with
  | ch8 => exact ⟨_, rfl⟩
  | ch16 => exact ⟨_, rfl⟩
  | ch32 => exact ⟨_, h w hx.1 hx.2, abs_le.mpr (clampQ_range _)⟩
  | ch64 => exact ⟨_, h w hx.1 hx.2, abs_le.mpr (clampQ_range _)⟩

theorem inRange_of {x : Frame k c} (h : ∀ i (hi : i < k.chans), ∃ w, val c x[i] w) : x.InRange := by
  cases c with
  | ch8 => trivial
  | ch16 => trivial
  | ch32 =>
    intro y hy
    obtain ⟨i, hi, rfl⟩ := Vector.getElem_of_mem hy
    obtain ⟨w, h1, h2⟩ := h i hi
    exact ⟨w, h1, abs_le.mp h2⟩
  | ch64 =>
    intro y hy
    obtain ⟨i, hi, rfl⟩ := Vector.getElem_of_mem hy
    obtain ⟨w, h1, h2⟩ := h i hi
    exact ⟨w, h1, abs_le.mp h2⟩

/-- C102 for factors `N = 2^m`: float samples of amplitude up to `1 / N` come back exactly; louder ones are cut off at
`1 / N`.  Missing: integer formats, where the claim is false (`C102_false`): a `N`-th of the amplitude comes back. -/
theorem C102_partial (fuel fuel' m : Nat) (s s' t t' : Sink k c) (st : Src k' c') (it : It k' c') (it' : It k c)
    (hk : k.builtin = true) (h : s.stream fuel st = .ok (s', it))
    (h' : t.stream fuel' (.audio ⟨s.rate, s'.buf⟩) = .ok (t', it'))
    (ho : s.res.offseti = lit 0) (ho' : t.res.offseti = lit 0) (hm : m ≤ 24)
    (hq : (ratioOf s.rate st.rate).Is ((2 ^ m : Nat) : ℚ))
    (hq' : (ratioOf t.rate (some s.rate)).Is (1 / ((2 ^ m : Nat) : ℚ)))
    (hb : s.buf.length ≤ 2 ^ 52) (hb' : 2 ^ m * t.buf.length ≤ 2 ^ 52)
    (hall : ∀ j, j < s.buf.length → InDst (ratioOf s.rate st.rate) st.len s.buf.length j)
    (hv : ∀ j f, st.nth j = .ok (some f) → ∀ x : Frame k c, f.convert c = .ok x → x.InRange)
    (x : Nat) (hx : InDst (ratioOf t.rate (some s.rate)) (some s.buf.length) t.buf.length x) :
    ∃ (y : Frame k c) (src : Frame k' c') (f : Frame k c), t'.buf[x]? = some y ∧ st.nth x = .ok (some src) ∧
      src.convert c = .ok f ∧ ∀ i (hi : i < k.chans), Returned (2 ^ m) c f[i] y[i] := by
  have hlen : s'.buf.length = s.buf.length := (C36_stream fuel s s' st it h).1
  have hpos : 0 < 2 ^ m := by positivity
  have hm24 : 2 ^ m ≤ 2 ^ 24 := Nat.pow_le_pow_right (by norm_num) hm
  -- the frames of the upsampled audio
  have mid : ∀ j z, s'.buf[j]? = some z → z.InRange ∧ (¬ 2 ^ m ∣ j → z = Frame.dflt) ∧
      (2 ^ m ∣ j → ∃ (src : Frame k' c') (f : Frame k c), st.nth (j / 2 ^ m) = .ok (some src) ∧ src.convert c = .ok f ∧
        f.InRange ∧ ∀ i (hi : i < k.chans), Boosted (2 ^ m) c f[i] z[i]) := by
    intro j z hz
    have hj : j < s.buf.length := by
      rw [← hlen]; exact (List.getElem?_eq_some_iff.mp hz).1
    obtain ⟨y, e1, e2, e3⟩ := C78_actual fuel (2 ^ m) s s' st it h ho hq hpos hm24 hb j (hall j hj)
    rw [hz] at e1
    cases e1
    by_cases hd : 2 ^ m ∣ j
    · obtain ⟨src, f, g1, g2, g3⟩ := e3 hd
      have hf := hv _ _ g1 _ g2
      refine ⟨inRange_of fun i hi => ?_, fun hh => absurd hd hh, fun _ => ⟨src, f, g1, g2, hf, g3⟩⟩
      obtain ⟨w, hw⟩ := inRange_val hf hi
      exact boosted_val hw (g3 i hi)
    · refine ⟨inRange_of fun i hi => ⟨0, ?_⟩, e2, fun hh => absurd hh hd⟩
      have := e2 hd
      subst this
      rw [dflt_get]; exact (mixLaw c).dflt
  have hx' : InDst (ratioOf t.rate (Src.audio ⟨s.rate, s'.buf⟩ : Src k c).rate) (Src.audio ⟨s.rate, s'.buf⟩ : Src k c).len
      t.buf.length x := by
    show InDst _ (some s'.buf.length) _ _
    rw [hlen]; exact hx
  have pulse : ∀ i (hi : i < k.chans), ∃ (y : Frame k c) (src : Frame k c) (f : Frame k c), t'.buf[x]? = some y ∧
      s'.buf[2 ^ m * x]? = some src ∧ src.convert c = .ok f ∧ Downed (2 ^ m) c f[i] y[i] := by
    intro i hi
    obtain ⟨y, src, f, g1, g2, g3⟩ := C102_pulse fuel' m t t' _ it' h' ho' hq' hm hb' i hi (fun j f hf x hx => by
      have hf' : s'.buf[j]? = some f := by
        injection hf
      rw [C21_id hk] at hx
      cases hx
      obtain ⟨h1, h2, _⟩ := mid j f hf'
      refine ⟨h1, fun hd => ?_⟩
      have := h2 hd
      subst this
      rw [dflt_get]; exact of_val (mixLaw c).dflt) x hx'
    refine ⟨y, src, f, g1, ?_, g3⟩
    injection g2
  have h0 : 0 < k.chans := by revert hk; cases k <;> simp [Kind.builtin, Kind.chans]
  obtain ⟨y, z, z', g1, g2, -⟩ := pulse 0 h0
  obtain ⟨-, -, e3⟩ := mid _ _ g2
  obtain ⟨src, f, f1, f2, f3, f4⟩ := e3 (Nat.dvd_mul_right _ _)
  rw [Nat.mul_div_cancel_left _ hpos] at f1
  refine ⟨y, src, f, g1, f1, f2, fun i hi => ?_⟩
  obtain ⟨y2, z2, z3, k1, k2, k3, k4⟩ := pulse i hi
  rw [g1] at k1; cases k1
  rw [g2] at k2; cases k2
  rw [C21_id hk] at k3
  cases k3
  obtain ⟨w, hw⟩ := inRange_val f3 hi
  exact returned hm hw (f4 i hi) k4

/-- Three frames at half the rate. -/
def exSlow : Audio .mono .ch64 := ⟨lit 8, [#v[lit 0.25], #v[lit (-0.5)], #v[lit 0.375]]⟩
/-- Six slots at twice the rate. -/
def exFast : Sink .mono .ch64 := ⟨lit 16, Resampler.dflt, List.replicate 6 #v[lit 0]⟩

example := C102_partial 6 9 1 exFast _ exFloat _ (.audio exSlow) _ _ rfl
  (R.returns₂ (x := exFast.stream 6 (.audio exSlow)) (by decide +kernel))
  (R.returns₂ (x := exFloat.stream 9 (.audio ⟨exFast.rate, (R.out (exFast.stream 6 (.audio exSlow)) (by decide +kernel)).1.buf⟩))
    (by decide +kernel)) rfl rfl (by norm_num) (by decide +kernel) (by decide +kernel) (by decide +kernel)
  (by decide +kernel) (by decide +kernel) (by
    intro j f hf x hx
    match j with
    | 0 | 1 | 2 => cases hf; cases hx; decide +kernel
    | j + 3 => cases hf) 1 (by decide +kernel)

/-- C102 is false, by example: integer samples come back at half the amplitude, and loud float samples are cut off. -/
theorem C102_false :
    thereAndBack (k := .mono) (c := .ch8) ⟨lit 8, [#v[100#8], #v[206#8], #v[127#8]]⟩ 3 (lit 16) =
      .ok [#v[49#8], #v[232#8], #v[63#8]] ∧
    thereAndBack (k := .mono) (c := .ch64) ⟨lit 8, [#v[lit 0.25], #v[lit 0.75], #v[lit (-1)]]⟩ 3 (lit 16) =
      .ok [#v[lit 0.25], #v[lit 0.5], #v[lit (-0.5)]] := by
  constructor <;> decide +kernel

example : thereAndBack (k := .mono) (c := .ch64) ⟨lit 8, [#v[lit 0.25], #v[lit (-0.5)], #v[lit 0.375]]⟩ 3 (lit 16) =
    .ok [#v[lit 0.25], #v[lit (-0.5)], #v[lit 0.375]] := by decide +kernel
example : (ratioOf (lit 16) (some (lit 8))).Is ((2 ^ 1 : Nat) : ℚ) ∧
    (ratioOf (lit 8) (some (lit 16))).Is (1 / ((2 ^ 1 : Nat) : ℚ)) := by
  have h16 : (lit 16 : F64).Is 16 := is_lit (by exact_mod_cast rep_nat53 (n := 16) (by norm_num))
  have h8 : (lit 8 : F64).Is 8 := is_lit (by exact_mod_cast rep_nat53 (n := 8) (by norm_num))
  have e1 : binary64.rnd (16 / 8) = ((2 ^ 1 : Nat) : ℚ) := by decide +kernel
  have e2 : binary64.rnd (8 / 16) = 1 / ((2 ^ 1 : Nat) : ℚ) := by decide +kernel
  have g1 := h16.div h8 (by norm_num) (small (by norm_num))
  have g2 := h8.div h16 (by norm_num) (small (by norm_num))
  rw [e1] at g1; rw [e2] at g2
  exact ⟨g1, g2⟩
example : ∀ j < 6, InDst (ratioOf (lit 16) (some (lit 8))) (some 3) 6 j := by
  intro j hj
  refine ⟨hj, fun l hl => ?_⟩
  cases hl
  have : ((ratioOf (lit 16) (some (lit 8))).mul (f64OfUsize 3)).toUsize = 6 := by decide +kernel
  omega

end Fon
