import Verif.Props.Ops
import Verif.Props.CrossArith
import Mathlib.Analysis.SpecialFunctions.Trigonometric.Bounds
import Mathlib.Analysis.Real.Pi.Bounds

/-!
# C93: constant power panning

The claim: panning a channel of level `p` gives two speakers levels `a, b` of the same sign as `p` with
`a² + b² = p²`, whatever the position.
-/

namespace Fon
open Fmt Fl
variable {k : Kind} {c : ChTy}

theorem spread_stereo : Kind.stereo.Spread := by
  have l1 : (lit (-0.5) : F64).Is (-1 / 2) := by
    have := is_lit (f := binary64) (q := -0.5) (rep_dyadic (-1) (-1) (by norm_num) (by decide) (by decide) (by decide))
    rwa [show (-0.5 : ℚ) = -1 / 2 by norm_num] at this ⊢
  have l2 : (lit 0.5 : F64).Is (1 / 2) := by
    have := is_lit (f := binary64) (q := 0.5) (rep_dyadic 1 (-1) (by norm_num) (by decide) (by decide) (by decide))
    rwa [show (0.5 : ℚ) = 1 / 2 by norm_num] at this ⊢
  refine ⟨by decide, by decide, fun i hi => ?_⟩
  change i < 2 at hi
  obtain rfl | rfl : i = 0 ∨ i = 1 := by omega
  · exact ⟨_, _, _, _, rfl, rfl, l1, l2, by norm_num [abs_le], by norm_num [abs_le], by norm_num [abs_of_pos]⟩
  · exact ⟨_, _, _, _, rfl, rfl, l2, l1, by norm_num [abs_le], by norm_num [abs_le], by norm_num [abs_of_neg]⟩

theorem ofF64_level {x : F64} {q : ℚ} (hx : x.Is q) (hq : |q| ≤ 1) :
    ∃ p, Level c (c.ofF64 x) p ∧ |p - q| ≤ 3 * ulp c := by
  have hr : x.InRange := ⟨q, hx, (abs_le.mp hq).1, (abs_le.mp hq).2⟩
  have key := C88_conv c .ch64 x hr q hx
  cases c
  · rwa [show ChTy.ofF64 .ch8 x = ChTy.conv .ch8 .ch64 x from congrArg (ChTy.conv .ch8 .ch64) (clamp1_of_inRange hr)]
  · rwa [show ChTy.ofF64 .ch16 x = ChTy.conv .ch16 .ch64 x from
      congrArg (ChTy.conv .ch16 .ch64) (clamp1_of_inRange hr)]
  · refine ⟨_, hx.cast binary32 (small2 (by linarith)), ?_⟩
    have := err_le_two (f := binary32) (q := q) (by linarith)
    have u : (0:ℚ) < ulp .ch32 := by decide +kernel
    have e : binary32.u = ulp .ch32 := by decide +kernel
    rw [e] at this
    linarith
  · exact ⟨q, hx, by rw [sub_self, abs_zero]; decide +kernel⟩

theorem level_of_beq {x y : c.T} {a : ℚ} (vx : Valid c x) (h : c.beq x y = true) (hy : Level c y a) : Level c x a := by
  obtain ⟨b, hb⟩ := vx.level
  cases c
  · have : x = y := by simpa [ChTy.beq] using h
    rwa [this]
  · have : x = y := by simpa [ChTy.beq] using h
    rwa [this]
  · have : Fl.eq x y = true := h
    rw [Is.eq hb hy, decide_eq_true_eq] at this
    exact this ▸ hb
  · have : Fl.eq x y = true := h
    rw [Is.eq hb hy, decide_eq_true_eq] at this
    exact this ▸ hb

theorem add_silence {x : c.T} {a : ℚ} (vx : Valid c x) (h : Level c x a) : Level c (c.add c.dflt x) a := by
  have e : c.dflt = c.MID := by cases c <;> rfl
  rw [e]
  exact level_of_beq Valid.add (C62_neutral c x vx).2.1 h

/-- Squares of two weights that are nearly `cos` and `sin`. -/
theorem power_near {p a b e θ : ℝ} (hp : |p| ≤ 1) (ha : |a| ≤ 1) (hb : |b| ≤ 1)
    (h1 : |a - p * Real.cos θ| ≤ e) (h2 : |b - p * Real.sin θ| ≤ e) : |a ^ 2 + b ^ 2 - p ^ 2| ≤ 4 * e := by
  have sq : p ^ 2 = (p * Real.cos θ) ^ 2 + (p * Real.sin θ) ^ 2 := by
    have := Real.sin_sq_add_cos_sq θ; linear_combination (-p ^ 2) * this
  have b1 : |p * Real.cos θ| ≤ 1 := by
    rw [abs_mul]; nlinarith [abs_nonneg p, Real.abs_cos_le_one θ, abs_nonneg (Real.cos θ)]
  have b2 : |p * Real.sin θ| ≤ 1 := by
    rw [abs_mul]; nlinarith [abs_nonneg p, Real.abs_sin_le_one θ, abs_nonneg (Real.sin θ)]
  have k : ∀ u v : ℝ, |u| ≤ 1 → |v| ≤ 1 → |u - v| ≤ e → |u ^ 2 - v ^ 2| ≤ 2 * e := by
    intro u v hu hv huv
    have h3 : |u + v| ≤ 2 := (abs_add_le u v).trans (by linarith)
    rw [show u ^ 2 - v ^ 2 = (u - v) * (u + v) by ring, abs_mul]
    nlinarith [abs_nonneg (u - v), abs_nonneg (u + v)]
  have k1 := abs_le.mp (k _ _ ha b1 h1)
  have k2 := abs_le.mp (k _ _ hb b2 h2)
  rw [abs_le]; constructor <;> linarith

/-- The weights of one channel. -/
theorem weight_near {t : F64} {d : c.T} {p w : ℚ} {θ eps : ℝ} (vd : Valid c d) (hp : Level c d p) (hw : t.Is w)
    (h1 : |w| ≤ 1) (hθ : |(w:ℝ) - θ| ≤ eps) :
    ∃ a, Level c (c.add c.dflt (c.mul d (c.ofF64 t))) a ∧ |a| ≤ 1 ∧ |(a:ℝ) - p * θ| ≤ 7 * (ulp c : ℝ) + eps := by
  obtain ⟨q, hq, eq⟩ := ofF64_level (c := c) hw h1
  have hr : t.InRange := ⟨w, hw, (abs_le.mp h1).1, (abs_le.mp h1).2⟩
  obtain ⟨a, ha, ea⟩ := C69_mul vd (Valid.ofF64 hr) hp hq
  have va : Valid c (c.mul d (c.ofF64 t)) := vd.mul (Valid.ofF64 hr)
  refine ⟨a, add_silence va ha, abs_le.mpr (ha.range va), ?_⟩
  have rp : |(p:ℝ)| ≤ 1 := by exact_mod_cast abs_le.mpr (hp.range vd)
  have e1 : |(a:ℝ) - p * q| ≤ 4 * (ulp c : ℝ) := by exact_mod_cast ea
  have e2 : |(q:ℝ) - w| ≤ 3 * (ulp c : ℝ) := by exact_mod_cast eq
  have e3 : |(p:ℝ) * (q - θ)| ≤ 3 * (ulp c : ℝ) + eps := by
    rw [abs_mul]
    have : |(q:ℝ) - θ| ≤ 3 * (ulp c : ℝ) + eps := by
      rw [abs_le] at *; constructor <;> linarith
    nlinarith [abs_nonneg (p:ℝ), abs_nonneg ((q:ℝ) - θ)]
  rw [abs_le] at *
  constructor <;> linarith

/-- The angle is a finite number. -/
theorem angle_finite {s x y : F64} {u a b : ℚ} (hs : s.Is u) (hx : x.Is a) (hy : y.Is b) (h0 : |u| ≤ 1) (h1 : |a| ≤ 1)
    (h2 : |b| ≤ 1) (h3 : 2 ^ (-20 : ℤ) ≤ |b - a|) :
    ∃ θ : ℚ, (((s.sub (y.min x)).div (if (y.sub x).lt (lit 0) then (lit 2).sub (y.sub x) else y.sub x)).mul
      Blend.fracPi2).Is θ := by
  have two : binary64.Rep 2 := rep_dyadic 2 0 (by norm_num) (by decide) (by decide) (by decide)
  have four : binary64.Rep 4 := rep_dyadic 4 0 (by norm_num) (by decide) (by decide) (by decide)
  have tiny : binary64.Rep (2 ^ (-20 : ℤ)) := rep_dyadic 1 (-20) (by norm_num) (by decide) (by decide) (by decide)
  rw [abs_le] at h0 h1 h2
  have hd : |b - a| ≤ 2 := by rw [abs_le]; constructor <;> linarith
  have d1 := hy.sub hx (small2 hd)
  have d2 := abs_rnd_le_of_rep two hd
  -- the distance
  obtain ⟨D, hD, D0, D1⟩ : ∃ D : ℚ, (if (y.sub x).lt (lit 0) then (lit 2).sub (y.sub x) else y.sub x).Is D ∧
      2 ^ (-20 : ℤ) ≤ D ∧ D ≤ 4 := by
    rw [d1.lt is_zero]
    by_cases hn : binary64.rnd (b - a) < 0
    · rw [decide_eq_true hn, if_pos rfl]
      rw [abs_le] at d2
      have hb : |2 - binary64.rnd (b - a)| ≤ 4 := by rw [abs_le]; constructor <;> linarith
      refine ⟨_, (is_lit two).sub d1 (small (hb.trans (by norm_num))), ?_, ?_⟩
      · have := rnd_mono (f := binary64) (p := 2) (q := 2 - binary64.rnd (b - a)) (by linarith)
        rw [rnd_of_rep two] at this
        refine le_trans ?_ this
        norm_num
      · exact (le_abs_self _).trans (abs_rnd_le_of_rep four hb)
    · rw [decide_eq_false hn]
      refine ⟨_, d1, ?_, (le_abs_self _).trans (d2.trans (by norm_num))⟩
      have hpos : 0 ≤ b - a := by
        by_contra hc
        push Not at hc
        have h4 : b - a ≤ -(2 ^ (-20 : ℤ)) := by rw [abs_of_neg hc] at h3; linarith
        have := rnd_mono (f := binary64) h4
        rw [rnd_neg, rnd_of_rep tiny] at this
        apply hn
        refine lt_of_le_of_lt this ?_
        norm_num
      rw [abs_of_nonneg hpos] at h3
      have := rnd_mono (f := binary64) h3
      rwa [rnd_of_rep tiny] at this
  have hm := hy.min hx
  have hm1 : |u - min b a| ≤ 2 := by
    have : -1 ≤ min b a := le_min h2.1 h1.1
    have : min b a ≤ 1 := (min_le_left _ _).trans h2.2
    rw [abs_le]; constructor <;> linarith
  have s1 := hs.sub hm (small2 hm1)
  have s2 := abs_rnd_le_of_rep two hm1
  have tp : (0:ℚ) < 2 ^ (-20 : ℤ) := two_zpow_pos _
  have q1 : |binary64.rnd (u - min b a) / D| ≤ 2 ^ 21 := by
    rw [abs_div, abs_of_pos (by linarith : 0 < D), div_le_iff₀ (by linarith)]
    have : (2:ℚ) ^ (21:ℕ) * 2 ^ (-20 : ℤ) = 2 := by norm_num
    nlinarith
  have q2 := s1.div hD (by linarith) (small (q1.trans (by norm_num)))
  have r21 : binary64.Rep (2 ^ 21) := rep_dyadic 1 21 (by norm_num) (by decide) (by decide) (by decide)
  have q3 := abs_rnd_le_of_rep r21 q1
  have hpi : Blend.fracPi2.Is (binary64.rnd 1.57079632679489661923132169163975144) :=
    is_lit_rnd (small (by norm_num [abs_of_pos]))
  have pi0 : |binary64.rnd 1.57079632679489661923132169163975144| ≤ 2 := abs_rnd_le_of_rep two (by norm_num [abs_of_pos])
  refine ⟨_, q2.mul hpi (small ?_)⟩
  rw [abs_mul]
  calc _ ≤ (2:ℚ) ^ 21 * 2 := mul_le_mul q3 pi0 (abs_nonneg _) (by norm_num)
    _ ≤ _ := by norm_num

/-- C93, the sum of squares: at every position, for every layout with its speakers apart, panning a sample of level `p`
into silent speakers gives two of them levels `a` and `b` with `a² + b² = p²` up to the precision of the format and of
the trigonometric functions; the other speakers stay silent.
Missing: that `a` and `b` have the sign of `p`, which is false, see `C93_false`. -/
theorem C93_partial (t : Trig) (eps : ℝ) (ht : t.Near eps) (hk : k.Spread) (out : Frame k c) (d s : c.T) (vd : Valid c d)
    (vs : Valid c s) (p : ℚ) (hp : Level c d p) (ho : ∀ i (hi : i < k.chans), out[i] = c.dflt) :
    ∃ (r : Frame k c) (i j : Nat) (hi : i < k.chans) (hj : j < k.chans) (a b : ℚ),
      Blend.panStep t out d s = .ok r ∧ i ≠ j ∧ Level c r[i] a ∧ Level c r[j] b ∧
      |(a:ℝ) ^ 2 + b ^ 2 - p ^ 2| ≤ 4 * (7 * (ulp c : ℝ) + eps) ∧
      ∀ l (hl : l < k.chans), l ≠ i → l ≠ j → r[l] = c.dflt := by
  obtain ⟨u, hu, u0, u1⟩ := vs.toF64
  obtain ⟨hk1, hk2, hk3⟩ := hk
  obtain ⟨i, hi, hst⟩ : ∃ i, i < k.config.length ∧ Blend.panStart k.config (c.toF64 s) = .ok i := by
    unfold Blend.panStart
    rw [if_neg (by omega)]
    cases hf : k.config.findIdx? (fun loc => Fl.le loc (c.toF64 s)) with
    | none => exact ⟨k.config.length - 1, by omega, rfl⟩
    | some i => exact ⟨i, (List.findIdx?_eq_some_iff_getElem.mp hf).1, rfl⟩
  obtain ⟨x, y, a0, b0, g1, g2, g3, g4, g5, g6, g7⟩ := hk3 i hi
  obtain ⟨θ, hθ⟩ := angle_finite hu g3 g4 (abs_le.mpr ⟨u0, u1⟩) g5 g6 g7
  obtain ⟨sn, cs, t1, t2, t3, t4, t5, t6⟩ := ht _ θ hθ
  have hj : (i + 1) % k.config.length < k.config.length := Nat.mod_lt _ (by omega)
  have hij : i ≠ (i + 1) % k.config.length := by
    rcases Nat.lt_or_ge (i + 1) k.config.length with h | h
    · rw [Nat.mod_eq_of_lt h]; omega
    · rw [show i + 1 = k.config.length by omega, Nat.mod_self]; omega
  set j := (i + 1) % k.config.length
  obtain ⟨a, ha, a1, a2⟩ := weight_near vd hp t2 t4 t6
  obtain ⟨b, hb, b1, b2⟩ := weight_near vd hp t1 t3 t5
  have rp : |(p:ℝ)| ≤ 1 := by exact_mod_cast abs_le.mpr (hp.range vd)
  have ci : i < k.chans := by omega
  have cj : j < k.chans := by omega
  set θf := ((Fl.sub (c.toF64 s) (y.min x)).div (if (y.sub x).lt (lit 0) then (lit 2).sub (y.sub x) else y.sub x)).mul
      Blend.fracPi2
  refine ⟨(out.set i (c.add out[i] (c.mul d (c.ofF64 (t.cos θf))))).set j
    (c.add (out.set i (c.add out[i] (c.mul d (c.ofF64 (t.cos θf)))))[j] (c.mul d (c.ofF64 (t.sin θf)))),
    i, j, ci, cj, a, b, ?_, hij, ?_, ?_,
    power_near (θ := (θ:ℝ)) rp (by exact_mod_cast a1) (by exact_mod_cast b1) a2 b2, ?_⟩
  · unfold Blend.panStep
    simp only [hst, bind, Except.bind, Blend.idx, g1, show k.config[(i + 1) % k.config.length]? = some y from g2]
    rw [show Blend.modChan out i _ = .ok _ from modChan_ok.mpr ⟨by omega, rfl⟩]
    exact modChan_ok.mpr ⟨by omega, rfl⟩
  · rw [Vector.getElem_set_ne _ _ (Ne.symm hij), Vector.getElem_set_self, ho]; exact ha
  · rw [Vector.getElem_set_self, Vector.getElem_set_ne _ _ hij, ho]; exact hb
  · intro l hl l1 l2
    rw [Vector.getElem_set_ne _ _ (Ne.symm l2), Vector.getElem_set_ne _ _ (Ne.symm l1), ho]

theorem third (n : ℤ) (hn : |n| ≤ 2) : (Fl.div (lit n) (lit 3) : F64).Is (binary64.rnd (n / 3)) := by
  have h1 : (lit (n:ℚ) : F64).Is n := is_lit (rep_small_int (f := binary64) (lt_of_le_of_lt hn (by norm_num)))
  have h3 : (lit 3 : F64).Is 3 := is_lit (by exact_mod_cast rep_small_int (f := binary64) (n := 3) (by norm_num))
  have : |(n:ℚ)| ≤ 2 := by exact_mod_cast hn
  exact h1.div h3 (by norm_num) (small (by rw [abs_div]; norm_num; linarith))

theorem spread_surround : Kind.surround.Spread := by
  have near : ∀ n : ℤ, |n| ≤ 2 → |binary64.rnd ((n:ℚ) / 3) - n / 3| ≤ 2 ^ (-53 : ℤ) := by
    intro n hn
    have : |(n:ℚ)| ≤ 2 := by exact_mod_cast hn
    have := err_le_two (f := binary64) (q := (n:ℚ) / 3) (by rw [abs_div]; norm_num; linarith)
    rwa [show binary64.u = 2 ^ (-53 : ℤ) by decide +kernel] at this
  have key : ∀ m n : ℤ, |m| ≤ 2 → |n| ≤ 2 → m ≠ n →
      |binary64.rnd ((m:ℚ) / 3)| ≤ 1 ∧ |binary64.rnd ((n:ℚ) / 3)| ≤ 1 ∧
      2 ^ (-20 : ℤ) ≤ |binary64.rnd ((n:ℚ) / 3) - binary64.rnd ((m:ℚ) / 3)| := by
    intro m n hm hn hne
    have em := near m hm
    have en := near n hn
    have qm : |(m:ℚ)| ≤ 2 := by exact_mod_cast hm
    have qn : |(n:ℚ)| ≤ 2 := by exact_mod_cast hn
    have t53 : (2:ℚ) ^ (-53 : ℤ) ≤ 1 / 100 := by norm_num
    rw [abs_le] at em en qm qn
    have h20 : (2:ℚ) ^ (-20 : ℤ) ≤ 1 / 4 := by norm_num
    refine ⟨by rw [abs_le]; constructor <;> linarith, by rw [abs_le]; constructor <;> linarith, ?_⟩
    rw [le_abs]
    rcases lt_or_gt_of_ne hne with h | h
    · left
      have : (m:ℚ) + 1 ≤ n := by exact_mod_cast h
      linarith
    · right
      have : (n:ℚ) + 1 ≤ m := by exact_mod_cast h
      linarith
  refine ⟨by decide, by decide, fun i hi => ?_⟩
  change i < 5 at hi
  have go : ∀ (m n : ℤ) (x y : F64), Kind.surround.config[i]? = some x →
      Kind.surround.config[(i + 1) % Kind.surround.config.length]? = some y → x = Fl.div (lit m) (lit 3) →
      y = Fl.div (lit n) (lit 3) → |m| ≤ 2 → |n| ≤ 2 → m ≠ n → ∃ (x y : F64) (a b : ℚ),
      Kind.surround.config[i]? = some x ∧ Kind.surround.config[(i + 1) % Kind.surround.config.length]? = some y ∧
      x.Is a ∧ y.Is b ∧ |a| ≤ 1 ∧ |b| ≤ 1 ∧ 2 ^ (-20 : ℤ) ≤ |b - a| := by
    intro m n x y hx hy ex ey hm hn hne
    obtain ⟨k1, k2, k3⟩ := key m n hm hn hne
    exact ⟨x, y, _, _, hx, hy, ex ▸ third m hm, ey ▸ third n hn, k1, k2, k3⟩
  obtain rfl | rfl | rfl | rfl | rfl : i = 0 ∨ i = 1 ∨ i = 2 ∨ i = 3 ∨ i = 4 := by omega
  · exact go (-2) (-1) _ _ rfl rfl (by norm_num) (by norm_num) (by decide) (by decide) (by decide)
  · exact go (-1) 0 _ _ rfl rfl (by norm_num) (by norm_num) (by decide) (by decide) (by decide)
  · exact go 0 1 _ _ rfl rfl (by norm_num) (by norm_num) (by decide) (by decide) (by decide)
  · exact go 1 2 _ _ rfl rfl (by norm_num) (by norm_num) (by decide) (by decide) (by decide)
  · exact go 2 (-2) _ _ rfl rfl (by norm_num) (by norm_num) (by decide) (by decide) (by decide)

/-- The angle that Pan computes for a position right of the left Stereo speaker. -/
theorem stereo_angle {s : F64} {x : ℚ} (hs : s.Is x) (h0 : -1 / 2 ≤ x) (h1 : x ≤ 1) :
    ∃ θ : ℚ, (panAngle (lit (-0.5)) (lit 0.5) s).Is θ ∧
      |(θ:ℝ) - (x + 1 / 2) * (Real.pi / 2)| ≤ 2 ^ (-50 : ℤ) := by
  have l1 : (lit (-0.5) : F64).Is (-1 / 2) := by
    have := is_lit (f := binary64) (q := -0.5) (rep_dyadic (-1) (-1) (by norm_num) (by decide) (by decide) (by decide))
    rwa [show (-0.5 : ℚ) = -1 / 2 by norm_num] at this ⊢
  have dist : ((lit 0.5 : F64).sub (lit (-0.5))).Is 1 := by
    rw [show ((lit 0.5 : F64).sub (lit (-0.5))) = lit 1 by decide +kernel]; exact is_one
  have u53 : binary64.u = 2 ^ (-53 : ℤ) := by decide +kernel
  have two : binary64.Rep 2 := rep_dyadic 2 0 (by norm_num) (by decide) (by decide) (by decide)
  have hb : |x - -1 / 2| ≤ 2 := by rw [abs_le]; constructor <;> linarith
  have s1 := hs.sub l1 (small2 hb)
  have e1 := err_le_two (f := binary64) hb
  have b1 := abs_rnd_le_of_rep two hb
  have r1 : binary64.Rep (binary64.rnd (x - -1 / 2)) := s1.rep
  set w := binary64.rnd (x - -1 / 2)
  have s2 := s1.div dist (by norm_num) (small (by rw [div_one]; exact b1.trans (by norm_num)))
  rw [div_one, rnd_of_rep r1] at s2
  have hpi : Blend.fracPi2.Is (binary64.rnd 1.57079632679489661923132169163975144) :=
    is_lit_rnd (small (by norm_num [abs_of_pos]))
  have ep := err_le_two (f := binary64) (q := 1.57079632679489661923132169163975144) (by norm_num [abs_of_pos])
  set P := binary64.rnd 1.57079632679489661923132169163975144
  rw [u53] at e1 ep
  have t53 : (2:ℚ) ^ (-53 : ℤ) ≤ 1 / 1000 := by norm_num
  have bP : |P| ≤ 1.6 := by rw [abs_le] at ep ⊢; constructor <;> linarith
  have bw : |w * P| ≤ 3.9 := by
    rw [abs_mul]
    nlinarith [abs_nonneg w, abs_nonneg P]
  have s3 := s2.mul hpi (small (bw.trans (by norm_num)))
  have e3 := err_lt_u (f := binary64) (q := w * P) 2 (lt_of_le_of_lt bw (by norm_num)) (by decide)
  refine ⟨_, s3, ?_⟩
  set θ := binary64.rnd (w * P)
  rw [u53] at e3
  have c1 : |(θ:ℝ) - w * P| ≤ 2 * 2 ^ (-53 : ℤ) := by
    have : |θ - w * P| ≤ 2 * 2 ^ (-53 : ℤ) := by
      refine e3.trans (le_of_eq ?_); norm_num
    have := (Rat.cast_le (K := ℝ)).mpr this
    push_cast at this
    exact this
  have c2 : |(P:ℝ) - 1.57079632679489661923132169163975144| ≤ 2 ^ (-53 : ℤ) := by
    have : ((|P - 1.57079632679489661923132169163975144| : ℚ) : ℝ) ≤ ((2 ^ (-53 : ℤ) : ℚ) : ℝ) := by exact_mod_cast ep
    push_cast at this
    exact this
  have c3 : |(w:ℝ) - (x + 1 / 2)| ≤ 2 ^ (-53 : ℤ) := by
    have : |w - (x + 1 / 2)| ≤ 2 ^ (-53 : ℤ) := by
      rwa [show x + 1 / 2 = x - -1 / 2 by ring]
    have := (Rat.cast_le (K := ℝ)).mpr this
    push_cast at this
    exact this
  have c4 : |(w:ℝ)| ≤ 2 := by exact_mod_cast b1
  have g1 := Real.pi_gt_d20
  have g2 := Real.pi_lt_d20
  have c5 : |(P:ℝ) - Real.pi / 2| ≤ 2 * 2 ^ (-53 : ℤ) := by
    have : (10:ℝ) ^ (-19 : ℤ) ≤ 2 ^ (-53 : ℤ) := by norm_num
    rw [abs_le] at c2 ⊢
    constructor <;> norm_num at * <;> linarith
  have d1 : |(w:ℝ) * (P - Real.pi / 2)| ≤ 4 * 2 ^ (-53 : ℤ) := by
    rw [abs_mul]
    nlinarith [abs_nonneg (w:ℝ), abs_nonneg ((P:ℝ) - Real.pi / 2)]
  have d2 : |((w:ℝ) - (x + 1 / 2)) * (Real.pi / 2)| ≤ 2 * 2 ^ (-53 : ℤ) := by
    rw [abs_mul, abs_of_pos (by linarith : (0:ℝ) < Real.pi / 2)]
    nlinarith [abs_nonneg ((w:ℝ) - (x + 1 / 2))]
  have e50 : (2:ℝ) ^ (-50 : ℤ) = 8 * 2 ^ (-53 : ℤ) := by norm_num
  have split : (θ:ℝ) - (x + 1 / 2) * (Real.pi / 2) =
      (θ - w * P) + w * (P - Real.pi / 2) + (w - (x + 1 / 2)) * (Real.pi / 2) := by ring
  rw [e50, split]
  calc _ ≤ |(θ:ℝ) - w * P| + |(w:ℝ) * (P - Real.pi / 2)| + |((w:ℝ) - (x + 1 / 2)) * (Real.pi / 2)| := abs_add_three _ _ _
    _ ≤ 2 * 2 ^ (-53 : ℤ) + 4 * 2 ^ (-53 : ℤ) + 2 * 2 ^ (-53 : ℤ) := add_le_add (add_le_add c1 d1) d2
    _ = 8 * 2 ^ (-53 : ℤ) := by ring

/-- C93 for Stereo, all positions from the left speaker (-1/2) to the right end: the weights are cosine and sine of an
angle that grows with the position and is a right angle at the right speaker (1/2). -/
theorem C93_stereo (t : Trig) (eps : ℝ) (ht : t.Near eps) (d s : c.T) (vd : Valid c d) (vs : Valid c s) (p x : ℚ)
    (hp : Level c d p) (hx : (c.toF64 s).Is x) (h0 : -1 / 2 ≤ x) :
    ∃ (r : Frame .stereo c) (a b : ℚ), Blend.panStep t Frame.dflt d s = .ok r ∧ Level c r[0] a ∧ Level c r[1] b ∧
      |(a:ℝ) - p * Real.cos ((x + 1 / 2) * (Real.pi / 2))| ≤ 7 * (ulp c : ℝ) + (eps + 2 ^ (-50 : ℤ)) ∧
      |(b:ℝ) - p * Real.sin ((x + 1 / 2) * (Real.pi / 2))| ≤ 7 * (ulp c : ℝ) + (eps + 2 ^ (-50 : ℤ)) := by
  have l1 : (lit (-0.5) : F64).Is (-1 / 2) := by
    have := is_lit (f := binary64) (q := -0.5) (rep_dyadic (-1) (-1) (by norm_num) (by decide) (by decide) (by decide))
    rwa [show (-0.5 : ℚ) = -1 / 2 by norm_num] at this ⊢
  have l2 : (lit 0.5 : F64).Is (1 / 2) := by
    have := is_lit (f := binary64) (q := 0.5) (rep_dyadic 1 (-1) (by norm_num) (by decide) (by decide) (by decide))
    rwa [show (0.5 : ℚ) = 1 / 2 by norm_num] at this ⊢
  obtain ⟨u, hu, _, u1⟩ := vs.toF64
  obtain rfl := hu.unique hx
  obtain ⟨θ, hθ, eθ⟩ := stereo_angle hx h0 u1
  obtain ⟨sn, cs, t1, t2, t3, t4, t5, t6⟩ := ht _ θ hθ
  have f1 : |(cs:ℝ) - Real.cos ((u + 1 / 2) * (Real.pi / 2))| ≤ eps + 2 ^ (-50 : ℤ) := by
    have := (Real.abs_cos_sub_cos_le θ ((u + 1 / 2) * (Real.pi / 2))).trans eθ
    rw [abs_le] at *; constructor <;> linarith
  have f2 : |(sn:ℝ) - Real.sin ((u + 1 / 2) * (Real.pi / 2))| ≤ eps + 2 ^ (-50 : ℤ) := by
    have := (Real.abs_sin_sub_sin_le θ ((u + 1 / 2) * (Real.pi / 2))).trans eθ
    rw [abs_le] at *; constructor <;> linarith
  obtain ⟨a, ha, _, a2⟩ := weight_near vd hp t2 t4 f1
  obtain ⟨b, hb, _, b2⟩ := weight_near vd hp t1 t3 f2
  refine ⟨_, a, b, C27_front_partial t Frame.dflt d s _ _ [] rfl (by decide) _ _ _ l1 l2 hx (by norm_num) h0, ?_, ?_,
    a2, b2⟩
  · rw [Vector.getElem_set_ne _ _ (by decide), Vector.getElem_set_self]
    exact ha
  · rw [Vector.getElem_set_self]
    exact hb

/-- C93 is false: panning the largest sample of any format fully to the right puts it into the left Stereo speaker with
the sign inverted, at half the level or more. -/
theorem C93_false (t : Trig) (ht : t.Near (1 / 100)) (c : ChTy) :
    ∃ (r : Frame .stereo c) (a : ℚ), Blend.panStep t Frame.dflt c.MAX c.MAX = .ok r ∧ Level c r[0] a ∧ a ≤ -1 / 2 := by
  have hp : Level c c.MAX 1 := by
    cases c
    · change (1:ℚ) = _
      decide +kernel
    · change (1:ℚ) = _
      decide +kernel
    · exact is_one
    · exact is_one
  have hx : (c.toF64 c.MAX).Is 1 := by
    have e : c.toF64 c.MAX = lit 1 := by cases c <;> decide +kernel
    rw [e]; exact is_one
  obtain ⟨r, a, b, h1, h2, _, h4, _⟩ := C93_stereo t _ ht c.MAX c.MAX (Valid.consts c).2.2.1 (Valid.consts c).2.2.1 1 1
    hp hx (by norm_num)
  refine ⟨r, a, h1, h2, ?_⟩
  have e : Real.cos ((((1:ℚ):ℝ) + 1 / 2) * (Real.pi / 2)) = -(Real.sqrt 2 / 2) := by
    rw [show (((1:ℚ):ℝ) + 1 / 2) * (Real.pi / 2) = Real.pi - Real.pi / 4 by push_cast; ring, Real.cos_pi_sub,
      Real.cos_pi_div_four]
  rw [e] at h4
  have hs : (1.4:ℝ) ≤ Real.sqrt 2 := Real.le_sqrt_of_sq_le (by norm_num)
  have hu : (ulp c : ℝ) ≤ 1 / 255 := by
    have : ulp c ≤ 1 / 255 := by cases c <;> decide +kernel
    have := (Rat.cast_le (K := ℝ)).mpr this
    push_cast at this
    exact this
  have h50 : (2:ℝ) ^ (-50 : ℤ) ≤ 1 / 1000 := by norm_num
  have : (a:ℝ) ≤ ((-1 / 2 : ℚ) : ℝ) := by
    rw [abs_le] at h4
    push_cast at h4 ⊢
    linarith
  exact_mod_cast this

theorem Trig.Near.mono {t : Trig} {a b : ℝ} (h : t.Near a) (hab : a ≤ b) : t.Near b := fun x q hx => by
  obtain ⟨s, c, a1, a2, a3, a4, a5, a6⟩ := h x q hx
  exact ⟨s, c, a1, a2, a3, a4, a5.trans hab, a6.trans hab⟩

theorem half_rep : binary64.Rep 0.5 := rep_dyadic 1 (-1) (by norm_num) (by decide) (by decide) (by decide)
theorem quarter_rep : binary64.Rep 0.25 := rep_dyadic 1 (-2) (by norm_num) (by decide) (by decide) (by decide)

/-- Functions as good as those of a C library exist. -/
theorem exists_near : ∃ t : Trig, t.Near (2 ^ (-52 : ℤ)) := by
  have key : ∀ y : ℝ, |y| ≤ 1 → ∃ (x : F64) (s : ℚ), x.Is s ∧ |s| ≤ 1 ∧ |(s:ℝ) - y| ≤ 2 ^ (-52 : ℤ) := by
    intro y hy
    rw [abs_le] at hy
    have pos : (0:ℝ) < 2 ^ (-53 : ℤ) := by norm_num
    obtain ⟨r, r1, r2⟩ : ∃ r : ℚ, |r| ≤ 1 ∧ |(r:ℝ) - y| ≤ 2 ^ (-53 : ℤ) := by
      rcases le_or_gt y (-1 + 2 ^ (-53 : ℤ)) with h | h
      · refine ⟨-1, by norm_num, ?_⟩
        rw [abs_le]; push_cast; constructor <;> linarith
      · obtain ⟨r, h1, h2⟩ := exists_rat_btwn (show y - 2 ^ (-53 : ℤ) < y by linarith)
        refine ⟨r, ?_, by rw [abs_le]; constructor <;> linarith⟩
        have l : (-1:ℝ) ≤ r := by linarith
        have g : (r:ℝ) ≤ 1 := by linarith
        rw [abs_le]
        exact ⟨by exact_mod_cast l, by exact_mod_cast g⟩
    have e := err_le_two (f := binary64) (q := r) (by linarith)
    rw [show binary64.u = 2 ^ (-53 : ℤ) by decide +kernel] at e
    have e := (Rat.cast_le (K := ℝ)).mpr e
    push_cast at e
    have one : binary64.Rep 1 := rep_dyadic 1 0 (by norm_num) (by decide) (by decide) (by decide)
    refine ⟨lit r, _, is_lit_rnd (small2 (by linarith)), abs_rnd_le_of_rep one r1, ?_⟩
    have e52 : (2:ℝ) ^ (-52 : ℤ) = 2 ^ (-53 : ℤ) + 2 ^ (-53 : ℤ) := by norm_num
    rw [e52, show (binary64.rnd r : ℝ) - y = (binary64.rnd r - r) + (r - y) by ring]
    exact (abs_add_le _ _).trans (add_le_add e r2)
  choose f g h1 h2 h3 using key
  have all : ∀ x : F64, ∃ q : ℝ, ∀ p : ℚ, x.Is p → q = p := by
    intro x
    by_cases h : ∃ p : ℚ, x.Is p
    · obtain ⟨p, hp⟩ := h
      exact ⟨p, fun p' hp' => by rw [hp.unique hp']⟩
    · exact ⟨0, fun p hp => absurd ⟨p, hp⟩ h⟩
  choose v hv using all
  refine ⟨⟨fun x => f _ (Real.abs_sin_le_one (v x)), fun x => f _ (Real.abs_cos_le_one (v x))⟩, fun x q hx => ?_⟩
  rw [← hv x q hx]
  exact ⟨_, _, h1 _ (Real.abs_sin_le_one _), h1 _ (Real.abs_cos_le_one _), h2 _ (Real.abs_sin_le_one _),
    h2 _ (Real.abs_cos_le_one _), h3 _ (Real.abs_sin_le_one _), h3 _ (Real.abs_cos_le_one _)⟩

/-- Such functions, chosen. -/
noncomputable def nearTrig : Trig := exists_near.choose

theorem nearTrig_near : nearTrig.Near (2 ^ (-52 : ℤ)) := exists_near.choose_spec

example := C93_partial (k := .surround) (c := .ch16) nearTrig _ nearTrig_near spread_surround Frame.dflt 12345#16 61215#16
  trivial trivial (24691 / 65535) (by change (_ : ℚ) = _; decide +kernel) (fun i hi => by simp [Frame.dflt])
example := C93_stereo (c := .ch64) nearTrig _ nearTrig_near (lit 0.5) (lit 0.25) ⟨_, is_lit half_rep, by norm_num, by norm_num⟩
  ⟨_, is_lit quarter_rep, by norm_num, by norm_num⟩ _ _ (is_lit half_rep) (is_lit quarter_rep) (by norm_num)
example := C93_false nearTrig (nearTrig_near.mono (by norm_num)) .ch8

/-! ## C97: speaker positions -/

/-- C97: the speakers of the three layouts of the crate are at their places, each rounded to the nearest `f64`; there is
one for every channel but the LFE of Surround. -/
theorem C97_places (k : Kind) (hk : k.builtin = true) : k.config.length = (places k).length ∧
    k.chans = (places k).length + (if k = .surround then 1 else 0) ∧
    ∀ (i : ℕ) (x : F64) q, k.config[i]? = some x → (places k)[i]? = some q → x.Is (binary64.rnd q) := by
  have l0 : (lit 0 : F64).Is (binary64.rnd 0) := by rw [rnd_zero]; exact is_zero
  have half : ∀ n : ℤ, |n| ≤ 2 → ∀ q : ℚ, q = n / 2 → (lit q : F64).Is (binary64.rnd q) := by
    intro n hn q hq
    have : |(n:ℚ)| ≤ 2 := by exact_mod_cast hn
    exact is_lit_rnd (small2 (by rw [hq, abs_div]; norm_num; linarith))
  match k with
  | .mono =>
    refine ⟨rfl, rfl, fun i x q hx hq => ?_⟩
    match i with
    | 0 => cases hx; cases hq; exact l0
    | i + 1 => simp [places] at hq
  | .stereo =>
    refine ⟨rfl, rfl, fun i x q hx hq => ?_⟩
    match i with
    | 0 =>
      cases hx; cases hq
      rw [show (-0.5 : ℚ) = -1 / 2 by norm_num]
      exact half (-1) (by decide) _ (by norm_num)
    | 1 =>
      cases hx; cases hq
      rw [show (0.5 : ℚ) = 1 / 2 by norm_num]
      exact half 1 (by decide) _ (by norm_num)
    | i + 2 => simp [places] at hq
  | .surround =>
    refine ⟨rfl, rfl, fun i x q hx hq => ?_⟩
    have go : ∀ n : ℤ, |n| ≤ 2 → ∀ q : ℚ, q = n / 3 → (Fl.div (lit n) (lit 3) : F64).Is (binary64.rnd q) := by
      rintro n hn q rfl
      exact third n hn
    match i with
    | 0 => cases hx; cases hq; simpa using go (-2) (by decide) (-2 / 3) (by norm_num)
    | 1 => cases hx; cases hq; simpa using go (-1) (by decide) (-1 / 3) (by norm_num)
    | 2 => cases hx; cases hq; exact_mod_cast go 0 (by decide) _ (by norm_num)
    | 3 => cases hx; cases hq; exact_mod_cast go 1 (by decide) _ (by norm_num)
    | 4 => cases hx; cases hq; exact_mod_cast go 2 (by decide) _ (by norm_num)
    | i + 5 => simp [places] at hq

/-- C97: so they go from left to right, all within (-1, 1), and each has a mirror image. -/
theorem C97_order (k : Kind) (hk : k.builtin = true) (i : Nat) (hi : i < k.config.length) :
    ∃ (x y : F64) (p : ℚ), k.config[i]? = some x ∧ k.config[k.config.length - 1 - i]? = some y ∧ x.Is p ∧ y.Is (-p) ∧
      |p| ≤ 3 / 4 ∧ ∀ (j : ℕ) (z : F64) q, i < j → k.config[j]? = some z → z.Is q → p < q := by
  obtain ⟨h1, _, h3⟩ := C97_places k hk
  have hm : k.config.length - 1 - i < k.config.length := by omega
  have flip : (places k).reverse = (places k).map (-·) := by
    match k with
    | .mono => decide +kernel
    | .stereo => decide +kernel
    | .surround => decide +kernel
    | .custom _ _ => rfl
  have sym : (places k)[k.config.length - 1 - i]'(by omega) = -(places k)[i]'(by omega) := by
    have e1 : (places k).reverse[i]'(by simpa [← h1] using hi) = -(places k)[i]'(by omega) := by
      simp only [flip, List.getElem_map]
    rw [List.getElem_reverse] at e1
    simpa only [h1] using e1
  have hx := h3 i _ _ (List.getElem?_eq_getElem hi) (List.getElem?_eq_getElem (by omega))
  have hy := h3 _ _ _ (List.getElem?_eq_getElem hm) (List.getElem?_eq_getElem (by omega))
  rw [sym, rnd_neg] at hy
  have bound : ∀ q ∈ places k, |q| ≤ 3 / 4 := by
    match k with
    | .mono => decide +kernel
    | .stereo => decide +kernel
    | .surround => decide +kernel
    | .custom _ _ => simp [places]
  have r34 : binary64.Rep (3 / 4) := rep_dyadic 3 (-2) (by norm_num) (by decide) (by decide) (by decide)
  refine ⟨_, _, _, List.getElem?_eq_getElem hi, List.getElem?_eq_getElem hm, hx, hy,
    abs_rnd_le_of_rep r34 (bound _ (List.getElem_mem _)), fun j z q hij hz hq => ?_⟩
  have hj : j < k.config.length := (List.getElem?_eq_some_iff.mp hz).1
  have hz' := h3 j z _ hz (List.getElem?_eq_getElem (by omega))
  rw [hq.unique hz']
  have apart : (places k).Pairwise (fun a b => a + 1 / 4 ≤ b) := by
    match k with
    | .mono => decide +kernel
    | .stereo => decide +kernel
    | .surround => decide +kernel
    | .custom _ _ => simp [places]
  have ap := List.pairwise_iff_getElem.mp apart i j (by omega) (by omega) hij
  have u53 : binary64.u = 2 ^ (-53 : ℤ) := by decide +kernel
  have t53 : (2:ℚ) ^ (-53 : ℤ) ≤ 1 / 100 := by norm_num
  have e1 := err_le_two (f := binary64) (q := (places k)[i]'(by omega)) (by linarith [bound _ (List.getElem_mem (l := places k) (n := i) (by omega))])
  have e2 := err_le_two (f := binary64) (q := (places k)[j]'(by omega)) (by linarith [bound _ (List.getElem_mem (l := places k) (n := j) (by omega))])
  rw [u53, abs_le] at e1 e2
  obtain ⟨_, f1⟩ := e1
  obtain ⟨f2, _⟩ := e2
  generalize (2:ℚ) ^ (-53 : ℤ) = t at t53 f1 f2
  linarith

example := C97_places .surround rfl
example := C97_order .surround rfl 1 (by decide)

/-! ## C98: the order of the channels of Surround -/

/-- C98 as documented (surround.rs:20-22): false. -/
theorem C98_false : ¬ OrderIs docOrder ∧ (∃ (fr : Frame .stereo .ch16) (g : Frame .surround .ch16),
    fr.convert .ch16 = .ok g ∧ docOrder[1]? = some .rearLeft ∧ g[1] = fr[0] ∧ fr[0] ≠ ChTy.ch16.MID ∧
    docOrder[0]? = some .frontLeft ∧ g[0] = ChTy.ch16.MID) := by
  constructor
  · intro h
    have := h.2 .ch16 .ch16 #v[5#16, 7#16] #v[0#16, 5#16, 0#16, 7#16, 0#16, 0#16] (by decide +kernel) 0 .frontLeft rfl
    revert this
    decide +kernel
  · exact ⟨#v[5#16, 7#16], #v[0#16, 5#16, 0#16, 7#16, 0#16, 0#16], by decide +kernel⟩

/-- C98: the order that the code goes by is the one of the comments beside `CONFIG`. -/
theorem C98_actual : OrderIs configOrder := by
  refine ⟨fun i x s hx hs => ?_, fun c d fr g hg i s hs => ?_⟩
  · have h3 := (C97_places .surround rfl).2.2
    match i with
    | 0 => cases hs; exact ⟨_, rfl, h3 0 x _ hx rfl⟩
    | 1 => cases hs; exact ⟨_, rfl, h3 1 x _ hx rfl⟩
    | 2 => cases hs; exact ⟨_, rfl, h3 2 x _ hx rfl⟩
    | 3 => cases hs; exact ⟨_, rfl, h3 3 x _ hx rfl⟩
    | 4 => cases hs; exact ⟨_, rfl, h3 4 x _ hx rfl⟩
    | i + 5 => cases hx
  · cases hg
    match i with
    | 0 => cases hs; rfl
    | 1 => cases hs; rfl
    | 2 => cases hs; rfl
    | 3 => cases hs; rfl
    | 4 => cases hs; rfl
    | 5 => cases hs; rfl
    | i + 6 => cases hs

/-- C98: so is the order in which a surround frame is heard in stereo. -/
theorem C98_downmix {c : ChTy} (d : ChTy) (fr : Frame .surround c) (i j : ℕ) (x y : c.T)
    (hi : configOrder[i]? = some .frontLeft) (hj : configOrder[j]? = some .frontRight)
    (hx : fr[i]? = some x) (hy : fr[j]? = some y) :
    (fr.convert d : R (Frame .stereo d)) = .ok #v[Frame.chanConv d x, Frame.chanConv d y] := by
  obtain rfl : i = 1 := by
    match i with
    | 1 => rfl
    | 0 | 2 | 3 | 4 | 5 => cases hi
    | i + 6 => cases hi
  obtain rfl : j = 3 := by
    match j with
    | 3 => rfl
    | 0 | 1 | 2 | 4 | 5 => cases hj
    | j + 6 => cases hj
  cases hx; cases hy
  rfl

example := C98_downmix (c := .ch16) .ch8 #v[1#16, 2#16, 3#16, 4#16, 5#16, 6#16] 1 3 2#16 4#16 rfl rfl rfl rfl

example : configOrder[1]? = some .frontLeft ∧ configOrder[3]? = some .frontRight ∧
    (Frame.convert (k := .surround) (c := .ch16) .ch16 #v[1#16, 2#16, 3#16, 4#16, 5#16, 6#16] : R (Frame .stereo .ch16)) =
      .ok #v[2#16, 4#16] := by decide +kernel

end Fon
