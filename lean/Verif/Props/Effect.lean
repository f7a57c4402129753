import Verif.Props.Volume
import Verif.Props.Pan
import Verif.Spec.Effect

/-!
# C143: effects that mix channels, such as panning, before or after resampling
-/

namespace Fon
open Fon.Fl hiding min max
open Fon.Fmt Fon.Sink
variable {k k' : Kind} {c c' : ChTy}

/-! ## Panning is linear -/

theorem int_mul_min {a M : ℤ} (hM : 2 ≤ M) (ha : |a| ≤ M + 1) :
    |(clampZ (-M - 1) M ((a * (-M - 1)).tdiv M) : ℚ) / M + (a:ℚ) / M| ≤ 3 / M := by
  have hMq : (0:ℚ) < M := by exact_mod_cast (by omega : 0 < M)
  have h1 := tdiv_near (a := a) (b := -M - 1) (M := M) (by omega)
  obtain ⟨s, hs⟩ : ∃ s, s = (a * (-M - 1)).tdiv M := ⟨_, rfl⟩
  rw [← hs] at h1 ⊢
  have e : (s:ℚ) / M - (a:ℚ) / M * (((-M - 1 : ℤ):ℚ) / M) = (s + a + a / M) / M := by
    push_cast
    field_simp
    ring
  rw [e, abs_div, abs_of_pos hMq, div_le_div_iff_of_pos_right hMq] at h1
  have ha' : |(a:ℚ) / M| ≤ 3 / 2 := by
    rw [abs_div, abs_of_pos hMq, div_le_iff₀ hMq]
    have : |(a:ℚ)| ≤ M + 1 := by exact_mod_cast ha
    have : (2:ℚ) ≤ M := by exact_mod_cast hM
    linarith
  have h2 : |s + a| < 3 := by
    have : |(s:ℚ) + a| < 3 := by
      rw [abs_le] at h1 ha'
      rw [abs_lt]
      constructor <;> linarith
    exact_mod_cast this
  rw [← add_div, abs_div, abs_of_pos hMq, div_le_div_iff_of_pos_right hMq]
  have : |clampZ (-M - 1) M s + a| ≤ 3 := by
    rw [abs_lt] at h2
    rw [abs_le] at ha ⊢
    unfold clampZ
    omega
  exact_mod_cast this

/-- Multiplying with a sample is multiplying the level with a volume of at most 1. -/
theorem gain_val {y : c.T} (vy : Valid c y) : ∃ A : ℚ, |A| ≤ 1 ∧ ∀ (x : c.T) (u : ℚ), SampleVal c x u → Valid c x →
    ∃ m, SampleVal c (c.mul x y) m ∧ |m - u * A| ≤ 2 * mixErr c := by
  have hE := mixErr_pos c
  by_cases h : ∃ v, SampleVal c y v ∧ |v| ≤ 1
  · obtain ⟨v, h1, h2⟩ := h
    refine ⟨v, h2, fun x u hx vx => ?_⟩
    obtain ⟨m, m1, m2, -⟩ := mul_val hx h1 vx h2
    exact ⟨m, m1, by linarith⟩
  · refine ⟨-1, by norm_num, fun x u hx vx => ?_⟩
    cases c
    · have hb : BitVec.toInt y = -127 - 1 := by
        by_contra hc
        refine h ⟨_, rfl, ?_⟩
        have := i8_range y
        rw [abs_div, abs_of_pos (by norm_num : (0:ℚ) < 127), div_le_one (by norm_num)]
        have : |BitVec.toInt y| ≤ 127 := by rw [abs_le]; omega
        exact_mod_cast this
      refine ⟨_, rfl, ?_⟩
      have := int_mul_min (a := BitVec.toInt x) (M := 127) (by norm_num) (by have := i8_range x; rw [abs_le]; omega)
      rw [C02_ch8 x y |>.2, hb, show u = (BitVec.toInt x : ℚ) / 127 from hx]
      push_cast at this
      rw [mul_neg_one, sub_neg_eq_add]
      exact this.trans (by norm_num [mixErr])
    · have hb : BitVec.toInt y = -32767 - 1 := by
        by_contra hc
        refine h ⟨_, rfl, ?_⟩
        have := i16_range y
        rw [abs_div, abs_of_pos (by norm_num : (0:ℚ) < 32767), div_le_one (by norm_num)]
        have : |BitVec.toInt y| ≤ 32767 := by rw [abs_le]; omega
        exact_mod_cast this
      refine ⟨_, rfl, ?_⟩
      have := int_mul_min (a := BitVec.toInt x) (M := 32767) (by norm_num) (by have := i16_range x; rw [abs_le]; omega)
      rw [C02_ch16 x y |>.2, hb, show u = (BitVec.toInt x : ℚ) / 32767 from hx]
      push_cast at this
      rw [mul_neg_one, sub_neg_eq_add]
      exact this.trans (by norm_num [mixErr])
    · obtain ⟨q, q1, q2, q3⟩ := vy
      exact absurd ⟨q, q1, abs_le.mpr ⟨q2, q3⟩⟩ h
    · obtain ⟨q, q1, q2, q3⟩ := vy
      exact absurd ⟨q, q1, abs_le.mpr ⟨q2, q3⟩⟩ h

/-- Adding a sample that is multiplied with a volume. -/
theorem gain_add {o x y : c.T} {a u s S A e : ℚ} (ho : SampleVal c o s) (vo : Valid c o) (vx : Valid c x) (vy : Valid c y)
    (hx : ∃ m, SampleVal c (c.mul x y) m ∧ |m - a * A| ≤ 2 * mixErr c) (hA : |A| ≤ 1) (hau : |a - u| ≤ e)
    (hS : |S + u * A| ≤ 1) :
    ∃ m, SampleVal c (c.add o (c.mul x y)) m ∧ |m - (S + u * A)| ≤ |s - S| + e + 3 * mixErr c := by
  obtain ⟨m, m1, m2⟩ := hx
  obtain ⟨n, n1, n2⟩ := add_near ho m1 vo (vx.mul vy) hS
  refine ⟨n, n1, n2.trans ?_⟩
  have h1 : |a * A - u * A| ≤ e := by
    rw [← sub_mul, abs_mul]
    exact (mul_le_of_le_one_right (abs_nonneg _) hA).trans hau
  have h2 : s + m - (S + u * A) = (s - S) + (m - a * A) + (a * A - u * A) := by ring
  rw [h2]
  have h3 := abs_add_le (s - S + (m - a * A)) (a * A - u * A)
  have h4 := abs_add_le (s - S) (m - a * A)
  linarith

/-- Panning one channel. -/
theorem pan_step {t : Trig} {eps : ℝ} (ht : t.Near eps) (hk : k.Spread) {s : c.T} (vs : Valid c s) :
    ∃ A : Nat → ℚ, (∀ l, |A l| ≤ 1) ∧ ∀ (out : Frame k c) (d : c.T) (a u e : ℚ), Valid c d → SampleVal c d a →
      |a - u| ≤ e → ∃ r : Frame k c, Blend.panStep t out d s = .ok r ∧ ∀ l (hl : l < k.chans) (o S : ℚ),
        SampleVal c out[l] o → Valid c out[l] → |S + u * A l| ≤ 1 →
        Valid c r[l] ∧ ∃ m, SampleVal c r[l] m ∧ |m - (S + u * A l)| ≤ |o - S| + e + 3 * mixErr c := by
  obtain ⟨u, hu, u0, u1⟩ := vs.toF64
  obtain ⟨hk1, hk2, hk3⟩ := hk
  obtain ⟨i, hi, hst⟩ : ∃ i, i < k.config.length ∧ Blend.panStart k.config (c.toF64 s) = .ok i := by
    unfold Blend.panStart
    rw [if_neg (by omega)]
    cases hf : k.config.findIdx? (fun loc => Fl.le loc (c.toF64 s)) with
    | none => exact ⟨k.config.length - 1, by omega, rfl⟩
    | some i => exact ⟨i, (List.findIdx?_eq_some_iff_getElem.mp hf).1, rfl⟩
  obtain ⟨x, y, a0, b0, g1, g2, g3, g4, g5, g6, g7⟩ := hk3 i hi
  obtain ⟨θ, hθ⟩ := angle_finite hu g3 g4 (abs_le.mpr ⟨u0, u1⟩) g5 g6 g7
  obtain ⟨sn, cs, t1, t2, t3, t4, -, -⟩ := ht _ θ hθ
  have hj : (i + 1) % k.config.length < k.config.length := Nat.mod_lt _ (by omega)
  have hij : i ≠ (i + 1) % k.config.length := by
    rcases Nat.lt_or_ge (i + 1) k.config.length with h | h
    · rw [Nat.mod_eq_of_lt h]; omega
    · rw [show i + 1 = k.config.length by omega, Nat.mod_self]; omega
  set j := (i + 1) % k.config.length
  have ci : i < k.chans := by omega
  have cj : j < k.chans := by omega
  set θf := ((Fl.sub (c.toF64 s) (y.min x)).div (if (y.sub x).lt (lit 0) then (lit 2).sub (y.sub x) else y.sub x)).mul
      Blend.fracPi2
  have vc : Valid c (c.ofF64 (t.cos θf)) := Valid.ofF64 ⟨cs, t2, (abs_le.mp t4).1, (abs_le.mp t4).2⟩
  have vn : Valid c (c.ofF64 (t.sin θf)) := Valid.ofF64 ⟨sn, t1, (abs_le.mp t3).1, (abs_le.mp t3).2⟩
  obtain ⟨C, hC, gC⟩ := gain_val vc
  obtain ⟨N, hN, gN⟩ := gain_val vn
  refine ⟨fun l => if l = i then C else if l = j then N else 0, fun l => ?_, fun out d a u e vd hd hau => ?_⟩
  · dsimp only
    split
    · exact hC
    · split
      · exact hN
      · simp
  have he : 0 ≤ e := (abs_nonneg _).trans hau
  have hE := mixErr_pos c
  refine ⟨(out.set i (c.add out[i] (c.mul d (c.ofF64 (t.cos θf))))).set j
    (c.add (out.set i (c.add out[i] (c.mul d (c.ofF64 (t.cos θf)))))[j] (c.mul d (c.ofF64 (t.sin θf)))), ?_, ?_⟩
  · unfold Blend.panStep
    simp only [hst, bind, Except.bind, Blend.idx, g1, show k.config[(i + 1) % k.config.length]? = some y from g2]
    rw [show Blend.modChan out i _ = .ok _ from modChan_ok.mpr ⟨by omega, rfl⟩]
    exact modChan_ok.mpr ⟨by omega, rfl⟩
  · intro l hl o S ho vo hS
    dsimp only at hS ⊢
    by_cases h1 : l = i
    · subst h1
      rw [if_pos rfl] at hS ⊢
      rw [Vector.getElem_set_ne _ _ (Ne.symm hij), Vector.getElem_set_self]
      exact ⟨Valid.add, gain_add ho vo vd vc (gC d a hd vd) hC hau hS⟩
    · rw [if_neg h1] at hS ⊢
      by_cases h2 : l = j
      · subst h2
        rw [if_pos rfl] at hS ⊢
        rw [Vector.getElem_set_self, Vector.getElem_set_ne _ _ hij]
        exact ⟨Valid.add, gain_add ho vo vd vn (gN d a hd vd) hN hau hS⟩
      · rw [if_neg h2] at hS ⊢
        rw [Vector.getElem_set_ne _ _ (Ne.symm h2), Vector.getElem_set_ne _ _ (Ne.symm h1)]
        refine ⟨vo, o, ho, ?_⟩
        rw [mul_zero, add_zero]
        linarith

/-- Panning all channels. -/
theorem pan_fold {t : Trig} {eps : ℝ} (ht : t.Near eps) (hk : k.Spread) : ∀ (ss : List c.T), (∀ s ∈ ss, Valid c s) →
    ∃ A : Nat → Nat → ℚ, (∀ n l, |A n l| ≤ 1) ∧ ∀ (ds : List c.T) (out : Frame k c) (a u : Nat → ℚ) (e : ℚ),
      ds.length = ss.length → (∀ n (hn : n < ds.length), Valid c ds[n] ∧ SampleVal c ds[n] (a n) ∧ |a n - u n| ≤ e) →
      ∃ r : Frame k c, (List.zip ds ss).foldlM (fun out p => Blend.panStep t out p.1 p.2) out = .ok r ∧
        ∀ l (hl : l < k.chans) (o S : ℚ), SampleVal c out[l] o → Valid c out[l] →
          |S| + ∑ n ∈ Finset.range ss.length, |u n| ≤ 1 →
          ∃ m, SampleVal c r[l] m ∧
            |m - (S + ∑ n ∈ Finset.range ss.length, u n * A n l)| ≤ |o - S| + ss.length * (e + 3 * mixErr c) := by
  intro ss
  induction ss with
  | nil =>
    intro _
    refine ⟨fun _ _ => 0, by simp, fun ds out a u e hd _ => ?_⟩
    rw [List.length_nil, List.length_eq_zero_iff] at hd
    subst hd
    refine ⟨out, rfl, fun l hl o S ho vo hS => ⟨o, ho, ?_⟩⟩
    simp
  | cons s ss ih =>
    intro hv
    obtain ⟨A, hA, ih⟩ := ih (fun s hs => hv s (List.mem_cons_of_mem _ hs))
    obtain ⟨B, hB, st⟩ := pan_step (k := k) ht hk (hv s List.mem_cons_self)
    refine ⟨fun n => if n = 0 then B else A (n - 1), fun n l => ?_, fun ds out a u e hd hds => ?_⟩
    · dsimp only
      split
      · exact hB l
      · exact hA _ l
    obtain ⟨d, ds, rfl⟩ : ∃ d ds', ds = d :: ds' := List.exists_cons_of_length_eq_add_one hd
    obtain ⟨d1, d2, d3⟩ := hds 0 (by simp)
    obtain ⟨r, r1, r2⟩ := st out d (a 0) (u 0) e d1 d2 d3
    obtain ⟨q, q1, q2⟩ := ih ds r (fun n => a (n + 1)) (fun n => u (n + 1)) e (by simpa using hd)
      (fun n hn => hds (n + 1) (by simpa using hn))
    refine ⟨q, ?_, fun l hl o S ho vo hS => ?_⟩
    · rw [List.zip_cons_cons, List.foldlM_cons]
      simp only [r1, bind, Except.bind]
      exact q1
    · rw [List.length_cons, Finset.sum_range_succ'] at hS
      have hB1 : |u 0 * B l| ≤ |u 0| := by
        rw [abs_mul]; exact mul_le_of_le_one_right (abs_nonneg _) (hB l)
      have h1 : |S + u 0 * B l| + ∑ n ∈ Finset.range ss.length, |u (n + 1)| ≤ 1 := by
        have := abs_add_le S (u 0 * B l)
        linarith
      obtain ⟨w1, m, w2, w3⟩ := r2 l hl o S ho vo
        ((le_add_of_nonneg_right (Finset.sum_nonneg fun _ _ => abs_nonneg _)).trans h1)
      obtain ⟨m', y1, y2⟩ := q2 l hl m (S + u 0 * B l) w2 w1 h1
      refine ⟨m', y1, ?_⟩
      rw [List.length_cons, Finset.sum_range_succ']
      simp only [if_pos, Nat.add_one_ne_zero, if_false, Nat.add_sub_cancel]
      rw [show S + (∑ n ∈ Finset.range ss.length, u (n + 1) * A n l + u 0 * B l) =
        S + u 0 * B l + ∑ n ∈ Finset.range ss.length, u (n + 1) * A n l by ring]
      push_cast
      linarith

/-- Panning to fixed positions is linear. -/
theorem pan_linear {t : Trig} {eps : ℝ} (ht : t.Near eps) (hk : k.Spread) {g : Frame k c} (hg : g.InRange) {i : Nat}
    (hi : i < k.chans) : LinearAt (fun f => (Blend.pan t).mixFrames f g) i hi (k.chans * (3 * mixErr c)) := by
  obtain ⟨A, hA, h⟩ := pan_fold (k := k) (c := c) ht hk g.toList (fun s hs => by
    obtain ⟨n, hn, rfl⟩ := List.getElem_of_mem hs
    have := (frame_inRange_iff _).mp hg n (by simpa using hn)
    simpa using this)
  refine ⟨fun n => A n i, fun n => hA n i, fun f a u e hf hfa hu => ?_⟩
  obtain ⟨r, r1, r2⟩ := h f.toList Frame.dflt a u e (by simp) (fun n hn => by
    have hn' : n < k.chans := by simpa using hn
    refine ⟨?_, by simpa using (hfa n hn').1, (hfa n hn').2⟩
    simpa using (frame_inRange_iff _).mp hf n hn')
  obtain ⟨m, m1, m2⟩ := r2 i hi 0 0 (by simpa [Frame.dflt] using of_val (mixLaw c).dflt)
    ((frame_inRange_iff _).mp dflt_inRange i hi) (by simpa using hu)
  refine ⟨r, m, r1, m1, ?_⟩
  simp only [zero_add, sub_self, abs_zero, Vector.length_toList] at m2
  rwa [mul_add] at m2

/-! ## Linear effects and resampling -/

theorem mixed_abs (u : Nat → ℚ) {A : Nat → ℚ} (hA : ∀ j, |A j| ≤ 1) (n : Nat) :
    |∑ j ∈ Finset.range n, u j * A j| ≤ ∑ j ∈ Finset.range n, |u j| := by
  refine (Finset.abs_sum_le_sum_abs _ _).trans (Finset.sum_le_sum fun j _ => ?_)
  rw [abs_mul]
  exact mul_le_of_le_one_right (abs_nonneg _) (hA j)

/-- Values of the frames of a stream to which a linear effect is applied. -/
theorem effect_values {op : Frame k c → R (Frame k c)} {i : Nat} {hi : i < k.chans} {E : ℚ} {sa sb : Src k c} {A : Nat → ℚ}
    (hE : 0 ≤ E) (hA : ∀ j, |A j| ≤ 1)
    (hop : ∀ (f : Frame k c) (a u : Nat → ℚ) (e : ℚ), f.InRange →
      (∀ j (hj : j < k.chans), SampleVal c f[j] (a j) ∧ |a j - u j| ≤ e) → ∑ j ∈ Finset.range k.chans, |u j| ≤ 1 →
      ∃ (g : Frame k c) (m : ℚ), op f = .ok g ∧ SampleVal c g[i] m ∧
        |m - ∑ j ∈ Finset.range k.chans, u j * A j| ≤ k.chans * e + E)
    (hb : ∀ n f, sb.nth n = .ok (some f) → ∃ x, sa.nth n = .ok (some x) ∧ op x = .ok f)
    {u : Nat → Nat → ℚ} (hu : ∀ n f, sa.nth n = .ok (some f) → ∀ j (hj : j < k.chans), SampleVal c f[j] (u n j))
    (hu1 : ∀ n, ∑ j ∈ Finset.range k.chans, |u n j| ≤ 1 - E) :
    ∃ z : Nat → ℚ, (∀ n, |z n - ∑ j ∈ Finset.range k.chans, u n j * A j| ≤ E) ∧
      ∀ n f, sb.nth n = .ok (some f) → SampleVal c f[i] (z n) ∧ |z n| ≤ 1 := by
  have : ∀ n, ∃ z : ℚ, |z - ∑ j ∈ Finset.range k.chans, u n j * A j| ≤ E ∧
      ∀ f, sb.nth n = .ok (some f) → SampleVal c f[i] z ∧ |z| ≤ 1 := by
    intro n
    by_cases h : ∃ f, sb.nth n = .ok (some f)
    · obtain ⟨f, hf⟩ := h
      obtain ⟨x, x1, x2⟩ := hb n f hf
      have hv := hu n x x1
      have h1 : ∀ j, j < k.chans → |u n j| ≤ 1 := fun j hj =>
        (Finset.single_le_sum (f := fun j => |u n j|) (fun _ _ => abs_nonneg _) (Finset.mem_range.mpr hj)).trans
          ((hu1 n).trans (by linarith))
      obtain ⟨g, m, g1, g2, g3⟩ := hop x (u n) (u n) 0
        ((frame_inRange_iff _).mpr fun j hj => valid_of (hv j hj) (h1 j hj))
        (fun j hj => ⟨hv j hj, by simp⟩) ((hu1 n).trans (by linarith))
      rw [x2] at g1
      cases g1
      rw [mul_zero, zero_add] at g3
      refine ⟨m, g3, fun f' hf' => ?_⟩
      rw [hf] at hf'
      cases hf'
      refine ⟨g2, ?_⟩
      have h2 := mixed_abs (u n) hA (k.chans)
      have h3 := abs_sub_abs_le_abs_sub m (∑ j ∈ Finset.range k.chans, u n j * A j)
      linarith [hu1 n]
    · exact ⟨∑ j ∈ Finset.range k.chans, u n j * A j, by rw [sub_self, abs_zero]; exact hE, fun f hf => absurd ⟨f, hf⟩ h⟩
  choose z h1 h2 using this
  exact ⟨z, h1, h2⟩

/-- The sum of the resampled channels. -/
theorem sum_swap (u : Nat → Nat → ℚ) (A o : Nat → ℚ) (n m : Nat) :
    ∑ l ∈ Finset.range n, (∑ j ∈ Finset.range m, u l j * A j) * o l =
      ∑ j ∈ Finset.range m, (∑ l ∈ Finset.range n, u l j * o l) * A j := by
  simp only [Finset.sum_mul]
  rw [Finset.sum_comm]
  exact Finset.sum_congr rfl fun _ _ => Finset.sum_congr rfl fun _ _ => by ring

/-- The resampled channels do not clip. -/
theorem sum_quiet {u : Nat → Nat → ℚ} {o : Nat → ℚ} {n m : Nat} {B S : ℚ} (ho : ∀ l, l < n → 0 ≤ o l)
    (hS : ∑ l ∈ Finset.range n, o l ≤ S) (hu : ∀ l, ∑ j ∈ Finset.range m, |u l j| ≤ B) (hB : 0 ≤ B) :
    ∑ j ∈ Finset.range m, |∑ l ∈ Finset.range n, u l j * o l| ≤ B * S := by
  calc _ ≤ ∑ j ∈ Finset.range m, ∑ l ∈ Finset.range n, |u l j| * o l := by
        refine Finset.sum_le_sum fun j _ => (Finset.abs_sum_le_sum_abs _ _).trans_eq ?_
        refine Finset.sum_congr rfl fun l hl => ?_
        rw [abs_mul, abs_of_nonneg (ho l (Finset.mem_range.mp hl))]
    _ = ∑ l ∈ Finset.range n, (∑ j ∈ Finset.range m, |u l j|) * o l := by
        rw [Finset.sum_comm]
        exact Finset.sum_congr rfl fun l _ => (Finset.sum_mul _ _ _).symm
    _ ≤ ∑ l ∈ Finset.range n, B * o l := Finset.sum_le_sum fun l hl =>
        mul_le_mul_of_nonneg_right (hu l) (ho l (Finset.mem_range.mp hl))
    _ ≤ B * S := by rw [← Finset.mul_sum]; exact mul_le_mul_of_nonneg_left hS hB

/-- C143, downsampling (whole rates): resampling a stream to which an effect is applied that mixes the channels gives the
resampled stream with the effect applied, up to the errors of C59, if the effect does not clip. -/
theorem C143_down (hk : k.builtin = true) {rate sr : F64} {dst src l : Nat} (hr : rate.Is (dst:ℚ)) (hs : sr.Is (src:ℚ))
    (h0 : 0 < src) (hd0 : 0 < dst) (hs' : src ≤ 2 ^ 51) (hle : dst ≤ src) (hN : dst * l < 2 ^ 51)
    (hB : dst * l + 2 * src ≤ dst * 2 ^ 51) {sa sb : Src k c} (hla : sa.len = some l) (hra : sa.rate = some sr)
    (hlb : sb.len = some l) (hrb : sb.rate = some sr) {op : Frame k c → R (Frame k c)}
    (hab : ∀ n f, sb.nth n = .ok (some f) → ∃ x, sa.nth n = .ok (some x) ∧ op x = .ok f)
    {b ya : Audio k c} (h : Audio.withStream rate sb = .ok b)
    (ha : Audio.withStream rate sa = .ok ya) {i : Nat} (hi : i < k.chans) {E : ℚ} (hE : 0 ≤ E) (hop : LinearAt op i hi E)
    {u : Nat → Nat → ℚ} (hu : ∀ n f, sa.nth n = .ok (some f) → ∀ j (hj : j < k.chans), SampleVal c f[j] (u n j))
    (hu1 : ∀ n, ∑ j ∈ Finset.range k.chans, |u n j| ≤ 1 - E) :
    ya.len = b.len ∧ ∀ x, x < b.len → ∃ (f y g : Frame k c) (p q : ℚ), b.get x = some f ∧ ya.get x = some y ∧
      op y = .ok g ∧ SampleVal c f[i] p ∧ SampleVal c g[i] q ∧
      |p - q| ≤ (k.chans + 1) * ((mixErr c + 5 * 2 ^ (-53 : ℤ) + 2 * ((b.len + 1) * 2 ^ (-53 : ℤ))) *
        (1 / binary64.rnd ((dst:ℚ) / src) + 3)) + 2 * E := by
  have hl52 : l ≤ 2 ^ 53 := by
    have := Nat.le_mul_of_pos_left l hd0
    omega
  have k0 := C49_partial rate sr dst src l hr hs h0 (by omega) hl52 hs' _ hlb hrb b h
  have k1 := C49_partial rate sr dst src l hr hs h0 (by omega) hl52 hs' sa hla hra ya ha
  have e1 : ya.frames.length = b.frames.length := k1.trans k0.symm
  refine ⟨e1, ?_⟩
  obtain ⟨A, hA, hop⟩ := hop
  obtain ⟨z, z1, z2⟩ := effect_values (i := i) (hi := hi) hE hA hop hab hu hu1
  have h1 : ∀ n j, j < k.chans → |u n j| ≤ 1 := fun n j hj =>
    (Finset.single_le_sum (f := fun j => |u n j|) (fun _ _ => abs_nonneg _) (Finset.mem_range.mpr hj)).trans
      ((hu1 n).trans (by linarith))
  obtain ⟨n, t0, _, _, s0⟩ := C89_partial rate sr dst src l hr hs h0 hd0 hs' hle hN hB _ hlb hrb b h i hi z
    (fun j f hf x hx => by rw [C21_id hk] at hx; cases hx; exact z2 j f hf)
  intro x hx
  obtain ⟨f, f1, f2⟩ := s0 x hx
  have hr0 : (0:ℚ) ≤ binary64.rnd ((dst:ℚ) / src) := rnd_nonneg (by positivity)
  obtain ⟨R, hR⟩ : ∃ R, R = (mixErr c + 5 * 2 ^ (-53 : ℤ) + 2 * ((b.frames.length + 1) * 2 ^ (-53 : ℤ))) *
        (1 / binary64.rnd ((dst:ℚ) / src) + 3) := ⟨_, rfl⟩
  have hR0 : 0 ≤ R := by
    have := mixErr_pos c
    have := two_zpow_pos (-53)
    rw [hR]
    positivity
  have hy : ∃ y, ya.frames[x]? = some y := ⟨_, List.getElem?_eq_getElem (by rw [e1]; exact hx)⟩
  obtain ⟨y, hy⟩ := hy
  -- the channels of the resampled stream
  have hch := fun j (hj : j < k.chans) => C89_partial rate sr dst src l hr hs h0 hd0 hs' hle hN hB sa hla hra ya ha j hj (fun n => u n j)
    (fun n f hf x hx => by rw [C21_id hk] at hx; cases hx; exact ⟨hu n f hf j hj, h1 n j hj⟩)
  have hyr := C43_withStream rate ya sa ha x y hy
  simp only [Audio.len, Audio.get] at *
  rw [← hR] at f2 ⊢
  split at f2
  · rename_i hc
    have hdf : ∀ j (hj : j < k.chans), SampleVal c (Frame.dflt : Frame k c)[j] 0 := fun j hj => by
      simpa [Frame.dflt] using of_val (mixLaw c).dflt
    have hy0 : ∀ j (hj : j < k.chans), SampleVal c y[j] 0 ∧ |(0:ℚ) - 0| ≤ 0 := by
      intro j hj
      obtain ⟨n1, t1, _, _, s1⟩ := hch j hj
      rw [e1] at t1 s1
      cases takes_unique t1 t0
      obtain ⟨y', g1, g2⟩ := s1 x hx
      rw [hy] at g1
      cases g1
      rw [if_pos hc] at g2
      rw [g2.2]
      exact ⟨hdf j hj, by simp⟩
    obtain ⟨g, m, m1, m2, m3⟩ := hop y (fun _ => 0) (fun _ => 0) 0 hyr hy0 (by simp)
    refine ⟨f, y, g, 0, m, f1, hy, m1, by rw [f2.2]; exact hdf i hi, m2, ?_⟩
    simp only [zero_mul, Finset.sum_const_zero, sub_zero, mul_zero, zero_add] at m3
    rw [zero_sub, abs_neg]
    have : 0 ≤ ((k.chans:ℚ) + 1) * R := by positivity
    linarith
  · rename_i hc
    obtain ⟨p, p1, p2⟩ := f2
    set o : Nat → ℚ := fun j => overlap (binary64.rnd ((dst:ℚ) / src) * j - binary64.rnd ((dst:ℚ) / src))
      (binary64.rnd ((dst:ℚ) / src) * j) (x - 1) x with ho
    have hS : ∑ j ∈ Finset.range n, o j ≤ 1 := sum_share_le hr0 n x
    have hnn : ∀ j, j < n → 0 ≤ o j := fun j _ => overlap_nonneg _ _ _ _
    have hyv : ∀ j, j < k.chans → ∃ a, (∀ hj : j < k.chans, SampleVal c y[j] a) ∧ |a - ∑ l ∈ Finset.range n, u l j * o l| ≤ R := by
      intro j hj
      obtain ⟨n1, t1, _, _, s1⟩ := hch j hj
      rw [e1] at t1 s1
      cases takes_unique t1 t0
      obtain ⟨y', g1, g2⟩ := s1 x hx
      rw [hy] at g1
      cases g1
      rw [if_neg hc] at g2
      obtain ⟨a, a1, a2⟩ := g2
      rw [← hR] at a2
      exact ⟨a, fun _ => a1, a2⟩
    choose! a ha1 ha2 using hyv
    have hq := sum_quiet hnn hS hu1 (by
      have := (Finset.sum_nonneg (fun j (_ : j ∈ Finset.range k.chans) => abs_nonneg (u 0 j))).trans (hu1 0)
      exact this)
    obtain ⟨g, m, m1, m2, m3⟩ := hop y a (fun j => ∑ l ∈ Finset.range n, u l j * o l) R hyr
      (fun j hj => ⟨ha1 j hj hj, ha2 j hj⟩) (hq.trans (by linarith))
    refine ⟨f, y, g, p, m, f1, hy, m1, p1, m2, ?_⟩
    have hd := weighted_near hnn hS hE (fun j _ => z1 j)
    rw [sum_swap] at hd
    rw [abs_le] at *
    constructor <;> linarith

/-- C143, upsampling (whole rates): the same, if the stream is quiet enough not to clip when it is resampled. -/
theorem C143_up (hk : k.builtin = true) {rate sr : F64} {dst src l : Nat} (hr : rate.Is (dst:ℚ)) (hs : sr.Is (src:ℚ))
    (h0 : 0 < src) (hs' : src ≤ 2 ^ 50) (hd' : dst ≤ 2 ^ 51) (hle : src ≤ dst) (h20 : dst ≤ 2 ^ 20 * src)
    (hN : dst * l < 2 ^ 51) {sa sb : Src k c} (hla : sa.len = some l) (hra : sa.rate = some sr)
    (hlb : sb.len = some l) (hrb : sb.rate = some sr) {op : Frame k c → R (Frame k c)}
    (hab : ∀ n f, sb.nth n = .ok (some f) → ∃ x, sa.nth n = .ok (some x) ∧ op x = .ok f)
    {b ya : Audio k c} (h : Audio.withStream rate sb = .ok b)
    (ha : Audio.withStream rate sa = .ok ya) {i : Nat} (hi : i < k.chans) {E r : ℚ} (hr' : r = binary64.rnd ((dst:ℚ) / src))
    (hE : 0 ≤ E) (hop : LinearAt op i hi E)
    {u : Nat → Nat → ℚ} (hu : ∀ n f, sa.nth n = .ok (some f) → ∀ j (hj : j < k.chans), SampleVal c f[j] (u n j))
    (hu1 : ∀ n, ∑ j ∈ Finset.range k.chans, |u n j| ≤ 1 - E)
    (hu2 : ∀ n, (∑ j ∈ Finset.range k.chans, |u n j|) * (r + 1) ≤ 1) :
    ya.len = b.len ∧ ∀ x, x < b.len → ∃ (f y g : Frame k c) (p q : ℚ), b.get x = some f ∧ ya.get x = some y ∧
      op y = .ok g ∧ SampleVal c f[i] p ∧ SampleVal c g[i] q ∧
      |p - q| ≤ (k.chans + 1) * (mixErr c * (r + 5)) + E * (r + 2) := by
  have hd0 : 0 < dst := by omega
  have hsq : (0:ℚ) < src := by exact_mod_cast h0
  have hr1 : 1 ≤ r := by
    have e0 : binary64.rnd 1 = 1 := Fmt.rnd_of_rep (by simpa using rep_nat53 (n := 1) (by norm_num))
    rw [hr', ← e0]
    refine Fmt.rnd_mono ?_
    rw [le_div_iff₀ hsq, one_mul]; exact_mod_cast hle
  have hr20 : r ≤ 2 ^ 20 := by
    have e0 : binary64.rnd (2 ^ 20) = 2 ^ 20 := Fmt.rnd_of_rep (by exact_mod_cast rep_nat53 (n := 2 ^ 20) (by norm_num))
    rw [hr', ← e0]
    refine Fmt.rnd_mono ?_
    rw [div_le_iff₀ hsq]; exact_mod_cast h20
  have h1 : ∀ n j, j < k.chans → |u n j| ≤ 1 := fun n j hj =>
    (Finset.single_le_sum (f := fun j => |u n j|) (fun _ _ => abs_nonneg _) (Finset.mem_range.mpr hj)).trans
      ((hu1 n).trans (by linarith))
  have hu3 : ∀ n, ∑ j ∈ Finset.range k.chans, |u n j| ≤ 1 / (r + 1) := fun n => by
    rw [le_div_iff₀ (by linarith)]; exact hu2 n
  obtain ⟨A, hA, hop⟩ := hop
  obtain ⟨z, z1, z2⟩ := effect_values (i := i) (hi := hi) hE hA hop hab hu hu1
  obtain ⟨k0, t0, s0⟩ := C104_up rate sr dst src l hr hs h0 hs' hd' hle h20 hN _ hlb hrb b h i hi z
    (fun j f hf x hx => by rw [C21_id hk] at hx; cases hx; exact z2 j f hf)
  have hch := fun j (hj : j < k.chans) => C104_up rate sr dst src l hr hs h0 hs' hd' hle h20 hN sa hla hra ya ha j hj
    (fun n => u n j) (fun n f hf x hx => by rw [C21_id hk] at hx; cases hx; exact ⟨hu n f hf j hj, h1 n j hj⟩)
  have e1 : ya.frames.length = b.frames.length := (hch i hi).1.trans k0.symm
  refine ⟨e1, fun x hx => ?_⟩
  rw [← hr'] at s0
  simp only [← hr'] at hch
  obtain ⟨f, p, f1, p1, p2⟩ := s0 x hx
  have hy : ∃ y, ya.frames[x]? = some y := ⟨_, List.getElem?_eq_getElem (by rw [e1]; exact hx)⟩
  obtain ⟨y, hy⟩ := hy
  have hyr := C43_withStream rate ya sa ha x y hy
  -- the shares
  have hB : b.frames.length ≤ 2 ^ 51 := by
    rw [k0]
    refine Nat.ceil_le.mpr ?_
    rw [div_le_iff₀ hsq]
    have a1 : (dst * l : ℚ) ≤ 2 ^ 51 := by exact_mod_cast hN.le
    have a2 : (1:ℚ) ≤ src := by exact_mod_cast h0
    push_cast
    nlinarith
  obtain ⟨hratio, _⟩ := pos_int hr hs h0 hd0 (by omega) hd'
  rw [← hr'] at hratio
  obtain ⟨_, _, _, hmono⟩ := up_pos hratio hr1 hr20 (by omega) t0
  have hu0 : (0:ℚ) < 2 ^ (-53:ℤ) := two_zpow_pos _
  have hS := share_le c hr1 (η := (b.frames.length + 1) * 2 ^ (-53 : ℤ))
    (mul_nonneg (by positivity) hu0.le) (fun j => binary64.rnd (r * j)) l x
    (fun j hj => up_acc hratio hr1 hr20 hB t0 j hj) (fun j j' h1 h2 => hmono j j' h1 h2.le)
  set o : Nat → ℚ := fun j => upShare c r x (binary64.rnd (r * j)) with ho
  have hS1 : ∑ j ∈ Finset.range l, o j ≤ r + 1 := by
    have hBq : (b.frames.length:ℚ) ≤ 2 ^ 51 := by exact_mod_cast hB
    have h4 : (b.frames.length + 1 : ℚ) * 2 ^ (-53:ℤ) ≤ (2 ^ 51 + 1) * 2 ^ (-53:ℤ) :=
      mul_le_mul_of_nonneg_right (by linarith) hu0.le
    have h5 : ((2:ℚ) ^ 51 + 1) * 2 ^ (-53:ℤ) ≤ 1 / 2 := by norm_num
    have h6 := h4.trans h5
    refine hS.trans ?_
    generalize ((b.frames.length:ℚ) + 1) * 2 ^ (-53:ℤ) = η at h6 ⊢
    linarith
  have hnn : ∀ j, j < l → 0 ≤ o j := fun j _ => upShare_nonneg c hr1 x _
  have hq : ∑ j ∈ Finset.range k.chans, |∑ n ∈ Finset.range l, u n j * o n| ≤ 1 := by
    have := sum_quiet hnn hS1 hu3 (by positivity)
    rwa [one_div_mul_cancel (by linarith)] at this
  have hcl : ∀ t : ℚ, |t| ≤ 1 → clampQ t = t := fun t ht => clampQ_of_range (abs_le.mp ht).1 (abs_le.mp ht).2
  have hyv : ∀ j, j < k.chans → ∃ a, (∀ hj : j < k.chans, SampleVal c y[j] a) ∧
      |a - ∑ n ∈ Finset.range l, u n j * o n| ≤ mixErr c * (r + 5) := by
    intro j hj
    obtain ⟨_, _, s1⟩ := hch j hj
    obtain ⟨y', a, g1, a1, a2⟩ := s1 x (by rw [e1]; exact hx)
    rw [hy] at g1
    cases g1
    rw [hcl _ ((Finset.single_le_sum (f := fun j => |∑ n ∈ Finset.range l, u n j * o n|) (fun _ _ => abs_nonneg _)
      (Finset.mem_range.mpr hj)).trans hq)] at a2
    exact ⟨a, fun _ => a1, a2⟩
  choose! a ha1 ha2 using hyv
  obtain ⟨g, m, m1, m2, m3⟩ := hop y a (fun j => ∑ n ∈ Finset.range l, u n j * o n) _ hyr
    (fun j hj => ⟨ha1 j hj hj, ha2 j hj⟩) hq
  refine ⟨f, y, g, p, m, f1, hy, m1, p1, m2, ?_⟩
  have hd := (clampQ_lip _ _).trans (weighted_near hnn hS1 hE (fun j _ => z1 j))
  rw [sum_swap, hcl _ ((mixed_abs _ hA _).trans hq)] at hd
  rw [abs_le] at *
  constructor <;> linarith

/-! ## Panning -/

/-- Frames of a panned stream. -/
theorem pan_nth {t : Trig} {sa : Src k c} {f g : Frame k c} {j : Nat} (hk : k.builtin = true)
    (h : (Src.blend sa (.frame g) (.pan t)).nth j = .ok (some f)) :
    ∃ x, sa.nth j = .ok (some x) ∧ (Blend.pan t).mixFrames x g = .ok f := by
  unfold Src.nth at h
  cases ha : sa.nth j with
  | error e => rw [ha] at h; cases h
  | ok o => cases o with
    | none => rw [ha] at h; cases h
    | some x =>
      refine ⟨x, rfl, ?_⟩
      rw [ha] at h
      simp only [Src.nth, bind, Except.bind, C21_id hk, pure, Except.pure] at h
      cases hm : (Blend.pan t).mixFrames x g with
      | error e => rw [hm] at h; cases h
      | ok r => rw [hm] at h; cases h; rfl

theorem pan_nth_of {t : Trig} {sa : Src k c} {x g m : Frame k c} {j : Nat} (hk : k.builtin = true)
    (h : sa.nth j = .ok (some x)) (hm : (Blend.pan t).mixFrames x g = .ok m) :
    (Src.blend sa (.frame g) (.pan t)).nth j = .ok (some m) := by
  unfold Src.nth
  simp only [h, Src.nth, bind, Except.bind, C21_id hk, hm, pure, Except.pure]

/-- C143 for panning to a fixed position, downsampling. -/
theorem C143_pan_down (hk : k = .stereo ∨ k = .surround) {rate sr : F64} {dst src l : Nat} (hr : rate.Is (dst:ℚ))
    (hs : sr.Is (src:ℚ)) (h0 : 0 < src) (hd0 : 0 < dst) (hs' : src ≤ 2 ^ 51) (hle : dst ≤ src) (hN : dst * l < 2 ^ 51)
    (hB : dst * l + 2 * src ≤ dst * 2 ^ 51) {sa : Src k c} (hla : sa.len = some l) (hra : sa.rate = some sr)
    {t : Trig} {eps : ℝ} (ht : t.Near eps) {g : Frame k c} (hg : g.InRange) {b ya : Audio k c}
    (h : Audio.withStream rate (.blend sa (.frame g) (.pan t)) = .ok b)
    (ha : Audio.withStream rate sa = .ok ya) {i : Nat} (hi : i < k.chans)
    {u : Nat → Nat → ℚ} (hu : ∀ n f, sa.nth n = .ok (some f) → ∀ j (hj : j < k.chans), SampleVal c f[j] (u n j))
    (hu1 : ∀ n, ∑ j ∈ Finset.range k.chans, |u n j| ≤ 1 - k.chans * (3 * mixErr c)) :
    ya.len = b.len ∧ ∀ x, x < b.len → ∃ (f m : Frame k c) (p q : ℚ), b.get x = some f ∧
      (Src.blend (.audio ya) (.frame g) (.pan t)).nth x = .ok (some m) ∧ SampleVal c f[i] p ∧ SampleVal c m[i] q ∧
      |p - q| ≤ (k.chans + 1) * ((mixErr c + 5 * 2 ^ (-53 : ℤ) + 2 * ((b.len + 1) * 2 ^ (-53 : ℤ))) *
        (1 / binary64.rnd ((dst:ℚ) / src) + 3)) + 2 * (k.chans * (3 * mixErr c)) := by
  have hsp : k.Spread := by rcases hk with rfl | rfl; exacts [spread_stereo, spread_surround]
  have hb : k.builtin = true := by rcases hk with rfl | rfl <;> rfl
  have hE := mixErr_pos c
  obtain ⟨h1, h2⟩ := C143_down hb hr hs h0 hd0 hs' hle hN hB hla hra (sb := .blend sa (.frame g) (.pan t))
    (by simp [Src.len, hla]) hra (fun n f hf => pan_nth hb hf) h ha hi (by positivity) (pan_linear ht hsp hg hi) hu hu1
  refine ⟨h1, fun x hx => ?_⟩
  obtain ⟨f, y, m, p, q, f1, y1, m1, p1, q1, e⟩ := h2 x hx
  exact ⟨f, m, p, q, f1, pan_nth_of hb (by simpa [Src.nth, Audio.get] using y1) m1, p1, q1, e⟩

/-- Trigonometric functions that are good enough for the angles 0 and 45 degrees of the examples. -/
def tableTrig : Trig := ⟨fun x => if x.lt (lit 0.5) then lit 0 else lit 0.70703125, fun x => if x.lt (lit 0.5) then lit 1 else lit 0.70703125⟩

theorem tableTrig_near : tableTrig.Near 2 := by
  intro x q _
  have h : ∀ s : ℚ, |s| ≤ 1 → |(s:ℝ) - Real.sin q| ≤ 2 ∧ |(s:ℝ) - Real.cos q| ≤ 2 := by
    intro s hs
    have hs' : |(s:ℝ)| ≤ 1 := by exact_mod_cast hs
    have h1 := Real.abs_sin_le_one q
    have h2 := Real.abs_cos_le_one q
    rw [abs_le] at hs' h1 h2
    constructor <;> rw [abs_le] <;> constructor <;> linarith [hs'.1, hs'.2, h1.1, h1.2, h2.1, h2.2]
  have h45 : |(181 / 256 : ℚ)| ≤ 1 := by norm_num [abs_le]
  by_cases hx : x.lt (lit 0.5) = true
  · refine ⟨0, 1, ?_, ?_, by simp, by simp, (h 0 (by simp)).1, (h 1 (by simp)).2⟩
    · simp only [tableTrig, hx, if_true]; decide +kernel
    · simp only [tableTrig, hx, if_true]; decide +kernel
  · refine ⟨181 / 256, 181 / 256, ?_, ?_, h45, h45, (h _ h45).1, (h _ h45).2⟩
    · simp only [tableTrig, hx]; decide +kernel
    · simp only [tableTrig, hx]; decide +kernel

/-- Stereo sound at 2 Hz, and where it is panned to: the left channel stays, the right one goes to the centre. -/
def exWide : Audio .stereo .ch32 := ⟨lit 2, [#v[lit 0.125, lit 0.25], #v[lit (-0.25), lit 0.125], #v[lit 0.0625, lit (-0.25)]]⟩
def exPlaces : Frame .stereo .ch32 := #v[lit (-0.5), lit 0]
def exWideVal (n j : Nat) : ℚ :=
  if n = 0 then (if j = 0 then 1 / 8 else 1 / 4) else if n = 1 then (if j = 0 then -1 / 4 else 1 / 8)
  else if n = 2 then (if j = 0 then 1 / 16 else -1 / 4) else 0

theorem exWide_val (n : Nat) (f : Frame .stereo .ch32) (hf : (Src.audio exWide).nth n = .ok (some f)) (j : Nat)
    (hj : j < Kind.stereo.chans) : SampleVal .ch32 f[j] (exWideVal n j) := by
  have hj' : j = 0 ∨ j = 1 := by have : j < 2 := hj; omega
  match n with
  | 0 | 1 | 2 => cases hf; rcases hj' with rfl | rfl <;> decide +kernel +revert
  | n + 3 => cases hf

theorem exWide_quiet (n : Nat) : ∑ j ∈ Finset.range Kind.stereo.chans, |exWideVal n j| ≤ 3 / 8 := by
  rw [show Kind.stereo.chans = 2 from rfl, Finset.sum_range_succ, Finset.sum_range_one]
  match n with
  | 0 | 1 | 2 => norm_num [exWideVal, abs_of_pos, abs_of_neg]
  | n + 3 => simp [exWideVal]; norm_num

example := C143_pan_down (.inl rfl) (rate := lit 1) (sr := lit 2) (dst := 1) (src := 2) (l := 3) (by decide +kernel) (by decide +kernel)
  (by decide) (by decide) (by decide) (by decide) (by decide) (by decide) (sa := .audio exWide) rfl rfl tableTrig_near
  (g := exPlaces) (by decide +kernel)
  (R.returns (x := (Audio.withStream (lit 1) (.blend (.audio exWide) (.frame exPlaces) (.pan tableTrig)) : R (Audio .stereo .ch32)))
    (by decide +kernel))
  (R.returns (x := (Audio.withStream (lit 1) (.audio exWide) : R (Audio .stereo .ch32))) (by decide +kernel)) (i := 0)
  (by decide) exWide_val (fun n => (exWide_quiet n).trans (by norm_num [Kind.chans, mixErr]))

example := C143_down (k := .stereo) rfl (rate := lit 1) (sr := lit 2) (dst := 1) (src := 2) (l := 3) (by decide +kernel) (by decide +kernel)
  (by decide) (by decide) (by decide) (by decide) (by decide) (by decide) (sa := .audio exWide)
  (sb := .blend (.audio exWide) (.frame exPlaces) (.pan tableTrig)) rfl rfl rfl rfl (fun _ _ hf => pan_nth rfl hf)
  (R.returns (x := (Audio.withStream (lit 1) (.blend (.audio exWide) (.frame exPlaces) (.pan tableTrig)) : R (Audio .stereo .ch32)))
    (by decide +kernel))
  (R.returns (x := (Audio.withStream (lit 1) (.audio exWide) : R (Audio .stereo .ch32))) (by decide +kernel)) (i := 1)
  (by decide) (E := 2 * (3 * mixErr .ch32)) (by norm_num [mixErr])
  (pan_linear tableTrig_near spread_stereo (by decide +kernel) _) exWide_val
  (fun n => (exWide_quiet n).trans (by norm_num [mixErr]))
example := C143_up (k := .stereo) rfl (rate := lit 3) (sr := lit 2) (dst := 3) (src := 2) (l := 3) (by decide +kernel) (by decide +kernel)
  (by decide) (by decide) (by decide) (by decide) (by decide) (by decide) (sa := .audio exWide)
  (sb := .blend (.audio exWide) (.frame exPlaces) (.pan tableTrig)) rfl rfl rfl rfl (fun _ _ hf => pan_nth rfl hf)
  (R.returns (x := (Audio.withStream (lit 3) (.blend (.audio exWide) (.frame exPlaces) (.pan tableTrig)) : R (Audio .stereo .ch32)))
    (by decide +kernel))
  (R.returns (x := (Audio.withStream (lit 3) (.audio exWide) : R (Audio .stereo .ch32))) (by decide +kernel)) (i := 0)
  (by decide) (r := 3 / 2) (by decide +kernel) (E := 2 * (3 * mixErr .ch32)) (by norm_num [mixErr])
  (pan_linear tableTrig_near spread_stereo (by decide +kernel) _) exWide_val
  (fun n => (exWide_quiet n).trans (by norm_num [mixErr])) (fun n => by linarith [exWide_quiet n])

/-- C143 for panning to a fixed position, upsampling. -/
theorem C143_pan_up (hk : k = .stereo ∨ k = .surround) {rate sr : F64} {dst src l : Nat} (hr : rate.Is (dst:ℚ))
    (hs : sr.Is (src:ℚ)) (h0 : 0 < src) (hs' : src ≤ 2 ^ 50) (hd' : dst ≤ 2 ^ 51) (hle : src ≤ dst) (h20 : dst ≤ 2 ^ 20 * src)
    (hN : dst * l < 2 ^ 51) {sa : Src k c} (hla : sa.len = some l) (hra : sa.rate = some sr)
    {t : Trig} {eps : ℝ} (ht : t.Near eps) {g : Frame k c} (hg : g.InRange) {b ya : Audio k c}
    (h : Audio.withStream rate (.blend sa (.frame g) (.pan t)) = .ok b)
    (ha : Audio.withStream rate sa = .ok ya) {i : Nat} (hi : i < k.chans) {r : ℚ} (hr' : r = binary64.rnd ((dst:ℚ) / src))
    {u : Nat → Nat → ℚ} (hu : ∀ n f, sa.nth n = .ok (some f) → ∀ j (hj : j < k.chans), SampleVal c f[j] (u n j))
    (hu1 : ∀ n, ∑ j ∈ Finset.range k.chans, |u n j| ≤ 1 - k.chans * (3 * mixErr c))
    (hu2 : ∀ n, (∑ j ∈ Finset.range k.chans, |u n j|) * (r + 1) ≤ 1) :
    ya.len = b.len ∧ ∀ x, x < b.len → ∃ (f m : Frame k c) (p q : ℚ), b.get x = some f ∧
      (Src.blend (.audio ya) (.frame g) (.pan t)).nth x = .ok (some m) ∧ SampleVal c f[i] p ∧ SampleVal c m[i] q ∧
      |p - q| ≤ (k.chans + 1) * (mixErr c * (r + 5)) + k.chans * (3 * mixErr c) * (r + 2) := by
  have hsp : k.Spread := by rcases hk with rfl | rfl; exacts [spread_stereo, spread_surround]
  have hb : k.builtin = true := by rcases hk with rfl | rfl <;> rfl
  have hE := mixErr_pos c
  obtain ⟨h1, h2⟩ := C143_up hb hr hs h0 hs' hd' hle h20 hN hla hra (sb := .blend sa (.frame g) (.pan t))
    (by simp [Src.len, hla]) hra (fun n f hf => pan_nth hb hf) h ha hi hr' (by positivity) (pan_linear ht hsp hg hi) hu hu1
    hu2
  refine ⟨h1, fun x hx => ?_⟩
  obtain ⟨f, y, m, p, q, f1, y1, m1, p1, q1, e⟩ := h2 x hx
  exact ⟨f, m, p, q, f1, pan_nth_of hb (by simpa [Src.nth, Audio.get] using y1) m1, p1, q1, e⟩

example := C143_pan_up (.inl rfl) (rate := lit 3) (sr := lit 2) (dst := 3) (src := 2) (l := 3) (by decide +kernel) (by decide +kernel)
  (by decide) (by decide) (by decide) (by decide) (by decide) (by decide) (sa := .audio exWide) rfl rfl tableTrig_near
  (g := exPlaces) (by decide +kernel)
  (R.returns (x := (Audio.withStream (lit 3) (.blend (.audio exWide) (.frame exPlaces) (.pan tableTrig)) : R (Audio .stereo .ch32)))
    (by decide +kernel))
  (R.returns (x := (Audio.withStream (lit 3) (.audio exWide) : R (Audio .stereo .ch32))) (by decide +kernel)) (i := 1)
  (by decide) (r := 3 / 2) (by decide +kernel) exWide_val
  (fun n => (exWide_quiet n).trans (by norm_num [Kind.chans, mixErr])) (fun n => by linarith [exWide_quiet n])

/-- What the first of these examples gives: the right channel is heard from the left speaker, too. -/
example : (Audio.withStream (lit 1) (.blend (.audio exWide) (.frame exPlaces) (.pan tableTrig)) : R (Audio .stereo .ch32)).map
    (·.frames[0]?) = .ok (some #v[lit (309 / 2048), lit (181 / 2048)]) := by decide +kernel

/-- Trigonometric functions that are exact at 0. -/
noncomputable def zeroTrig : Trig :=
  ⟨fun x => if x.eq (lit 0) then lit 0 else nearTrig.sin x, fun x => if x.eq (lit 0) then lit 1 else nearTrig.cos x⟩

theorem zeroTrig_near : zeroTrig.Near (2 ^ (-52 : ℤ)) := by
  intro x q hx
  by_cases h : x.eq (lit 0) = true
  · have hq : q = 0 := by
      rw [Is.eq hx is_zero, decide_eq_true_eq] at h
      exact h
    subst hq
    refine ⟨0, 1, ?_, ?_, by simp, by simp, by simp, by simp⟩
    · simp only [zeroTrig, h, if_true]; decide +kernel
    · simp only [zeroTrig, h, if_true]; decide +kernel
  · obtain ⟨s, c, h1, h2, h3⟩ := nearTrig_near x q hx
    refine ⟨s, c, ?_, ?_, h3⟩
    · simpa [zeroTrig, h] using h1
    · simpa [zeroTrig, h] using h2

/-- Where panning clips, it makes a difference: if both channels go to the same speaker, one loud frame and one of silence
give half of the full level if panned first, and three quarters if resampled first. -/
theorem C143_clips :
    let a : Audio .stereo .ch32 := ⟨lit 2, [#v[lit 0, lit 0], #v[lit 0.75, lit 0.75], #v[lit 0, lit 0], #v[lit 0, lit 0]]⟩
    let g : Frame .stereo .ch32 := #v[lit (-0.5), lit (-0.5)]
    (Audio.withStream (lit 1) (.blend (.audio a) (.frame g) (.pan zeroTrig)) : R (Audio .stereo .ch32)).map (·.frames[1]?) =
      .ok (some #v[lit 0.5, lit 0]) ∧
    (Audio.withStream (lit 1) (.audio a) : R (Audio .stereo .ch32)).map (·.frames[1]?) = .ok (some #v[lit 0.375, lit 0.375]) ∧
    (Blend.pan zeroTrig).mixFrames (k := .stereo) (c := .ch32) #v[lit 0.375, lit 0.375] g = .ok #v[lit 0.75, lit 0] := by
  decide +kernel

end Fon
