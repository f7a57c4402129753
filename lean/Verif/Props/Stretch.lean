import Verif.Props.UpLinear
import Verif.Props.TwoStep
import Verif.Props.Rising

/-!
# C150: the mean over a stretch of time is kept, at every ratio
-/

namespace Fon
open Fon.Fl hiding min max
open Fon.Fmt Fon.Sink
variable {k k' : Kind} {c c' : ChTy}

/-! ## Downsampling -/

/-- What the slots before `t` get of the frames before position `t` and after it, compared with all of the frames before `t`. -/
theorem edge_down {r : ℚ} (hr : 0 < r) (hr1 : r ≤ 1) (t n : Nat) {w : Nat → ℚ} {M : ℚ} (hM : 0 ≤ M)
    (hw : ∀ j, j < n → |w j| ≤ M) :
    |∑ j ∈ Finset.range n, w j * (∑ x ∈ Finset.range t, share r x (r * j) - if r * j < t then r else 0)| ≤ M := by
  have tel : ∀ j : Nat, ∑ x ∈ Finset.range t, share r x (r * j) = min (r * j + 1) t - min (r * j - r + 1) (t:ℚ) := by
    intro j
    have h0 : 0 ≤ r * (j:ℚ) := by positivity
    rw [← sum_ramps (by linarith) t, ← sum_ramps (by linarith) t, ← Finset.sum_sub_distrib]
    rfl
  -- the frames before `t` give at most one slot to the slots from `t` on
  have hle : ∀ j : Nat, 0 ≤ (if r * (j:ℚ) < t then r else 0) - ∑ x ∈ Finset.range t, share r x (r * j) := by
    intro j
    rw [tel]
    split_ifs with h
    · rcases min_cases (r * (j:ℚ) + 1) (t:ℚ) with ⟨e, _⟩ | ⟨e, _⟩ <;>
        rcases min_cases (r * (j:ℚ) - r + 1) (t:ℚ) with ⟨e', _⟩ | ⟨e', _⟩ <;> rw [e, e'] <;> linarith
    · push Not at h
      rw [min_eq_right (by linarith), min_eq_right (by linarith)]; simp
  have key : ∀ m : Nat, (∑ j ∈ Finset.range m, ((if r * (j:ℚ) < t then r else 0) - ∑ x ∈ Finset.range t, share r x (r * j)) ≤ 1) ∧
      (r * m - r < t → 1 ≤ t → ∑ j ∈ Finset.range m, ((if r * (j:ℚ) < t then r else 0) - ∑ x ∈ Finset.range t, share r x (r * j)) =
        r * m - r + 1 - min (r * m - r + 1) (t:ℚ)) := by
    intro m
    induction m with
    | zero =>
      refine ⟨by simp, fun _ h => ?_⟩
      have : (1:ℚ) ≤ t := by exact_mod_cast h
      rw [Finset.sum_range_zero, min_eq_left (by push_cast; linarith)]; ring
    | succ m ih =>
      rw [Finset.sum_range_succ]
      by_cases h : r * (m:ℚ) < t
      · have ht : 1 ≤ t := by
          rcases Nat.eq_zero_or_pos t with h0 | h0
          · subst h0
            have : 0 ≤ r * (m:ℚ) := by positivity
            push_cast at h; linarith
          · exact h0
        rw [ih.2 (by linarith) ht, if_pos h, tel]
        push_cast
        have e : r * ((m:ℚ) + 1) - r + 1 = r * m + 1 := by ring
        rw [e]
        refine ⟨?_, fun _ _ => by ring⟩
        rcases min_cases (r * (m:ℚ) + 1) (t:ℚ) with ⟨e', _⟩ | ⟨e', _⟩ <;> rw [e'] <;> linarith
      · push Not at h
        rw [if_neg (not_lt.mpr h), tel, min_eq_right (by linarith), min_eq_right (by linarith)]
        refine ⟨by linarith [ih.1], fun h' => ?_⟩
        push_cast at h'
        linarith
  refine (Finset.abs_sum_le_sum_abs _ _).trans ?_
  calc _ ≤ ∑ j ∈ Finset.range n, M * ((if r * (j:ℚ) < t then r else 0) - ∑ x ∈ Finset.range t, share r x (r * j)) := by
        refine Finset.sum_le_sum fun j hj => ?_
        rw [abs_mul, abs_sub_comm, abs_of_nonneg (hle j)]
        exact mul_le_mul_of_nonneg_right (hw j (Finset.mem_range.mp hj)) (hle j)
    _ = M * ∑ j ∈ Finset.range n, ((if r * (j:ℚ) < t then r else 0) - ∑ x ∈ Finset.range t, share r x (r * j)) := by
        rw [Finset.mul_sum]
    _ ≤ M := mul_le_of_le_one_right hM (key n).1

/-- From `edge_down` for both ends of a stretch. -/
theorem stretch_of {n a b : Nat} (hab : a ≤ b) {w v : Nat → ℚ} {o : Nat → Nat → ℚ} {p : Nat → ℚ} {M : ℚ}
    (h : ∀ t, |∑ j ∈ Finset.range n, w j * (∑ x ∈ Finset.range t, o x j - if p j < (t:ℚ) then v j else 0)| ≤ M) :
    |∑ x ∈ Finset.Ico a b, ∑ j ∈ Finset.range n, w j * o x j -
      ∑ j ∈ (Finset.range n).filter (fun j => (a:ℚ) ≤ p j ∧ p j < b), w j * v j| ≤ 2 * M := by
  have e : ∑ x ∈ Finset.Ico a b, ∑ j ∈ Finset.range n, w j * o x j -
      ∑ j ∈ (Finset.range n).filter (fun j => (a:ℚ) ≤ p j ∧ p j < b), w j * v j =
      ∑ j ∈ Finset.range n, w j * (∑ x ∈ Finset.range b, o x j - if p j < (b:ℚ) then v j else 0) -
      ∑ j ∈ Finset.range n, w j * (∑ x ∈ Finset.range a, o x j - if p j < (a:ℚ) then v j else 0) := by
    rw [Finset.sum_comm, Finset.sum_filter, ← Finset.sum_sub_distrib, ← Finset.sum_sub_distrib]
    refine Finset.sum_congr rfl fun j _ => ?_
    have hq : (a:ℚ) ≤ b := by exact_mod_cast hab
    rw [← Finset.mul_sum, Finset.sum_Ico_eq_sub _ hab]
    by_cases h1 : p j < a
    · rw [if_neg (fun h => absurd h.1 (not_le.mpr h1)), if_pos (by linarith), if_pos h1]; ring
    · by_cases h2 : p j < b
      · rw [if_pos ⟨not_lt.mp h1, h2⟩, if_pos h2, if_neg h1]; ring
      · rw [if_neg (fun h => h2 h.2), if_neg h2, if_neg h1]; ring
  rw [e]
  have h1 := abs_le.mp (h a)
  have h2 := abs_le.mp (h b)
  rw [abs_le]
  constructor <;> linarith

/-- C150 when the rate does not go up: the slots from `a` to `b` add up to the ratio times the frames with a position from `a` to
`b`, up to twice the largest sample, at every length. -/
theorem C150_down (fuel : Nat) (s s' : Sink k c) (st : Src k' c') (it : It k' c')
    (h : s.stream fuel st = .ok (s', it)) (ho : s.res.offseti = lit 0) (r : ℚ)
    (hq : (ratioOf s.rate st.rate).Is r) (hr : 0 < r) (hr1 : r ≤ 1) (hb : (s.buf.length : ℚ) + 1 ≤ r * 2 ^ 52)
    (i : Nat) (hi : i < k.chans) (w : Nat → ℚ) (M : ℚ) (hM1 : M ≤ 1)
    (hw : ∀ j f, st.nth j = .ok (some f) → ∀ x : Frame k c, f.convert c = .ok x → SampleVal c x[i] (w j)) (hM : ∀ j, |w j| ≤ M)
    (a b : Nat) (hab : a ≤ b) (hD : ∀ x, a ≤ x → x < b → InDst (ratioOf s.rate st.rate) st.len s.buf.length x) :
    ∃ (n : Nat) (y : Nat → ℚ), Takes (ratioOf s.rate st.rate) (lit 0) st.len s.buf.length n ∧
      (∀ x, a ≤ x → x < b → ∃ f, s'.buf[x]? = some f ∧ SampleVal c f[i] (y x)) ∧
      |∑ x ∈ Finset.Ico a b, y x - r * ∑ j ∈ (Finset.range n).filter (fun j : Nat => (a:ℚ) ≤ r * j ∧ r * j < b), w j| ≤
        2 * M + (b - a) * ((mixErr c + 5 * 2 ^ (-53 : ℤ) + 2 * ((s.buf.length + 1) * 2 ^ (-53 : ℤ))) * (1 / r + 3)) := by
  obtain ⟨n, t, hn, h2⟩ := C59_box fuel s s' st it h ho r hq hr hr1 hb i hi w
    (fun j f hf y hy => ⟨hw j f hf y hy, (hM j).trans hM1⟩)
  have h3 : ∀ x, ∃ v, a ≤ x → x < b → ∃ f, s'.buf[x]? = some f ∧ SampleVal c f[i] v ∧
      |v - ∑ j ∈ Finset.range n, w j * overlap (r * j - r) (r * j) (x - 1) x| ≤
        (mixErr c + 5 * 2 ^ (-53 : ℤ) + 2 * ((s.buf.length + 1) * 2 ^ (-53 : ℤ))) * (1 / r + 3) := by
    intro x
    by_cases hx : a ≤ x ∧ x < b
    · obtain ⟨f, v, f1, f2, f3⟩ := h2 x (hD x hx.1 hx.2)
      exact ⟨v, fun _ _ => ⟨f, f1, f2, f3⟩⟩
    · exact ⟨0, fun h1 h2 => absurd ⟨h1, h2⟩ hx⟩
  choose y hy using h3
  refine ⟨n, y, t, fun x h1 h2 => ?_, ?_⟩
  · obtain ⟨f, f1, f2, _⟩ := hy x h1 h2
    exact ⟨f, f1, f2⟩
  · have e := stretch_of (n := n) hab (w := w) (v := fun _ => r) (o := fun x j => share r x (r * j)) (p := fun j => r * j)
      (fun t => edge_down hr hr1 t n ((abs_nonneg _).trans (hM 0)) (fun j _ => hM j))
    rw [← Finset.sum_mul, mul_comm _ r] at e
    generalize (mixErr c + 5 * 2 ^ (-53 : ℤ) + 2 * ((s.buf.length + 1) * 2 ^ (-53 : ℤ))) * (1 / r + 3) = E at *
    have near : |∑ x ∈ Finset.Ico a b, y x - ∑ x ∈ Finset.Ico a b, ∑ j ∈ Finset.range n, w j * share r x (r * j)| ≤ (b - a) * E := by
      rw [← Finset.sum_sub_distrib]
      refine (Finset.abs_sum_le_sum_abs _ _).trans ((Finset.sum_le_sum (g := fun _ => E) fun x hx => ?_).trans_eq ?_)
      · have := Finset.mem_Ico.mp hx
        obtain ⟨_, _, _, f3⟩ := hy x this.1 this.2
        simp only [← share_overlap hr.le] at f3
        exact f3
      · rw [Finset.sum_const, Nat.card_Ico, nsmul_eq_mul, Nat.cast_sub hab]
    have g1 := abs_le.mp e
    have g2 := abs_le.mp near
    rw [abs_le]
    constructor <;> linarith

/-- From 12 Hz to 8 Hz: slots 1 and 2. -/
example := C150_down 6 (exSink 3 8) _ (.audio (exAudio 12)) _
  (R.returns₂ (x := (exSink 3 8).stream 6 (.audio (exAudio 12))) (by decide +kernel)) rfl
  (binary64.rnd (2 / 3)) (by decide +kernel) (by decide +kernel) (by decide +kernel) (by decide +kernel)
  0 (by decide) exStair 1 le_rfl exStair_val exStair_le 1 3 (by decide) (by
    intro x h1 h2
    have : ∀ x, x < 3 → 1 ≤ x → InDst (ratioOf (exSink 3 8).rate (Src.audio (exAudio 12)).rate) (Src.audio (exAudio 12)).len
      (exSink 3 8).buf.length x := by decide +kernel
    exact this x h2 h1)

/-! ## Upsampling -/

/-- The same for higher rates: at most one frame is in the slot before `t`. -/
theorem edge_up (c : ChTy) {r : ℚ} (t n : Nat) {w p : Nat → ℚ} {M : ℚ} (hM : 0 ≤ M)
    (hw : ∀ j, j < n → |w j| ≤ M) (hp : ∀ j, j < n → 0 ≤ p j) (hmono : ∀ j j', j < j' → j' < n → ⌊p j⌋ < ⌊p j'⌋) :
    |∑ j ∈ Finset.range n, w j * (∑ x ∈ Finset.range t, upShare c r x (p j) -
      if p j < (t:ℚ) then gain c (r - (p j - ⌊p j⌋)) + (p j - ⌊p j⌋) else 0)| ≤ M := by
  have val : ∀ j, j < n → ∑ x ∈ Finset.range t, upShare c r x (p j) -
      (if p j < (t:ℚ) then gain c (r - (p j - ⌊p j⌋)) + (p j - ⌊p j⌋) else 0) =
      if ⌊p j⌋ + 1 = (t:ℤ) then -(p j - ⌊p j⌋) else 0 := by
    intro j hj
    have h0 : 0 ≤ ⌊p j⌋ := Int.floor_nonneg.mpr (hp j hj)
    obtain ⟨m, hm⟩ : ∃ m : ℕ, ⌊p j⌋ = m := ⟨⌊p j⌋.toNat, by omega⟩
    have hlt : p j < (t:ℚ) ↔ m < t := by
      have := Int.floor_lt (a := p j) (z := (t:ℤ))
      rw [hm] at this
      push_cast at this
      rw [← this]; omega
    by_cases h1 : m + 1 < t
    · have : ∑ x ∈ Finset.range t, upShare c r x (p j) = gain c (r - (p j - ⌊p j⌋)) + (p j - ⌊p j⌋) := by
        obtain ⟨D, rfl⟩ : ∃ D, t = D + 1 := ⟨t - 1, by omega⟩
        refine share_total c D (hp j hj) ?_
        have := (Int.floor_lt (a := p j) (z := (D:ℤ))).mp (by omega)
        exact_mod_cast this
      rw [this, if_pos (hlt.mpr (by omega)), if_neg (by omega), sub_self]
    · by_cases h2 : m + 1 = t
      · rw [if_pos (hlt.mpr (by omega)), if_pos (by omega), Finset.sum_eq_single m]
        · unfold upShare
          rw [if_pos hm]; ring
        · intro x hx hxm
          have := Finset.mem_range.mp hx
          unfold upShare
          rw [if_neg (by omega), if_neg (by omega)]
        · intro hx; exact absurd (Finset.mem_range.mpr (by omega)) hx
      · rw [if_neg (fun h => by have := hlt.mp h; omega), if_neg (by omega), sub_zero]
        refine Finset.sum_eq_zero fun x hx => ?_
        have := Finset.mem_range.mp hx
        unfold upShare
        rw [if_neg (by omega), if_neg (by omega)]
  rw [Finset.sum_congr rfl fun j hj => by rw [val j (Finset.mem_range.mp hj)]]
  by_cases hex : ∃ j, j < n ∧ ⌊p j⌋ + 1 = (t:ℤ)
  · obtain ⟨j, hj, he⟩ := hex
    rw [Finset.sum_eq_single j]
    · rw [if_pos he, abs_mul, abs_neg]
      have f1 := Int.floor_le (p j)
      have f2 := Int.lt_floor_add_one (p j)
      have f3 : |p j - ⌊p j⌋| ≤ 1 := by rw [abs_of_nonneg (by linarith)]; linarith
      calc _ ≤ M * 1 := mul_le_mul (hw j hj) f3 (abs_nonneg _) hM
        _ = M := mul_one M
    · intro j' hj' hne
      have hj' := Finset.mem_range.mp hj'
      rw [if_neg, mul_zero]
      intro he'
      rcases Nat.lt_or_gt_of_ne hne with hlt | hlt
      · have := hmono j' j hlt hj; omega
      · have := hmono j j' hlt hj'; omega
    · intro hx; exact absurd (Finset.mem_range.mpr hj) hx
  · push Not at hex
    rw [Finset.sum_eq_zero fun j hj => by rw [if_neg (hex j (Finset.mem_range.mp hj)), mul_zero], abs_zero]
    exact hM

/-- C150 when the rate does not go down, for signals that are quiet enough not to clip: the slots from `a` to `b` add up to the
frames with a position from `a` to `b`, each with the weight of its two slots. -/
theorem C150_up (fuel : Nat) (s s' : Sink k c) (st : Src k' c') (it : It k' c')
    (h : s.stream fuel st = .ok (s', it)) (ho : s.res.offseti = lit 0) (r : ℚ)
    (hq : (ratioOf s.rate st.rate).Is r) (hr : 1 ≤ r) (hr1 : r ≤ 2 ^ 20) (hb : s.buf.length ≤ 2 ^ 51)
    (i : Nat) (hi : i < k.chans) (w : Nat → ℚ) (M : ℚ) (hM1 : M * (r + 1) ≤ 1)
    (hw : ∀ j f, st.nth j = .ok (some f) → ∀ x : Frame k c, f.convert c = .ok x → SampleVal c x[i] (w j)) (hM : ∀ j, |w j| ≤ M)
    (a b : Nat) (hab : a ≤ b) (hD : ∀ x, a ≤ x → x < b → InDst (ratioOf s.rate st.rate) st.len s.buf.length x) :
    let p := fun j : Nat => binary64.rnd (r * j)
    ∃ (n : Nat) (y : Nat → ℚ), Takes (ratioOf s.rate st.rate) (lit 0) st.len s.buf.length n ∧
      (∀ x, a ≤ x → x < b → ∃ f, s'.buf[x]? = some f ∧ SampleVal c f[i] (y x)) ∧
      |∑ x ∈ Finset.Ico a b, y x - ∑ j ∈ (Finset.range n).filter (fun j : Nat => (a:ℚ) ≤ p j ∧ p j < b),
        w j * (gain c (r - (p j - ⌊p j⌋)) + (p j - ⌊p j⌋))| ≤ 2 * M + (b - a) * (mixErr c * (r + 5)) := by
  intro p
  have hM0 : 0 ≤ M := (abs_nonneg _).trans (hM 0)
  have hM2 : M ≤ 1 := by nlinarith
  obtain ⟨n, t, hn, hmono, h2⟩ := C101_mix fuel s s' st it h ho r hq hr hr1 (by omega) i hi w
    (fun j f hf y hy => ⟨hw j f hf y hy, (hM j).trans hM2⟩)
  obtain ⟨_, hpz, _, _⟩ := up_pos hq hr hr1 (by omega) t
  have hBq : (s.buf.length:ℚ) ≤ 2 ^ 51 := by exact_mod_cast hb
  have hu0 : (0:ℚ) < 2 ^ (-53:ℤ) := two_zpow_pos _
  have h3 : ∀ x, ∃ v, a ≤ x → x < b → ∃ f, s'.buf[x]? = some f ∧ SampleVal c f[i] v ∧
      |v - ∑ j ∈ Finset.range n, w j * upShare c r x (p j)| ≤ mixErr c * (r + 5) := by
    intro x
    by_cases hx : a ≤ x ∧ x < b
    · obtain ⟨f, v, f1, f2, f3⟩ := h2 x (hD x hx.1 hx.2)
      have hS := share_le c hr (η := (s.buf.length + 1) * 2 ^ (-53 : ℤ))
        (mul_nonneg (by positivity) hu0.le) (fun j => binary64.rnd (r * j)) n x
        (fun j hj => up_acc hq hr hr1 hb t j hj) (fun j j' h1 h2 => hmono j j' h1 h2.le)
      have hS1 : ∑ j ∈ Finset.range n, upShare c r x (binary64.rnd (r * j)) ≤ r + 1 := by
        have h4 : (s.buf.length + 1 : ℚ) * 2 ^ (-53:ℤ) ≤ (2 ^ 51 + 1) * 2 ^ (-53:ℤ) :=
          mul_le_mul_of_nonneg_right (by linarith) hu0.le
        have h5 : ((2:ℚ) ^ 51 + 1) * 2 ^ (-53:ℤ) ≤ 1 / 2 := by norm_num
        have h6 := h4.trans h5
        refine hS.trans ?_
        generalize ((s.buf.length:ℚ) + 1) * 2 ^ (-53:ℤ) = η at h6 ⊢
        linarith
      have := (share_abs c hr _ w n x hM0 (fun j _ => hM j) hS1).trans hM1
      rw [clampQ_of_range (abs_le.mp this).1 (abs_le.mp this).2] at f3
      exact ⟨v, fun _ _ => ⟨f, f1, f2, f3⟩⟩
    · exact ⟨0, fun h1 h2 => absurd ⟨h1, h2⟩ hx⟩
  choose y hy using h3
  refine ⟨n, y, t, fun x h1 h2 => ?_, ?_⟩
  · obtain ⟨f, f1, f2, _⟩ := hy x h1 h2
    exact ⟨f, f1, f2⟩
  · have e := stretch_of (n := n) hab (w := w) (v := fun j => gain c (r - (p j - ⌊p j⌋)) + (p j - ⌊p j⌋))
      (o := fun x j => upShare c r x (p j)) (p := p)
      (fun t => edge_up c t n hM0 (fun j _ => hM j) (fun j hj => (hpz j (by omega)).2.2.1) (fun j j' h1 h2 => hmono j j' h1 h2.le))
    generalize mixErr c * (r + 5) = E at *
    have near : |∑ x ∈ Finset.Ico a b, y x - ∑ x ∈ Finset.Ico a b, ∑ j ∈ Finset.range n, w j * upShare c r x (p j)| ≤
        (b - a) * E := by
      rw [← Finset.sum_sub_distrib]
      refine (Finset.abs_sum_le_sum_abs _ _).trans ((Finset.sum_le_sum (g := fun _ => E) fun x hx => ?_).trans_eq ?_)
      · have := Finset.mem_Ico.mp hx
        obtain ⟨_, _, _, f3⟩ := hy x this.1 this.2
        exact f3
      · rw [Finset.sum_const, Nat.card_Ico, nsmul_eq_mul, Nat.cast_sub hab]
    have g1 := abs_le.mp e
    have g2 := abs_le.mp near
    rw [abs_le]
    constructor <;> linarith

theorem exUpU_val (j : Nat) (f : Frame .mono .ch64) (hf : (Src.audio exUpU).nth j = .ok (some f)) (x : Frame .mono .ch64)
    (hx : f.convert .ch64 = .ok x) : SampleVal .ch64 x[0] (if j = 0 then 1 / 4 else if j = 1 then -1 / 8 else 0) := by
  match j with
  | 0 | 1 => cases hf; cases hx; decide +kernel
  | j + 2 => cases hf

theorem exUpU_le (j : Nat) : |(if j = 0 then 1 / 4 else if j = 1 then -1 / 8 else 0 : ℚ)| ≤ 1 / 4 := by
  split_ifs <;> norm_num [abs_le]

/-- From 8 Hz to 12 Hz: slot 1. -/
example := C150_up 6 exQuick _ (.audio exUpU) _
  (R.returns₂ (x := exQuick.stream 6 (.audio exUpU)) (by decide +kernel)) rfl (3 / 2)
  (by decide +kernel) (by norm_num) (by norm_num) (by decide +kernel) 0 (by decide)
  (fun j => if j = 0 then 1 / 4 else if j = 1 then -1 / 8 else 0) (1 / 4) (by norm_num) exUpU_val exUpU_le 1 2 (by decide)
  (fun x _ h2 => (exQuickDst x).mpr h2)

/-- C150 for higher rates in the float formats. -/
theorem C150_up_float (hc : c = .ch32 ∨ c = .ch64) (fuel : Nat) (s s' : Sink k c) (st : Src k' c') (it : It k' c')
    (h : s.stream fuel st = .ok (s', it)) (ho : s.res.offseti = lit 0) (r : ℚ)
    (hq : (ratioOf s.rate st.rate).Is r) (hr : 1 ≤ r) (hr1 : r ≤ 2 ^ 20) (hb : s.buf.length ≤ 2 ^ 51)
    (i : Nat) (hi : i < k.chans) (w : Nat → ℚ) (M : ℚ) (hM1 : M * (r + 1) ≤ 1)
    (hw : ∀ j f, st.nth j = .ok (some f) → ∀ x : Frame k c, f.convert c = .ok x → SampleVal c x[i] (w j)) (hM : ∀ j, |w j| ≤ M)
    (a b : Nat) (hab : a ≤ b) (hD : ∀ x, a ≤ x → x < b → InDst (ratioOf s.rate st.rate) st.len s.buf.length x) :
    ∃ (n : Nat) (y : Nat → ℚ), Takes (ratioOf s.rate st.rate) (lit 0) st.len s.buf.length n ∧
      (∀ x, a ≤ x → x < b → ∃ f, s'.buf[x]? = some f ∧ SampleVal c f[i] (y x)) ∧
      |∑ x ∈ Finset.Ico a b, y x -
        r * ∑ j ∈ (Finset.range n).filter (fun j : Nat => (a:ℚ) ≤ binary64.rnd (r * j) ∧ binary64.rnd (r * j) < b), w j| ≤
          2 * M + (b - a) * (mixErr c * (r + 5)) := by
  obtain ⟨n, y, y1, y2, y3⟩ := C150_up fuel s s' st it h ho r hq hr hr1 hb i hi w M hM1 hw hM a b hab hD
  refine ⟨n, y, y1, y2, ?_⟩
  have : ∀ t : ℚ, gain c (r - t) + t = r := fun t => by
    rcases hc with rfl | rfl <;> simp only [gain] <;> ring
  simp only [this] at y3
  rwa [← Finset.sum_mul, mul_comm _ r] at y3

example := C150_up_float (.inr rfl) 6 exQuick _ (.audio exUpU) _
  (R.returns₂ (x := exQuick.stream 6 (.audio exUpU)) (by decide +kernel)) rfl (3 / 2)
  (by decide +kernel) (by norm_num) (by norm_num) (by decide +kernel) 0 (by decide)
  (fun j => if j = 0 then 1 / 4 else if j = 1 then -1 / 8 else 0) (1 / 4) (by norm_num) exUpU_val exUpU_le 1 2 (by decide)
  (fun x _ h2 => (exQuickDst x).mpr h2)

/-- C150 is false for integer formats when the rate goes up: eight slots from four frames of 20 add up to 80, not 160, although
nothing clips. -/
theorem C150_false : ((exSink 8 16).stream 9 (.audio (k := .mono) (c := .ch8) ⟨lit 8, [#v[20#8], #v[20#8], #v[20#8], #v[20#8]]⟩)).map
    (fun r => r.1.buf.map (fun f => f[0].toInt)) = .ok [20, 0, 20, 0, 20, 0, 20, 0] := by
  decide +kernel

end Fon
