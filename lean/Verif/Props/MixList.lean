import Verif.Props.ChanLevel
import Mathlib.Data.List.Perm.Basic
import Mathlib.Algebra.Order.Group.MinMax
import Mathlib.Algebra.BigOperators.Group.List.Basic
import Mathlib.Algebra.Order.BigOperators.Group.List

/-!
# C66: when exactly the order of mixing matters
-/

namespace Fon
open Fon.Fl hiding min max

/-- Mixing integers that saturate. -/
def mixZ (m M : ℤ) : ℤ → List ℤ → ℤ := List.foldl (fun a z => clampZ m M (a + z))

theorem sum_nonpos_list : ∀ {l : List ℤ}, (∀ z ∈ l, z ≤ 0) → l.sum ≤ 0
  | [], _ => by simp
  | z :: l, h => by
    have h1 := h z (by simp)
    have h2 := sum_nonpos_list (l := l) (fun x hx => h x (by simp [hx]))
    rw [List.sum_cons]; omega

theorem mixZ_quiet {m M : ℤ} : ∀ (l : List ℤ) (a : ℤ), m ≤ a + (l.map (min 0)).sum → a + (l.map (max 0)).sum ≤ M →
    mixZ m M a l = a + l.sum
  | [], a, _, _ => by simp [mixZ]
  | z :: l, a, h1, h2 => by
    simp only [List.map_cons, List.sum_cons] at h1 h2 ⊢
    have n1 : (l.map (min 0)).sum ≤ 0 := sum_nonpos_list (by simp)
    have n2 : 0 ≤ (l.map (max 0)).sum := List.sum_nonneg (by simp)
    have e : clampZ m M (a + z) = a + z := by unfold clampZ; omega
    show mixZ m M (clampZ m M (a + z)) l = _
    rw [e, mixZ_quiet l (a + z) (by omega) (by omega)]; ring

theorem mixZ_neg {m M : ℤ} (hM : 0 ≤ M) : ∀ (l : List ℤ) (a : ℤ), (∀ z ∈ l, z ≤ 0) → m ≤ a → a ≤ M →
    mixZ m M a l = max m (a + l.sum)
  | [], a, _, h, _ => by simp [mixZ, h]
  | z :: l, a, hl, h0, h1 => by
    have hz := hl z (by simp)
    have hs : l.sum ≤ 0 := sum_nonpos_list (fun x hx => hl x (by simp [hx]))
    show mixZ m M (clampZ m M (a + z)) l = _
    rw [mixZ_neg hM l _ (fun x hx => hl x (by simp [hx])) (by unfold clampZ; omega) (by unfold clampZ; omega), List.sum_cons]
    unfold clampZ; omega

theorem mixZ_pos {m M : ℤ} (hm : m ≤ 0) : ∀ (l : List ℤ) (a : ℤ), (∀ z ∈ l, 0 ≤ z) → m ≤ a → a ≤ M →
    mixZ m M a l = min M (a + l.sum)
  | [], a, _, _, h => by simp [mixZ, h]
  | z :: l, a, hl, h0, hM => by
    have hz := hl z (by simp)
    have hs : 0 ≤ l.sum := List.sum_nonneg (fun x hx => hl x (by simp [hx]))
    show mixZ m M (clampZ m M (a + z)) l = _
    rw [mixZ_pos hm l _ (fun x hx => hl x (by simp [hx])) (by unfold clampZ; omega) (by unfold clampZ; omega), List.sum_cons]
    unfold clampZ; omega

theorem sum_filter_pos (l : List ℤ) : (l.filter (0 < ·)).sum = (l.map (max 0)).sum := by
  induction l with
  | nil => rfl
  | cons z l ih =>
    simp only [List.filter_cons, List.map_cons, List.sum_cons]
    split_ifs with h
    · rw [List.sum_cons, ih]; simp at h; omega
    · rw [ih]; simp at h; omega

theorem sum_filter_neg (l : List ℤ) : (l.filter (fun z => !decide (0 < z))).sum = (l.map (min 0)).sum := by
  induction l with
  | nil => rfl
  | cons z l ih =>
    simp only [List.filter_cons, List.map_cons, List.sum_cons]
    split_ifs with h
    · rw [List.sum_cons, ih]; simp at h; omega
    · rw [ih]; simp at h; omega

/-- The order matters exactly if there are samples on both sides of zero and those of one side clip. -/
theorem mixZ_iff {m M : ℤ} (hm : m < 0) (hM : 0 < M) (l : List ℤ) :
    (∀ l', l'.Perm l → mixZ m M 0 l' = mixZ m M 0 l) ↔
      (m ≤ (l.map (min 0)).sum ∧ (l.map (max 0)).sum ≤ M) ∨ (∀ z ∈ l, 0 ≤ z) ∨ (∀ z ∈ l, z ≤ 0) := by
  constructor
  · intro h
    by_contra hc
    push Not at hc
    obtain ⟨c1, ⟨x, hx, x0⟩, y, hy, y0⟩ := hc
    have p1 : (l.filter (0 < ·) ++ l.filter (fun z => !decide (0 < z))).Perm l := List.filter_append_perm _ _
    have e := (h _ p1).trans (h _ ((List.perm_append_comm).trans p1)).symm
    have hP : 0 < (l.map (max 0)).sum := by
      have := List.single_le_sum (l := l.map (max 0)) (by simp) (max 0 y) (List.mem_map_of_mem hy)
      omega
    have hN : (l.map (min 0)).sum < 0 := by
      have := List.single_le_sum (l := (l.map (min 0)).map (-·)) (by simp) (-(min 0 x)) (by
        rw [List.map_map]; exact List.mem_map_of_mem (f := (-·) ∘ min 0) hx)
      rw [← List.sum_neg] at this
      omega
    have q1 : ∀ z ∈ l.filter (0 < ·), 0 ≤ z := fun z hz => by simp at hz; omega
    have q2 : ∀ z ∈ l.filter (fun z => !decide (0 < z)), z ≤ 0 := fun z hz => by simp at hz; omega
    unfold mixZ at e
    rw [List.foldl_append, List.foldl_append] at e
    simp only [← mixZ.eq_1] at e
    change mixZ m M (mixZ m M 0 (l.filter (0 < ·))) (l.filter (fun z => !decide (0 < z))) =
      mixZ m M (mixZ m M 0 (l.filter (fun z => !decide (0 < z)))) (l.filter (0 < ·)) at e
    rw [mixZ_pos hm.le _ _ q1 hm.le hM.le, mixZ_neg hM.le _ _ q2 hm.le hM.le, sum_filter_pos, sum_filter_neg] at e
    rw [mixZ_neg hM.le _ _ q2 (by omega) (by omega), mixZ_pos hm.le _ _ q1 (by omega) (by omega),
      sum_filter_pos, sum_filter_neg] at e
    omega
  · rintro (⟨h1, h2⟩ | h | h) l' hp
    · have e1 : (l'.map (min 0)).sum = (l.map (min 0)).sum := (hp.map _).sum_eq
      have e2 : (l'.map (max 0)).sum = (l.map (max 0)).sum := (hp.map _).sum_eq
      rw [mixZ_quiet l' 0 (by omega) (by omega), mixZ_quiet l 0 (by omega) (by omega), hp.sum_eq]
    · rw [mixZ_pos hm.le _ _ h hm.le hM.le, mixZ_pos hm.le _ _ (fun z hz => h z (hp.mem_iff.mp hz)) hm.le hM.le, hp.sum_eq]
    · rw [mixZ_neg hM.le _ _ h hm.le hM.le, mixZ_neg hM.le _ _ (fun z hz => h z (hp.mem_iff.mp hz)) hm.le hM.le, hp.sum_eq]

theorem toInt_mix8 (l : List Ch8) (a : Ch8) : (l.foldl ChTy.ch8.add a).toInt = mixZ (-128) 127 a.toInt (l.map BitVec.toInt) := by
  induction l generalizing a with
  | nil => rfl
  | cons x l ih => exact (ih _).trans (by rw [C01_ch8_add]; rfl)

theorem toInt_mix16 (l : List Ch16) (a : Ch16) :
    (l.foldl ChTy.ch16.add a).toInt = mixZ (-32768) 32767 a.toInt (l.map BitVec.toInt) := by
  induction l generalizing a with
  | nil => rfl
  | cons x l ih => exact (ih _).trans (by rw [C01_ch16_add]; rfl)

theorem perm_map {α β : Type} {f : α → β} (P : List β → Prop) (l : List α) :
    (∀ l' : List α, l'.Perm l → P (l'.map f)) ↔ ∀ l' : List β, l'.Perm (l.map f) → P l' := by
  constructor
  · intro h l' hp
    rw [← congrFun (congrFun (List.eq_map_comp_perm f) l') l] at hp
    obtain ⟨l'', rfl, h1⟩ := hp
    exact h l'' h1
  · exact fun h l' hp => h _ (hp.map f)

/-- C66 for Ch8, exactly: the order of mixing does not matter if and only if the positive samples alone and the negative samples alone
do not clip, or all samples are on the same side of zero. -/
theorem C66_ch8_iff (l : List Ch8) : (∀ l', l'.Perm l → mixAll .ch8 l' = mixAll .ch8 l) ↔
    (-128 ≤ (l.map (fun x => min 0 x.toInt)).sum ∧ (l.map (fun x => max 0 x.toInt)).sum ≤ 127) ∨
      (∀ x ∈ l, 0 ≤ x.toInt) ∨ (∀ x ∈ l, x.toInt ≤ 0) := by
  have e : ∀ l : List Ch8, (mixAll .ch8 l).toInt = mixZ (-128) 127 0 (l.map BitVec.toInt) := fun l => toInt_mix8 l 0#8
  have := mixZ_iff (m := -128) (M := 127) (by norm_num) (by norm_num) (l.map BitVec.toInt)
  rw [← perm_map (fun z => mixZ (-128) 127 0 z = mixZ (-128) 127 0 (l.map BitVec.toInt))] at this
  simp only [List.map_map, Function.comp_def, List.forall_mem_map] at this
  rw [← this]
  exact forall_congr' fun l' => forall_congr' fun _ => by rw [← e, ← e, BitVec.toInt_inj]

/-- C66 for Ch16, exactly. -/
theorem C66_ch16_iff (l : List Ch16) : (∀ l', l'.Perm l → mixAll .ch16 l' = mixAll .ch16 l) ↔
    (-32768 ≤ (l.map (fun x => min 0 x.toInt)).sum ∧ (l.map (fun x => max 0 x.toInt)).sum ≤ 32767) ∨
      (∀ x ∈ l, 0 ≤ x.toInt) ∨ (∀ x ∈ l, x.toInt ≤ 0) := by
  have e : ∀ l : List Ch16, (mixAll .ch16 l).toInt = mixZ (-32768) 32767 0 (l.map BitVec.toInt) := fun l => toInt_mix16 l 0#16
  have := mixZ_iff (m := -32768) (M := 32767) (by norm_num) (by norm_num) (l.map BitVec.toInt)
  rw [← perm_map (fun z => mixZ (-32768) 32767 0 z = mixZ (-32768) 32767 0 (l.map BitVec.toInt))] at this
  simp only [List.map_map, Function.comp_def, List.forall_mem_map] at this
  rw [← this]
  exact forall_congr' fun l' => forall_congr' fun _ => by rw [← e, ← e, BitVec.toInt_inj]

example : (∀ l', l'.Perm [100#8, 90#8, 5#8] → mixAll .ch8 l' = 127#8) :=
  fun l' h => ((C66_ch8_iff _).mpr (.inr (.inl (by decide))) l' h).trans (by decide)
example : ¬ ∀ l', l'.Perm [100#8, 90#8, -5#8] → mixAll .ch8 l' = mixAll .ch8 [100#8, 90#8, -5#8] := by
  rw [C66_ch8_iff]; decide
example : ∀ l', l'.Perm [30000#16, -32000#16, 2000#16] → mixAll .ch16 l' = 0#16 :=
  fun l' h => ((C66_ch16_iff _).mpr (.inl (by decide)) l' h).trans (by decide)

/-- The range of a format. -/
def keepIn (c : ChTy) (s : ℚ) : ℚ := max (lo c) (min (hi c) s)

theorem keepIn_lip (c : ChTy) (s t : ℚ) : |keepIn c s - keepIn c t| ≤ |s - t| := by
  unfold keepIn
  exact (abs_max_sub_max_le_max _ _ _ _).trans (max_le (by simp) ((abs_min_sub_min_le_max _ _ _ _).trans (max_le (by simp) le_rfl)))

theorem sumF_keepIn (c : ChTy) {s : ℚ} (hs : c = .ch32 ∨ c = .ch64 → |s| ≤ 2) : |sumF c s - keepIn c s| ≤ addTol c := by
  cases c
  · simp [sumF, keepIn, lo, hi, addTol]
  · simp [sumF, keepIn, lo, hi, addTol]
  · exact clamp_rnd_near (hs (.inl rfl))
  · exact clamp_rnd_near (hs (.inr rfl))

theorem lo_neg (c : ChTy) : lo c < 0 := by cases c <;> norm_num [lo]
theorem hi_pos (c : ChTy) : 0 < hi c := by cases c <;> norm_num [hi]

theorem keepIn_twice (c : ChTy) {x d : ℚ} (h : (0 ≤ x ∧ 0 ≤ d) ∨ (x ≤ 0 ∧ d ≤ 0)) : keepIn c (keepIn c x + d) = keepIn c (x + d) := by
  have h1 := lo_neg c
  have h2 := hi_pos c
  unfold keepIn
  generalize lo c = l at *
  generalize hi c = u at *
  rcases h with h | h
  · rcases le_total x u with h3 | h3
    · rw [min_eq_right h3, max_eq_right (by linarith : l ≤ x)]
    · rw [min_eq_left h3, max_eq_right (by linarith : l ≤ u), min_eq_left (by linarith), min_eq_left (by linarith)]
  · rcases le_total l x with h3 | h3
    · rw [min_eq_right (by linarith : x ≤ u), max_eq_right h3]
    · rw [min_eq_right (by linarith : x ≤ u), max_eq_left h3, min_eq_right (by linarith), min_eq_right (by linarith),
        max_eq_left (by linarith), max_eq_left (by linarith)]

theorem mix_side {c : ChTy} {neg : Bool} : ∀ (l : List c.T) (qs : List ℚ)
    (_ : List.Forall₂ (fun x q => Valid c x ∧ Stored c x q) l qs) (_ : ∀ q ∈ qs, if neg then q ≤ 0 else 0 ≤ q)
    (acc : c.T) (_ : Valid c acc) (r S e : ℚ) (_ : Stored c acc r) (_ : if neg then S ≤ 0 else 0 ≤ S) (_ : |r - keepIn c S| ≤ e),
    ∃ r', Stored c (l.foldl c.add acc) r' ∧ |r' - keepIn c (S + qs.sum)| ≤ e + l.length * addTol c := by
  intro l qs h
  induction h with
  | nil => intro _ acc va r S e ha _ he; exact ⟨r, ha, by simpa using he⟩
  | @cons x q l qs hx _ ih =>
    intro hs acc va r S e ha hS he
    have h3 : c = .ch32 ∨ c = .ch64 → |r + q| ≤ 2 := fun h => (abs_add_le _ _).trans (by
      linarith [va.abs_le ha h, hx.1.abs_le hx.2 h])
    have hq := hs q (by simp)
    have n1 := sumF_keepIn c h3
    have n2 := keepIn_lip c (r + q) (keepIn c S + q)
    rw [keepIn_twice c (by cases neg <;> simp_all), show r + q - (keepIn c S + q) = r - keepIn c S by ring] at n2
    obtain ⟨r', hs', e'⟩ := ih (fun q hq => hs q (by simp [hq])) (c.add acc x) Valid.add (sumF c (r + q)) (S + q) (e + addTol c)
      (stored_add va hx.1 ha hx.2) (by cases neg <;> simp at hS hq ⊢ <;> linarith)
      ((abs_sub_le _ (keepIn c (r + q)) _).trans (by linarith))
    refine ⟨r', hs', ?_⟩
    simp only [List.sum_cons, List.length_cons]
    rw [show S + (q + qs.sum) = S + q + qs.sum by ring]
    push_cast
    linarith

/-- C66 for samples on the same side of zero: mixing them in any order gives their sum, kept in range, exactly for the integer
formats and up to one rounding per sample for the floats. -/
theorem C66_side {c : ChTy} (neg : Bool) (l : List c.T) (qs : List ℚ)
    (h : List.Forall₂ (fun x q => Valid c x ∧ Stored c x q) l qs) (hs : ∀ q ∈ qs, if neg then q ≤ 0 else 0 ≤ q) :
    ∃ r, Stored c (mixAll c l) r ∧ |r - max (lo c) (min (hi c) qs.sum)| ≤ l.length * addTol c := by
  obtain ⟨r, h1, h2⟩ := mix_side (neg := neg) l qs h hs c.MID (Valid.consts c).2.1 0 0 0 (stored_mid c) (by simp) (by
    have := lo_neg c
    have := hi_pos c
    rw [keepIn, min_eq_right (by linarith), max_eq_right (by linarith)]; simp)
  exact ⟨r, h1, by simpa [keepIn] using h2⟩

example := C66_side (c := .ch32) false [lit 0.75, lit 0.5, lit 0.25] [0.75, 0.5, 0.25]
  (.cons (by decide +kernel) (.cons (by decide +kernel) (.cons (by decide +kernel) .nil))) (by norm_num)

end Fon
