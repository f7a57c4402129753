import Verif.Props.DelayUp
import Verif.Props.UpLinear
import Verif.Props.MixOrder
import Verif.Props.RoundTrip
import Verif.Spec.ThereBack

/-!
# C102 for any ratio
-/

namespace Fon
open Fon.Fl hiding min max
open Fon.Fmt Fon.Sink
variable {k k' : Kind} {c c' : ChTy}

theorem overlap_lip (a b a' b' x y : ℚ) : |overlap a b x y - overlap a' b' x y| ≤ |a - a'| + |b - b'| := by
  unfold overlap
  have h1 := abs_max_sub_max_le_abs (min b y - max a x) (min b' y - max a' x) 0
  rw [max_comm _ (0:ℚ), max_comm _ (0:ℚ)] at h1
  refine h1.trans ?_
  have h2 := abs_min_sub_min_le_max b y b' y
  have h3 := abs_max_sub_max_le_abs a a' x
  rw [sub_self, abs_zero, max_eq_left (abs_nonneg (b - b'))] at h2
  have h4 := abs_sub (min b y - min b' y) (max a x - max a' x)
  have e : min b y - max a x - (min b' y - max a' x) = min b y - min b' y - (max a x - max a' x) := by ring
  rw [e]
  linarith

theorem overlap_right {a b x y : ℚ} (h : y ≤ a) : overlap a b x y = 0 := by
  unfold overlap
  have h1 := le_max_left a x
  have h2 := min_le_right b y
  exact max_eq_left (by linarith)

theorem overlap_left {a b x y : ℚ} (h : b ≤ x) : overlap a b x y = 0 := by
  unfold overlap
  have h1 := le_max_right a x
  have h2 := min_le_left b y
  exact max_eq_left (by linarith)

/-- The part of frame `j` in slot `i` if its position falls by the part `φ` of a slot into a fast slot and all numbers
are exact. -/
theorem back_ideal (c : ChTy) {r φ : ℚ} (hr : 1 ≤ r) (h0 : 0 ≤ φ) (h1 : φ < 1) (j i : ℕ) :
    gain c (r - φ) * overlap (j - (φ + 1) / r) (j - φ / r) (i - 1) i +
      φ * overlap (j - φ / r) (j + (1 - φ) / r) (i - 1) i =
    if j = i then backOwn c r φ else if j = i + 1 then backPrev c r φ else if j + 1 = i then backNext r φ else 0 := by
  have hr0 : 0 < r := by linarith
  have a1 : φ / r ≤ 1 := (div_le_one hr0).mpr (by linarith)
  have a0 : 0 ≤ φ / r := by positivity
  have a2 : (φ + 1) / r = φ / r + 1 / r := by ring
  have a3 : (1 - φ) / r = 1 / r - φ / r := by ring
  have a4 : 1 / r ≤ 1 := (div_le_one hr0).mpr hr
  have a5 : φ / r ≤ 1 / r := div_le_div_of_nonneg_right h1.le hr0.le
  have a6 : 0 < 1 / r := by positivity
  rw [a2, a3]
  have hm : max 0 (φ + 1 - r) = r * max 0 (φ / r + 1 / r - 1) := by
    rw [mul_max_of_nonneg _ _ hr0.le, mul_zero]
    congr 1
    field_simp
  split_ifs with h2 h3 h4
  · subst h2
    have e1 : overlap ((j:ℚ) - (φ / r + 1 / r)) (j - φ / r) (j - 1) j = (1 - max 0 (φ + 1 - r)) / r := by
      rw [hm]
      unfold overlap
      rw [min_eq_left (by linarith)]
      rcases le_total (φ / r + 1 / r) 1 with h | h
      · rw [max_eq_left (a := (j:ℚ) - (φ / r + 1 / r)) (by linarith), max_eq_left (b := φ / r + 1 / r - 1) (by linarith),
          max_eq_right (by linarith)]
        ring
      · rw [max_eq_right (a := (j:ℚ) - (φ / r + 1 / r)) (by linarith), max_eq_right (b := φ / r + 1 / r - 1) (by linarith),
          max_eq_right (by linarith)]
        field_simp; ring
    have e2 : overlap ((j:ℚ) - φ / r) (j + (1 / r - φ / r)) (j - 1) j = φ / r := by
      unfold overlap
      rw [min_eq_right (by linarith), max_eq_left (a := (j:ℚ) - φ / r) (by linarith), max_eq_right (by linarith)]
      ring
    rw [e1, e2]; unfold backOwn; ring
  · subst h3
    push_cast
    have e1 : overlap ((i:ℚ) + 1 - (φ / r + 1 / r)) (i + 1 - φ / r) (i - 1) i = max 0 (φ + 1 - r) / r := by
      rw [hm, mul_div_cancel_left₀ _ hr0.ne']
      unfold overlap
      rw [min_eq_right (by linarith), max_eq_left (a := (i:ℚ) + 1 - (φ / r + 1 / r)) (by linarith)]
      congr 1; ring
    rw [e1, overlap_right (by linarith)]; unfold backPrev; ring
  · subst h4
    push_cast
    have e2 : overlap ((j:ℚ) - φ / r) (j + (1 / r - φ / r)) (j + 1 - 1) (j + 1) = (1 - φ) / r := by
      unfold overlap
      rw [min_eq_left (by linarith), max_eq_right (a := (j:ℚ) - φ / r) (by linarith), max_eq_right (by linarith)]
      ring
    rw [e2, overlap_left (by linarith)]; unfold backNext; ring
  · rcases Nat.lt_or_ge j i with h | h
    · have : (j:ℚ) + 2 ≤ i := by exact_mod_cast (by omega : j + 2 ≤ i)
      rw [overlap_left (by linarith), overlap_left (by linarith)]; ring
    · have : (i:ℚ) + 2 ≤ j := by exact_mod_cast (by omega : i + 2 ≤ j)
      rw [overlap_right (by linarith), overlap_right (by linarith)]; ring

/-- A sum over the slots a frame has a part in. -/
theorem sum_upShare {r p : ℚ} (hp : 0 ≤ p) (D : ℕ) (o : ℤ → ℚ) (ho : ∀ x : ℤ, D ≤ x → o x = 0) :
    ∑ x ∈ Finset.range D, upShare c r x p * o x = gain c (r - (p - ⌊p⌋)) * o ⌊p⌋ + (p - ⌊p⌋) * o (⌊p⌋ + 1) := by
  obtain ⟨m, hm⟩ := Int.eq_ofNat_of_zero_le (Int.floor_nonneg.mpr hp)
  have e : ∀ x : ℕ, upShare c r x p * o x = (if x = m then gain c (r - (p - ⌊p⌋)) * o ⌊p⌋ else 0) +
      if x = m + 1 then (p - ⌊p⌋) * o (⌊p⌋ + 1) else 0 := by
    intro x
    unfold upShare
    rcases eq_or_ne x m with rfl | h1
    · rw [if_pos (by rw [hm]), if_pos rfl, if_neg (by omega), hm]; ring
    · rw [if_neg (by rw [hm]; exact_mod_cast h1.symm), if_neg h1]
      rcases eq_or_ne x (m + 1) with rfl | h2
      · rw [if_pos (by rw [hm]; push_cast; rfl), if_pos rfl, hm]; push_cast; ring
      · rw [if_neg (by rw [hm]; exact_mod_cast h2.symm), if_neg h2]; ring
  rw [Finset.sum_congr rfl (fun x _ => e x), Finset.sum_add_distrib, Finset.sum_ite_eq', Finset.sum_ite_eq']
  congr 1
  · split_ifs with h
    · rfl
    · rw [ho _ (by rw [hm]; rw [Finset.mem_range] at h; omega), mul_zero]
  · split_ifs with h
    · rfl
    · rw [ho _ (by rw [hm]; rw [Finset.mem_range] at h; omega), mul_zero]

/-- The part of frame `j` in slot `i`, with the numbers as computed. -/
theorem back_near (c : ChTy) {r r' p e : ℚ} (hr : 1 ≤ r) (hr0 : 0 < r') (j i : ℕ)
    (hrr : |r * r' - 1| ≤ 2 ^ (-51:ℤ)) (hp : |p - r * j| ≤ r * j * 2 ^ (-53:ℤ)) (hj : j ≤ 2 ^ 48 + 2)
    (he : ((j:ℚ) + 1) * 2 ^ (-50:ℤ) ≤ e) :
    |gain c (r - (p - ⌊p⌋)) * overlap (r' * (⌊p⌋:ℤ) - r') (r' * (⌊p⌋:ℤ)) (i - 1) i +
      (p - ⌊p⌋) * overlap (r' * ((⌊p⌋ + 1 : ℤ):ℚ) - r') (r' * ((⌊p⌋ + 1 : ℤ):ℚ)) (i - 1) i -
      (gain c (r - (p - ⌊p⌋)) * overlap (j - ((p - ⌊p⌋) + 1) / r) (j - (p - ⌊p⌋) / r) (i - 1) i +
        (p - ⌊p⌋) * overlap (j - (p - ⌊p⌋) / r) (j + (1 - (p - ⌊p⌋)) / r) (i - 1) i)| ≤
    if i ≤ j + 2 ∧ j ≤ i + 2 then (r + 1) * (2 * e) else 0 := by
  obtain ⟨φ, hφ⟩ : ∃ φ, φ = p - ⌊p⌋ := ⟨_, rfl⟩
  have f0 : 0 ≤ φ := by have := Int.floor_le p; rw [hφ]; linarith
  have f1 : φ < 1 := by have := Int.lt_floor_add_one p; rw [hφ]; linarith
  have hfl : ((⌊p⌋:ℤ):ℚ) = p - φ := by rw [hφ]; ring
  rw [← hφ]
  push_cast
  rw [hfl]
  have hr1 : 0 < r := by linarith
  have hjq : (j:ℚ) ≤ 2 ^ 48 + 2 := by exact_mod_cast hj
  have hj0 : (0:ℚ) ≤ j := j.cast_nonneg
  have hrr' := abs_le.mp hrr
  have hp' := abs_le.mp hp
  have u1 : (2:ℚ) ^ (-51:ℤ) = 2 * (2 * 2 ^ (-53:ℤ)) := by norm_num
  have u2 : (2:ℚ) ^ (-50:ℤ) = 8 * 2 ^ (-53:ℤ) := by norm_num
  have u3 : (2 ^ 48 + 3 : ℚ) * (8 * 2 ^ (-53:ℤ)) ≤ 1 / 2 := by norm_num
  have u4 : (2:ℚ) ^ (-53:ℤ) ≤ 1 / 100 := by norm_num
  have u0 : (0:ℚ) < 2 ^ (-53:ℤ) := two_zpow_pos _
  rw [u1] at hrr'
  rw [u2] at he
  generalize (2:ℚ) ^ (-53:ℤ) = u at *
  -- the three end points
  have hP : |r' * p - j| ≤ (j:ℚ) * (6 * u) := by
    have e1 : r' * p - j = r' * (p - r * j) + (r * r' - 1) * j := by ring
    have b1 : r * r' ≤ 2 := by nlinarith
    have b2 : |r' * (p - r * j)| ≤ (2 * u) * j := by
      rw [abs_mul, abs_of_pos hr0]
      calc r' * |p - r * j| ≤ r' * (r * j * u) := mul_le_mul_of_nonneg_left hp hr0.le
        _ = (r * r') * (j * u) := by ring
        _ ≤ 2 * (j * u) := mul_le_mul_of_nonneg_right b1 (by positivity)
        _ = _ := by ring
    have b3 : |(r * r' - 1) * j| ≤ (4 * u) * j := by
      rw [abs_mul, abs_of_nonneg hj0]
      exact mul_le_mul_of_nonneg_right (abs_le.mpr ⟨by linarith, by linarith⟩) hj0
    rw [e1]
    exact (abs_add_le _ _).trans (by linarith)
  have hs : ∀ s : ℚ, |s| ≤ 2 → |r' * s - s / r| ≤ 8 * u := by
    intro s hs
    have e1 : r' * s - s / r = (r * r' - 1) * (s / r) := by field_simp
    rw [e1, abs_mul]
    have b1 : |s / r| ≤ 2 := by
      rw [abs_div, abs_of_pos hr1]
      exact (div_le_self (abs_nonneg _) hr).trans hs
    have b2 : |r * r' - 1| ≤ 4 * u := abs_le.mpr ⟨by linarith, by linarith⟩
    calc |r * r' - 1| * |s / r| ≤ (4 * u) * 2 := mul_le_mul b2 b1 (abs_nonneg _) (by positivity)
      _ = _ := by ring
  have hs1 : ∀ s : ℚ, |s| ≤ 1 → |r' * s - s / r| ≤ 8 * u := fun s h => hs s (by linarith)
  have hju : (j:ℚ) * (6 * u) ≤ j * (8 * u) := mul_le_mul_of_nonneg_left (by linarith) hj0
  have hjl : ((j:ℚ) + 1) * (8 * u) ≤ 1 / 2 :=
    (mul_le_mul_of_nonneg_right (by linarith) (by linarith)).trans u3
  have E : ∀ s : ℚ, |s| ≤ 2 → |r' * (p - s) - (j - s / r)| ≤ (j + 1) * (8 * u) := by
    intro s h
    have e1 : r' * (p - s) - (j - s / r) = (r' * p - j) - (r' * s - s / r) := by ring
    rw [e1]
    exact (abs_sub _ _).trans (by have := hs s h; linarith)
  have E1 := E φ (abs_le.mpr ⟨by linarith, by linarith⟩)
  have E2 := E (φ + 1) (abs_le.mpr ⟨by linarith, by linarith⟩)
  have E3 := E (φ - 1) (abs_le.mpr ⟨by linarith, by linarith⟩)
  have d1 : r' * (p - φ) - r' = r' * (p - (φ + 1)) := by ring
  have d2 : r' * (p - φ + 1) - r' = r' * (p - φ) := by ring
  have d3 : r' * (p - φ + 1) = r' * (p - (φ - 1)) := by ring
  have d4 : (j:ℚ) + (1 - φ) / r = j - (φ - 1) / r := by ring
  rw [d1, d2, d3, d4]
  have a1 : (φ + 1) / r ≤ 2 := (div_le_iff₀ hr1).mpr (by linarith)
  have a2 : -1 ≤ (φ - 1) / r := (le_div_iff₀ hr1).mpr (by linarith)
  have a3 : φ / r ≤ (φ + 1) / r := div_le_div_of_nonneg_right (by linarith) hr1.le
  have a4 : (φ - 1) / r ≤ φ / r := div_le_div_of_nonneg_right (by linarith) hr1.le
  have E1' := abs_le.mp E1
  have E2' := abs_le.mp E2
  have E3' := abs_le.mp E3
  split_ifs with hc
  · have g0 : 0 ≤ gain c (r - φ) := by
      have := gain_mono c (show (0:ℚ) ≤ r - φ by linarith)
      rwa [gain_of_le c (by norm_num)] at this
    have g1 : gain c (r - φ) ≤ r := (gain_le c _).trans (by linarith)
    have l1 := overlap_lip (r' * (p - (φ + 1))) (r' * (p - φ)) (j - (φ + 1) / r) (j - φ / r) (i - 1) i
    have l2 := overlap_lip (r' * (p - φ)) (r' * (p - (φ - 1))) (j - φ / r) (j - (φ - 1) / r) (i - 1) i
    generalize overlap (r' * (p - (φ + 1))) (r' * (p - φ)) (i - 1) i = A at *
    generalize overlap (r' * (p - φ)) (r' * (p - (φ - 1))) (i - 1) i = B at *
    generalize overlap ((j:ℚ) - (φ + 1) / r) (j - φ / r) (i - 1) i = A' at *
    generalize overlap ((j:ℚ) - φ / r) (j - (φ - 1) / r) (i - 1) i = B' at *
    have e1 : gain c (r - φ) * A + φ * B - (gain c (r - φ) * A' + φ * B') = gain c (r - φ) * (A - A') + φ * (B - B') := by
      ring
    rw [e1]
    refine (abs_add_le _ _).trans ?_
    rw [abs_mul, abs_mul, abs_of_nonneg g0, abs_of_nonneg f0]
    have t1 : gain c (r - φ) * |A - A'| ≤ r * (2 * e) := mul_le_mul g1 (by linarith) (abs_nonneg _) hr1.le
    have t2 : φ * |B - B'| ≤ 1 * (2 * e) := mul_le_mul f1.le (by linarith) (abs_nonneg _) (by norm_num)
    linarith
  · rw [not_and_or] at hc
    rcases hc with h | h
    · have hq : (j:ℚ) + 3 ≤ i := by exact_mod_cast (by omega : j + 3 ≤ i)
      rw [overlap_left (by linarith), overlap_left (by linarith), overlap_left (by linarith), overlap_left (by linarith)]
      simp
    · have hq : (i:ℚ) + 3 ≤ j := by exact_mod_cast (by omega : i + 3 ≤ j)
      rw [overlap_right (by linarith), overlap_right (by linarith), overlap_right (by linarith), overlap_right (by linarith)]
      simp

theorem sum_near (i M : ℕ) {C : ℚ} (hC : 0 ≤ C) :
    ∑ j ∈ Finset.range M, (if i ≤ j + 2 ∧ j ≤ i + 2 then C else 0) ≤ 5 * C := by
  rw [← Finset.sum_filter, Finset.sum_const, nsmul_eq_mul]
  refine mul_le_mul_of_nonneg_right ?_ hC
  have : (Finset.filter (fun j => i ≤ j + 2 ∧ j ≤ i + 2) (Finset.range M)) ⊆ Finset.Icc (i - 2) (i + 2) := by
    intro j hj
    rw [Finset.mem_filter] at hj
    rw [Finset.mem_Icc]
    omega
  have h2 := Finset.card_le_card this
  rw [Nat.card_Icc] at h2
  exact_mod_cast (by omega : _ ≤ 5)

/-- The sums behind C102: the signal that is upsampled and downsampled again, without the errors of both runs. -/
theorem back_sum (c : ChTy) {r r' : ℚ} (hg : binary64.Gen r) (hr : 1 ≤ r) (hr' : 0 < r') (hr1' : r' ≤ 1)
    (hrr : |r * r' - 1| ≤ 2 ^ (-51 : ℤ)) (D n i : Nat) (hD : D ≤ 2 ^ 48) (hn : n ≤ 2 ^ 48) (w : Nat → ℚ)
    (hwr : ∀ j, |w j| * (r + 1) ≤ 1) (hlate : ∀ j : ℕ, n ≤ j → w j = 0 ∨ (D:ℚ) ≤ binary64.rnd (r * j))
    (φ : Nat → ℚ) (hφ : ∀ j : ℕ, φ j = Int.fract (binary64.rnd (r * j))) (hiD : (i:ℚ) ≤ r' * (D - 1)) :
    |∑ x ∈ Finset.range D, (∑ j ∈ Finset.range n, w j * upShare c r x (binary64.rnd (r * j))) *
        overlap (r' * x - r') (r' * x) (i - 1) i -
      (w (i - 1) * backNext r (φ (i - 1)) + w i * backOwn c r (φ i) + w (i + 1) * backPrev c r (φ (i + 1)))| ≤
        (i + 3) * 2 ^ (-46 : ℤ) := by
  let P : ℕ → ℚ := fun j => binary64.rnd (r * j)
  let U : ℕ → ℚ := fun x => ∑ j ∈ Finset.range n, w j * upShare c r x (P j)
  -- exchange the sums
  let o : ℤ → ℚ := fun x => overlap (r' * x - r') (r' * x) (i - 1) i
  have ho0 : ∀ x : ℤ, D ≤ x → o x = 0 := by
    intro x hx
    have : (D : ℚ) ≤ x := by exact_mod_cast hx
    exact overlap_right (by nlinarith)
  let K : ℕ → ℚ := fun j => gain c (r - (P j - ⌊P j⌋)) * o ⌊P j⌋ + (P j - ⌊P j⌋) * o (⌊P j⌋ + 1)
  have hP0 : ∀ j : ℕ, 0 ≤ P j := fun j => rnd_nonneg (mul_nonneg (by linarith) j.cast_nonneg)
  have c2 : ∑ x ∈ Finset.range D, U x * overlap (r' * x - r') (r' * x) (i - 1) i =
      ∑ j ∈ Finset.range n, w j * K j := by
    have : ∀ x ∈ Finset.range D, U x * overlap (r' * x - r') (r' * x) (i - 1) i =
        ∑ j ∈ Finset.range n, w j * (upShare c r x (P j) * o x) := by
      intro x _
      show (∑ j ∈ Finset.range n, w j * upShare c r x (P j)) * _ = _
      rw [Finset.sum_mul]
      refine Finset.sum_congr rfl fun j _ => ?_
      rw [mul_assoc]
      rfl
    rw [Finset.sum_congr rfl this, Finset.sum_comm]
    refine Finset.sum_congr rfl fun j _ => ?_
    rw [← Finset.mul_sum, sum_upShare (hP0 j) _ o ho0]
  -- frames that are not taken
  have hiD' : (i:ℚ) ≤ 2 ^ 48 := by
    have e1 : (D:ℚ) ≤ 2 ^ 48 := by exact_mod_cast hD
    have e2 : r' * ((D:ℚ) - 1) ≤ 2 ^ 48 := by nlinarith [(D.cast_nonneg : (0:ℚ) ≤ D)]
    linarith
  have hi48 : i ≤ 2 ^ 48 := by exact_mod_cast hiD'
  have late : ∀ j, n ≤ j → w j * K j = 0 := by
    intro j hj
    rcases hlate j hj with h1 | h1
    · rw [h1, zero_mul]
    · have hfl : (D:ℤ) ≤ ⌊P j⌋ := Int.le_floor.mpr (by push_cast; exact h1)
      show w j * (gain c (r - (P j - ⌊P j⌋)) * o ⌊P j⌋ + (P j - ⌊P j⌋) * o (⌊P j⌋ + 1)) = 0
      rw [ho0 _ hfl, ho0 _ (by omega)]; ring
  let M := max n (i + 2)
  have c3 : ∑ j ∈ Finset.range n, w j * K j = ∑ j ∈ Finset.range M, w j * K j := by
    refine Finset.sum_subset (Finset.range_mono (le_max_left _ _)) fun j _ hj => late j ?_
    rw [Finset.mem_range] at hj; omega
  -- compare with the exact weights
  have hfr : ∀ j, P j - ⌊P j⌋ = φ j := fun j => (hφ j).symm
  let I : ℕ → ℚ := fun j => if j = i then backOwn c r (φ j) else if j = i + 1 then backPrev c r (φ j) else
    if j + 1 = i then backNext r (φ j) else 0
  have hMb : M ≤ 2 ^ 48 + 2 := max_le (by omega) (by omega)
  have c4 : |∑ j ∈ Finset.range M, w j * K j - ∑ j ∈ Finset.range M, w j * I j| ≤ (i + 3) * 2 ^ (-46 : ℤ) := by
    have hee : 0 ≤ ((i:ℚ) + 3) * 2 ^ (-50 : ℤ) := mul_nonneg (by positivity) (two_zpow_pos _).le
    rw [← Finset.sum_sub_distrib]
    refine (Finset.abs_sum_le_sum_abs _ _).trans ?_
    calc _ ≤ ∑ j ∈ Finset.range M, (if i ≤ j + 2 ∧ j ≤ i + 2 then 2 * (((i:ℚ) + 3) * 2 ^ (-50 : ℤ)) else 0) := by
          refine Finset.sum_le_sum fun j hj => ?_
          have hj48 : j ≤ 2 ^ 48 + 2 := (Finset.mem_range.mp hj).le.trans hMb
          rw [← mul_sub, abs_mul]
          have hrel : |P j - r * j| ≤ r * j * 2 ^ (-53:ℤ) := by
            obtain ⟨m, hm⟩ := gen_mult hg
            have := rel_err (f := binary64) (q := r * j) (m * j) (by rw [hm]; push_cast; ring)
            rwa [abs_of_nonneg (show (0:ℚ) ≤ r * j from mul_nonneg (by linarith) j.cast_nonneg)] at this
          have f0 : 0 ≤ φ j := by rw [hφ]; exact Int.fract_nonneg _
          have f1 : φ j < 1 := by rw [hφ]; exact Int.fract_lt_one _
          have key := back_near c hr hr' j i hrr hrel hj48 le_rfl
          rw [hfr, back_ideal c hr f0 f1 j i] at key
          have key' : |K j - I j| ≤ if i ≤ j + 2 ∧ j ≤ i + 2 then (r + 1) * (2 * (((j:ℚ) + 1) * 2 ^ (-50:ℤ))) else 0 := by
            have e : K j = gain c (r - φ j) * overlap (r' * (⌊P j⌋:ℤ) - r') (r' * (⌊P j⌋:ℤ)) (i - 1) i +
              φ j * overlap (r' * ((⌊P j⌋ + 1 : ℤ):ℚ) - r') (r' * ((⌊P j⌋ + 1 : ℤ):ℚ)) (i - 1) i := by
              rw [← hfr]
            rw [e]; exact key
          split_ifs at key' ⊢ with hc
          · refine (mul_le_mul_of_nonneg_left key' (abs_nonneg _)).trans ?_
            have g1 : ((j:ℚ) + 1) * 2 ^ (-50:ℤ) ≤ ((i:ℚ) + 3) * 2 ^ (-50:ℤ) := by
              have : (j:ℚ) ≤ i + 2 := by exact_mod_cast hc.2
              exact mul_le_mul_of_nonneg_right (by linarith) (two_zpow_pos _).le
            have g0 : 0 ≤ ((j:ℚ) + 1) * 2 ^ (-50:ℤ) := mul_nonneg (by positivity) (two_zpow_pos _).le
            have := mul_le_mul_of_nonneg_right (hwr j) (show 0 ≤ 2 * (((j:ℚ) + 1) * 2 ^ (-50:ℤ)) by linarith)
            calc _ = |w j| * (r + 1) * (2 * (((j:ℚ) + 1) * 2 ^ (-50:ℤ))) := by ring
              _ ≤ _ := this
              _ ≤ _ := by linarith
          · have : |K j - I j| = 0 := le_antisymm key' (abs_nonneg _)
            rw [this, mul_zero]
      _ ≤ 5 * (2 * (((i:ℚ) + 3) * 2 ^ (-50 : ℤ))) := sum_near i M (by linarith)
      _ ≤ _ := by
          have : (2:ℚ) ^ (-46:ℤ) = 16 * 2 ^ (-50:ℤ) := by norm_num
          rw [this]
          linarith
  have c5 : ∑ j ∈ Finset.range M, w j * I j =
      w (i - 1) * backNext r (φ (i - 1)) + w i * backOwn c r (φ i) + w (i + 1) * backPrev c r (φ (i + 1)) := by
    have e : ∀ j : ℕ, w j * I j = (if j = i then w i * backOwn c r (φ i) else 0) +
        (if j = i + 1 then w (i + 1) * backPrev c r (φ (i + 1)) else 0) +
        (if j + 1 = i then w (i - 1) * backNext r (φ (i - 1)) else 0) := by
      intro j
      show w j * (if j = i then backOwn c r (φ j) else if j = i + 1 then backPrev c r (φ j) else
        if j + 1 = i then backNext r (φ j) else 0) = _
      rcases eq_or_ne j i with rfl | h1
      · rw [if_pos rfl, if_pos rfl, if_neg (by omega), if_neg (by omega)]; ring
      · rw [if_neg h1, if_neg h1]
        rcases eq_or_ne j (i + 1) with rfl | h2
        · rw [if_pos rfl, if_pos rfl, if_neg (by omega)]; ring
        · rw [if_neg h2, if_neg h2]
          rcases eq_or_ne (j + 1) i with h3 | h3
          · rw [if_pos h3, if_pos h3, show i - 1 = j by omega]; ring
          · rw [if_neg h3, if_neg h3]; ring
    rw [Finset.sum_congr rfl (fun j _ => e j), Finset.sum_add_distrib, Finset.sum_add_distrib, Finset.sum_ite_eq',
      Finset.sum_ite_eq', if_pos (Finset.mem_range.mpr (by have := le_max_right n (i + 2); omega)),
      if_pos (Finset.mem_range.mpr (by have := le_max_right n (i + 2); omega))]
    have e3 : ∑ j ∈ Finset.range M, (if j + 1 = i then w (i - 1) * backNext r (φ (i - 1)) else 0) =
        w (i - 1) * backNext r (φ (i - 1)) := by
      rcases Nat.eq_zero_or_pos i with h0 | h0
      · have z : φ (i - 1) = 0 := by
          rw [h0, hφ]; simp [rnd_zero]
        rw [z]; unfold backNext; simp
      · have : ∀ j : ℕ, (if j + 1 = i then w (i - 1) * backNext r (φ (i - 1)) else 0) =
            if j = i - 1 then w (i - 1) * backNext r (φ (i - 1)) else 0 := fun j => by
          by_cases hj : j = i - 1
          · rw [if_pos hj, if_pos (by omega)]
          · rw [if_neg hj, if_neg (by omega)]
        rw [Finset.sum_congr rfl (fun j _ => this j), Finset.sum_ite_eq',
          if_pos (Finset.mem_range.mpr (by have := le_max_right n (i + 2); omega))]
    rw [e3]; ring
  rw [← c5]
  rw [c3] at c2
  have c6 : ∑ x ∈ Finset.range D, (∑ j ∈ Finset.range n, w j * upShare c r x (binary64.rnd (r * j))) *
        overlap (r' * x - r') (r' * x) (i - 1) i = ∑ j ∈ Finset.range M, w j * K j := c2
  rw [c6]
  exact c4

/-- The sum of the shares of quiet frames. -/
theorem quiet_sum {q : F64} {r : ℚ} {len : Option Nat} {B n : Nat} (hq : q.Is r) (hr : 1 ≤ r) (hr1 : r ≤ 2 ^ 20)
    (hB : B ≤ 2 ^ 48) (a1 : Takes q (lit 0) len B n) (w : Nat → ℚ)
    (hquiet : ∀ j, |w j| * (r + 1) + mixErr c * (r + 5) ≤ 1) (x : Nat) :
    |∑ j ∈ Finset.range n, w j * upShare c r x (binary64.rnd (r * j))| + mixErr c * (r + 5) ≤ 1 := by
  obtain ⟨_, hp, hlt, hmono⟩ := up_pos hq hr hr1 (by omega) a1
  let W := (1 - mixErr c * (r + 5)) / (r + 1)
  have hW : ∀ j, |w j| ≤ W := fun j => (le_div_iff₀ (by linarith)).mpr (by have := hquiet j; linarith)
  have hW0 : 0 ≤ W := (abs_nonneg _).trans (hW 0)
  have hS := share_le c hr (η := (B + 1) * 2 ^ (-53 : ℤ))
    (mul_nonneg (by positivity) (two_zpow_pos _).le) (fun j => binary64.rnd (r * j)) n x
    (fun j hj => up_acc hq hr hr1 (by omega) a1 j hj) (fun j j' h1 h2 => hmono j j' h1 h2.le)
  have hη : 2 * (((B:ℚ) + 1) * 2 ^ (-53 : ℤ)) ≤ 1 := by
    have e1 : (B:ℚ) ≤ 2 ^ 48 := by exact_mod_cast hB
    have e2 : ((B:ℚ) + 1) * 2 ^ (-53 : ℤ) ≤ (2 ^ 48 + 1) * 2 ^ (-53 : ℤ) :=
      mul_le_mul_of_nonneg_right (by linarith) (two_zpow_pos _).le
    have e3 : ((2:ℚ) ^ 48 + 1) * 2 ^ (-53 : ℤ) ≤ 1 / 2 := by norm_num
    have := e2.trans e3
    generalize ((B:ℚ) + 1) * 2 ^ (-53 : ℤ) = z at *
    linarith
  have hT := share_abs c hr _ w n x hW0 (fun j _ => hW j) (hS.trans (show _ ≤ r + 1 by linarith))
  have : W * (r + 1) = 1 - mixErr c * (r + 5) := div_mul_cancel₀ _ (by linarith)
  rw [this] at hT
  linarith

/-- C102 for any ratio `r ≥ 1`: a quiet signal that is upsampled and downsampled again comes back with part of every frame
in its own slot and the rest in the slots beside it, up to the errors of both runs.  `φ j` is the fraction of the position
of frame `j`. -/
theorem C102_any (fuel fuel' : Nat) (s s' t t' : Sink k c) (st : Src k' c') (it : It k' c') (it' : It k c)
    (hk : k.builtin = true) (h : s.stream fuel st = .ok (s', it))
    (h' : t.stream fuel' (.audio ⟨s.rate, s'.buf⟩) = .ok (t', it'))
    (ho : s.res.offseti = lit 0) (ho' : t.res.offseti = lit 0) (r r' : ℚ)
    (hq : (ratioOf s.rate st.rate).Is r) (hr : 1 ≤ r) (hr1 : r ≤ 2 ^ 20)
    (hq' : (ratioOf t.rate (some s.rate)).Is r') (hr' : 0 < r') (hr1' : r' ≤ 1) (hrr : |r * r' - 1| ≤ 2 ^ (-51 : ℤ))
    (hb : s.buf.length ≤ 2 ^ 48) (hb' : (t.buf.length : ℚ) + 1 ≤ r' * 2 ^ 52)
    (hall : ∀ x, x < s.buf.length → InDst (ratioOf s.rate st.rate) st.len s.buf.length x)
    (ch : Nat) (hch : ch < k.chans) (w : Nat → ℚ)
    (hw : ∀ j f, st.nth j = .ok (some f) → ∀ x : Frame k c, f.convert c = .ok x → SampleVal c x[ch] (w j))
    (hquiet : ∀ j, |w j| * (r + 1) + mixErr c * (r + 5) ≤ 1)
    (hend : ∀ l, st.len = some l → ∀ j, l ≤ j → w j = 0)
    (φ : Nat → ℚ) (hφ : ∀ j : ℕ, φ j = Int.fract (binary64.rnd (r * j)))
    (i : Nat) (hi : InDst (ratioOf t.rate (some s.rate)) (some s.buf.length) t.buf.length i)
    (hiD : (i:ℚ) ≤ r' * (s.buf.length - 1)) :
    ∃ (y : Frame k c) (b : ℚ), t'.buf[i]? = some y ∧ SampleVal c y[ch] b ∧
      |b - (w (i - 1) * backNext r (φ (i - 1)) + w i * backOwn c r (φ i) + w (i + 1) * backPrev c r (φ (i + 1)))| ≤
        (mixErr c + 5 * 2 ^ (-53 : ℤ) + 2 * ((t.buf.length + 1) * 2 ^ (-53 : ℤ))) * (1 / r' + 3) +
          (t.buf.length + 1) * 2 ^ (-53 : ℤ) + mixErr c * (r + 5) + (i + 3) * 2 ^ (-46 : ℤ) := by
  classical
  have hlen : s'.buf.length = s.buf.length := (C36_stream fuel s s' st it h).1
  have hm0 : 0 ≤ mixErr c * (r + 5) := mul_nonneg (mixLaw c).nonneg (by linarith)
  have hwr : ∀ j, |w j| * (r + 1) ≤ 1 := fun j => by have := hquiet j; linarith
  have hw1 : ∀ j, |w j| ≤ 1 := fun j => by
    have h1 := hwr j
    have h2 := mul_le_mul_of_nonneg_left (show (1:ℚ) ≤ r + 1 by linarith) (abs_nonneg (w j))
    linarith
  -- the upsampled signal
  obtain ⟨n, a1, hn, hmono, ha⟩ := C101_mix fuel s s' st it h ho r hq hr hr1 (by omega) ch hch w
    (fun j f h1 x h2 => ⟨hw j f h1 x h2, hw1 j⟩)
  obtain ⟨_, hp, hlt, _⟩ := up_pos hq hr hr1 (by omega) a1
  let P : ℕ → ℚ := fun j => binary64.rnd (r * j)
  let U : ℕ → ℚ := fun x => ∑ j ∈ Finset.range n, w j * upShare c r x (P j)
  have hU : ∀ x, |U x| + mixErr c * (r + 5) ≤ 1 := quiet_sum hq hr hr1 hb a1 w hquiet
  have mid : ∀ x, ∃ v : ℚ, |v| ≤ 1 ∧ (x < s.buf.length → |v - U x| ≤ mixErr c * (r + 5)) ∧
      ∀ z, s'.buf[x]? = some z → SampleVal c z[ch] v := by
    intro x
    by_cases hx : x < s.buf.length
    · obtain ⟨y, b, b1, b2, b3⟩ := ha x (hall x hx)
      have hUx := hU x
      have hU' := abs_le.mp (show |U x| ≤ 1 by linarith)
      rw [show clampQ (∑ j ∈ Finset.range n, w j * upShare c r x (binary64.rnd (r * j))) = U x from
        clampQ_of_range hU'.1 hU'.2] at b3
      refine ⟨b, ?_, fun _ => b3, fun z hz => ?_⟩
      · have := abs_sub_abs_le_abs_sub b (U x)
        linarith
      · rw [b1] at hz; cases hz; exact b2
    · refine ⟨0, by simp, fun h => absurd h hx, fun z hz => ?_⟩
      have := (List.getElem?_eq_some_iff.mp hz).1
      omega
  choose v hv1 hv2 hv3 using mid
  -- the signal that comes back
  have hx' : InDst (ratioOf t.rate (Src.audio ⟨s.rate, s'.buf⟩ : Src k c).rate) (Src.audio ⟨s.rate, s'.buf⟩ : Src k c).len
      t.buf.length i := by
    show InDst _ (some s'.buf.length) _ _
    rw [hlen]; exact hi
  obtain ⟨y, b, b1, b2, b3⟩ := C59_whole fuel' t t' _ it' h' ho' r' hq' hr' hr1' hb' ch hch v hv1 (fun j f hf x hx => by
    have hf' : s'.buf[j]? = some f := by
      injection hf
    rw [C21_id hk] at hx
    cases hx
    exact hv3 j f hf') i hx' s.buf.length (.inl (by rw [← hlen]; rfl))
  refine ⟨y, b, b1, b2, ?_⟩
  -- replace the values by the exact ones
  have c1 : |∑ x ∈ Finset.range s.buf.length, v x * overlap (r' * x - r') (r' * x) (i - 1) i -
      ∑ x ∈ Finset.range s.buf.length, U x * overlap (r' * x - r') (r' * x) (i - 1) i| ≤ mixErr c * (r + 5) := by
    rw [← Finset.sum_sub_distrib]
    refine (Finset.abs_sum_le_sum_abs _ _).trans ?_
    calc _ ≤ ∑ x ∈ Finset.range s.buf.length, mixErr c * (r + 5) * overlap (r' * x - r') (r' * x) (i - 1) i := by
          refine Finset.sum_le_sum fun x hx => ?_
          rw [← sub_mul, abs_mul, abs_of_nonneg (overlap_nonneg _ _ _ _)]
          exact mul_le_mul_of_nonneg_right (hv2 x (Finset.mem_range.mp hx)) (overlap_nonneg _ _ _ _)
      _ ≤ mixErr c * (r + 5) * 1 := by
          rw [← Finset.mul_sum]
          exact mul_le_mul_of_nonneg_left (sum_share_le hr'.le _ _) hm0
      _ = _ := mul_one _
  -- frames that are not taken
  have hlate : ∀ j : ℕ, n ≤ j → w j = 0 ∨ (s.buf.length:ℚ) ≤ binary64.rnd (r * j) := by
    intro j hj
    rcases a1.2.2 with h1 | h1
    · exact .inl (hend n h1 j hj)
    · obtain ⟨_, p1, p2, _⟩ := hp n (by omega)
      refine .inr ?_
      have hD : (s.buf.length:ℚ) ≤ P n := by
        by_contra hc
        push Not at hc
        have hBq : (s.buf.length:ℚ) ≤ 2 ^ 48 := by exact_mod_cast hb
        have hf := toUsize_is p1 p2 (hc.trans_le (by linarith))
        refine h1 (hall _ ?_)
        have : ⌊P n⌋ < (s.buf.length:ℤ) := Int.floor_lt.mpr (by exact_mod_cast hc)
        have hf' : (posOf (ratioOf s.rate st.rate) (lit 0) n).toUsize = ⌊P n⌋.toNat := hf
        have hfl : 0 ≤ ⌊P n⌋ := Int.floor_nonneg.mpr p2
        omega
      exact hD.trans (rnd_mono (mul_le_mul_of_nonneg_left (by exact_mod_cast hj) (by linarith)))
  have c2 := back_sum c hq.rep.gen hr hr' hr1' hrr s.buf.length n i hb (by omega) w hwr hlate φ hφ hiD
  have t1 := abs_sub_le b (∑ x ∈ Finset.range s.buf.length, v x * overlap (r' * x - r') (r' * x) (i - 1) i)
    (w (i - 1) * backNext r (φ (i - 1)) + w i * backOwn c r (φ i) + w (i + 1) * backPrev c r (φ (i + 1)))
  have t2 := abs_sub_le (∑ x ∈ Finset.range s.buf.length, v x * overlap (r' * x - r') (r' * x) (i - 1) i)
    (∑ x ∈ Finset.range s.buf.length, U x * overlap (r' * x - r') (r' * x) (i - 1) i)
    (w (i - 1) * backNext r (φ (i - 1)) + w i * backOwn c r (φ i) + w (i + 1) * backPrev c r (φ (i + 1)))
  calc _ ≤ _ := t1
    _ ≤ _ := add_le_add b3 (t2.trans (add_le_add c1 c2))
    _ = _ := by ring

/-- Three quiet frames at 8 Hz. -/
def exHush : Audio .mono .ch64 := ⟨lit 8, [#v[lit 0.25], #v[lit (-0.25)], #v[lit 0.375]]⟩
/-- Four slots at 12 Hz. -/
def exDozen : Sink .mono .ch64 := ⟨lit 12, Resampler.dflt, List.replicate 4 #v[lit 0]⟩
/-- The values of the frames. -/
def exHushVal : Nat → ℚ
  | 0 => 1 / 4
  | 1 => -1 / 4
  | 2 => 3 / 8
  | _ => 0

example := C102_any 6 9 exDozen _ exFloat _ (.audio exHush) _ _ rfl
  (R.returns₂ (x := exDozen.stream 6 (.audio exHush)) (by decide +kernel))
  (R.returns₂ (x := exFloat.stream 9 (.audio ⟨exDozen.rate, (R.out (exDozen.stream 6 (.audio exHush)) (by decide +kernel)).1.buf⟩))
    (by decide +kernel)) rfl rfl (3 / 2) (binary64.rnd (2 / 3)) (by decide +kernel) (by norm_num) (by norm_num)
  (by decide +kernel) (by decide +kernel) (by decide +kernel) (by decide +kernel) (by decide +kernel) (by decide +kernel)
  (by decide +kernel) 0 (by decide) exHushVal (by
    intro j f hf x hx
    match j with
    | 0 | 1 | 2 => cases hf; cases hx; decide +kernel
    | j + 3 => cases hf) (by
    intro j
    match j with
    | 0 | 1 | 2 => decide +kernel
    | j + 3 => exact (show |(0:ℚ)| * (3 / 2 + 1) + mixErr .ch64 * ((3 / 2) + 5) ≤ 1 by decide +kernel)) (by
    intro l hl j hj
    cases hl
    match j, hj with
    | j + 3, _ => rfl) _ (fun _ => rfl) 1 (by decide +kernel) (by decide +kernel)

/-- C102: the parts of a frame that come back sum up to one in the float formats, so nothing is lost; in the integer formats
the weight of a frame is cut off at one, so that only a part of it comes back when the ratio is above one. -/
theorem C102_total {r φ : ℚ} (hr : 1 ≤ r) (h0 : 0 ≤ φ) (h1 : φ < 1) :
    backOwn c r φ + backPrev c r φ + backNext r φ = (gain c (r - φ) + φ) / r ∧
    0 ≤ backOwn c r φ ∧ 0 ≤ backPrev c r φ ∧ 0 ≤ backNext r φ ∧
    (c = .ch32 ∨ c = .ch64 → backOwn c r φ + backPrev c r φ + backNext r φ = 1) := by
  have hr0 : 0 < r := by linarith
  have g0 : 0 ≤ gain c (r - φ) := by
    have := gain_mono c (show (0:ℚ) ≤ r - φ by linarith)
    rwa [gain_of_le c (by norm_num)] at this
  have m0 : 0 ≤ max 0 (φ + 1 - r) := le_max_left _ _
  have m1 : max 0 (φ + 1 - r) ≤ 1 := max_le (by norm_num) (by linarith)
  have e : backOwn c r φ + backPrev c r φ + backNext r φ = (gain c (r - φ) + φ) / r := by
    unfold backOwn backPrev backNext; ring
  refine ⟨e, ?_, ?_, ?_, ?_⟩
  · exact div_nonneg (add_nonneg (mul_nonneg g0 (by linarith)) (sq_nonneg _)) hr0.le
  · exact div_nonneg (mul_nonneg g0 m0) hr0.le
  · exact div_nonneg (mul_nonneg h0 (by linarith)) hr0.le
  · rw [e]
    rintro (rfl | rfl) <;> simp only [gain] <;> field_simp <;> ring

example := C102_total (c := .ch64) (r := 3 / 2) (φ := 1 / 2) (by norm_num) (by norm_num) (by norm_num)

/-- C102 for whole ratios `N`: quiet float samples come back as they were, integer samples as their `N`-th part, up to the
errors of both runs. -/
theorem C102_multiple (fuel fuel' N : Nat) (s s' t t' : Sink k c) (st : Src k' c') (it : It k' c') (it' : It k c)
    (hk : k.builtin = true) (h : s.stream fuel st = .ok (s', it))
    (h' : t.stream fuel' (.audio ⟨s.rate, s'.buf⟩) = .ok (t', it'))
    (ho : s.res.offseti = lit 0) (ho' : t.res.offseti = lit 0) (r' : ℚ)
    (hq : (ratioOf s.rate st.rate).Is N) (hN : 1 ≤ N) (hN1 : N ≤ 2 ^ 20)
    (hq' : (ratioOf t.rate (some s.rate)).Is r') (hr' : 0 < r') (hr1' : r' ≤ 1)
    (hrr : |(N:ℚ) * r' - 1| ≤ 2 ^ (-51 : ℤ))
    (hb : s.buf.length ≤ 2 ^ 48) (hb' : (t.buf.length : ℚ) + 1 ≤ r' * 2 ^ 52)
    (hall : ∀ x, x < s.buf.length → InDst (ratioOf s.rate st.rate) st.len s.buf.length x)
    (ch : Nat) (hch : ch < k.chans) (w : Nat → ℚ)
    (hw : ∀ j f, st.nth j = .ok (some f) → ∀ x : Frame k c, f.convert c = .ok x → SampleVal c x[ch] (w j))
    (hquiet : ∀ j, |w j| * (N + 1) + mixErr c * (N + 5) ≤ 1)
    (hend : ∀ l, st.len = some l → ∀ j, l ≤ j → w j = 0)
    (i : Nat) (hi : InDst (ratioOf t.rate (some s.rate)) (some s.buf.length) t.buf.length i)
    (hiD : (i:ℚ) ≤ r' * (s.buf.length - 1)) :
    ∃ (y : Frame k c) (b : ℚ), t'.buf[i]? = some y ∧ SampleVal c y[ch] b ∧
      |b - w i * (gain c N / N)| ≤
        (mixErr c + 5 * 2 ^ (-53 : ℤ) + 2 * ((t.buf.length + 1) * 2 ^ (-53 : ℤ))) * (1 / r' + 3) +
          (t.buf.length + 1) * 2 ^ (-53 : ℤ) + mixErr c * (N + 5) + (i + 3) * 2 ^ (-46 : ℤ) := by
  have hNq : (1:ℚ) ≤ N := by exact_mod_cast hN
  obtain ⟨y, b, b1, b2, b3⟩ := C102_any fuel fuel' s s' t t' st it it' hk h h' ho ho' N r' hq hNq (by exact_mod_cast hN1) hq' hr'
    hr1' hrr hb hb' hall ch hch w hw hquiet hend _ (fun _ => rfl) i hi hiD
  refine ⟨y, b, b1, b2, ?_⟩
  -- all positions are whole
  have hNi : N * i ≤ 2 ^ 49 := by
    have e1 : (s.buf.length:ℚ) ≤ 2 ^ 48 := by exact_mod_cast hb
    have e2 : (N:ℚ) * r' ≤ 2 := by
      have := (abs_le.mp hrr).2
      have u : (2:ℚ) ^ (-51:ℤ) ≤ 1 := by norm_num
      linarith
    have e3 : (N:ℚ) * i ≤ N * (r' * (s.buf.length - 1)) := mul_le_mul_of_nonneg_left hiD (by linarith)
    have e4 : (N:ℚ) * (r' * (s.buf.length - 1)) = (N * r') * (s.buf.length - 1) := by ring
    have e5 : (0:ℚ) ≤ s.buf.length - 1 := by
      by_contra hc
      push Not at hc
      have := mul_neg_of_pos_of_neg hr' hc
      have : (0:ℚ) ≤ i := i.cast_nonneg
      linarith
    have e6 := mul_le_mul_of_nonneg_right e2 e5
    have : (N:ℚ) * i ≤ 2 ^ 49 := by linarith
    exact_mod_cast this
  have z : ∀ j, j ≤ i + 1 → Int.fract (binary64.rnd ((N:ℚ) * j)) = 0 := by
    intro j hj
    have h1 : N * j ≤ 2 ^ 53 := by
      have := Nat.mul_le_mul_left N hj
      rw [Nat.mul_succ] at this
      omega
    have h2 : binary64.rnd ((N:ℚ) * j) = ((N * j : ℕ) : ℚ) := by
      rw [← Nat.cast_mul]; exact rnd_of_gen (rep_nat53 h1).gen
    rw [h2]; exact Int.fract_natCast _
  rw [z (i - 1) (by omega), z i (by omega), z (i + 1) le_rfl] at b3
  have m0 : max (0:ℚ) (0 + 1 - N) = 0 := max_eq_left (by linarith)
  have t1 : backNext (N:ℚ) 0 = 0 := by unfold backNext; simp
  have t2 : backPrev c (N:ℚ) 0 = 0 := by unfold backPrev; rw [m0]; simp
  have t3 : backOwn c (N:ℚ) 0 = gain c N / N := by unfold backOwn; rw [m0]; simp
  rw [t1, t2, t3, mul_zero, mul_zero, zero_add, add_zero] at b3
  exact b3

/-- Nine slots at 24 Hz. -/
def exThrice : Sink .mono .ch64 := ⟨lit 24, Resampler.dflt, List.replicate 9 #v[lit 0]⟩
/-- Quieter frames at 8 Hz. -/
def exHushed : Audio .mono .ch64 := ⟨lit 8, [#v[lit 0.1875], #v[lit (-0.125)], #v[lit 0.0625]]⟩
/-- The values of the frames. -/
def exHushedVal : Nat → ℚ
  | 0 => 3 / 16
  | 1 => -1 / 8
  | 2 => 1 / 16
  | _ => 0

example := C102_multiple 6 14 3 exThrice _ exFloat _ (.audio exHushed) _ _ rfl
  (R.returns₂ (x := exThrice.stream 6 (.audio exHushed)) (by decide +kernel))
  (R.returns₂ (x := exFloat.stream 14 (.audio ⟨exThrice.rate, (R.out (exThrice.stream 6 (.audio exHushed)) (by decide +kernel)).1.buf⟩))
    (by decide +kernel)) rfl rfl (binary64.rnd (1 / 3)) (by decide +kernel) (by norm_num) (by norm_num)
  (by decide +kernel) (by decide +kernel) (by decide +kernel) (by decide +kernel) (by decide +kernel) (by decide +kernel)
  (by decide +kernel) 0 (by decide) exHushedVal (by
    intro j f hf x hx
    match j with
    | 0 | 1 | 2 => cases hf; cases hx; decide +kernel
    | j + 3 => cases hf) (by
    intro j
    match j with
    | 0 | 1 | 2 => decide +kernel
    | j + 3 => exact (show |(0:ℚ)| * ((3:ℕ) + 1) + mixErr .ch64 * ((3:ℕ) + 5) ≤ 1 by decide +kernel)) (by
    intro l hl j hj
    cases hl
    match j, hj with
    | j + 3, _ => rfl) 2 (by decide +kernel) (by decide +kernel)

end Fon
