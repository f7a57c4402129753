import Verif.Props.Effect
import Verif.Props.Area
import Mathlib.Algebra.Order.BigOperators.Ring.Finset

/-!
# C146: the power of a resampled signal
-/

namespace Fon
open Fon.Fl hiding min max
open Fon.Fmt Fon.Sink
variable {k k' : Kind} {c c' : ChTy}

/-- The sum of the squares of weighted sums: if the weights in each sum are at most `S` in total, and the weights of each
number at most `T`, then it is at most `S * T` times the sum of the squares of the numbers. -/
theorem schur {n D : Nat} {o : Nat → Nat → ℚ} {w : Nat → ℚ} {S T : ℚ} (ho : ∀ x j, j < n → 0 ≤ o x j) (hS0 : 0 ≤ S)
    (hS : ∀ x, ∑ j ∈ Finset.range n, o x j ≤ S) (hT : ∀ j, j < n → ∑ x ∈ Finset.range D, o x j ≤ T) :
    ∑ x ∈ Finset.range D, (∑ j ∈ Finset.range n, w j * o x j) ^ 2 ≤ S * T * ∑ j ∈ Finset.range n, w j ^ 2 := by
  have h1 : ∀ x, (∑ j ∈ Finset.range n, w j * o x j) ^ 2 ≤ S * ∑ j ∈ Finset.range n, w j ^ 2 * o x j := fun x => by
    refine (Finset.sum_sq_le_sum_mul_sum_of_sq_le_mul (Finset.range n) (f := fun j => o x j) (g := fun j => w j ^ 2 * o x j)
      (fun j hj => ho x j (Finset.mem_range.mp hj))
      (fun j hj => mul_nonneg (sq_nonneg _) (ho x j (Finset.mem_range.mp hj))) (fun j _ => le_of_eq (by ring))).trans ?_
    exact mul_le_mul_of_nonneg_right (hS x) (Finset.sum_nonneg fun j hj =>
      mul_nonneg (sq_nonneg _) (ho x j (Finset.mem_range.mp hj)))
  calc _ ≤ ∑ x ∈ Finset.range D, S * ∑ j ∈ Finset.range n, w j ^ 2 * o x j := Finset.sum_le_sum fun x _ => h1 x
    _ = S * ∑ j ∈ Finset.range n, w j ^ 2 * ∑ x ∈ Finset.range D, o x j := by
        rw [← Finset.mul_sum, Finset.sum_comm]
        congr 1
        exact Finset.sum_congr rfl fun j _ => (Finset.mul_sum _ _ _).symm
    _ ≤ S * ∑ j ∈ Finset.range n, w j ^ 2 * T := mul_le_mul_of_nonneg_left (Finset.sum_le_sum fun j hj =>
        mul_le_mul_of_nonneg_left (hT j (Finset.mem_range.mp hj)) (sq_nonneg _)) hS0
    _ = _ := by rw [← Finset.sum_mul]; ring

/-- The square of a number that is known up to `E`. -/
theorem sq_near {y t E : ℚ} (h : |y - t| ≤ E) (ht : |t| ≤ 1) : y ^ 2 ≤ t ^ 2 + (2 * E + E ^ 2) := by
  have hE := (abs_nonneg _).trans h
  have e : y ^ 2 = t ^ 2 + (2 * (t * (y - t)) + (y - t) ^ 2) := by ring
  have h1 : t * (y - t) ≤ E := by
    refine (le_abs_self _).trans ?_
    rw [abs_mul]
    exact (mul_le_of_le_one_left (abs_nonneg _) ht).trans h
  have h2 : (y - t) ^ 2 ≤ E ^ 2 := by
    rw [← sq_abs]
    exact pow_le_pow_left₀ (abs_nonneg _) h 2
  linarith

/-- Clamped numbers. -/
theorem clampQ_one (t : ℚ) : |clampQ t| ≤ 1 :=
  abs_le.mpr ⟨le_max_left _ _, max_le (by norm_num) (min_le_left _ _)⟩

/-- The slots get at most the whole frame. -/
theorem overlap_total (D : Nat) {r p : ℚ} (hr : 0 ≤ r) (h1 : r ≤ 1) (h0 : 0 ≤ p) :
    ∑ x ∈ Finset.range D, overlap (p - r) p ((x:ℚ) - 1) x ≤ r := by
  obtain ⟨N, hN⟩ : ∃ N : Nat, N = max D ⌈p⌉₊ := ⟨_, rfl⟩
  have hp : p ≤ N := (Nat.le_ceil p).trans (by rw [hN]; exact_mod_cast le_max_right _ _)
  refine le_of_le_of_eq ?_ (sum_overlap N hr h1 h0 hp)
  refine Finset.sum_le_sum_of_subset_of_nonneg (fun x hx => ?_) fun x _ _ => overlap_nonneg _ _ _ _
  rw [Finset.mem_range] at hx ⊢
  have := le_max_left D ⌈p⌉₊
  omega

theorem upShare_total (c : ChTy) (D : Nat) {r p : ℚ} (hr : 1 ≤ r) (h0 : 0 ≤ p) :
    ∑ x ∈ Finset.range D, upShare c r x p ≤ r := by
  have f1 := Int.floor_le p
  have f2 := Int.lt_floor_add_one p
  obtain ⟨m, hm⟩ := Int.eq_ofNat_of_zero_le (Int.floor_nonneg.mpr h0)
  have hg := gain_le c (r - (p - ⌊p⌋))
  have hg0 : 0 ≤ gain c (r - (p - ⌊p⌋)) := by
    have := gain_mono c (show 0 ≤ r - (p - ⌊p⌋) by linarith)
    rwa [gain_of_le c zero_le_one] at this
  have e : ∀ x : ℕ, upShare c r x p = (if m = x then gain c (r - (p - ⌊p⌋)) else 0) + (if m + 1 = x then p - ⌊p⌋ else 0) := by
    intro x
    unfold upShare
    rw [hm]
    by_cases h1 : m = x
    · subst h1; simp
    · by_cases h2 : m + 1 = x
      · subst h2; simp
      · rw [if_neg (by exact_mod_cast h1), if_neg (by exact_mod_cast h2), if_neg h1, if_neg h2, add_zero]
  simp only [e, Finset.sum_add_distrib, Finset.sum_ite_eq, Finset.mem_range]
  split_ifs <;> linarith

/-- C146, when the rate does not go up: the sum of the squares of the slots is at most the ratio times the sum of the squares
of the frames that were taken, up to a small error for each slot. -/
theorem C146_partial (fuel : Nat) (s s' : Sink k c) (st : Src k' c') (it : It k' c')
    (h : s.stream fuel st = .ok (s', it)) (ho : s.res.offseti = lit 0) (r : ℚ)
    (hq : (ratioOf s.rate st.rate).Is r) (hr : 0 < r) (hr1 : r ≤ 1) (hb : (s.buf.length : ℚ) + 1 ≤ r * 2 ^ 52)
    (i : Nat) (hi : i < k.chans) (w : Nat → ℚ)
    (hw : ∀ j f, st.nth j = .ok (some f) → ∀ x : Frame k c, f.convert c = .ok x → SampleVal c x[i] (w j) ∧ |w j| ≤ 1)
    (D : Nat) (hD : ∀ x, x < D → InDst (ratioOf s.rate st.rate) st.len s.buf.length x) :
    let E := (mixErr c + 5 * 2 ^ (-53 : ℤ) + 2 * ((s.buf.length + 1) * 2 ^ (-53 : ℤ))) * (1 / r + 3)
    ∃ (n : Nat) (y : Nat → ℚ), Takes (ratioOf s.rate st.rate) (lit 0) st.len s.buf.length n ∧
      (∀ x, x < D → ∃ f, s'.buf[x]? = some f ∧ SampleVal c f[i] (y x)) ∧
      ∑ x ∈ Finset.range D, y x ^ 2 ≤ r * ∑ j ∈ Finset.range n, w j ^ 2 + D * (2 * E + E ^ 2) := by
  intro E
  obtain ⟨n, g, a1, a2, a3, a4, _⟩ := C58_mix fuel s s' st it h
  rw [ho] at a1 a3 a4
  have hwn : ∀ j, j < n → SampleVal c (g j)[i] (w j) ∧ |w j| ≤ 1 := fun j hj => by
    obtain ⟨f, f1, f2⟩ := a2 j hj
    exact hw j f f1 _ f2
  obtain ⟨hn, hbox⟩ := box_any a1 hq hr hr1 hb i hi w g hwn
  choose y y1 y2 using hbox
  refine ⟨n, y, a1, fun x hx => ⟨_, a3 x (hD x hx), y1 x⟩, ?_⟩
  have hsum := schur (n := n) (D := D) (w := w) (S := 1) (T := r) (o := fun x j => overlap (r * j - r) (r * j) ((x:ℚ) - 1) x)
    (fun _ _ _ => overlap_nonneg _ _ _ _) zero_le_one (fun x => sum_share_le hr.le n x)
    (fun j _ => overlap_total D hr.le hr1 (by positivity))
  rw [one_mul] at hsum
  calc _ ≤ ∑ x ∈ Finset.range D, ((∑ j ∈ Finset.range n, w j * overlap (r * j - r) (r * j) ((x:ℚ) - 1) x) ^ 2 +
        (2 * E + E ^ 2)) := Finset.sum_le_sum fun x _ => sq_near (y2 x) (by
          have := weighted_near (z := w) (t := fun _ => 0) (e := 1)
            (fun j (_ : j < n) => overlap_nonneg (r * j - r) (r * j) (x - 1) x) (sum_share_le hr.le n x) zero_le_one
            (fun j hj => by rw [sub_zero]; exact (hwn j hj).2)
          simpa using this)
    _ ≤ _ := by
      rw [Finset.sum_add_distrib, Finset.sum_const, Finset.card_range, nsmul_eq_mul]
      linarith

/-- C146, when the rate goes up: at most `r * (r + 1)` times the sum of the squares of the frames. -/
theorem C146_up (fuel : Nat) (s s' : Sink k c) (st : Src k' c') (it : It k' c')
    (h : s.stream fuel st = .ok (s', it)) (ho : s.res.offseti = lit 0) (r : ℚ)
    (hq : (ratioOf s.rate st.rate).Is r) (hr : 1 ≤ r) (hr1 : r ≤ 2 ^ 20) (hb : s.buf.length ≤ 2 ^ 51)
    (i : Nat) (hi : i < k.chans) (w : Nat → ℚ)
    (hw : ∀ j f, st.nth j = .ok (some f) → ∀ x : Frame k c, f.convert c = .ok x → SampleVal c x[i] (w j) ∧ |w j| ≤ 1)
    (D : Nat) (hD : ∀ x, x < D → InDst (ratioOf s.rate st.rate) st.len s.buf.length x) :
    let E := mixErr c * (r + 5)
    ∃ (n : Nat) (y : Nat → ℚ), Takes (ratioOf s.rate st.rate) (lit 0) st.len s.buf.length n ∧
      (∀ x, x < D → ∃ f, s'.buf[x]? = some f ∧ SampleVal c f[i] (y x)) ∧
      ∑ x ∈ Finset.range D, y x ^ 2 ≤ r * (r + 1) * ∑ j ∈ Finset.range n, w j ^ 2 + D * (2 * E + E ^ 2) := by
  intro E
  obtain ⟨n, a1, _, hmono, a2⟩ := C101_mix fuel s s' st it h ho r hq hr hr1 (by omega) i hi w hw
  have hex : ∀ x, ∃ y : ℚ, x < D → (∃ f, s'.buf[x]? = some f ∧ SampleVal c f[i] y) ∧
      |y - clampQ (∑ j ∈ Finset.range n, w j * upShare c r x (binary64.rnd (r * j)))| ≤ E := by
    intro x
    by_cases hx : x < D
    · obtain ⟨f, y, f1, f2, f3⟩ := a2 x (hD x hx)
      exact ⟨y, fun _ => ⟨⟨f, f1, f2⟩, f3⟩⟩
    · exact ⟨0, fun h => absurd h hx⟩
  choose y y1 using hex
  refine ⟨n, y, a1, fun x hx => (y1 x hx).1, ?_⟩
  have hu0 : (0:ℚ) < 2 ^ (-53:ℤ) := two_zpow_pos _
  have h6 : (s.buf.length + 1 : ℚ) * 2 ^ (-53:ℤ) ≤ 1 / 2 := by
    have hBq : (s.buf.length:ℚ) ≤ 2 ^ 51 := by exact_mod_cast hb
    have h4 : (s.buf.length + 1 : ℚ) * 2 ^ (-53:ℤ) ≤ (2 ^ 51 + 1) * 2 ^ (-53:ℤ) :=
      mul_le_mul_of_nonneg_right (by linarith) hu0.le
    exact h4.trans (by norm_num)
  have hS : ∀ x, ∑ j ∈ Finset.range n, upShare c r x (binary64.rnd (r * j)) ≤ r + 1 := fun x => by
    refine (share_le c hr (η := (s.buf.length + 1) * 2 ^ (-53 : ℤ)) (mul_nonneg (by positivity) hu0.le)
      (fun j => binary64.rnd (r * j)) n x (fun j hj => up_acc hq hr hr1 hb a1 j hj)
      (fun j j' h1 h2 => hmono j j' h1 h2.le)).trans ?_
    generalize ((s.buf.length:ℚ) + 1) * 2 ^ (-53:ℤ) = η at h6 ⊢
    linarith
  have hsum := schur (n := n) (D := D) (w := w) (S := r + 1) (T := r) (o := fun x j => upShare c r x (binary64.rnd (r * j)))
    (fun x j _ => upShare_nonneg c hr x _) (by linarith) hS
    (fun j _ => upShare_total c D hr (rnd_nonneg (by positivity)))
  have hcl : ∀ t : ℚ, (clampQ t) ^ 2 ≤ t ^ 2 := fun t => by
    rw [← sq_abs, ← sq_abs t]
    refine pow_le_pow_left₀ (abs_nonneg _) ?_ 2
    have := clampQ_lip t 0
    rwa [clampQ_of_range (by norm_num : (-1:ℚ) ≤ 0) (by norm_num), sub_zero, sub_zero] at this
  calc _ ≤ ∑ x ∈ Finset.range D, ((∑ j ∈ Finset.range n, w j * upShare c r x (binary64.rnd (r * j))) ^ 2 +
        (2 * E + E ^ 2)) := Finset.sum_le_sum fun x hx => (sq_near (y1 x (Finset.mem_range.mp hx)).2 (clampQ_one _)).trans (by
          have := hcl (∑ j ∈ Finset.range n, w j * upShare c r x (binary64.rnd (r * j)))
          linarith)
    _ ≤ _ := by
      rw [Finset.sum_add_distrib, Finset.sum_const, Finset.card_range, nsmul_eq_mul]
      linarith

/-- C146 for `Audio::with_stream` (whole rates, not going up): the sum of the squares of the samples is at most the ratio times
that of the stream, so their mean is not higher, up to a small error for each frame. -/
theorem C146_with (rate sr : F64) (dst src l : Nat) (hr : rate.Is (dst:ℚ)) (hs : sr.Is (src:ℚ)) (h0 : 0 < src)
    (hd0 : 0 < dst) (hs' : src ≤ 2 ^ 51) (hle : dst ≤ src) (hN : dst * l < 2 ^ 51)
    (hB : dst * l + 2 * src ≤ dst * 2 ^ 51)
    (st : Src k' c') (hl : st.len = some l) (hsr : st.rate = some sr) (b : Audio k c)
    (h : Audio.withStream rate st = .ok b) (i : Nat) (hi : i < k.chans) (w : Nat → ℚ)
    (hw : ∀ j f, st.nth j = .ok (some f) → ∀ x : Frame k c, f.convert c = .ok x → SampleVal c x[i] (w j)) (hw1 : ∀ j, |w j| ≤ 1) :
    let r := binary64.rnd ((dst:ℚ) / src)
    let E := (mixErr c + 5 * 2 ^ (-53 : ℤ) + 2 * ((b.len + 1) * 2 ^ (-53 : ℤ))) * (1 / r + 3)
    b.len = ⌈(dst:ℚ) * l / src⌉₊ ∧ ∃ y : Nat → ℚ, (∀ x, x < b.len → ∃ f, b.get x = some f ∧ SampleVal c f[i] (y x)) ∧
      ∑ x ∈ Finset.range b.len, y x ^ 2 ≤ r * ∑ j ∈ Finset.range l, w j ^ 2 + b.len * (2 * E + E ^ 2) := by
  intro r E
  have hsq : (0:ℚ) < src := by exact_mod_cast h0
  have hdq : (0:ℚ) < dst := by exact_mod_cast hd0
  have hl52 : l ≤ 2 ^ 53 := by
    have := Nat.le_mul_of_pos_left l hd0
    omega
  refine ⟨C49_partial rate sr dst src l hr hs h0 (by omega) hl52 hs' st hl hsr b h, ?_⟩
  obtain ⟨n, t0, hnl, _, s0⟩ := C89_partial rate sr dst src l hr hs h0 hd0 hs' hle hN hB st hl hsr b h i hi w
    (fun j f hf x hx => ⟨hw j f hf x hx, hw1 j⟩)
  have hr0 : 0 ≤ r := rnd_nonneg (by positivity)
  have hr1 : r ≤ 1 := by
    have e0 : binary64.rnd 1 = 1 := Fmt.rnd_of_rep (by simpa using rep_nat53 (n := 1) (by norm_num))
    rw [← e0]
    refine Fmt.rnd_mono ?_
    rw [div_le_one hsq]; exact_mod_cast hle
  have hE0 : 0 ≤ E := by
    have := mixErr_pos c
    have := two_zpow_pos (-53)
    positivity
  have hex : ∀ x, ∃ y : ℚ, x < b.len → (∃ f, b.get x = some f ∧ SampleVal c f[i] y) ∧
      y ^ 2 ≤ (∑ j ∈ Finset.range n, w j * overlap (r * j - r) (r * j) ((x:ℚ) - 1) x) ^ 2 + (2 * E + E ^ 2) := by
    intro x
    by_cases hx : x < b.len
    · obtain ⟨f, f1, f2⟩ := s0 x hx
      split at f2
      · refine ⟨0, fun _ => ⟨⟨f, f1, ?_⟩, by positivity⟩⟩
        rw [f2.2]
        simpa [Frame.dflt] using of_val (mixLaw c).dflt
      · obtain ⟨v, v1, v2⟩ := f2
        refine ⟨v, fun _ => ⟨⟨f, f1, v1⟩, sq_near v2 ?_⟩⟩
        have := weighted_near (z := w) (t := fun _ => 0) (e := 1)
          (fun j (_ : j < n) => overlap_nonneg (r * j - r) (r * j) (x - 1) x) (sum_share_le hr0 n x) zero_le_one
          (fun j _ => by rw [sub_zero]; exact hw1 j)
        simpa using this
    · exact ⟨0, fun h => absurd h hx⟩
  choose y y1 using hex
  refine ⟨y, fun x hx => (y1 x hx).1, ?_⟩
  have hsum := schur (n := n) (D := b.len) (w := w) (S := 1) (T := r) (o := fun x j => overlap (r * j - r) (r * j) ((x:ℚ) - 1) x)
    (fun _ _ _ => overlap_nonneg _ _ _ _) zero_le_one (fun x => sum_share_le hr0 n x)
    (fun j _ => overlap_total b.len hr0 hr1 (by positivity))
  rw [one_mul] at hsum
  have hnl' : ∑ j ∈ Finset.range n, w j ^ 2 ≤ ∑ j ∈ Finset.range l, w j ^ 2 :=
    Finset.sum_le_sum_of_subset_of_nonneg (Finset.range_mono hnl) fun j _ _ => sq_nonneg _
  calc _ ≤ ∑ x ∈ Finset.range b.len, ((∑ j ∈ Finset.range n, w j * overlap (r * j - r) (r * j) ((x:ℚ) - 1) x) ^ 2 +
        (2 * E + E ^ 2)) := Finset.sum_le_sum fun x hx => (y1 x (Finset.mem_range.mp hx)).2
    _ ≤ _ := by
      rw [Finset.sum_add_distrib, Finset.sum_const, Finset.card_range, nsmul_eq_mul]
      have := mul_le_mul_of_nonneg_left hnl' hr0
      linarith

/-! ## Examples -/

example := C146_partial 6 (exSink 3 8) _ (.audio (exAudio 12)) _
  (R.returns₂ (x := (exSink 3 8).stream 6 (.audio (exAudio 12))) (by decide +kernel)) rfl (binary64.rnd (2 / 3))
  (by decide +kernel) (by decide +kernel) (by decide +kernel) (by decide +kernel) 0 (by decide)
  (fun j => if j < 5 then (j + 1) / 127 else 0) (by
    intro j f hf x hx
    match j with
    | 0 | 1 | 2 | 3 | 4 => cases hf; cases hx; decide +kernel
    | j + 5 => cases hf) 3 (fun x hx => by
    match x with
    | 0 | 1 | 2 => decide +kernel)

example := C146_up 6 (exSink 6 12) _ (.audio (exAudio 8)) _
  (R.returns₂ (x := (exSink 6 12).stream 6 (.audio (exAudio 8))) (by decide +kernel)) rfl (3 / 2)
  (by decide +kernel) (by norm_num) (by norm_num) (by decide +kernel) 0 (by decide)
  (fun j => if j < 5 then (j + 1) / 127 else 0) (by
    intro j f hf x hx
    match j with
    | 0 | 1 | 2 | 3 | 4 => cases hf; cases hx; decide +kernel
    | j + 5 => cases hf) 6 (fun x hx => by
    match x with
    | 0 | 1 | 2 | 3 | 4 | 5 => decide +kernel)

example := C146_with (lit 8) (lit 12) 8 12 5 (by decide +kernel) (by decide +kernel) (by decide) (by decide) (by decide) (by decide)
  (by decide) (by decide) (.audio (exAudio 12)) rfl rfl _
  (R.returns (x := (Audio.withStream (lit 8) (.audio (exAudio 12)) : R (Audio .mono .ch8))) (by decide +kernel)) 0 (by decide)
  (fun j => if j < 5 then (j + 1) / 127 else 0) (by
    intro j f hf x hx
    match j with
    | 0 | 1 | 2 | 3 | 4 => cases hf; cases hx; decide +kernel
    | j + 5 => cases hf) (fun j => by
    split_ifs with h
    · have : (j:ℚ) ≤ 4 := by exact_mod_cast (by omega : j ≤ 4)
      have : (0:ℚ) ≤ j := by positivity
      rw [abs_le]
      constructor <;> linarith
    · simp)

/-- C146 is false when the rate goes up: two frames of 1/2 become 1, 0, 1, 0, with a mean square of 1/2 instead of 1/4. -/
theorem C146_false :
    (Audio.withStream (lit 2) (.audio (k := .mono) (c := .ch32) ⟨lit 1, [#v[lit 0.5], #v[lit 0.5]]⟩) : R (Audio .mono .ch32)).map
      (·.frames) = .ok [#v[lit 1], #v[lit 0], #v[lit 1], #v[lit 0]] := by decide +kernel

end Fon
