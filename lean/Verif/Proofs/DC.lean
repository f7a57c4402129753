import Verif.Props.Mix
import Mathlib.Algebra.Order.BigOperators.Group.Finset
import Mathlib.Algebra.BigOperators.Ring.Finset

/-!
# Constant signals through the resampler

The weights that reach one slot are the increments of a ramp function, so they telescope.
-/

namespace Fon
open Fon.Fl hiding min max
open Fon.Fmt Fon.Sink
variable {k : Kind} {c : ChTy}

/-- 0 up to `s - 1`, then rising to 1 at `s`. -/
def ramp (s x : ℚ) : ℚ := max 0 (min 1 (x - (s - 1)))

theorem ramp_lip (s x y : ℚ) : |ramp s x - ramp s y| ≤ |x - y| := by
  unfold ramp
  rcases max_cases 0 (min 1 (x - (s - 1))) with ⟨h1, h2⟩ | ⟨h1, h2⟩ <;>
  rcases max_cases 0 (min 1 (y - (s - 1))) with ⟨h3, h4⟩ | ⟨h3, h4⟩ <;>
  rcases min_cases 1 (x - (s - 1)) with ⟨h5, h6⟩ | ⟨h5, h6⟩ <;>
  rcases min_cases 1 (y - (s - 1)) with ⟨h7, h8⟩ | ⟨h7, h8⟩ <;>
  rcases abs_cases (x - y) with ⟨h9, h10⟩ | ⟨h9, h10⟩ <;>
  rw [h1, h3, h9, abs_le] <;> constructor <;> linarith

theorem ramp_range (s x : ℚ) : 0 ≤ ramp s x ∧ ramp s x ≤ 1 :=
  ⟨le_max_left _ _, max_le (by norm_num) (min_le_left _ _)⟩

theorem ramp_lo {s x : ℚ} (h : x ≤ s - 1) : ramp s x = 0 := by
  unfold ramp; rw [min_eq_right (by linarith), max_eq_left (by linarith)]

theorem ramp_hi {s x : ℚ} (h : s ≤ x) : ramp s x = 1 := by
  unfold ramp; rw [min_eq_left (by linarith), max_eq_right (by norm_num)]

theorem ramp_mid {s x : ℚ} (h : s - 1 ≤ x) (h' : x ≤ s) : ramp s x = x - (s - 1) := by
  unfold ramp; rw [min_eq_right (by linarith), max_eq_right (by linarith)]

theorem ramp_mono {s x y : ℚ} (h : x ≤ y) : ramp s x ≤ ramp s y := by
  unfold ramp; gcongr

/-- The share of slot `s` in a frame at position `p` with total weight `r`. -/
def share (r s p : ℚ) : ℚ := ramp s p - ramp s (p - r)

theorem share_floor {r p : ℚ} (hr : 0 < r) (hr1 : r ≤ 1) {m : ℕ} (h1 : (m:ℚ) ≤ p) :
    share r m p = r - min (p - m) r := by
  unfold share
  rw [ramp_hi h1]
  rcases min_cases (p - m) r with ⟨h5, h6⟩ | ⟨h5, h6⟩ <;> rw [h5]
  · rw [ramp_mid (by linarith) (by linarith)]; ring
  · rw [ramp_hi (by linarith)]; ring

theorem share_next {r p : ℚ} (hr : 0 < r) {m : ℕ} (h1 : (m:ℚ) ≤ p) (h2 : p < m + 1) :
    share r ((m + 1 : ℕ) : ℚ) p = min (p - m) r := by
  unfold share
  push_cast
  rw [ramp_mid (by linarith) (by linarith)]
  rcases min_cases (p - m) r with ⟨h5, h6⟩ | ⟨h5, h6⟩ <;> rw [h5]
  · rw [ramp_lo (by linarith)]; ring
  · rw [ramp_mid (by linarith) (by linarith)]; ring

theorem share_zero {r p : ℚ} (hr : 0 < r) (hr1 : r ≤ 1) {m s : ℕ} (h1 : (m:ℚ) ≤ p) (h2 : p < m + 1) (hs : m ≠ s)
    (hs' : m + 1 ≠ s) : share r s p = 0 := by
  unfold share
  rcases Nat.lt_or_gt_of_ne hs with h | h
  · have : ((m + 2 : ℕ):ℚ) ≤ s := by exact_mod_cast (by omega : m + 2 ≤ s)
    push_cast at this
    rw [ramp_lo (by linarith), ramp_lo (by linarith)]; ring
  · have : ((s + 1 : ℕ):ℚ) ≤ m := by exact_mod_cast h
    push_cast at this
    rw [ramp_hi (by linarith), ramp_hi (by linarith)]; ring

/-- What is needed of a channel format: adding a weighted sample has the right value up to an error of `ε`, and next to nothing
happens if the weight is tiny. -/
structure MixLaw (c : ChTy) (val : c.T → ℚ → Prop) (ε : ℚ) : Prop where
  nonneg : 0 ≤ ε
  dflt : val c.dflt 0
  step : ∀ {b v : c.T} {β w ω : ℚ} {W : F64}, val b β → val v w → |w| ≤ 1 → W.Is ω → 0 ≤ ω → ω ≤ 1 →
    ∃ β', val (c.add b (c.mul v (c.ofF64 W))) β' ∧ ∀ y, |y| ≤ 1 → |β' - y| ≤ |β + w * ω - y| + ε
  tiny : ∀ {b v : c.T} {β w ω : ℚ} {W : F64}, val b β → val v w → |w| ≤ 1 → W.Is ω → 0 ≤ ω → ω ≤ 2 ^ (-52 : ℤ) →
    ∃ β', val (c.add b (c.mul v (c.ofF64 W))) β' ∧ |β' - β| ≤ 2 * 2 ^ (-52 : ℤ) ∧ (ω = 0 → β' = β)

theorem hiSlot_is {x : F64} {p : ℚ} (hx : x.Is p) (h0 : 0 ≤ p) :
    hiSlot x = if 2 ^ (-52 : ℤ) < p - ⌊p⌋ then x.toUsize + 1 else x.toUsize := by
  unfold hiSlot
  by_cases h : 2 ^ (-52 : ℤ) < p - ⌊p⌋
  · rw [if_pos h, if_pos ⟨p, hx, by rw [truncQ_nonneg h0]; exact h⟩]
  · rw [if_neg h, if_neg]
    rintro ⟨q, hq, hh⟩
    rw [← hx.unique hq, truncQ_nonneg h0] at hh
    exact h hh

/-- One frame. -/
theorem mix_step {val : c.T → ℚ → Prop} {ε : ℚ} (law : MixLaw c val ε) {q off : F64} {r p w β : ℚ} {j s : Nat}
    {b v : c.T} (hq : q.Is r) (hr : 0 < r) (hr1 : r ≤ 1) (hp : (posOf q off j).Is p) (hp0 : 0 ≤ p) (hp1 : p < 2 ^ 64)
    (hb : val b β) (hv : val v w) (hw : |w| ≤ 1) :
    let b1 := if (posOf q off j).toUsize = s then c.add b (c.mul v (c.ofF64 (loWeight q off j))) else b
    let b2 := if hiSlot (posOf q off j) = s then c.add b1 (c.mul v (c.ofF64 (hiWeight q off j))) else b1
    ∃ β2, val b2 β2 ∧ ∀ y, |y| ≤ 1 → |β2 - y| ≤ |β + w * share r s p - y| + (ε + 5 * 2 ^ (-53 : ℤ)) := by
  intro b1 b2
  obtain ⟨h, l, hh, hl, e, h0, h1, l0, l1, hsum⟩ := weights_partial hq hr hp hp0
  have hε := law.nonneg
  have hflz : 0 ≤ ⌊p⌋ := Int.floor_nonneg.mpr hp0
  set m := ⌊p⌋.toNat with hm
  have hmz : ((m:ℕ):ℤ) = ⌊p⌋ := Int.toNat_of_nonneg hflz
  have hmq : ((m:ℕ):ℚ) = (⌊p⌋:ℚ) := by exact_mod_cast congrArg (Int.cast : ℤ → ℚ) hmz
  have m1 : (m:ℚ) ≤ p := by rw [hmq]; exact Int.floor_le p
  have m2 : p < m + 1 := by rw [hmq]; exact Int.lt_floor_add_one p
  have hfl : (posOf q off j).toUsize = m := toUsize_is hp hp0 hp1
  have hhi := hiSlot_is hp hp0
  rw [hfl, ← hmq] at hhi
  rw [← hmq] at e
  have hu : (0:ℚ) < 2 ^ (-53:ℤ) := two_zpow_pos _
  have e52 : (2:ℚ) ^ (-52:ℤ) = 2 * 2 ^ (-53:ℤ) := by
    rw [show (-52:ℤ) = 1 + -53 by norm_num, zpow_add₀ (by norm_num)]; norm_num
  rw [e52] at hhi
  have tri : ∀ {x y z : ℚ}, |x + w * y - z| ≤ |x - z| + |y| := by
    intro x y z
    have : |w * y| ≤ |y| := by rw [abs_mul]; exact mul_le_of_le_one_left (abs_nonneg _) hw
    calc |x + w * y - z| = |(x - z) + w * y| := by ring_nf
      _ ≤ |x - z| + |w * y| := abs_add_le _ _
      _ ≤ _ := by linarith
  have lerr : |l - (r - h)| ≤ 2 ^ (-53:ℤ) := by
    rw [show l - (r - h) = h + l - r by ring]
    refine hsum.trans ?_
    exact mul_le_of_le_one_left hu.le (by linarith)
  -- the error of the lower weight
  have low : ∀ {β1 : ℚ} (y : ℚ), (|β1 - y| ≤ |β + w * l - y| + ε) → share r s p = r - h →
      |β1 - y| ≤ |β + w * share r s p - y| + ε + 2 ^ (-53:ℤ) := by
    intro β1 y h1 h2
    rw [h2]
    have := tri (x := β + w * (r - h)) (y := l - (r - h)) (z := y)
    rw [show β + w * (r - h) + w * (l - (r - h)) - y = β + w * l - y by ring] at this
    linarith
  by_cases c1 : m = s
  · subst c1
    have hsh : share r m p = r - h := by rw [share_floor hr hr1 m1, e]
    obtain ⟨β1, hb1, st1⟩ := law.step hb hv hw hl l0 (l1.trans hr1)
    have eb1 : b1 = c.add b (c.mul v (c.ofF64 (loWeight q off j))) := if_pos hfl
    rw [← eb1] at hb1
    by_cases c2 : 2 * 2 ^ (-53:ℤ) < p - m
    · rw [if_pos c2] at hhi
      have eb2 : b2 = b1 := if_neg (by rw [hhi]; omega)
      rw [eb2]
      refine ⟨β1, hb1, fun y hy => ?_⟩
      have := low y (st1 y hy) hsh
      linarith
    · rw [if_neg c2] at hhi
      have a4 : h ≤ 2 ^ (-52:ℤ) := by
        rw [e, e52]
        exact (min_le_left _ _).trans (not_lt.mp c2)
      obtain ⟨β2, hb2, st2, _⟩ := law.tiny hb1 hv hw hh h0 a4
      have eb2 : b2 = c.add b1 (c.mul v (c.ofF64 (hiWeight q off j))) := if_pos hhi
      rw [← eb2] at hb2
      refine ⟨β2, hb2, fun y hy => ?_⟩
      have a1 := low y (st1 y hy) hsh
      have a2 := abs_sub_le β2 β1 y
      rw [e52] at st2
      linarith
  · have eb1 : b1 = b := if_neg (by rw [hfl]; exact c1)
    by_cases c3 : m + 1 = s
    · have hsh : share r s p = h := by rw [← c3, share_next hr m1 m2, e]
      by_cases c2 : 2 * 2 ^ (-53:ℤ) < p - m
      · rw [if_pos c2] at hhi
        obtain ⟨β2, hb2, st2⟩ := law.step hb hv hw hh h0 (h1.trans hr1)
        have eb2 : b2 = c.add b1 (c.mul v (c.ofF64 (hiWeight q off j))) := if_pos (by rw [hhi, c3])
        rw [eb2, eb1]
        refine ⟨β2, hb2, fun y hy => ?_⟩
        have := st2 y hy
        rw [hsh]
        linarith
      · rw [if_neg c2] at hhi
        have eb2 : b2 = b1 := if_neg (by rw [hhi]; exact c1)
        rw [eb2, eb1]
        refine ⟨β, hb, fun y hy => ?_⟩
        rw [hsh]
        have a3 := tri (x := β + w * h) (y := -h) (z := y)
        rw [show β + w * h + w * -h - y = β - y by ring, abs_neg] at a3
        have a4 : |h| ≤ 2 * 2 ^ (-53:ℤ) := by
          rw [abs_of_nonneg h0, e]
          exact (min_le_left _ _).trans (not_lt.mp c2)
        linarith
    · have eb2 : b2 = b1 := by
        refine if_neg ?_
        rw [hhi]; split <;> omega
      rw [eb2, eb1]
      refine ⟨β, hb, fun y hy => ?_⟩
      rw [share_zero hr hr1 m1 m2 c1 c3, mul_zero, add_zero]
      linarith

/-- A frame that does not reach the slot leaves it alone. -/
theorem mix_skip {q off : F64} {p : ℚ} {j s : Nat} (hp : (posOf q off j).Is p) (hp0 : 0 ≤ p) (hp1 : p < 2 ^ 64)
    (h : p < s - 1 ∨ (s:ℚ) + 1 ≤ p) : (posOf q off j).toUsize ≠ s ∧ hiSlot (posOf q off j) ≠ s := by
  have hfl : (posOf q off j).toUsize = ⌊p⌋.toNat := toUsize_is hp hp0 hp1
  have hflz : 0 ≤ ⌊p⌋ := Int.floor_nonneg.mpr hp0
  have hhi := hiSlot_is hp hp0
  have : ⌊p⌋ < (s:ℤ) - 1 ∨ (s:ℤ) + 1 ≤ ⌊p⌋ := by
    rcases h with h | h
    · left; rw [Int.floor_lt]; push_cast; exact h
    · right; rw [Int.le_floor]; push_cast; exact h
  rw [hfl] at hhi ⊢
  refine ⟨by omega, ?_⟩
  rw [hhi]
  split <;> omega

/-- A frame whose weight is spent before the slot leaves it alone, too: the weight that is left is 0. -/
theorem mix_spent {val : c.T → ℚ → Prop} {ε : ℚ} (law : MixLaw c val ε) {q off : F64} {r p w β : ℚ} {j s : Nat}
    {b v : c.T} (hq : q.Is r) (hr : 2 ^ (-52 : ℤ) ≤ r) (hp : (posOf q off j).Is p) (hp0 : 0 ≤ p) (hp1 : p < 2 ^ 64)
    (hb : val b β) (hv : val v w) (hw : |w| ≤ 1) (h : (s:ℚ) + r < p) (h' : p < s + 1) :
    let b1 := if (posOf q off j).toUsize = s then c.add b (c.mul v (c.ofF64 (loWeight q off j))) else b
    val (if hiSlot (posOf q off j) = s then c.add b1 (c.mul v (c.ofF64 (hiWeight q off j))) else b1) β := by
  intro b1
  have hr0 : 0 < r := lt_of_lt_of_le (two_zpow_pos _) hr
  obtain ⟨h, l, hh, hl, e, h0, h1, l0, l1, hsum⟩ := weights_partial hq hr0 hp hp0
  have hfloor : ⌊p⌋ = s := by
    rw [Int.floor_eq_iff]; push_cast
    constructor <;> linarith
  have hfl : (posOf q off j).toUsize = s := by
    rw [toUsize_is hp hp0 hp1, hfloor]; simp
  have hhi := hiSlot_is hp hp0
  rw [hfl, hfloor, if_pos (by push_cast; linarith)] at hhi
  have hhr : h = r := by
    rw [e, hfloor]; push_cast; exact min_eq_right (by linarith)
  have hl0 : l = 0 := by
    have : loWeight q off j = q.sub (hiWeight q off j) := rfl
    have hz : (loWeight q off j).Is 0 := by
      rw [this]
      have := hq.sub hh (by rw [hhr, sub_self, rnd_zero]; simpa using maxF_pos.le)
      rwa [hhr, sub_self, rnd_zero] at this
    exact hl.unique hz
  rw [if_neg (by omega)]
  obtain ⟨β', v1, _, v2⟩ := law.tiny hb hv hw hl l0 (by rw [hl0]; exact (two_zpow_pos _).le)
  rw [v2 hl0] at v1
  have eb1 : b1 = c.add b (c.mul v (c.ofF64 (loWeight q off j))) := if_pos hfl
  rw [eb1]; exact v1

/-- The shares telescope. -/
theorem sum_share (r o s : ℚ) (n : Nat) :
    ∑ j ∈ Finset.range n, share r s (o + r * j) = ramp s (o + r * n - r) - ramp s (o - r) := by
  induction n with
  | zero => simp
  | succ n ih =>
    rw [Finset.sum_range_succ, ih]
    unfold share
    rw [show o + r * ((n + 1 : ℕ):ℚ) - r = o + r * n by push_cast; ring]; ring

theorem share_nonneg {r s p : ℚ} (hr : 0 ≤ r) : 0 ≤ share r s p := by
  unfold share
  have := ramp_mono (s := s) (x := p - r) (y := p) (by linarith)
  linarith

/-- Weighted means of numbers in [-1, 1] are in [-1, 1]. -/
theorem abs_box_le {r o s : ℚ} (hr : 0 ≤ r) (w : Nat → ℚ) (n : Nat) (hw : ∀ j, j < n → |w j| ≤ 1) :
    |∑ j ∈ Finset.range n, w j * share r s (o + r * j)| ≤ 1 := by
  refine (Finset.abs_sum_le_sum_abs _ _).trans ?_
  have : ∑ j ∈ Finset.range n, |w j * share r s (o + r * j)| ≤ ∑ j ∈ Finset.range n, share r s (o + r * j) := by
    refine Finset.sum_le_sum (fun j hj => ?_)
    have h0 := share_nonneg (s := s) (p := o + r * j) hr
    rw [abs_mul, abs_of_nonneg h0]
    exact mul_le_of_le_one_left h0 (hw j (Finset.mem_range.mp hj))
  refine this.trans ?_
  rw [sum_share]
  have a1 := ramp_range s (o + r * n - r)
  have a2 := ramp_range s (o - r)
  linarith

/-- The slots are means of the signal. -/
theorem mixed_box {val : c.T → ℚ → Prop} {ε : ℚ} (law : MixLaw c val ε) {q off : F64} {r o η : ℚ} {w : Nat → ℚ}
    (hq : q.Is r) (hr : 2 ^ (-52 : ℤ) ≤ r) (hr1 : r ≤ 1) (n s i : Nat) (hi : i < k.chans) (p : Nat → ℚ)
    (hp : ∀ j, j < n → (posOf q off j).Is (p j) ∧ 0 ≤ p j ∧ p j < 2 ^ 64 ∧ |p j - (o + r * j)| ≤ η)
    (g : Nat → Frame k c) (hg : ∀ j, j < n → val (g j)[i] (w j) ∧ |w j| ≤ 1) (L U : Nat)
    (hLU : ∀ j : Nat, s - 1 - η ≤ o + r * j → o + r * j ≤ s + r + η → L ≤ j ∧ j ≤ U) :
    ∃ β, val (mixed q off g s n Frame.dflt)[i] β ∧
      |β - ∑ j ∈ Finset.range n, w j * share r s (o + r * j)| ≤
        (ε + 5 * 2 ^ (-53 : ℤ) + 2 * η) * ((min n (U + 1) - L : ℕ) : ℚ) := by
  have hr0 : 0 < r := lt_of_lt_of_le (two_zpow_pos _) hr
  induction n with
  | zero =>
    refine ⟨0, ?_, ?_⟩
    · simpa [mixed, Frame.dflt] using law.dflt
    · simp
  | succ n ih =>
    obtain ⟨β, hb, herr⟩ := ih (fun j hj => hp j (by omega)) (fun j hj => hg j (by omega))
    obtain ⟨h1, h2, h3, h4⟩ := hp n (by omega)
    have hη : 0 ≤ η := (abs_nonneg _).trans h4
    obtain ⟨hv, hw⟩ := hg n (by omega)
    have hu : (0:ℚ) < 2 ^ (-53:ℤ) := two_zpow_pos _
    have hε := law.nonneg
    set cc := ε + 5 * 2 ^ (-53 : ℤ) + 2 * η with hcc
    have hcc0 : 0 ≤ cc := by rw [hcc]; linarith
    have hA := Finset.sum_range_succ (fun j : Nat => w j * share r s (o + r * j)) n
    have e : (mixed q off g s (n + 1) Frame.dflt)[i] =
        (let b1 := if (posOf q off n).toUsize = s then c.add (mixed q off g s n Frame.dflt)[i]
          (c.mul (g n)[i] (c.ofF64 (loWeight q off n))) else (mixed q off g s n Frame.dflt)[i]
        if hiSlot (posOf q off n) = s then c.add b1 (c.mul (g n)[i] (c.ofF64 (hiWeight q off n))) else b1) := by
      rw [mixed]
      dsimp only
      split <;> split <;> simp [Frame.add, Frame.mul, Frame.ofF64]
    by_cases hin : s - 1 - η ≤ o + r * n ∧ o + r * n ≤ s + r + η
    · obtain ⟨g1, g2⟩ := hLU n hin.1 hin.2
      obtain ⟨β2, hb2, st⟩ := mix_step law (s := s) hq hr0 hr1 h1 h2 h3 hb hv hw
      refine ⟨β2, ?_, ?_⟩
      · rw [e]; exact hb2
      · have hy : |∑ j ∈ Finset.range (n + 1), w j * share r s (o + r * j)| ≤ 1 :=
          abs_box_le hr0.le w (n + 1) (fun j hj => (hg j hj).2)
        rw [hA] at hy ⊢
        set A := ∑ j ∈ Finset.range n, w j * share r s (o + r * j) with hAdef
        have a1 := st _ hy
        have hsh : |share r s (p n) - share r s (o + r * n)| ≤ 2 * η := by
          unfold share
          have b1 := ramp_lip s (p n) (o + r * n)
          have b2 := ramp_lip s (p n - r) (o + r * n - r)
          rw [show p n - r - (o + r * n - r) = p n - (o + r * n) by ring] at b2
          have b3 := abs_sub (ramp s (p n) - ramp s (o + r * n)) (ramp s (p n - r) - ramp s (o + r * n - r))
          rw [show ramp s (p n) - ramp s (o + r * n) - (ramp s (p n - r) - ramp s (o + r * n - r)) =
            ramp s (p n) - ramp s (p n - r) - (ramp s (o + r * n) - ramp s (o + r * n - r)) by ring] at b3
          linarith
        have a2 : |β + w n * share r s (p n) - (A + w n * share r s (o + r * n))| ≤ |β - A| + 2 * η := by
          rw [show β + w n * share r s (p n) - (A + w n * share r s (o + r * n)) =
            (β - A) + w n * (share r s (p n) - share r s (o + r * n)) by ring]
          refine (abs_add_le _ _).trans ?_
          have : |w n * (share r s (p n) - share r s (o + r * n))| ≤ 2 * η := by
            rw [abs_mul]
            calc |w n| * _ ≤ 1 * _ := mul_le_mul_of_nonneg_right hw (abs_nonneg _)
              _ ≤ _ := by rw [one_mul]; exact hsh
          linarith
        have hcnt : ((min (n + 1) (U + 1) - L : ℕ) : ℚ) = ((min n (U + 1) - L : ℕ) : ℚ) + 1 := by
          have : min (n + 1) (U + 1) - L = (min n (U + 1) - L) + 1 := by omega
          rw [this]; push_cast; ring
        rw [hcnt, mul_add, mul_one]
        linarith
    · have hout : p n < s - 1 ∨ (s:ℚ) + r < p n := by
        rw [abs_le] at h4
        by_cases hc : s - 1 - η ≤ o + r * n
        · right
          have : ¬ (o + r * n ≤ s + r + η) := fun hh => hin ⟨hc, hh⟩
          push Not at this; linarith
        · left; push Not at hc; linarith
      have hsh : share r s (o + r * n) = 0 := by
        unfold share
        by_cases hc : s - 1 - η ≤ o + r * n
        · have : ¬ (o + r * n ≤ s + r + η) := fun hh => hin ⟨hc, hh⟩
          push Not at this
          rw [ramp_hi (by linarith), ramp_hi (by linarith)]; ring
        · push Not at hc
          rw [ramp_lo (by linarith), ramp_lo (by linarith)]; ring
      refine ⟨β, ?_, ?_⟩
      · by_cases hs : (s:ℚ) + r < p n ∧ p n < s + 1
        · rw [e]
          exact mix_spent law hq hr h1 h2 h3 hb hv hw hs.1 hs.2
        · obtain ⟨k1, k2⟩ := mix_skip h1 h2 h3 (s := s) (by
            rcases hout with ho | ho
            · exact .inl ho
            · exact .inr (not_lt.mp fun hh => hs ⟨ho, hh⟩))
          simp only [mixed, if_neg k1, if_neg k2]; exact hb
      · rw [hA, hsh, mul_zero, add_zero]
        refine herr.trans (mul_le_mul_of_nonneg_left ?_ hcc0)
        exact_mod_cast (by omega : min n (U + 1) - L ≤ min (n + 1) (U + 1) - L)

end Fon
