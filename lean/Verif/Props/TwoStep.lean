import Verif.Props.Whole
import Verif.Props.Downmix
import Verif.Spec.TwoStep

/-!
# C117: resampling in two steps
-/

namespace Fon
open Fon.Fl hiding min max
open Fon.Fmt Fon.Sink
variable {k k' : Kind} {c c' : ChTy}

/-- The mean over a slot changes little if the ratio changes a little. -/
theorem sum_drift {r r' x e : ℚ} (hr : 0 < r) (hr1 : r ≤ 1) (hr' : 0 < r') (hr1' : r' ≤ 1) (hx : 0 ≤ x) (he : 0 ≤ e)
    (hd : |r' - r| ≤ r * e) (hs : (x + 2) * e ≤ 1 / 4) (N : Nat) (w : Nat → ℚ) (hw : ∀ j, |w j| ≤ 1) :
    |∑ j ∈ Finset.range N, w j * share r' x (r' * j) - ∑ j ∈ Finset.range N, w j * share r x (r * j)| ≤
      2 * (e * (x + 2)) * (3 / r + 1) := by
  rw [← Finset.sum_sub_distrib]
  set L := ⌈(x - 1 - 1 / 2) / r⌉₊ with hL
  set U := ⌊(x + 1 + 1 / 2) / r⌋₊ with hU
  have he1 : e ≤ 1 / 8 := by nlinarith
  have hmv : ∀ j : Nat, |r' * j - r * j| ≤ r * j * e := by
    intro j
    rw [← sub_mul, abs_mul, abs_of_nonneg (by positivity : (0:ℚ) ≤ j)]
    calc _ ≤ r * e * j := mul_le_mul_of_nonneg_right hd (by positivity)
      _ = _ := by ring
  have hz : ∀ j : Nat, j ∉ Finset.Icc L U → w j * share r' x (r' * j) - w j * share r x (r * j) = 0 := by
    intro j hj
    have hj0 : (0:ℚ) ≤ r * j := by positivity
    have hj' : r * j < x - 1 - 1 / 2 ∨ x + 1 + 1 / 2 < r * j := by
      by_contra hc
      push Not at hc
      refine hj (Finset.mem_Icc.mpr ⟨?_, ?_⟩)
      · rw [hL, Nat.ceil_le, div_le_iff₀ hr]; linarith [hc.1]
      · rw [hU, Nat.le_floor_iff (by positivity), le_div_iff₀ hr]; linarith [hc.2]
    have hm := abs_le.mp (hmv j)
    rw [share_far hr, share_far hr']
    · ring
    · rcases hj' with h | h
      · left; nlinarith [hm.2]
      · right
        have : (x + 3 / 2) * (1 - e) ≤ r * j * (1 - e) := mul_le_mul_of_nonneg_right (by linarith) (by linarith)
        nlinarith [hm.1]
    · rcases hj' with h | h
      · left; linarith
      · right; linarith
  have hin : ∀ j : Nat, j ∈ Finset.Icc L U → |w j * share r' x (r' * j) - w j * share r x (r * j)| ≤ 2 * (e * (x + 2)) := by
    intro j hj
    have hjU := (Finset.mem_Icc.mp hj).2
    rw [hU, Nat.le_floor_iff (by positivity), le_div_iff₀ hr] at hjU
    rw [← mul_sub, abs_mul]
    refine (mul_le_of_le_one_left (abs_nonneg _) (hw j)).trans ?_
    unfold share
    have b1 := (ramp_lip x (r' * j) (r * j)).trans (hmv j)
    have b2 := ramp_lip x (r' * j - r') (r * j - r)
    have b3 : |r' * j - r' - (r * j - r)| ≤ r * j * e + r * e := by
      rw [show r' * (j:ℚ) - r' - (r * j - r) = (r' * j - r * j) - (r' - r) by ring]
      exact (abs_sub _ _).trans (add_le_add (hmv j) hd)
    have b4 := b2.trans b3
    have b5 : r * j * e ≤ (x + 3 / 2) * e := mul_le_mul_of_nonneg_right (by linarith) he
    have b6 : r * e ≤ 1 * e := mul_le_mul_of_nonneg_right hr1 he
    rw [abs_le] at *
    constructor <;> linarith [b1.1, b1.2, b4.1, b4.2]
  have hle : |∑ j ∈ Finset.range N, (w j * share r' x (r' * j) - w j * share r x (r * j))| ≤
      ∑ j ∈ Finset.Icc L U, 2 * (e * (x + 2)) := by
    refine (Finset.abs_sum_le_sum_abs _ _).trans ?_
    refine le_trans (b := ∑ j ∈ Finset.range N with j ∈ Finset.Icc L U, 2 * (e * (x + 2))) ?_ ?_
    · rw [Finset.sum_filter]
      refine Finset.sum_le_sum (fun j _ => ?_)
      split
      · exact hin j ‹_›
      · rename_i h; rw [hz j h, abs_zero]
    · refine Finset.sum_le_sum_of_subset_of_nonneg (fun j hj => (Finset.mem_filter.mp hj).2) (fun _ _ _ => by positivity)
  refine hle.trans ?_
  rw [Finset.sum_const, Nat.card_Icc, nsmul_eq_mul, mul_comm]
  refine mul_le_mul_of_nonneg_left ?_ (by positivity)
  have h1 : (U:ℚ) ≤ (x + 1 + 1 / 2) / r := Nat.floor_le (by positivity)
  have h2 : (x - 1 - 1 / 2) / r ≤ L := Nat.le_ceil _
  have h4 : (x + 1 + 1 / 2) / r - (x - 1 - 1 / 2) / r = 3 / r := by ring
  have h5 : 0 ≤ 3 / r + 1 := by positivity
  rcases le_total (U + 1) L with hl | hl
  · have : U + 1 - L = 0 := by omega
    rw [this]; exact_mod_cast h5
  · rw [Nat.cast_sub hl]
    push_cast
    linarith

/-! ## Slots of slots -/

/-- At a whole factor, a slot is the mean of whole slots. -/
theorem share_whole {b x y : Nat} (hb : 0 < b) :
    share (1 / b) x (1 / b * y) = if y ≤ x * b ∧ x * b < y + b then 1 / (b:ℚ) else 0 := by
  have hbq : (0:ℚ) < b := by exact_mod_cast hb
  have hc : (1:ℚ) / b * y = y / b := by ring
  unfold share
  rw [hc]
  split
  · rename_i h
    have h1 : (y:ℚ) / b ≤ x := by rw [div_le_iff₀ hbq]; exact_mod_cast h.1
    have h2 : (x:ℚ) - 1 ≤ y / b - 1 / b := by
      rw [← sub_div, le_div_iff₀ hbq]
      have : (x:ℚ) * b + 1 ≤ y + b := by exact_mod_cast h.2
      linarith
    have h3 : (0:ℚ) < 1 / b := by positivity
    rw [ramp_mid (by linarith) h1, ramp_mid h2 (by linarith)]; ring
  · rename_i h
    rcases lt_or_ge (x * b) y with h1 | h1
    · have : (x:ℚ) ≤ y / b - 1 / b := by
        rw [← sub_div, le_div_iff₀ hbq]
        have : (x:ℚ) * b + 1 ≤ y := by exact_mod_cast h1
        linarith
      have h3 : (0:ℚ) < 1 / b := by positivity
      rw [ramp_hi (by linarith), ramp_hi this]; ring
    · have h2 : y + b ≤ x * b := by
        by_contra hc
        exact h ⟨h1, by omega⟩
      have : (y:ℚ) / b ≤ x - 1 := by
        rw [div_le_iff₀ hbq]
        have : (y:ℚ) + b ≤ x * b := by exact_mod_cast h2
        linarith
      have h3 : (0:ℚ) < 1 / b := by positivity
      rw [ramp_lo this, ramp_lo (by linarith)]; ring

theorem sum_ramps {p : ℚ} (hp : -1 ≤ p) (m : Nat) : ∑ y ∈ Finset.range m, ramp y p = min (p + 1) m := by
  induction m with
  | zero => simp; linarith
  | succ m ih =>
    rw [Finset.sum_range_succ, ih]
    push_cast
    rcases le_total p (m - 1) with h | h
    · rw [ramp_lo h, min_eq_left (by linarith), min_eq_left (by linarith)]; ring
    · rcases le_total p m with h' | h'
      · rw [ramp_mid h h', min_eq_right (by linarith), min_eq_left (by linarith)]; ring
      · rw [ramp_hi h', min_eq_right (by linarith), min_eq_right (by linarith)]

/-- The mean of means is the mean. -/
theorem share_share {r : ℚ} (hr : 0 < r) (hr1 : r ≤ 1) {b x M : Nat} (hb : 0 < b) (hM : x * b < M) (j : Nat) :
    ∑ y ∈ Finset.range M, share r y (r * j) * share (1 / b) x (1 / b * y) = share (r / b) x (r / b * j) := by
  have hbq : (0:ℚ) < b := by exact_mod_cast hb
  have hb1 : (1:ℚ) ≤ b := by exact_mod_cast hb
  have e1 : ∑ y ∈ Finset.range M, share r y (r * j) * share (1 / b) x (1 / b * y) =
      ∑ y ∈ Finset.Ico (x * b + 1 - b) (x * b + 1), share r y (r * j) * (1 / b) := by
    rw [← Finset.sum_subset (s₁ := Finset.Ico (x * b + 1 - b) (x * b + 1))]
    · refine Finset.sum_congr rfl (fun y hy => ?_)
      rw [Finset.mem_Ico] at hy
      rw [share_whole hb, if_pos (by omega)]
    · intro y hy
      rw [Finset.mem_Ico] at hy
      rw [Finset.mem_range]; omega
    · intro y _ hy
      rw [Finset.mem_Ico] at hy
      rw [share_whole hb, if_neg (by omega), mul_zero]
  have e2 : ∑ y ∈ Finset.Ico (x * b + 1 - b) (x * b + 1), share r y (r * j) =
      (min (r * j + 1) ((x * b + 1 : ℕ):ℚ) - min (r * j - r + 1) ((x * b + 1 : ℕ):ℚ)) -
      (min (r * j + 1) ((x * b + 1 - b : ℕ):ℚ) - min (r * j - r + 1) ((x * b + 1 - b : ℕ):ℚ)) := by
    have hj : (0:ℚ) ≤ r * j := by positivity
    rw [Finset.sum_Ico_eq_sub (fun y : Nat => share r y (r * j)) (by omega)]
    unfold share
    rw [Finset.sum_sub_distrib, Finset.sum_sub_distrib, sum_ramps (by linarith), sum_ramps (by linarith),
      sum_ramps (by linarith), sum_ramps (by linarith)]
  have e3 : r / b * j = r * j / b := by ring
  rw [e1, ← Finset.sum_mul, e2]
  unfold share
  rw [e3, ← sub_div]
  -- the ramp of a slot
  have key : ∀ p : ℚ, ramp x (p / b) * b = max (0:ℚ) (min (b:ℚ) (p - ((x:ℚ) - 1) * b)) := by
    intro p
    unfold ramp
    rw [max_mul_of_nonneg _ _ hbq.le, min_mul_of_nonneg _ _ hbq.le, zero_mul, one_mul]
    congr 2
    rw [sub_mul, div_mul_cancel₀ _ hbq.ne']
  rw [mul_one_div, div_eq_iff hbq.ne', sub_mul, key, key]
  have hj : (0:ℚ) ≤ r * j := by positivity
  rcases Nat.eq_zero_or_pos x with rfl | hx
  · rw [show 0 * b + 1 - b = 0 by omega]
    push_cast
    rcases Nat.eq_zero_or_pos j with rfl | hj1
    · push_cast
      simp only [mul_zero, zero_mul, zero_add, zero_sub]
      rw [min_eq_left (le_refl _), min_eq_left (by linarith), min_eq_right (by norm_num), min_eq_right (by linarith),
        min_eq_left (by linarith), max_eq_right (by linarith), min_eq_right (by linarith), max_eq_right (by linarith)]
      ring
    · have : r ≤ r * j := le_mul_of_one_le_right hr.le (by exact_mod_cast hj1)
      rw [min_eq_right (by linarith), min_eq_right (by linarith), min_eq_right (by linarith), min_eq_right (by linarith),
        min_eq_left (by linarith), min_eq_left (by linarith)]
      ring
  · have hle : b ≤ x * b := Nat.le_mul_of_pos_left b hx
    have c2 : ((x * b + 1 - b : ℕ):ℚ) = x * b + 1 - b := by
      rw [Nat.cast_sub (by omega)]; push_cast; ring
    rw [c2]
    push_cast
    have gen : ∀ p : ℚ, min (p + 1) (x * b + 1) - min (p + 1) (x * b + 1 - b) = max (0:ℚ) (min (b:ℚ) (p - ((x:ℚ) - 1) * b)) := by
      intro p
      rcases le_total p (x * b) with h1 | h1
      · rcases le_total p (x * b - b) with h2 | h2
        · rw [min_eq_left (by linarith), min_eq_left (by linarith), min_eq_right (by nlinarith), max_eq_left (by nlinarith)]
          ring
        · rw [min_eq_left (by linarith), min_eq_right (by linarith), min_eq_right (by nlinarith), max_eq_right (by nlinarith)]
          ring
      · rw [min_eq_right (by linarith), min_eq_right (by linarith), min_eq_left (by nlinarith), max_eq_right (by linarith)]
        ring
    rw [← gen, ← gen]
    ring

/-! ## C117 -/

/-- Values of samples are in [-1, 1], but for the lowest integer. -/
theorem abs_val {x : c.T} {v : ℚ} (hx : SampleVal c x v) (hv : Valid c x) (hm : c = .ch32 ∨ c = .ch64 ∨ x ≠ c.MIN) :
    |v| ≤ 1 := by
  cases c
  · rcases hm with h | h | h
    · cases h
    · cases h
    · rw [show v = (BitVec.toInt x : ℚ) / 127 from hx, abs_div, abs_of_pos (by norm_num : (0:ℚ) < 127), div_le_one (by norm_num)]
      have h1 := BitVec.toInt_lt (x := (x : Ch8))
      have h2 := BitVec.le_toInt (x := (x : Ch8))
      have h3 : BitVec.toInt (x : Ch8) ≠ -128 := fun e => h (BitVec.eq_of_toInt_eq (e.trans (by decide)))
      have : |BitVec.toInt (x : Ch8)| ≤ 127 := by
        rw [abs_le]; constructor <;> omega
      exact_mod_cast this
  · rcases hm with h | h | h
    · cases h
    · cases h
    · rw [show v = (BitVec.toInt x : ℚ) / 32767 from hx, abs_div, abs_of_pos (by norm_num : (0:ℚ) < 32767), div_le_one (by norm_num)]
      have h1 := BitVec.toInt_lt (x := (x : Ch16))
      have h2 := BitVec.le_toInt (x := (x : Ch16))
      have h3 : BitVec.toInt (x : Ch16) ≠ -32768 := fun e => h (BitVec.eq_of_toInt_eq (e.trans (by decide)))
      have : |BitVec.toInt (x : Ch16)| ≤ 32767 := by
        rw [abs_le]; constructor <;> omega
      exact_mod_cast this
  · exact valid_abs hv hx
  · exact valid_abs hv hx

/-- C117 if the second factor is whole: going down to a first rate and from there to one that is `b` times lower is the same
as going to the last rate at once, up to a small error. The buffer of the first sink is the second stream; in the integer
formats none of its samples is the lowest number. -/
theorem C117_partial (f₁ f₂ f₃ b : Nat) (s₁ s₁' s₂ s₂' s₃ s₃' : Sink k c) (st : Src k' c') (it₁ it₃ : It k' c')
    (it₂ : It k c) (hk : k.builtin = true)
    (h₁ : s₁.stream f₁ st = .ok (s₁', it₁)) (h₂ : s₂.stream f₂ (.audio ⟨s₁.rate, s₁'.buf⟩) = .ok (s₂', it₂))
    (h₃ : s₃.stream f₃ st = .ok (s₃', it₃))
    (o₁ : s₁.res.offseti = lit 0) (o₂ : s₂.res.offseti = lit 0) (o₃ : s₃.res.offseti = lit 0) (r₁ r₂ r₃ e : ℚ)
    (q₁ : (ratioOf s₁.rate st.rate).Is r₁) (q₂ : (ratioOf s₂.rate (some s₁.rate)).Is r₂)
    (q₃ : (ratioOf s₃.rate st.rate).Is r₃) (hb : 0 < b)
    (p₁ : 0 < r₁) (l₁ : r₁ ≤ 1) (p₂ : 0 < r₂) (l₂ : r₂ ≤ 1) (p₃ : 0 < r₃) (l₃ : r₃ ≤ 1)
    (e₂ : |r₂ - 1 / b| ≤ 1 / b * e) (e₃ : |r₃ - r₁ / b| ≤ r₁ / b * e)
    (b₁ : (s₁.buf.length : ℚ) + 1 ≤ r₁ * 2 ^ 52) (b₂ : (s₂.buf.length : ℚ) + 1 ≤ r₂ * 2 ^ 52)
    (b₃ : (s₃.buf.length : ℚ) + 1 ≤ r₃ * 2 ^ 52) (d₂ : (s₂.buf.length + 2) * e ≤ 1 / 4)
    (hin : ∀ y, y < s₁'.buf.length → InDst (ratioOf s₁.rate st.rate) st.len s₁.buf.length y)
    (i : Nat) (hi : i < k.chans) (hmin : c = .ch32 ∨ c = .ch64 ∨ ∀ f ∈ s₁'.buf, f[i] ≠ c.MIN)
    (w : Nat → ℚ) (hw1 : ∀ j, |w j| ≤ 1)
    (hw : ∀ j f, st.nth j = .ok (some f) → ∀ x : Frame k c, f.convert c = .ok x → SampleVal c x[i] (w j))
    (x : Nat) (hx₂ : InDst (ratioOf s₂.rate (some s₁.rate)) (some s₁'.buf.length) s₂.buf.length x)
    (hx₃ : InDst (ratioOf s₃.rate st.rate) st.len s₃.buf.length x) (hxb : x * b < s₁'.buf.length) :
    ∃ (y z : Frame k c) (a d : ℚ), s₂'.buf[x]? = some y ∧ s₃'.buf[x]? = some z ∧ SampleVal c y[i] a ∧ SampleVal c z[i] d ∧
      |a - d| ≤ boxErr c r₁ s₁.buf.length + boxErr c r₂ s₂.buf.length + boxErr c r₃ s₃.buf.length +
        driftErr (1 / b) e s₂.buf.length + driftErr (r₁ / b) e s₂.buf.length := by
  have hbq : (0:ℚ) < b := by exact_mod_cast hb
  have hb1 : (1:ℚ) ≤ b := by exact_mod_cast hb
  have he : 0 ≤ e := by
    have h := (abs_nonneg _).trans e₂
    have h3 : (0:ℚ) < 1 / b := by positivity
    by_contra hc
    push Not at hc
    nlinarith
  -- enough frames
  obtain ⟨N, n₁, n₃⟩ : ∃ N : Nat, (∀ y, y < s₁'.buf.length → st.len = some N ∨ st.len = none ∧ (y:ℚ) + 1 ≤ r₁ * N) ∧
      (st.len = some N ∨ st.len = none ∧ (x:ℚ) + 1 ≤ r₃ * N) := by
    cases hs : st.len with
    | some l => exact ⟨l, fun _ _ => .inl rfl, .inl rfl⟩
    | none =>
      obtain ⟨N1, h1⟩ := exists_nat_ge ((s₁'.buf.length + 1 : ℚ) / r₁)
      obtain ⟨N2, h2⟩ := exists_nat_ge ((x + 1 : ℚ) / r₃)
      refine ⟨max N1 N2, fun y hy => .inr ⟨rfl, ?_⟩, .inr ⟨rfl, ?_⟩⟩
      · rw [div_le_iff₀ p₁] at h1
        have h4 : (y:ℚ) ≤ s₁'.buf.length := by exact_mod_cast hy.le
        have h5 : (N1:ℚ) * r₁ ≤ (max N1 N2 : ℕ) * r₁ :=
          mul_le_mul_of_nonneg_right (by exact_mod_cast le_max_left _ _) p₁.le
        linarith
      · rw [div_le_iff₀ p₃] at h2
        have h5 : (N2:ℚ) * r₃ ≤ (max N1 N2 : ℕ) * r₃ :=
          mul_le_mul_of_nonneg_right (by exact_mod_cast le_max_right _ _) p₃.le
        linarith
  have ov : ∀ (r : ℚ) (x n : Nat) (w : Nat → ℚ), 0 ≤ r → ∑ j ∈ Finset.range n, w j * overlap (r * j - r) (r * j) (x - 1) x =
      ∑ j ∈ Finset.range n, w j * share r x (r * j) :=
    fun r x n w hr => Finset.sum_congr rfl (fun j _ => by rw [share_overlap hr])
  -- the first step
  obtain ⟨n, g, -, -, m1, -⟩ := C58_mix f₁ s₁ s₁' st it₁ h₁
  have H : ∀ y : Nat, ∃ v : ℚ, |v| ≤ 1 ∧ ∀ f : Frame k c, s₁'.buf[y]? = some f → SampleVal c f[i] v ∧
      |v - ∑ j ∈ Finset.range N, w j * share r₁ y (r₁ * j)| ≤ boxErr c r₁ s₁.buf.length := by
    intro y
    rcases lt_or_ge y s₁'.buf.length with hy | hy
    · obtain ⟨f, v, c1, c2, c3⟩ := C59_whole f₁ s₁ s₁' st it₁ h₁ o₁ r₁ q₁ p₁ l₁ b₁ i hi w hw1 hw y (hin y hy) N (n₁ y hy)
      refine ⟨v, ?_, ?_⟩
      · refine abs_val c2 ?_ (hmin.imp_right (Or.imp_right fun h => h f (List.mem_of_getElem? c1)))
        have := m1 y (hin y hy)
        rw [c1] at this
        rw [Option.some.inj this]
        exact mixed_valid _ _ _ _ _ _ hi
      · intro f' hf'
        rw [c1] at hf'
        cases hf'
        rw [ov _ _ _ _ p₁.le] at c3
        exact ⟨c2, c3⟩
    · exact ⟨0, by simp, fun f hf => by rw [List.getElem?_eq_none hy] at hf; cases hf⟩
  choose v hv1 hv using H
  obtain ⟨y, a, y1, y2, y3⟩ := C59_whole f₂ s₂ s₂' (.audio ⟨s₁.rate, s₁'.buf⟩) it₂ h₂ o₂ r₂ q₂ p₂ l₂ b₂ i hi v hv1 (by
      intro j f hf g hg
      rw [C21_id hk] at hg
      cases hg
      exact (hv j f (Except.ok.inj hf)).1) x hx₂ s₁'.buf.length (.inl rfl)
  obtain ⟨z, d, z1, z2, z3⟩ := C59_whole f₃ s₃ s₃' st it₃ h₃ o₃ r₃ q₃ p₃ l₃ b₃ i hi w hw1 hw x hx₃ N n₃
  refine ⟨y, z, a, d, y1, z1, y2, z2, ?_⟩
  rw [ov _ _ _ _ p₂.le] at y3
  rw [ov _ _ _ _ p₃.le] at z3
  have hx0 : (0:ℚ) ≤ x := by positivity
  have hxB : (x:ℚ) ≤ s₂.buf.length := by exact_mod_cast hx₂.1.le
  have hxe : ((x:ℚ) + 2) * e ≤ 1 / 4 := le_trans (mul_le_mul_of_nonneg_right (by linarith) he) d₂
  have hib : (1:ℚ) / b ≤ 1 := by rw [div_le_one hbq]; exact hb1
  have hrb : r₁ / b ≤ 1 := by rw [div_le_one hbq]; linarith
  have dr : ∀ r : ℚ, 0 < r → 2 * (e * (x + 2)) * (3 / r + 1) ≤ driftErr r e s₂.buf.length := by
    intro r hr
    unfold driftErr
    refine mul_le_mul_of_nonneg_right ?_ (by positivity)
    have := mul_le_mul_of_nonneg_left (by linarith : (x:ℚ) + 2 ≤ s₂.buf.length + 2) he
    linarith
  have t2 := (sum_drift (by positivity) hib p₂ l₂ hx0 he e₂ hxe s₁'.buf.length v hv1).trans (dr _ (by positivity))
  have t3 := (sum_drift (by positivity) hrb p₃ l₃ hx0 he e₃ hxe N w hw1).trans (dr _ (by positivity))
  -- the slots of the first step
  have t1 : |∑ y ∈ Finset.range s₁'.buf.length, v y * share (1 / b) x (1 / b * y) -
      ∑ y ∈ Finset.range s₁'.buf.length, (∑ j ∈ Finset.range N, w j * share r₁ y (r₁ * j)) * share (1 / b) x (1 / b * y)| ≤
      boxErr c r₁ s₁.buf.length := by
    have hE : 0 ≤ boxErr c r₁ s₁.buf.length := by
      unfold boxErr
      have := mixErr_pos c
      positivity
    rw [← Finset.sum_sub_distrib]
    refine (Finset.abs_sum_le_sum_abs _ _).trans ?_
    refine le_trans (b := ∑ y ∈ Finset.range s₁'.buf.length, boxErr c r₁ s₁.buf.length * share (1 / b) x (0 + 1 / b * y)) ?_ ?_
    · refine Finset.sum_le_sum (fun y hy => ?_)
      have h0 : (0:ℚ) ≤ share (1 / b) x (1 / b * y) := share_nonneg (by positivity)
      rw [← sub_mul, abs_mul, abs_of_nonneg h0, zero_add]
      have hy := Finset.mem_range.mp hy
      exact mul_le_mul_of_nonneg_right (hv y _ (List.getElem?_eq_getElem hy)).2 h0
    · rw [← Finset.mul_sum, sum_share]
      refine mul_le_of_le_one_right hE ?_
      have h1 := (ramp_range x (0 + 1 / b * s₁'.buf.length - 1 / b)).2
      have h2 := (ramp_range x (0 - 1 / b)).1
      linarith
  have sw : ∑ y ∈ Finset.range s₁'.buf.length, (∑ j ∈ Finset.range N, w j * share r₁ y (r₁ * j)) * share (1 / b) x (1 / b * y) =
      ∑ j ∈ Finset.range N, w j * share (r₁ / b) x (r₁ / b * j) := by
    simp only [Finset.sum_mul]
    rw [Finset.sum_comm]
    refine Finset.sum_congr rfl (fun j _ => ?_)
    rw [← share_share p₁ l₁ hb hxb j, Finset.mul_sum]
    exact Finset.sum_congr rfl (fun y _ => by ring)
  rw [sw] at t1
  change _ ≤ boxErr c r₂ s₂.buf.length at y3
  change _ ≤ boxErr c r₃ s₃.buf.length at z3
  generalize ∑ j ∈ Finset.range N, w j * share (r₁ / b) x (r₁ / b * j) = S1 at *
  generalize ∑ j ∈ Finset.range N, w j * share r₃ x (r₃ * j) = S3 at *
  generalize ∑ j ∈ Finset.range s₁'.buf.length, v j * share r₂ x (r₂ * j) = S2 at *
  generalize ∑ y ∈ Finset.range s₁'.buf.length, v y * share (1 / b) x (1 / b * y) = S4 at *
  generalize boxErr c r₁ s₁.buf.length = E1 at *
  generalize boxErr c r₂ s₂.buf.length = E2 at *
  generalize boxErr c r₃ s₃.buf.length = E3 at *
  generalize driftErr (1 / b) e s₂.buf.length = E4 at *
  generalize driftErr (r₁ / b) e s₂.buf.length = E5 at *
  rw [abs_le] at *
  constructor <;> linarith [y3.1, y3.2, z3.1, z3.2, t1.1, t1.2, t2.1, t2.2, t3.1, t3.2]

/-- Whole rates have the ratios that `C117_partial` asks for. -/
theorem two_ratios {dst src b : Nat} (hd : 0 < dst) (hs : 0 < src) (hb : 0 < b) (hs' : src ≤ 2 ^ 53) (hb' : b * dst ≤ 2 ^ 53) :
    |binary64.rnd ((dst:ℚ) / (b * dst : ℕ)) - 1 / b| ≤ 1 / b * (3 * 2 ^ (-53 : ℤ)) ∧
    |binary64.rnd ((dst:ℚ) / src) - binary64.rnd (((b * dst : ℕ):ℚ) / src) / b| ≤
      binary64.rnd (((b * dst : ℕ):ℚ) / src) / b * (3 * 2 ^ (-53 : ℤ)) := by
  have hu0 : (0:ℚ) < 2 ^ (-53:ℤ) := two_zpow_pos _
  have hu1 : (2:ℚ) ^ (-53:ℤ) ≤ 1 / 8 := by norm_num
  have key : ∀ d s : Nat, 0 < d → 0 < s → s ≤ 2 ^ 53 → |binary64.rnd ((d:ℚ) / s) - d / s| ≤ d / s * 2 ^ (-53:ℤ) := by
    intro d s h0 h1 h2
    have hsq : (0:ℚ) < s := by exact_mod_cast h1
    have := delay_slots (d := s) (X := d) h0 h1 h2 rfl
    rw [show binary64.rnd ((d:ℚ) / s) - d / s = (binary64.rnd ((d:ℚ) / s) * s - d) / s by field_simp, abs_div, abs_of_pos hsq,
      div_le_iff₀ hsq]
    calc _ ≤ _ := this
      _ = _ := by field_simp
  have hbq : (0:ℚ) < b := by exact_mod_cast hb
  have hdq : (0:ℚ) < dst := by exact_mod_cast hd
  have hsq : (0:ℚ) < src := by exact_mod_cast hs
  constructor
  · have := key dst (b * dst) hd (by positivity) hb'
    have e : (dst:ℚ) / (b * dst : ℕ) = 1 / b := by push_cast; field_simp
    rw [e] at this ⊢
    refine this.trans (mul_le_mul_of_nonneg_left (by linarith) (by positivity))
  · have h1 := key dst src hd hs hs'
    have h2 := key (b * dst) src (by positivity) hs hs'
    set r₁ := binary64.rnd (((b * dst : ℕ):ℚ) / src)
    set r₃ := binary64.rnd ((dst:ℚ) / src)
    have e : ((b * dst : ℕ):ℚ) / src = (dst:ℚ) / src * b := by push_cast; ring
    rw [e] at h2
    set ρ := (dst:ℚ) / src
    have hρ : 0 < ρ := by positivity
    have h3 : |r₁ / b - ρ| ≤ ρ * 2 ^ (-53:ℤ) := by
      rw [show r₁ / b - ρ = (r₁ - ρ * b) / b by field_simp, abs_div, abs_of_pos hbq, div_le_iff₀ hbq]
      linarith
    have h4 : ρ ≤ r₁ / b * (3 / 2) := by
      have := (abs_le.mp h3).1
      nlinarith
    have h5 : ρ * 2 ^ (-53:ℤ) ≤ r₁ / b * (3 / 2) * 2 ^ (-53:ℤ) := mul_le_mul_of_nonneg_right h4 hu0.le
    generalize (2:ℚ) ^ (-53:ℤ) = u at *
    generalize r₁ / (b:ℚ) = R at *
    rw [abs_le] at *
    constructor <;> linarith [h1.1, h1.2, h3.1, h3.2]

/-- Nine samples at 12 Hz. -/
def exNine : Audio .mono .ch64 :=
  ⟨lit 12, [#v[lit 0.5], #v[lit (-0.25)], #v[lit 0.125], #v[lit 0.75], #v[lit 0], #v[lit 0.5], #v[lit (-1)], #v[lit 0.25],
    #v[lit 1]]⟩
/-- The values of `exNine`. -/
def exNineVal (j : Nat) : ℚ := [0.5, -0.25, 0.125, 0.75, 0, 0.5, -1, 0.25, 1].getD j 0
/-- Silent slots. -/
def exSlots (n : Nat) (rate : ℚ) : Sink .mono .ch64 := ⟨lit rate, .dflt, List.replicate n Frame.dflt⟩
/-- Six slots at 8 Hz. -/
def exMid : Sink .mono .ch64 := (((exSlots 6 8).stream 10 (.audio exNine)).out (by decide +kernel)).1

/-- From 12 Hz to 8 Hz and then to 4 Hz. -/
example := C117_partial 10 7 10 2 (exSlots 6 8) exMid (exSlots 3 4) _ (exSlots 3 4) _ (.audio exNine) _ _ _ rfl
  (R.returns₂ (x := (exSlots 6 8).stream 10 (.audio exNine)) (by decide +kernel))
  (R.returns₂ (x := (exSlots 3 4).stream 7 (.audio ⟨lit 8, exMid.buf⟩)) (by decide +kernel))
  (R.returns₂ (x := (exSlots 3 4).stream 10 (.audio exNine)) (by decide +kernel)) rfl rfl rfl
  (binary64.rnd ((2 * 4 : Nat) / (12 : Nat))) (binary64.rnd ((4 : Nat) / (2 * 4 : Nat))) (binary64.rnd ((4 : Nat) / (12 : Nat)))
  (3 * 2 ^ (-53 : ℤ)) (by decide +kernel) (by decide +kernel) (by decide +kernel) (by decide)
  (by decide +kernel) (by decide +kernel) (by decide +kernel) (by decide +kernel) (by decide +kernel) (by decide +kernel)
  (two_ratios (dst := 4) (src := 12) (by norm_num) (by norm_num) (by norm_num) (by norm_num) (by norm_num)).1
  (two_ratios (dst := 4) (src := 12) (by norm_num) (by norm_num) (by norm_num) (by norm_num) (by norm_num)).2
  (by decide +kernel) (by decide +kernel) (by decide +kernel) (by decide +kernel) (by decide +kernel) 0 (by decide)
  (.inr (.inl rfl)) exNineVal (by
    intro j
    match j with
    | 0 | 1 | 2 | 3 | 4 | 5 | 6 | 7 | 8 => decide +kernel
    | j + 9 => simp [exNineVal]) (by
    intro j f hf x hx
    match j with
    | 0 | 1 | 2 | 3 | 4 | 5 | 6 | 7 | 8 => cases hf; cases hx; decide +kernel
    | j + 9 => cases hf) 2 (by decide +kernel) (by decide +kernel) (by decide +kernel)

/-- Seven samples at 6 Hz. -/
def exFourth : Audio .mono .ch64 :=
  ⟨lit 6, [#v[lit 0], #v[lit 0], #v[lit 0], #v[lit 0], #v[lit 0.75], #v[lit 0], #v[lit 0]]⟩

/-- C117 is false for other second factors, by example: from rate 6 to 3 to 2. An impulse in frame 4 reaches slot 1 with
1/8 in two steps, but (up to rounding) not at all in one. -/
theorem C117_false :
    ((exSlots 3 3).stream 9 (.audio exFourth)).map
      (fun r => r.1.buf) = .ok [#v[lit 0], #v[lit 0], #v[lit 0.375]] ∧
    ((exSlots 2 2).stream 9 (.audio (k := .mono) (c := .ch64) ⟨lit 3, [#v[lit 0], #v[lit 0], #v[lit 0.375]]⟩)).map (fun r => r.1.buf[1]?) =
      .ok (some #v[lit (1 / 8)]) ∧
    ((exSlots 2 2).stream 9 (.audio exFourth)).map
      (fun r => r.1.buf[1]?) = .ok (some #v[lit (3 / 2 ^ 56)]) := by
  refine ⟨?_, ?_, ?_⟩ <;> decide +kernel

end Fon
