import Verif.Props.Line
import Verif.Props.Rising

/-!
# C154: resampling to a lower rate adds no movement

The movement of a signal is the sum of the differences between neighbouring samples, all taken as positive.
-/

namespace Fon
open Fon.Fl hiding min max
open Fon.Fmt Fon.Sink
variable {k k' : Kind} {c c' : ChTy}

/-- Summation by parts. -/
theorem by_parts (w G : Nat → ℚ) (h0 : G 0 = 0) (n : Nat) :
    ∑ j ∈ Finset.range (n + 1), w j * (G (j + 1) - G j) =
      w n * G (n + 1) - ∑ j ∈ Finset.range n, (w (j + 1) - w j) * G (j + 1) := by
  induction n with
  | zero => simp [h0]
  | succ n ih => rw [Finset.sum_range_succ, ih, Finset.sum_range_succ]; ring

theorem ramp_anti {x y p : ℚ} (h : x ≤ y) : ramp y p ≤ ramp x p := by
  unfold ramp; gcongr

/-- The difference of two neighbouring slots is a mean of differences of neighbouring frames. -/
theorem slot_diff {r e x : ℚ} (hr : 0 < r) (hx : 1 ≤ x) (he : 0 ≤ e) (n : Nat) (w : Nat → ℚ) (hw : ∀ j, j < n → |w j| ≤ 1)
    (hn : x + 1 - e ≤ r * n - r) :
    |∑ j ∈ Finset.range n, w j * share r (x + 1) (r * j) - ∑ j ∈ Finset.range n, w j * share r x (r * j)| ≤
      e + ∑ j ∈ Finset.range (n - 1), |w (j + 1) - w j| * (ramp x (r * j) - ramp (x + 1) (r * j)) := by
  match n with
  | 0 => simpa using he
  | n + 1 =>
    have hG : ∀ j : Nat, share r (x + 1) (r * j) - share r x (r * j) =
        (ramp (x + 1) (r * (j + 1 : ℕ) - r) - ramp x (r * (j + 1 : ℕ) - r)) - (ramp (x + 1) (r * j - r) - ramp x (r * j - r)) := by
      intro j
      unfold share
      rw [show r * ((j + 1 : ℕ):ℚ) - r = r * j by push_cast; ring]
      ring
    rw [← Finset.sum_sub_distrib]
    simp only [← mul_sub, hG]
    have h0 : ramp (x + 1) (r * (0:ℕ) - r) - ramp x (r * (0:ℕ) - r) = 0 := by
      rw [ramp_lo (by push_cast; linarith), ramp_lo (by push_cast; linarith), sub_self]
    rw [by_parts w (fun j : Nat => ramp (x + 1) (r * j - r) - ramp x (r * j - r)) h0 n]
    have e1 : |w n * (ramp (x + 1) (r * (n + 1 : ℕ) - r) - ramp x (r * (n + 1 : ℕ) - r))| ≤ e := by
      rw [abs_mul]
      refine (mul_le_of_le_one_left (abs_nonneg _) (hw n (by omega))).trans ?_
      have h1 := ramp_anti (p := r * (n + 1 : ℕ) - r) (by linarith : x ≤ x + 1)
      rw [abs_sub_comm, abs_of_nonneg (by linarith)]
      have h2 := (ramp_range x (r * (n + 1 : ℕ) - r)).2
      have h3 := ramp_mono (s := x + 1) hn
      have h4 := ramp_lip (x + 1) (x + 1) (x + 1 - e)
      rw [ramp_hi (le_refl (x + 1)), sub_sub_cancel, abs_of_nonneg he] at h4
      have := le_abs_self (1 - ramp (x + 1) (x + 1 - e))
      linarith
    have e2 : |∑ j ∈ Finset.range n, (w (j + 1) - w j) * (ramp (x + 1) (r * (j + 1 : ℕ) - r) - ramp x (r * (j + 1 : ℕ) - r))| ≤
        ∑ j ∈ Finset.range n, |w (j + 1) - w j| * (ramp x (r * j) - ramp (x + 1) (r * j)) := by
      refine (Finset.abs_sum_le_sum_abs _ _).trans (Finset.sum_le_sum fun j _ => ?_)
      rw [show r * ((j + 1 : ℕ):ℚ) - r = r * j by push_cast; ring, abs_mul, abs_sub_comm (ramp (x + 1) (r * j)),
        abs_of_nonneg (sub_nonneg.mpr (ramp_anti (p := r * j) (by linarith : x ≤ x + 1)))]
    exact (abs_sub _ _).trans (add_le_add e1 e2)

/-- How many frames there are from the middle of a slot to the middle of the next one. -/
theorem sum_tent {r x : ℚ} (hr : 0 < r) (hr1 : r ≤ 1) (hx : 1 ≤ x) (n : Nat) :
    ∑ j ∈ Finset.range n, (ramp x (r * j) - ramp (x + 1) (r * j)) ≤ 1 / r + r / 4 := by
  have hnn : ∀ j : Nat, 0 ≤ ramp x (r * j) - ramp (x + 1) (r * j) := fun j =>
    sub_nonneg.mpr (ramp_anti (by linarith))
  obtain ⟨m, hm⟩ : ∃ m : Nat, (x + 1) / r ≤ m := ⟨_, Nat.le_ceil _⟩
  rw [div_le_iff₀ hr] at hm
  -- so many frames that both slots are filled
  refine (Finset.sum_le_sum_of_subset_of_nonneg (Finset.range_mono (Nat.le_add_right n m)) (fun j _ _ => hnn j)).trans ?_
  set M := n + m with hM
  have hMq : x + 1 ≤ r * M := by
    have : (m:ℚ) ≤ M := by exact_mod_cast Nat.le_add_left m n
    nlinarith
  have sq : ∀ t : ℚ, t * (r - t) ≤ 2 * (r ^ 2 / 8) := fun t => by nlinarith [sq_nonneg (t - r / 2)]
  have hfull : r * ((M + 1 : ℕ):ℚ) - r = r * M := by push_cast; ring
  have tot : ∀ y : ℚ, 1 ≤ y → y ≤ x + 1 → ∑ j ∈ Finset.range (M + 1), share r y (r * j) = 1 := fun y h1 h2 => by
    have := sum_share r 0 y (M + 1)
    simp only [zero_add] at this
    rw [this, hfull, ramp_hi (by linarith), ramp_lo (by linarith), sub_zero]
  have mom : ∀ y : ℚ, 1 ≤ y → y ≤ x + 1 → |∑ j ∈ Finset.range (M + 1), r * j * share r y (r * j) - (r / 2 + (y - 1 / 2))| ≤ r ^ 2 / 8 := by
    intro y h1 h2
    obtain ⟨t1, t2, _⟩ := moment_steps (K := r ^ 2 / 8) hr hr1 h1 (by positivity) (fun j _ _ => sq _) (fun j _ _ => sq _) (M + 1)
    rw [hfull, ramp_hi (by linarith : y ≤ r * M)] at t1 t2
    have e : ∑ j ∈ Finset.range (M + 1), (r * j - r / 2 - (y - 1 / 2)) * share r y (r * j) =
        ∑ j ∈ Finset.range (M + 1), r * j * share r y (r * j) - (r / 2 + (y - 1 / 2)) := by
      rw [← mul_one (r / 2 + (y - 1 / 2)), ← tot y h1 h2, Finset.mul_sum, ← Finset.sum_sub_distrib]
      exact Finset.sum_congr rfl fun j _ => by rw [tot y h1 h2]; ring
    rw [e] at t1 t2
    rw [abs_le]
    constructor <;> linarith
  have m0 := abs_le.mp (mom x hx (by linarith))
  have m1 := abs_le.mp (mom (x + 1) (by linarith) le_rfl)
  have h0 : ramp (x + 1) (r * (0:ℕ) - r) - ramp x (r * (0:ℕ) - r) = 0 := by
    rw [ramp_lo (by push_cast; linarith), ramp_lo (by push_cast; linarith), sub_self]
  have bp := by_parts (fun j => r * j) (fun j : Nat => ramp (x + 1) (r * j - r) - ramp x (r * j - r)) h0 M
  simp only [hfull] at bp
  rw [ramp_hi hMq, ramp_hi (by linarith : x ≤ r * M), sub_self, mul_zero, zero_sub] at bp
  have e1 : ∑ j ∈ Finset.range (M + 1), r * (j:ℚ) * ((ramp (x + 1) (r * (j + 1 : ℕ) - r) - ramp x (r * (j + 1 : ℕ) - r)) -
      (ramp (x + 1) (r * j - r) - ramp x (r * j - r))) =
      ∑ j ∈ Finset.range (M + 1), r * j * share r (x + 1) (r * j) - ∑ j ∈ Finset.range (M + 1), r * j * share r x (r * j) := by
    rw [← Finset.sum_sub_distrib]
    refine Finset.sum_congr rfl fun j _ => ?_
    unfold share
    rw [show r * ((j + 1 : ℕ):ℚ) - r = r * j by push_cast; ring]
    ring
  have e2 : ∑ j ∈ Finset.range M, (r * ((j + 1 : ℕ):ℚ) - r * j) *
      (ramp (x + 1) (r * (j + 1 : ℕ) - r) - ramp x (r * (j + 1 : ℕ) - r)) =
      -(r * ∑ j ∈ Finset.range M, (ramp x (r * j) - ramp (x + 1) (r * j))) := by
    rw [Finset.mul_sum, ← Finset.sum_neg_distrib]
    refine Finset.sum_congr rfl fun j _ => ?_
    rw [show r * ((j + 1 : ℕ):ℚ) - r = r * j by push_cast; ring]
    push_cast; ring
  rw [e1, e2, neg_neg] at bp
  have e3 : 1 / r + r / 4 = (1 + r ^ 2 / 4) / r := by field_simp
  rw [e3, le_div_iff₀ hr]
  linarith

/-- Neighbouring slots and neighbouring frames. -/
theorem slot_move (fuel : Nat) (s s' : Sink k c) (st : Src k' c') (it : It k' c')
    (h : s.stream fuel st = .ok (s', it)) (ho : s.res.offseti = lit 0) (r : ℚ)
    (hq : (ratioOf s.rate st.rate).Is r) (hr : 0 < r) (hr1 : r ≤ 1) (hb : (s.buf.length : ℚ) + 1 ≤ r * 2 ^ 52)
    (i : Nat) (hi : i < k.chans) (w : Nat → ℚ)
    (hw : ∀ j f, st.nth j = .ok (some f) → ∀ g : Frame k c, f.convert c = .ok g → SampleVal c g[i] (w j) ∧ |w j| ≤ 1) :
    ∃ (n : Nat) (v : Nat → ℚ), Takes (ratioOf s.rate st.rate) (lit 0) st.len s.buf.length n ∧
      (∀ x, InDst (ratioOf s.rate st.rate) st.len s.buf.length x → ∃ y : Frame k c, s'.buf[x]? = some y ∧ SampleVal c y[i] (v x)) ∧
      ∀ x : Nat, 1 ≤ x → InDst (ratioOf s.rate st.rate) st.len s.buf.length (x + 1) → |v (x + 1) - v x| ≤
        ∑ j ∈ Finset.range (n - 1), |w (j + 1) - w j| * (ramp x (r * j) - ramp (x + 1) (r * j)) + 2 * boxErr c r s.buf.length := by
  obtain ⟨n, g, a1, a2, a0, _⟩ := C58_mix fuel s s' st it h
  rw [ho] at a1 a0
  have hg : ∀ j, j < n → SampleVal c (g j)[i] (w j) ∧ |w j| ≤ 1 := fun j hj => by
    obtain ⟨f, f1, f2⟩ := a2 j hj
    exact hw j f f1 _ f2
  obtain ⟨hn, hbox⟩ := box_any a1 hq hr hr1 hb i hi w g hg
  choose v v1 v2 using hbox
  refine ⟨n, v, a1, fun x hx => ⟨_, a0 x hx, v1 x⟩, fun x hx1 hx => ?_⟩
  have e1 : ∀ x : Nat, ∑ j ∈ Finset.range n, w j * overlap (r * j - r) (r * j) (x - 1) x =
      ∑ j ∈ Finset.range n, w j * share r x (r * j) := fun x =>
    Finset.sum_congr rfl (fun j _ => by rw [share_overlap hr.le])
  have b0 := v2 x
  have b1 := v2 (x + 1)
  have hreach := takes_reach a1 hq hr hr1 hn hx
  rw [e1] at b0 b1
  push_cast at b1 hreach
  have hu0 : (0:ℚ) < 2 ^ (-53:ℤ) := two_zpow_pos _
  have d := slot_diff hr (by exact_mod_cast hx1 : (1:ℚ) ≤ x) (by positivity) n w (fun j hj => (hg j hj).2) hreach
  have hB : 0 ≤ ((s.buf.length:ℚ) + 1) * 2 ^ (-53:ℤ) := by positivity
  rw [boxErr]
  generalize (mixErr c + 5 * 2 ^ (-53 : ℤ) + 2 * (((s.buf.length:ℚ) + 1) * 2 ^ (-53 : ℤ))) * (1 / r + 3) = E at *
  generalize ((s.buf.length:ℚ) + 1) * 2 ^ (-53:ℤ) = u at *
  generalize ∑ j ∈ Finset.range (n - 1), |w (j + 1) - w j| * (ramp x (r * j) - ramp (x + 1) (r * j)) = T at *
  rw [abs_le] at *
  constructor <;> linarith [b0.1, b0.2, b1.1, b1.2, d.1, d.2]

/-- C154: when the rate does not go up, the slots from `a` to `a + L` move at most as much as the frames that are played then, up
to the accuracy of the box filter.  The first slot is left out. -/
theorem C154_partial (fuel : Nat) (s s' : Sink k c) (st : Src k' c') (it : It k' c')
    (h : s.stream fuel st = .ok (s', it)) (ho : s.res.offseti = lit 0) (r : ℚ)
    (hq : (ratioOf s.rate st.rate).Is r) (hr : 0 < r) (hr1 : r ≤ 1) (hb : (s.buf.length : ℚ) + 1 ≤ r * 2 ^ 52)
    (i : Nat) (hi : i < k.chans) (w : Nat → ℚ)
    (hw : ∀ j f, st.nth j = .ok (some f) → ∀ g : Frame k c, f.convert c = .ok g → SampleVal c g[i] (w j) ∧ |w j| ≤ 1) :
    ∃ (n : Nat) (v : Nat → ℚ), Takes (ratioOf s.rate st.rate) (lit 0) st.len s.buf.length n ∧
      (∀ x, InDst (ratioOf s.rate st.rate) st.len s.buf.length x → ∃ y : Frame k c, s'.buf[x]? = some y ∧ SampleVal c y[i] (v x)) ∧
      ∀ a L : Nat, 1 ≤ a → InDst (ratioOf s.rate st.rate) st.len s.buf.length (a + L) →
        ∑ x ∈ Finset.range L, |v (a + x + 1) - v (a + x)| ≤
          ∑ j ∈ Finset.range (n - 1) with (a:ℚ) - 1 < r * (j:ℕ) ∧ r * (j:ℕ) < a + L, |w (j + 1) - w j| +
            L * (2 * boxErr c r s.buf.length) := by
  obtain ⟨n, v, a1, v1, v2⟩ := slot_move fuel s s' st it h ho r hq hr hr1 hb i hi w hw
  refine ⟨n, v, a1, v1, fun a L ha hx => ?_⟩
  have hstep : ∀ x ∈ Finset.range L, |v (a + x + 1) - v (a + x)| ≤
      ∑ j ∈ Finset.range (n - 1), |w (j + 1) - w j| * (ramp (a + x : ℕ) (r * j) - ramp (a + (x + 1) : ℕ) (r * j)) +
        2 * boxErr c r s.buf.length := fun x hxL => by
    rw [Finset.mem_range] at hxL
    have := v2 (a + x) (by omega) ⟨by have := hx.1; omega, fun l hl => by have := hx.2 l hl; omega⟩
    rwa [show ((a + (x + 1) : ℕ):ℚ) = ((a + x : ℕ):ℚ) + 1 by push_cast; ring]
  refine (Finset.sum_le_sum hstep).trans ?_
  rw [Finset.sum_add_distrib, Finset.sum_const, Finset.card_range, nsmul_eq_mul, Finset.sum_comm]
  refine add_le_add ?_ le_rfl
  rw [Finset.sum_filter]
  refine Finset.sum_le_sum fun j _ => ?_
  rw [← Finset.mul_sum, Finset.sum_range_sub' (fun x : Nat => ramp ((a + x : ℕ):ℚ) (r * j)) L]
  push_cast
  rw [add_zero]
  have h1 := ramp_range (a:ℚ) (r * j)
  have h2 := ramp_range ((a:ℚ) + L) (r * j)
  split
  · exact mul_le_of_le_one_right (abs_nonneg _) (by linarith)
  · rename_i hc
    rw [not_and_or, not_lt, not_lt] at hc
    rcases hc with hc | hc
    · have hL : (0:ℚ) ≤ L := Nat.cast_nonneg L
      rw [ramp_lo hc, ramp_lo (by linarith), sub_self, mul_zero]
    · have hL : (0:ℚ) ≤ L := Nat.cast_nonneg L
      rw [ramp_hi (by linarith : (a:ℚ) ≤ r * j), ramp_hi hc, sub_self, mul_zero]

/-- C147, how fast the result changes: if neighbouring frames around a slot differ by at most `d`, then the slot and the next one
differ by at most `d` for each frame of a slot (`1 / r` of them) and at most a quarter more, up to the accuracy of the box filter. -/
theorem C147_slope (fuel : Nat) (s s' : Sink k c) (st : Src k' c') (it : It k' c')
    (h : s.stream fuel st = .ok (s', it)) (ho : s.res.offseti = lit 0) (r : ℚ)
    (hq : (ratioOf s.rate st.rate).Is r) (hr : 0 < r) (hr1 : r ≤ 1) (hb : (s.buf.length : ℚ) + 1 ≤ r * 2 ^ 52)
    (i : Nat) (hi : i < k.chans) (w : Nat → ℚ)
    (hw : ∀ j f, st.nth j = .ok (some f) → ∀ g : Frame k c, f.convert c = .ok g → SampleVal c g[i] (w j) ∧ |w j| ≤ 1)
    (x : Nat) (hx1 : 1 ≤ x) (hx : InDst (ratioOf s.rate st.rate) st.len s.buf.length (x + 1)) (d : ℚ) (hd : 0 ≤ d)
    (hm : ∀ j : Nat, (x:ℚ) - 1 < r * j → r * j < x + 1 → |w (j + 1) - w j| ≤ d) :
    ∃ (f g : Frame k c) (a b : ℚ), s'.buf[x]? = some f ∧ s'.buf[x + 1]? = some g ∧ SampleVal c f[i] a ∧ SampleVal c g[i] b ∧
      |b - a| ≤ d * (1 / r + r / 4) + 2 * boxErr c r s.buf.length := by
  obtain ⟨n, v, a1, v1, v2⟩ := slot_move fuel s s' st it h ho r hq hr hr1 hb i hi w hw
  obtain ⟨f, f1, f2⟩ := v1 x ⟨by have := hx.1; omega, fun l hl => by have := hx.2 l hl; omega⟩
  obtain ⟨g, g1, g2⟩ := v1 (x + 1) hx
  refine ⟨f, g, v x, v (x + 1), f1, g1, f2, g2, (v2 x hx1 hx).trans (add_le_add ?_ le_rfl)⟩
  refine le_trans ?_ (mul_le_mul_of_nonneg_left (sum_tent hr hr1 (by exact_mod_cast hx1 : (1:ℚ) ≤ x) (n - 1)) hd)
  rw [Finset.mul_sum]
  refine Finset.sum_le_sum fun j _ => ?_
  by_cases hc : (x:ℚ) - 1 < r * j ∧ r * j < x + 1
  · exact mul_le_mul_of_nonneg_right (hm j hc.1 hc.2) (sub_nonneg.mpr (ramp_anti (by linarith)))
  · rw [not_and_or, not_lt, not_lt] at hc
    rcases hc with hc | hc
    · rw [ramp_lo hc, ramp_lo (by linarith), sub_self, mul_zero, mul_zero]
    · rw [ramp_hi (by linarith : (x:ℚ) ≤ r * j), ramp_hi hc, sub_self, mul_zero, mul_zero]

/-- C154 for `Audio::with_stream`, for whole rates: audio at a lower rate moves at most as much as the audio it was made from,
over any stretch that leaves out the first slot and the last. -/
theorem C154_withStream {rate sr : F64} {b : Audio k c} {st : Src k' c'} {dst src l : Nat} (h : Audio.withStream rate st = .ok b)
    (hl : st.len = some l) (hd : rate.Is (dst:ℚ)) (hsr : st.rate = some sr) (hs : sr.Is (src:ℚ)) (hd0 : 0 < dst) (hle : dst ≤ src)
    (hs' : src ≤ 2 ^ 51) (hN : dst * l < 2 ^ 51) (hb : dst * l + 2 * src ≤ dst * 2 ^ 51)
    (i : Nat) (hi : i < k.chans) (w : Nat → ℚ)
    (hw : ∀ j f, st.nth j = .ok (some f) → ∀ g : Frame k c, f.convert c = .ok g → SampleVal c g[i] (w j) ∧ |w j| ≤ 1) :
    ∃ v : Nat → ℚ, (∀ x, x + 1 < b.len → ∃ y : Frame k c, b.get x = some y ∧ SampleVal c y[i] (v x)) ∧
      ∀ a L : Nat, 1 ≤ a → a + L + 1 < b.len →
        ∑ x ∈ Finset.range L, |v (a + x + 1) - v (a + x)| ≤
          ∑ j ∈ Finset.range (l - 1) with (a:ℚ) - 1 < binary64.rnd ((dst:ℚ) / src) * (j:ℕ) ∧
            binary64.rnd ((dst:ℚ) / src) * (j:ℕ) < a + L, |w (j + 1) - w j| +
            L * (2 * boxErr c (binary64.rnd ((dst:ℚ) / src)) b.len) := by
  have h0 : 0 < src := by omega
  have hsq : (0:ℚ) < src := by exact_mod_cast h0
  have hdq : (0:ℚ) < dst := by exact_mod_cast hd0
  have hl51 : l ≤ 2 ^ 51 := le_trans (Nat.le_mul_of_pos_left _ hd0) hN.le
  have hlen := C49_partial rate sr dst src l hd hs h0 (by omega) (by omega) hs' st hl hsr b h
  obtain ⟨hratio, hpos⟩ := pos_int hd hs h0 hd0 hs' (hle.trans hs')
  have hrlo : (dst:ℚ) / src * (1 / 2) ≤ binary64.rnd ((dst:ℚ) / src) := by
    obtain ⟨_, _, _, g4, _⟩ := hpos 1 (by omega)
    rw [Nat.cast_one, mul_one, mul_one, Fmt.rnd_of_rep hratio.rep] at g4
    have : (0:ℚ) < (dst:ℚ) / src := by positivity
    nlinarith
  have hr0 : 0 < binary64.rnd ((dst:ℚ) / src) := lt_of_lt_of_le (by positivity) hrlo
  have hr1 : binary64.rnd ((dst:ℚ) / src) ≤ 1 := by
    have e0 : binary64.rnd 1 = 1 := Fmt.rnd_of_rep (by simpa using rep_nat53 (n := 1) (by norm_num))
    rw [← e0]
    refine Fmt.rnd_mono ?_
    rw [div_le_one hsq]; exact_mod_cast hle
  have hBup : (b.len:ℚ) < dst * l / src + 1 := by rw [hlen]; exact Nat.ceil_lt_add_one (by positivity)
  have hBq : (b.len:ℚ) + 1 ≤ binary64.rnd ((dst:ℚ) / src) * 2 ^ 52 := by
    have e1 : (dst * l / src + 2 : ℚ) ≤ dst / src * 2 ^ 51 := by
      rw [div_add' _ _ _ hsq.ne', div_mul_eq_mul_div]
      refine div_le_div_of_nonneg_right ?_ hsq.le
      exact_mod_cast hb
    linarith
  have hq : (ratioOf rate st.rate).Is (binary64.rnd ((dst:ℚ) / src)) := by rw [hsr]; exact hratio
  obtain ⟨s, it, e1, e2⟩ := with_slots h hq hr0 hl
  have hin : ∀ x, x + 1 < b.len → InDst (ratioOf rate st.rate) st.len b.len x ∧ b.get x = s.buf[x]? := fun x hx =>
    e2 x (by omega) (by rw [hsr]; exact before_last hd hs h0 hd0 hs' (hle.trans hs') hN (by rwa [← hlen]))
  have len : (List.replicate b.len (Frame.dflt : Frame k c)).length = b.len := List.length_replicate
  obtain ⟨n, v, a1, v1, v2⟩ := C154_partial (l + 1) _ s st it e1 rfl _ hq hr0 hr1 (by rw [len]; exact hBq) i hi w hw
  simp only [len] at a1 v1 v2
  refine ⟨v, fun x hx => ?_, fun a L ha hx => ?_⟩
  · rw [(hin x hx).2]; exact v1 x (hin x hx).1
  · refine (v2 a L ha (hin _ hx).1).trans (add_le_add ?_ le_rfl)
    have := a1.2.1 l hl
    exact Finset.sum_le_sum_of_subset_of_nonneg (Finset.filter_subset_filter _ (Finset.range_mono (by omega)))
      (fun j _ _ => abs_nonneg _)

/-! ## Examples -/

/-- The slots of five samples at 12 Hz, played at 8 Hz. -/
example := C154_partial 6 (exSink 3 8) _ (.audio (exAudio 12)) _
  (R.returns₂ (x := (exSink 3 8).stream 6 (.audio (exAudio 12))) (by decide +kernel)) rfl
  (Fmt.rnd binary64 (2 / 3)) (by decide +kernel) (by decide +kernel) (by decide +kernel) (by decide +kernel)
  0 (by decide) exStair (fun j f hf g hg => ⟨exStair_val j f hf g hg, exStair_le j⟩)

example : InDst (ratioOf (exSink 3 8).rate (Src.audio (exAudio 12)).rate) (Src.audio (exAudio 12)).len (exSink 3 8).buf.length (1 + 1) := by
  decide +kernel

example := C147_slope 6 (exSink 3 8) _ (.audio (exAudio 12)) _
  (R.returns₂ (x := (exSink 3 8).stream 6 (.audio (exAudio 12))) (by decide +kernel)) rfl
  (Fmt.rnd binary64 (2 / 3)) (by decide +kernel) (by decide +kernel) (by decide +kernel) (by decide +kernel)
  0 (by decide) exStair (fun j f hf g hg => ⟨exStair_val j f hf g hg, exStair_le j⟩) 1 le_rfl (by decide +kernel) (1 / 127)
  (by norm_num) (fun j _ _ => by
    have := exStair_near (j + 1) j
    rwa [show ((j + 1 : ℕ):ℚ) - j = 1 by push_cast; ring, abs_one, mul_one] at this)

example := C154_withStream (k := .mono) (c := .ch8) (dst := 8) (src := 12) (l := 5) (rate := lit 8) (sr := lit 12)
  (R.returns (x := (Audio.withStream (lit 8) (.audio (exAudio 12)) : R (Audio .mono .ch8))) (by decide +kernel)) rfl
  (by decide +kernel) rfl (by decide +kernel) (by decide) (by decide) (by decide) (by decide) (by decide) 0 (by decide) exStair
  (fun j f hf g hg => ⟨exStair_val j f hf g hg, exStair_le j⟩)

/-- The slots 1 and 2 of the four. -/
example : (Audio.withStream (lit 8) (.audio (exAudio 12)) : R (Audio .mono .ch8)).map (·.len) = .ok 4 := by decide +kernel

/-- C154 is false for a rate that goes up, and when the first slot counts: a signal that does not move at all gives 1, 0, 1 or
1/4, 1/2, 1/2 (at half the rate the first slot gets a single frame). -/
theorem C154_false :
    (Audio.withStream (lit 2) (.audio (k := .mono) (c := .ch64) ⟨lit 1, [#v[lit 0.5], #v[lit 0.5]]⟩) :
      R (Audio .mono .ch64)).map (·.frames) = .ok [#v[lit 1], #v[lit 0], #v[lit 1], #v[lit 0]] ∧
    (Audio.withStream (lit 1) (.audio (k := .mono) (c := .ch64) ⟨lit 2, List.replicate 6 #v[lit 0.5]⟩) :
      R (Audio .mono .ch64)).map (·.frames) = .ok [#v[lit 0.25], #v[lit 0.5], #v[lit 0.5]] := by
  decide +kernel

end Fon
