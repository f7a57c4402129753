import Verif.Props.Local
import Verif.Props.Length
import Verif.Props.Periodic
import Verif.Props.Rising

/-!
# C148: a lower rate samples the same sound

Slot `x` is the mean of the frames over its time.  Its middle is `(x - (1 - r) / 2) / r` frames after the first frame: half a slot
less half a frame before frame `x / r`.
-/

namespace Fon
open Fon.Fl hiding min max
open Fon.Fmt Fon.Sink
variable {k k' : Kind} {c c' : ChTy}

/-- What is missing to the first moment, for the frames before `n`; `K` bounds what the two frames at the ends of the slot add. -/
theorem moment_steps {r x K : ℚ} (hr : 0 < r) (hr1 : r ≤ 1) (hx : 1 ≤ x) (hK : 0 ≤ K)
    (k1 : ∀ j : Nat, x - 1 < r * j → r * j < x - 1 + r → (r * j - (x - 1)) * (r - (r * j - (x - 1))) ≤ 2 * K)
    (k2 : ∀ j : Nat, x < r * j → r * j < x + r → (r * j - x) * (r - (r * j - x)) ≤ 2 * K) (n : Nat) :
    let T := (∑ j ∈ Finset.range n, (r * j - r / 2 - (x - 1 / 2)) * share r x (r * j)) +
      ramp x (r * n - r) * (1 - ramp x (r * n - r)) / 2;
    (-K ≤ T) ∧ T ≤ K ∧ (r * n - r ≤ x - 1 → T = 0) ∧ (r * n - r ≤ x → T ≤ 0) := by
  induction n with
  | zero =>
    have : ramp x (r * (0:ℕ) - r) = 0 := ramp_lo (by push_cast; linarith)
    simp only [Finset.sum_range_zero, this]
    norm_num
    exact hK
  | succ n ih =>
    simp only at ih ⊢
    rw [Finset.sum_range_succ]
    unfold share at ih ⊢
    rw [show r * ((n + 1 : ℕ):ℚ) - r = r * n by push_cast; ring]
    generalize ∑ j ∈ Finset.range n, (r * (j:ℚ) - r / 2 - (x - 1 / 2)) * (ramp x (r * j) - ramp x (r * j - r)) = M at ih ⊢
    have k1 := k1 n
    have k2 := k2 n
    generalize r * (n:ℚ) = b at ih k1 k2 ⊢
    obtain ⟨i1, i2, i3, i4⟩ := ih
    rcases le_total b (x - 1) with h1 | h1
    · -- before the slot
      rw [ramp_lo (s := x) (x := b - r) (by linarith)] at i1 i2 i3 i4 ⊢
      rw [ramp_lo h1]
      have := i3 (by linarith)
      refine ⟨?_, ?_, fun _ => ?_, fun _ => ?_⟩ <;> linarith
    · rcases le_total b x with h2 | h2
      · rcases lt_or_ge (b - r) (x - 1) with h3 | h3
        · -- the frame in which the slot begins
          have h0 := i3 h3.le
          rw [ramp_lo h3.le] at h0 ⊢
          rw [ramp_mid h1 h2]
          have e : (b - r / 2 - (x - 1 / 2)) * (b - (x - 1) - 0) + (b - (x - 1)) * (1 - (b - (x - 1))) / 2 =
              -((b - (x - 1)) * (r - (b - (x - 1)))) / 2 := by ring
          have p : 0 ≤ (b - (x - 1)) * (r - (b - (x - 1))) := mul_nonneg (by linarith) (by linarith)
          rcases h1.eq_or_lt with h1' | h1'
          · have e0 : (b - (x - 1)) * (r - (b - (x - 1))) = 0 := by rw [h1']; ring
            refine ⟨?_, ?_, fun _ => ?_, fun _ => ?_⟩ <;> linarith
          · have := k1 h1' (by linarith)
            refine ⟨?_, ?_, fun _ => ?_, fun _ => ?_⟩ <;> linarith
        · -- within the slot
          rw [ramp_mid (s := x) (x := b - r) (by linarith) (by linarith)] at i1 i2 i3 i4 ⊢
          rw [ramp_mid h1 h2]
          have h4 := i4 (by linarith)
          have e : (b - r / 2 - (x - 1 / 2)) * (b - (x - 1) - (b - r - (x - 1))) + (b - (x - 1)) * (1 - (b - (x - 1))) / 2 =
              (b - r - (x - 1)) * (1 - (b - r - (x - 1))) / 2 := by ring
          refine ⟨?_, ?_, fun h5 => ?_, fun _ => ?_⟩
          · linarith
          · linarith
          · linarith
          · linarith
      · rcases lt_or_ge (b - r) x with h3 | h3
        · -- the frame in which the slot ends
          rw [ramp_mid (s := x) (x := b - r) (by linarith) (by linarith)] at i1 i2 i3 i4 ⊢
          rw [ramp_hi h2]
          have h4 := i4 (by linarith)
          have e : (b - r / 2 - (x - 1 / 2)) * (1 - (b - r - (x - 1))) =
              (b - r - (x - 1)) * (1 - (b - r - (x - 1))) / 2 + (b - x) * (r - (b - x)) / 2 := by ring
          have p : 0 ≤ (b - x) * (r - (b - x)) := mul_nonneg (by linarith) (by linarith)
          rcases h2.eq_or_lt with h2' | h2'
          · have e0 : (b - x) * (r - (b - x)) = 0 := by rw [h2']; ring
            refine ⟨?_, ?_, fun _ => ?_, fun _ => ?_⟩ <;> linarith
          · have := k2 h2' (by linarith)
            refine ⟨?_, ?_, fun _ => ?_, fun _ => ?_⟩ <;> linarith
        · rw [ramp_hi h3] at i1 i2 i3 i4 ⊢
          rw [ramp_hi h2]
          refine ⟨?_, ?_, fun _ => ?_, fun _ => ?_⟩ <;> linarith

/-- The mean over a slot of a signal that is near a straight line there. -/
theorem line_mean {r x K e e0 v β : ℚ} (hr : 0 < r) (hr1 : r ≤ 1) (hx : 1 ≤ x) (hK : 0 ≤ K) (he : 0 ≤ e) (he0 : 0 ≤ e0)
    (hv : |v| ≤ 1)
    (k1 : ∀ j : Nat, x - 1 < r * j → r * j < x - 1 + r → (r * j - (x - 1)) * (r - (r * j - (x - 1))) ≤ 2 * K)
    (k2 : ∀ j : Nat, x < r * j → r * j < x + r → (r * j - x) * (r - (r * j - x)) ≤ 2 * K) {n : Nat}
    (hn : x - e ≤ r * n - r) (w : Nat → ℚ)
    (hw : ∀ j : Nat, j < n → x - 1 < r * j → r * j < x + r → |w j - (v + β * (j - (x - (1 - r) / 2) / r))| ≤ e0) :
    |∑ j ∈ Finset.range n, w j * share r x (r * j) - v| ≤ |β| * ((K + e / 2) / r) + e0 + e := by
  have tot : ∑ j ∈ Finset.range n, share r x (r * j) = ramp x (r * n - r) := by
    have := sum_share r 0 x n
    simp only [zero_add] at this
    rw [this, ramp_lo (s := x) (x := 0 - r) (by linarith), sub_zero]
  obtain ⟨m1, m2, _, _⟩ := moment_steps hr hr1 hx hK k1 k2 n
  have y1 := (ramp_range x (r * n - r)).2
  have y0 := (ramp_range x (r * n - r)).1
  have y2 : 1 - e ≤ ramp x (r * n - r) := by
    have := ramp_lip x x (r * n - r)
    rw [ramp_hi (le_refl x)] at this
    rcases le_total x (r * n - r) with h' | h'
    · rw [ramp_hi h']; linarith
    · rw [abs_of_nonneg (by linarith : 0 ≤ x - (r * n - r))] at this
      have := le_abs_self (1 - ramp x (r * n - r))
      linarith
  -- the signal against the line
  have near : |∑ j ∈ Finset.range n, w j * share r x (r * j) -
      ∑ j ∈ Finset.range n, (v + β * (j - (x - (1 - r) / 2) / r)) * share r x (r * j)| ≤ e0 := by
    rw [← Finset.sum_sub_distrib]
    refine (Finset.abs_sum_le_sum_abs _ _).trans ?_
    calc _ ≤ ∑ j ∈ Finset.range n, e0 * share r x (r * j) := Finset.sum_le_sum fun j hj => by
          have p0 := share_nonneg (s := x) (p := r * j) hr.le
          rw [← sub_mul, abs_mul, abs_of_nonneg p0]
          by_cases h : x - 1 < r * j ∧ r * j < x + r
          · exact mul_le_mul_of_nonneg_right (hw j (Finset.mem_range.mp hj) h.1 h.2) p0
          · have : share r x (r * j) = 0 := by
              refine share_far hr ?_
              by_contra hc
              push Not at hc
              exact h hc
            simp [this]
      _ = e0 * ramp x (r * n - r) := by rw [← Finset.mul_sum, tot]
      _ ≤ e0 := mul_le_of_le_one_right he0 y1
  -- the mean of the line
  have line : ∑ j ∈ Finset.range n, (v + β * (j - (x - (1 - r) / 2) / r)) * share r x (r * j) =
      v * ramp x (r * n - r) + β / r * ∑ j ∈ Finset.range n, (r * j - r / 2 - (x - 1 / 2)) * share r x (r * j) := by
    rw [← tot, Finset.mul_sum, Finset.mul_sum, ← Finset.sum_add_distrib]
    refine Finset.sum_congr rfl fun j _ => ?_
    field_simp
    ring
  rw [line] at near
  generalize ∑ j ∈ Finset.range n, (r * (j:ℚ) - r / 2 - (x - 1 / 2)) * share r x (r * j) = M at *
  generalize ∑ j ∈ Finset.range n, w j * share r x (r * j) = S at *
  generalize ramp x (r * n - r) = y at *
  have hM : |M| ≤ K + e / 2 := by
    rw [abs_le]
    constructor <;> nlinarith
  have hβ : |β / r * M| ≤ |β| * ((K + e / 2) / r) := by
    rw [abs_mul, abs_div, abs_of_pos hr, mul_div_assoc', div_mul_eq_mul_div]
    exact div_le_div_of_nonneg_right (mul_le_mul_of_nonneg_left hM (abs_nonneg _)) hr.le
  have hv' : |v * y - v| ≤ e := by
    rw [show v * y - v = v * (y - 1) by ring, abs_mul, abs_of_nonpos (by linarith : y - 1 ≤ 0)]
    nlinarith [abs_nonneg v]
  have a1 := abs_le.mp near
  have a2 := abs_le.mp hβ
  have a3 := abs_le.mp hv'
  rw [abs_le]
  constructor <;> linarith

/-- The value of a slot for frames that are near a straight line. -/
theorem line_slot (fuel : Nat) (s s' : Sink k c) (st : Src k' c') (it : It k' c')
    (h : s.stream fuel st = .ok (s', it)) (ho : s.res.offseti = lit 0) (r : ℚ)
    (hq : (ratioOf s.rate st.rate).Is r) (hr : 0 < r) (hr1 : r ≤ 1) (hb : (s.buf.length : ℚ) + 1 ≤ r * 2 ^ 52)
    (i : Nat) (hi : i < k.chans) (x : Nat) (hx : InDst (ratioOf s.rate st.rate) st.len s.buf.length x) (hx1 : 1 ≤ x)
    (v β e K : ℚ) (hv : |v| ≤ 1) (he : 0 ≤ e) (hK : 0 ≤ K)
    (k1 : ∀ j : Nat, (x:ℚ) - 1 < r * j → r * j < x - 1 + r → (r * j - (x - 1)) * (r - (r * j - (x - 1))) ≤ 2 * K)
    (k2 : ∀ j : Nat, (x:ℚ) < r * j → r * j < x + r → (r * j - x) * (r - (r * j - x)) ≤ 2 * K)
    (hw : ∀ j f, st.nth j = .ok (some f) → ∀ g : Frame k c, f.convert c = .ok g →
      ∃ w, SampleVal c g[i] w ∧ |w| ≤ 1 ∧ ((x:ℚ) - 1 < r * j → r * j < x + r →
        |w - (v + β * (j - (x - (1 - r) / 2) / r))| ≤ e)) :
    ∃ (y : Frame k c) (b : ℚ), s'.buf[x]? = some y ∧ SampleVal c y[i] b ∧
      |b - v| ≤ |β| * ((K + (s.buf.length + 1) * 2 ^ (-53 : ℤ) / 2) / r) + e + boxErr c r s.buf.length := by
  obtain ⟨n, g, a1, a2, a0, _⟩ := C58_mix fuel s s' st it h
  rw [ho] at a1 a0
  have hv' : ∀ j, ∃ w, j < n → SampleVal c (g j)[i] w ∧ |w| ≤ 1 ∧ ((x:ℚ) - 1 < r * j → r * j < x + r →
      |w - (v + β * (j - (x - (1 - r) / 2) / r))| ≤ e) := by
    intro j
    by_cases hj : j < n
    · obtain ⟨f, f1, f2⟩ := a2 j hj
      obtain ⟨w, hw⟩ := hw j f f1 _ f2
      exact ⟨w, fun _ => hw⟩
    · exact ⟨0, fun hj' => absurd hj' hj⟩
  choose w hw' using hv'
  obtain ⟨hn, hbox⟩ := box_any a1 hq hr hr1 hb i hi w g (fun j hj => ⟨(hw' j hj).1, (hw' j hj).2.1⟩)
  obtain ⟨b, b1, b2⟩ := hbox x
  have e1 : ∑ j ∈ Finset.range n, w j * overlap (r * j - r) (r * j) (x - 1) x =
      ∑ j ∈ Finset.range n, w j * share r x (r * j) :=
    Finset.sum_congr rfl (fun j _ => by rw [share_overlap hr.le])
  rw [e1] at b2
  have hu0 : (0:ℚ) < 2 ^ (-53:ℤ) := two_zpow_pos _
  have b3 := line_mean hr hr1 (by exact_mod_cast hx1) hK (by positivity) he hv k1 k2
    (takes_reach a1 hq hr hr1 hn hx) w (fun j hj => (hw' j hj).2.2)
  refine ⟨_, b, a0 x hx, b1, ?_⟩
  rw [boxErr]
  generalize (2:ℚ) ^ (-53:ℤ) = u at *
  generalize |β| * ((K + (s.buf.length + 1) * u / 2) / r) = G at *
  generalize (mixErr c + 5 * u + 2 * ((s.buf.length + 1) * u)) * (1 / r + 3) = E at *
  have := abs_le.mp b2
  have := abs_le.mp b3
  rw [abs_le]
  constructor <;> linarith

/-- C148: when the rate does not go up, a slot (but the first) has the value that the signal has in the middle of its time.  If the
frames that are played during the slot are within `e` of a straight line that has the value `v` there and the slope `β` (per frame),
then the slot is `v`, up to `e`, an eighth of a slot of the slope, and the accuracy of the box filter. -/
theorem C148_partial (fuel : Nat) (s s' : Sink k c) (st : Src k' c') (it : It k' c')
    (h : s.stream fuel st = .ok (s', it)) (ho : s.res.offseti = lit 0) (r : ℚ)
    (hq : (ratioOf s.rate st.rate).Is r) (hr : 0 < r) (hr1 : r ≤ 1) (hb : (s.buf.length : ℚ) + 1 ≤ r * 2 ^ 52)
    (i : Nat) (hi : i < k.chans) (x : Nat) (hx : InDst (ratioOf s.rate st.rate) st.len s.buf.length x) (hx1 : 1 ≤ x)
    (v β e : ℚ) (hv : |v| ≤ 1) (he : 0 ≤ e)
    (hw : ∀ j f, st.nth j = .ok (some f) → ∀ g : Frame k c, f.convert c = .ok g →
      ∃ w, SampleVal c g[i] w ∧ |w| ≤ 1 ∧ ((x:ℚ) - 1 < r * j → r * j < x + r →
        |w - (v + β * (j - (x - (1 - r) / 2) / r))| ≤ e)) :
    ∃ (y : Frame k c) (b : ℚ), s'.buf[x]? = some y ∧ SampleVal c y[i] b ∧
      |b - v| ≤ |β| * (r / 8 + (s.buf.length + 1) * 2 ^ (-53 : ℤ) / (2 * r)) + e + boxErr c r s.buf.length := by
  have quad : ∀ t : ℚ, t * (r - t) ≤ 2 * (r ^ 2 / 8) := fun t => by nlinarith [sq_nonneg (t - r / 2)]
  obtain ⟨y, b, b1, b2, b3⟩ := line_slot fuel s s' st it h ho r hq hr hr1 hb i hi x hx hx1 v β e (r ^ 2 / 8) hv he (by positivity)
    (fun j _ _ => quad _) (fun j _ _ => quad _) hw
  refine ⟨y, b, b1, b2, ?_⟩
  have e2 : (r ^ 2 / 8 + (s.buf.length + 1) * 2 ^ (-53 : ℤ) / 2) / r =
      r / 8 + (s.buf.length + 1) * 2 ^ (-53 : ℤ) / (2 * r) := by field_simp
  rwa [e2] at b3

/-- From 12 Hz to 8 Hz; slot 1 is played while frames 1 and 2 (and the beginning of frame 3) are, and the samples rise by 1 / 127. -/
example := C148_partial 6 (exSink 3 8) _ (.audio (exAudio 12)) _
  (R.returns₂ (x := (exSink 3 8).stream 6 (.audio (exAudio 12))) (by decide +kernel)) rfl
  (binary64.rnd (2 / 3)) (by decide +kernel) (by decide +kernel) (by decide +kernel) (by decide +kernel)
  0 (by decide) 1 (by decide +kernel) le_rfl
  ((1 + (1 - (1 - binary64.rnd (2 / 3)) / 2) / binary64.rnd (2 / 3)) / 127) (1 / 127) 0 (by decide +kernel) le_rfl
  (fun j f hf g hg => ⟨exStair j, exStair_val j f hf g hg, exStair_le j, fun _ _ => by
    match j with
    | 0 | 1 | 2 | 3 | 4 => rw [exStair]; decide +kernel
    | j + 5 => cases hf⟩)

/-- C148 for a rate that is divided by a power of two: the slope leaves nothing but rounding. -/
theorem C148_half (fuel : Nat) (s s' : Sink k c) (st : Src k' c') (it : It k' c')
    (h : s.stream fuel st = .ok (s', it)) (ho : s.res.offseti = lit 0) (m : Nat)
    (hq : (ratioOf s.rate st.rate).Is (1 / 2 ^ m)) (hb : (s.buf.length + 1) * 2 ^ m ≤ 2 ^ 52)
    (i : Nat) (hi : i < k.chans) (x : Nat) (hx : InDst (ratioOf s.rate st.rate) st.len s.buf.length x) (hx1 : 1 ≤ x)
    (v β e : ℚ) (hv : |v| ≤ 1) (he : 0 ≤ e)
    (hw : ∀ j f, st.nth j = .ok (some f) → ∀ g : Frame k c, f.convert c = .ok g →
      ∃ w, SampleVal c g[i] w ∧ |w| ≤ 1 ∧ (2 ^ m * (x - 1) < j → j ≤ 2 ^ m * x →
        |w - (v + β * (j - (2 ^ m * x - (2 ^ m - 1) / 2)))| ≤ e)) :
    ∃ (y : Frame k c) (b : ℚ), s'.buf[x]? = some y ∧ SampleVal c y[i] b ∧
      |b - v| ≤ |β| * (2 ^ m * (s.buf.length + 1) * 2 ^ (-54 : ℤ)) + e + boxErr c (1 / 2 ^ m) s.buf.length := by
  have hM : (0:ℚ) < 2 ^ m := by positivity
  have hM1 : (1:ℚ) ≤ 2 ^ m := one_le_pow₀ (by norm_num)
  have hbq : ((s.buf.length : ℚ) + 1) * 2 ^ m ≤ 2 ^ 52 := by exact_mod_cast hb
  have key : ∀ a j : Nat, (a:ℚ) < 1 / 2 ^ m * j → 1 / 2 ^ m * j < (a:ℚ) + 1 / 2 ^ m → False := by
    intro a j h1 h2
    rw [one_div_mul_eq_div, lt_div_iff₀ hM] at h1
    rw [one_div_mul_eq_div, div_lt_iff₀ hM, add_mul, one_div_mul_cancel hM.ne'] at h2
    have h1 : a * 2 ^ m < j := by exact_mod_cast h1
    have h2 : j < a * 2 ^ m + 1 := by exact_mod_cast h2
    omega
  have hx0 : ((x - 1 : ℕ) : ℚ) = x - 1 := by push_cast [hx1]; rfl
  obtain ⟨y, b, b1, b2, b3⟩ := line_slot fuel s s' st it h ho (1 / 2 ^ m) hq (by positivity) (by rwa [div_le_one hM])
    (by rwa [one_div_mul_eq_div, le_div_iff₀ hM]) i hi x hx hx1 v β e 0 hv he le_rfl
    (fun j h1 h2 => (key (x - 1) j (by rwa [hx0]) (by rwa [hx0])).elim) (fun j h1 h2 => (key x j h1 h2).elim)
    (fun j f hf g hg => by
      obtain ⟨w, w1, w2, w3⟩ := hw j f hf g hg
      refine ⟨w, w1, w2, fun h1 h2 => ?_⟩
      have e1 : ((x:ℚ) - (1 - 1 / 2 ^ m) / 2) / (1 / 2 ^ m) = 2 ^ m * x - (2 ^ m - 1) / 2 := by
        rw [div_div_eq_mul_div, div_one, sub_mul, div_mul_eq_mul_div, sub_mul, one_mul, one_div_mul_cancel hM.ne', mul_comm]
      rw [e1]
      rw [one_div_mul_eq_div, lt_div_iff₀ hM, ← hx0] at h1
      rw [one_div_mul_eq_div, div_lt_iff₀ hM, add_mul, one_div_mul_cancel hM.ne'] at h2
      refine w3 ?_ ?_
      · rw [mul_comm]; exact_mod_cast h1
      · have h2 : j < x * 2 ^ m + 1 := by exact_mod_cast h2
        rw [mul_comm]; omega)
  refine ⟨y, b, b1, b2, b3.trans_eq ?_⟩
  rw [zero_add, div_div_eq_mul_div, div_one, show (2:ℚ) ^ (-54 : ℤ) = 2 ^ (-53 : ℤ) / 2 by norm_num]
  ring

/-- From 16 Hz to 8 Hz: slot 1 is the mean of frames 1 and 2. -/
example := C148_half 6 (exSink 3 8) _ (.audio (exAudio 16)) _
  (R.returns₂ (x := (exSink 3 8).stream 6 (.audio (exAudio 16))) (by decide +kernel)) rfl
  1 (by decide +kernel) (by decide +kernel) 0 (by decide) 1 (by decide +kernel) le_rfl
  (5 / 2 / 127) (1 / 127) 0 (by decide +kernel) le_rfl
  (fun j f hf g hg => ⟨exStair j, by
    match j with
    | 0 | 1 | 2 | 3 | 4 => cases hf; cases hg; decide +kernel
    | j + 5 => exact (nomatch hf), exStair_le j, by
    match j with
    | 0 | 1 | 2 | 3 | 4 => exact fun _ _ => by rw [exStair]; decide +kernel
    | j + 5 => exact (nomatch hf)⟩)

/-! ## In seconds -/

/-- A quotient that is not tiny has a small relative error. -/
theorem rnd_rel {q : ℚ} (h0 : 0 < q) (hr : 2 ^ (-52 : ℤ) ≤ binary64.rnd q) : |binary64.rnd q - q| ≤ q * 2 ^ (-53 : ℤ) := by
  have h := abs_le.mp (rnd_err64 q)
  rw [abs_of_pos h0] at h
  have hq : (2:ℚ) ^ (-60 : ℤ) ≤ q := by
    by_contra hc
    push Not at hc
    norm_num at h hr hc
    linarith [h.2]
  have := rel_err_normal (f := binary64) (q := q) (by
    rw [abs_of_pos h0]
    exact le_trans (zpow_le_zpow_right₀ (by norm_num) (by decide)) hq)
  rwa [abs_of_pos h0] at this

/-- The frames that are played during a slot, in slots from the middle of its time. -/
theorem window_near {r ρ x u : ℚ} {j : Nat} (hr : 0 < r) (hr1 : r ≤ 1) (hρ : 0 < ρ) (hρ1 : ρ ≤ 1) (hu : 0 < u)
    (hu1 : u ≤ 1 / 4) (he : |r - ρ| ≤ ρ * u) (h1 : x - 1 < r * j) (h2 : r * j < x + r) :
    |ρ * j - x + (1 - ρ) / 2| ≤ (1 + ρ) / 2 + (x + 3) * (2 * u) := by
  have he' := abs_le.mp he
  have hj : (0:ℚ) ≤ j := Nat.cast_nonneg j
  have hρr : ρ ≤ 2 * r := by nlinarith
  have hd : |(ρ - r) * j| ≤ 2 * u * (x + 1) := by
    rw [abs_mul, abs_sub_comm, abs_of_nonneg hj]
    calc |r - ρ| * j ≤ ρ * u * j := mul_le_mul_of_nonneg_right he hj
      _ ≤ 2 * r * u * j := mul_le_mul_of_nonneg_right (mul_le_mul_of_nonneg_right hρr hu.le) hj
      _ = 2 * u * (r * j) := by ring
      _ ≤ 2 * u * (x + 1) := mul_le_mul_of_nonneg_left (by linarith) (by linarith)
  have hd' := abs_le.mp hd
  have e : ρ * j = r * j + (ρ - r) * j := by ring
  have hru : r ≤ ρ + u := by nlinarith
  rw [abs_le]
  constructor <;> nlinarith

/-- C148 in seconds, for a sound `φ` that was sampled with rate `src` (up to `e`): slot `x` of a sink of a lower rate `dst` is the
value of the sound at the time `x / dst`, less half a slot, plus half a frame of the stream.  `β` is a slope of the sound per second
(0 if nothing is known); `ε` says how far the sound is from the line of that slope around that time. -/
theorem C148_time (fuel : Nat) (s s' : Sink k c) (st : Src k' c') (it : It k' c') (sr : F64) (dst src : ℚ)
    (h : s.stream fuel st = .ok (s', it)) (ho : s.res.offseti = lit 0) (hd : s.rate.Is dst) (hsr : st.rate = some sr)
    (hs : sr.Is src) (hd0 : 0 < dst) (hle : dst ≤ src)
    (hb : (s.buf.length : ℚ) + 1 ≤ binary64.rnd (dst / src) * 2 ^ 52)
    (i : Nat) (hi : i < k.chans) (x : Nat) (hx : InDst (ratioOf s.rate st.rate) st.len s.buf.length x) (hx1 : 1 ≤ x)
    (φ : ℚ → ℚ) (β ε e : ℚ) (hφ1 : ∀ t, |φ t| ≤ 1) (he : 0 ≤ e) (hε : 0 ≤ ε)
    (hφ : ∀ t : ℚ, |t - ((x:ℚ) / dst - (1 / dst - 1 / src) / 2)| ≤ (1 / dst + 1 / src) / 2 + (x + 3) / dst * 2 ^ (-52 : ℤ) →
      |φ t - (φ (x / dst - (1 / dst - 1 / src) / 2) + β * (t - (x / dst - (1 / dst - 1 / src) / 2)))| ≤ ε)
    (hw : ∀ j f, st.nth j = .ok (some f) → ∀ g : Frame k c, f.convert c = .ok g →
      ∃ w, SampleVal c g[i] w ∧ |w| ≤ 1 ∧ |w - φ (j / src)| ≤ e) :
    ∃ (y : Frame k c) (b : ℚ), s'.buf[x]? = some y ∧ SampleVal c y[i] b ∧
      |b - φ (x / dst - (1 / dst - 1 / src) / 2)| ≤
        |β| * (1 / (8 * src) + (s.buf.length + 1) * 2 ^ (-51 : ℤ) / dst) + ε + e +
          boxErr c (binary64.rnd (dst / src)) s.buf.length := by
  have hs0 : 0 < src := lt_of_lt_of_le hd0 hle
  have hρ0 : 0 < dst / src := by positivity
  have hρ1 : dst / src ≤ 1 := by rw [div_le_one hs0]; exact hle
  have hB0 : (0:ℚ) ≤ s.buf.length := Nat.cast_nonneg _
  have hlo : (2:ℚ) ^ (-52 : ℤ) ≤ binary64.rnd (dst / src) := by
    norm_num at hb ⊢
    linarith
  have hrel := rnd_rel hρ0 hlo
  have hr0 : 0 < binary64.rnd (dst / src) := lt_of_lt_of_le (two_zpow_pos _) hlo
  have hr1 : binary64.rnd (dst / src) ≤ 1 := by
    have e0 : binary64.rnd 1 = 1 := Fmt.rnd_of_rep (by simpa using rep_nat53 (n := 1) (by norm_num))
    exact (Fmt.rnd_mono hρ1).trans_eq e0
  have hq : (ratioOf s.rate st.rate).Is (binary64.rnd (dst / src)) := by
    rw [hsr]
    refine hd.div hs hs0.ne' ?_
    rw [abs_of_pos hr0]
    exact hr1.trans (by decide +kernel)
  have hxq : (1:ℚ) ≤ x := by exact_mod_cast hx1
  have hxB : (x:ℚ) ≤ s.buf.length := by exact_mod_cast hx.1.le
  generalize binary64.rnd (dst / src) = r at *
  obtain ⟨ρ, hρ⟩ : ∃ ρ, ρ = dst / src := ⟨_, rfl⟩
  rw [← hρ] at hrel hρ0 hρ1
  have hsd : 1 / src = ρ / dst := by rw [hρ]; field_simp
  have u0 : (0:ℚ) < 2 ^ (-53 : ℤ) := two_zpow_pos _
  have u1 : (2:ℚ) ^ (-53 : ℤ) ≤ 1 / 4 := by norm_num
  have u2 : (2:ℚ) ^ (-52 : ℤ) = 2 * 2 ^ (-53 : ℤ) := by norm_num
  have u3 : (2:ℚ) ^ (-51 : ℤ) = 4 * 2 ^ (-53 : ℤ) := by norm_num
  rw [u2] at hφ
  rw [u3]
  have rel' := abs_le.mp hrel
  have hρr : ρ ≤ 2 * r := by nlinarith
  -- the middle of the slot, by the rounded and the exact ratio
  have mid : |(x - (1 - r) / 2) / r / src - (x / dst - (1 / dst - 1 / src) / 2)| ≤ x * (2 * 2 ^ (-53 : ℤ)) / dst := by
    have e1 : (x - (1 - r) / 2) / r / src - (x / dst - (1 / dst - 1 / src) / 2) = ((x:ℚ) - 1 / 2) * ((ρ - r) / r) / dst := by
      rw [div_div _ r src, mul_comm r src, ← div_div, div_eq_mul_one_div _ src, hsd]
      field_simp
      ring
    rw [e1, abs_div, abs_of_pos hd0, abs_mul, abs_of_pos (by linarith : (0:ℚ) < x - 1 / 2), abs_div, abs_of_pos hr0, abs_sub_comm]
    refine div_le_div_of_nonneg_right ?_ hd0.le
    have : |r - ρ| / r ≤ 2 * 2 ^ (-53 : ℤ) := by
      rw [div_le_iff₀ hr0]
      nlinarith
    exact mul_le_mul (by linarith) this (by positivity) (by linarith)
  obtain ⟨τ, hτ⟩ : ∃ τ, τ = (x:ℚ) / dst - (1 / dst - 1 / src) / 2 := ⟨_, rfl⟩
  rw [← hτ] at mid hφ ⊢
  have hm0 : 0 ≤ |β| * (x * (2 * 2 ^ (-53 : ℤ)) / dst) := by positivity
  obtain ⟨y, b, y1, y2, y3⟩ := C148_partial fuel s s' st it h ho r hq hr0 hr1 hb i hi x hx hx1 (φ τ) (β / src)
    (ε + e + |β| * (x * (2 * 2 ^ (-53 : ℤ)) / dst)) (hφ1 _) (by positivity) (fun j f hf g hg => by
      obtain ⟨w, w1, w2, w3⟩ := hw j f hf g hg
      refine ⟨w, w1, w2, fun h1 h2 => ?_⟩
      have hn := window_near hr0 hr1 hρ0 hρ1 u0 u1 hrel h1 h2
      have ht : |(j:ℚ) / src - τ| ≤ (1 / dst + 1 / src) / 2 + (x + 3) / dst * (2 * 2 ^ (-53 : ℤ)) := by
        have e1 : (j:ℚ) / src - τ = (ρ * j - x + (1 - ρ) / 2) / dst := by
          rw [hτ, div_eq_mul_one_div (j:ℚ) src, hsd]
          field_simp
          ring
        have e2 : (1 / dst + 1 / src) / 2 + (x + 3) / dst * (2 * 2 ^ (-53 : ℤ)) = ((1 + ρ) / 2 + (x + 3) * (2 * 2 ^ (-53 : ℤ))) / dst := by
          rw [hsd]
          field_simp
        rw [e1, e2, abs_div, abs_of_pos hd0]
        exact div_le_div_of_nonneg_right hn hd0.le
      have l1 := hφ _ ht
      have l2 : |β * ((j:ℚ) / src - τ) - β / src * (j - (x - (1 - r) / 2) / r)| ≤ |β| * (x * (2 * 2 ^ (-53 : ℤ)) / dst) := by
        have e1 : β * ((j:ℚ) / src - τ) - β / src * (j - (x - (1 - r) / 2) / r) = β * ((x - (1 - r) / 2) / r / src - τ) := by ring
        rw [e1, abs_mul]
        exact mul_le_mul_of_nonneg_left mid (abs_nonneg _)
      have l1 := abs_le.mp l1
      have l2 := abs_le.mp l2
      have l3 := abs_le.mp w3
      rw [abs_le]
      constructor <;> linarith)
  refine ⟨y, b, y1, y2, y3.trans ?_⟩
  have hβ : |β / src| * (r / 8 + (s.buf.length + 1) * 2 ^ (-53 : ℤ) / (2 * r)) + |β| * (x * (2 * 2 ^ (-53 : ℤ)) / dst) ≤
      |β| * (1 / (8 * src) + (s.buf.length + 1) * (4 * 2 ^ (-53 : ℤ)) / dst) := by
    rw [abs_div, abs_of_pos hs0, div_mul_eq_mul_div, mul_div_assoc, ← mul_add]
    refine mul_le_mul_of_nonneg_left ?_ (abs_nonneg _)
    have e1 : (r / 8 + (s.buf.length + 1) * 2 ^ (-53 : ℤ) / (2 * r)) / src =
        r / 8 * (1 / src) + (s.buf.length + 1) * 2 ^ (-53 : ℤ) * (1 / src / (2 * r)) := by
      field_simp
    have e2 : 1 / src / (2 * r) ≤ 1 / dst := by
      rw [hsd, div_div, div_le_div_iff₀ (by positivity) hd0]
      nlinarith
    have e3 : r / 8 * (1 / src) ≤ 1 / (8 * src) := by
      rw [show 1 / (8 * src) = 1 / 8 * (1 / src) by field_simp]
      exact mul_le_mul_of_nonneg_right (by linarith) (by positivity)
    have e4 : (s.buf.length + 1) * 2 ^ (-53 : ℤ) * (1 / src / (2 * r)) ≤ (s.buf.length + 1) * 2 ^ (-53 : ℤ) * (1 / dst) :=
      mul_le_mul_of_nonneg_left e2 (by positivity)
    have e5 : x * (2 * 2 ^ (-53 : ℤ)) / dst ≤ (s.buf.length + 1) * (2 * 2 ^ (-53 : ℤ)) / dst :=
      div_le_div_of_nonneg_right (mul_le_mul_of_nonneg_right (by linarith) (by positivity)) hd0.le
    have e6 : (0:ℚ) ≤ (s.buf.length + 1) * 2 ^ (-53 : ℤ) * (1 / dst) := by positivity
    have e7 : (s.buf.length + 1) * (2 * 2 ^ (-53 : ℤ)) / dst = 2 * ((s.buf.length + 1) * 2 ^ (-53 : ℤ) * (1 / dst)) := by ring
    have e8 : (s.buf.length + 1) * (4 * 2 ^ (-53 : ℤ)) / dst = 4 * ((s.buf.length + 1) * 2 ^ (-53 : ℤ) * (1 / dst)) := by ring
    rw [e1, e8]
    rw [e7] at e5
    linarith
  linarith

/-- A sound of slope 1 / 10 in each second. -/
def exRamp (t : ℚ) : ℚ := max (-1) (min 1 (1 / 127 + 12 / 127 * t))

theorem exRamp_le (t : ℚ) : |exRamp t| ≤ 1 :=
  abs_le.mpr ⟨le_max_left _ _, max_le (by norm_num) (min_le_left _ _)⟩

theorem exRamp_lip (t t' : ℚ) : |exRamp t - exRamp t'| ≤ 12 / 127 * |t - t'| := by
  have h1 := abs_max_sub_max_le_max (-1) (min 1 (1 / 127 + 12 / 127 * t)) (-1) (min 1 (1 / 127 + 12 / 127 * t'))
  have h2 := abs_min_sub_min_le_max 1 (1 / 127 + 12 / 127 * t) 1 (1 / 127 + 12 / 127 * t')
  rw [sub_self, abs_zero, max_eq_right (b := |_|) (abs_nonneg _)] at h1 h2
  refine h1.trans (h2.trans_eq ?_)
  rw [add_sub_add_left_eq_sub, ← mul_sub, abs_mul, abs_of_pos (by norm_num)]

theorem exRamp_mid {t : ℚ} (h : |t| ≤ 1) : exRamp t = 1 / 127 + 12 / 127 * t := by
  have := abs_le.mp h
  rw [exRamp, min_eq_right (by linarith), max_eq_right (by linarith)]

theorem exRamp_line (t : ℚ)
    (h : |t - ((1:ℕ) / 8 - (1 / 8 - 1 / 12) / 2)| ≤ (1 / 8 + 1 / 12) / 2 + ((1:ℕ) + 3) / 8 * 2 ^ (-52 : ℤ)) :
    |exRamp t - (exRamp ((1:ℕ) / 8 - (1 / 8 - 1 / 12) / 2) + 12 / 127 * (t - ((1:ℕ) / 8 - (1 / 8 - 1 / 12) / 2)))| ≤ 0 := by
  have h' := abs_le.mp h
  norm_num at h'
  rw [exRamp_mid (t := t) (by rw [abs_le]; constructor <;> linarith), exRamp_mid (by norm_num [abs_le])]
  norm_num
  ring

/-- From 12 Hz to 8 Hz, a sound that rises evenly. -/
example := C148_time 6 (exSink 3 8) _ (.audio (exAudio 12)) _ (lit 12) 8 12
  (R.returns₂ (x := (exSink 3 8).stream 6 (.audio (exAudio 12))) (by decide +kernel)) rfl (by decide +kernel) rfl
  (by decide +kernel) (by norm_num) (by norm_num) (by decide +kernel) 0 (by decide) 1 (by decide +kernel) le_rfl
  exRamp (12 / 127) 0 0 exRamp_le le_rfl le_rfl exRamp_line
  (fun j f hf g hg => ⟨exStair j, exStair_val j f hf g hg, exStair_le j, by
    match j with
    | 0 | 1 | 2 | 3 | 4 => rw [exStair]; decide +kernel
    | j + 5 => cases hf⟩)

/-- C148 for a sound of bounded slope `L` (per second): the slot is within half a slot and half a frame of its time. -/
theorem C148_lipschitz (fuel : Nat) (s s' : Sink k c) (st : Src k' c') (it : It k' c') (sr : F64) (dst src : ℚ)
    (h : s.stream fuel st = .ok (s', it)) (ho : s.res.offseti = lit 0) (hd : s.rate.Is dst) (hsr : st.rate = some sr)
    (hs : sr.Is src) (hd0 : 0 < dst) (hle : dst ≤ src)
    (hb : (s.buf.length : ℚ) + 1 ≤ binary64.rnd (dst / src) * 2 ^ 52)
    (i : Nat) (hi : i < k.chans) (x : Nat) (hx : InDst (ratioOf s.rate st.rate) st.len s.buf.length x) (hx1 : 1 ≤ x)
    (φ : ℚ → ℚ) (L e : ℚ) (hφ1 : ∀ t, |φ t| ≤ 1) (he : 0 ≤ e) (hL : 0 ≤ L) (hφ : ∀ t t', |φ t - φ t'| ≤ L * |t - t'|)
    (hw : ∀ j f, st.nth j = .ok (some f) → ∀ g : Frame k c, f.convert c = .ok g →
      ∃ w, SampleVal c g[i] w ∧ |w| ≤ 1 ∧ |w - φ (j / src)| ≤ e) :
    ∃ (y : Frame k c) (b : ℚ), s'.buf[x]? = some y ∧ SampleVal c y[i] b ∧
      |b - φ (x / dst - (1 / dst - 1 / src) / 2)| ≤
        L * ((1 / dst + 1 / src) / 2 + (x + 3) / dst * 2 ^ (-52 : ℤ)) + e +
          boxErr c (binary64.rnd (dst / src)) s.buf.length := by
  have hs0 : 0 < src := lt_of_lt_of_le hd0 hle
  obtain ⟨y, b, y1, y2, y3⟩ := C148_time fuel s s' st it sr dst src h ho hd hsr hs hd0 hle hb i hi x hx hx1 φ 0
    (L * ((1 / dst + 1 / src) / 2 + (x + 3) / dst * 2 ^ (-52 : ℤ))) e hφ1 he (by positivity) (fun t ht => by
      rw [zero_mul, add_zero]
      exact (hφ _ _).trans (mul_le_mul_of_nonneg_left ht hL)) hw
  refine ⟨y, b, y1, y2, y3.trans_eq ?_⟩
  rw [abs_zero, zero_mul, zero_add]

example := C148_lipschitz 6 (exSink 3 8) _ (.audio (exAudio 12)) _ (lit 12) 8 12
  (R.returns₂ (x := (exSink 3 8).stream 6 (.audio (exAudio 12))) (by decide +kernel)) rfl (by decide +kernel) rfl
  (by decide +kernel) (by norm_num) (by norm_num) (by decide +kernel) 0 (by decide) 1 (by decide +kernel) le_rfl
  exRamp (12 / 127) 0 exRamp_le le_rfl (by norm_num) exRamp_lip
  (fun j f hf g hg => ⟨exStair j, exStair_val j f hf g hg, exStair_le j, by
    match j with
    | 0 | 1 | 2 | 3 | 4 => rw [exStair]; decide +kernel
    | j + 5 => cases hf⟩)

/-- All but the last slot of audio that `with_stream` makes are filled while streaming. -/
theorem before_last {rate sr : F64} {dst src l x : Nat} (hr : rate.Is (dst:ℚ)) (hs : sr.Is (src:ℚ)) (h0 : 0 < src)
    (hd0 : 0 < dst) (hs' : src ≤ 2 ^ 51) (hd' : dst ≤ 2 ^ 51) (hN : dst * l < 2 ^ 51) (hx : x + 1 < ⌈(dst * l : ℚ) / src⌉₊) :
    x < ((ratioOf rate (some sr)).mul (f64OfUsize l)).toUsize := by
  obtain ⟨m1, _, _, m4, m5⟩ := (pos_int hr hs h0 hd0 hs' hd').2 l hN.le
  have hsq : (0:ℚ) < src := by exact_mod_cast h0
  have hs1 : (1:ℚ) ≤ src := by exact_mod_cast h0
  have hNq : (dst * l : ℚ) ≤ 2 ^ 51 := by exact_mod_cast hN.le
  have hlq0 : (0:ℚ) ≤ dst * l := by positivity
  have hQ0 := le_trans (by positivity) m4
  rw [toUsize_is m1 hQ0 (by
    have : (dst * l : ℚ) / src ≤ 2 ^ 51 := by rw [div_le_iff₀ hsq]; nlinarith
    nlinarith)]
  generalize binary64.rnd (binary64.rnd ((dst:ℚ) / src) * l) = Q at *
  have e2 := Nat.lt_ceil.mp hx
  rw [lt_div_iff₀ hsq] at e2
  have e3 : (x + 1) * src + 1 ≤ dst * l := by exact_mod_cast e2
  have e4 : (((x:ℚ) + 1) * src + 1) ≤ dst * l := by exact_mod_cast e3
  have hQ : (dst * l : ℚ) - 3 / 4 ≤ Q * src := by
    have : (dst * l : ℚ) / src * (1 - 1 / 2 ^ 53) ^ 2 * src ≤ Q * src := mul_le_mul_of_nonneg_right m4 hsq.le
    rw [show (dst * l : ℚ) / src * (1 - 1 / 2 ^ 53) ^ 2 * src = dst * l * (1 - 1 / 2 ^ 53) ^ 2 by field_simp] at this
    nlinarith
  have : ((x + 1 : ℕ) : ℤ) ≤ ⌊Q⌋ := Int.le_floor.mpr (by push_cast; nlinarith)
  omega

/-- C148 for `with_stream`: all slots but the first and the last. -/
theorem C148_withStream {rate sr : F64} {b : Audio k c} {st : Src k' c'} {dst src l : Nat} (h : Audio.withStream rate st = .ok b)
    (hl : st.len = some l) (hd : rate.Is (dst:ℚ)) (hsr : st.rate = some sr) (hs : sr.Is (src:ℚ)) (hd0 : 0 < dst) (hle : dst ≤ src)
    (hs' : src ≤ 2 ^ 51) (hN : dst * l < 2 ^ 51) (hb : dst * l + 2 * src ≤ dst * 2 ^ 51)
    (i : Nat) (hi : i < k.chans) (x : Nat) (hx : x + 1 < b.len) (hx1 : 1 ≤ x)
    (φ : ℚ → ℚ) (β ε e : ℚ) (hφ1 : ∀ t, |φ t| ≤ 1) (he : 0 ≤ e) (hε : 0 ≤ ε)
    (hφ : ∀ t : ℚ, |t - ((x:ℚ) / dst - (1 / dst - 1 / src) / 2)| ≤ (1 / dst + 1 / src) / 2 + ((x:ℚ) + 3) / dst * 2 ^ (-52 : ℤ) →
      |φ t - (φ (x / dst - (1 / dst - 1 / src) / 2) + β * (t - (x / dst - (1 / dst - 1 / src) / 2)))| ≤ ε)
    (hw : ∀ j f, st.nth j = .ok (some f) → ∀ g : Frame k c, f.convert c = .ok g →
      ∃ w, SampleVal c g[i] w ∧ |w| ≤ 1 ∧ |w - φ (j / src)| ≤ e) :
    ∃ (y : Frame k c) (v : ℚ), b.get x = some y ∧ SampleVal c y[i] v ∧
      |v - φ ((x:ℚ) / dst - (1 / dst - 1 / src) / 2)| ≤
        |β| * (1 / (8 * src) + (b.len + 1) * 2 ^ (-51 : ℤ) / dst) + ε + e +
          boxErr c (binary64.rnd ((dst:ℚ) / src)) b.len := by
  have h0 : 0 < src := by omega
  have hsq : (0:ℚ) < src := by exact_mod_cast h0
  have hdq : (0:ℚ) < dst := by exact_mod_cast hd0
  have hl51 : l ≤ 2 ^ 51 := le_trans (Nat.le_mul_of_pos_left _ hd0) hN.le
  have hlen := C49_partial rate sr dst src l hd hs h0 (by omega) (by omega) hs' st hl hsr b h
  obtain ⟨hratio, hpos⟩ := pos_int hd hs h0 hd0 hs' (hle.trans hs')
  have hrlo : (dst:ℚ) / src * (1 / 2) ≤ binary64.rnd ((dst:ℚ) / src) := by
    obtain ⟨_, _, _, g4, _⟩ := hpos 1 (by omega)
    rw [Nat.cast_one, mul_one, mul_one, Fmt.rnd_of_rep hratio.rep] at g4
    have : (0:ℚ) < (dst:ℚ) / src := by positivity
    nlinarith
  have hr0 : 0 < binary64.rnd ((dst:ℚ) / src) := lt_of_lt_of_le (by positivity) hrlo
  have hBup : (b.len:ℚ) < dst * l / src + 1 := by rw [hlen]; exact Nat.ceil_lt_add_one (by positivity)
  have hBq : (b.len:ℚ) + 1 ≤ binary64.rnd ((dst:ℚ) / src) * 2 ^ 52 := by
    have e1 : (dst * l / src + 2 : ℚ) ≤ dst / src * 2 ^ 51 := by
      rw [div_add' _ _ _ hsq.ne', div_mul_eq_mul_div]
      refine div_le_div_of_nonneg_right ?_ hsq.le
      exact_mod_cast hb
    linarith
  have hq : (ratioOf rate st.rate).Is (binary64.rnd ((dst:ℚ) / src)) := by rw [hsr]; exact hratio
  obtain ⟨s, it, e1, e2⟩ := with_slots h hq hr0 hl
  have hx' : x < ((ratioOf rate st.rate).mul (f64OfUsize l)).toUsize := by
    rw [hsr]; exact before_last hd hs h0 hd0 hs' (hle.trans hs') hN (by rwa [← hlen])
  obtain ⟨f1, f2⟩ := e2 x (by omega) hx'
  have len : (List.replicate b.len (Frame.dflt : Frame k c)).length = b.len := List.length_replicate
  have := C148_time (l + 1) _ s st it sr dst src e1 rfl hd hsr hs hdq (by exact_mod_cast hle) (by rw [len]; exact hBq) i hi x
    (by rw [len]; exact f1) hx1 φ β ε e hφ1 he hε hφ hw
  rw [len, ← f2] at this
  exact this

example := C148_withStream (k := .mono) (c := .ch8) (dst := 8) (src := 12) (l := 5) (rate := lit 8) (sr := lit 12)
  (R.returns (x := (Audio.withStream (lit 8) (.audio (exAudio 12)) : R (Audio .mono .ch8))) (by decide +kernel)) rfl
  (by decide +kernel) rfl (by decide +kernel) (by decide) (by decide) (by decide) (by decide) (by decide) 0 (by decide) 1
  (by decide +kernel) le_rfl exRamp (12 / 127) 0 0 exRamp_le le_rfl le_rfl exRamp_line
  (fun j f hf g hg => ⟨exStair j, exStair_val j f hf g hg, exStair_le j, by
    match j with
    | 0 | 1 | 2 | 3 | 4 => rw [exStair]; decide +kernel
    | j + 5 => cases hf⟩)

/-- C148 is false for a rate that goes up: a sound of constant value 0.25 gives slots of value 0.5 and 0. -/
theorem C148_false : (Audio.withStream (lit 2) (.audio (k := .mono) (c := .ch64) ⟨lit 1, [#v[lit 0.25], #v[lit 0.25], #v[lit 0.25]]⟩) :
    R (Audio .mono .ch64)).map (·.frames) = .ok [#v[lit 0.5], #v[lit 0], #v[lit 0.5], #v[lit 0], #v[lit 0.5], #v[lit 0]] := by
  decide +kernel

end Fon
