import Verif.Props.MixOrder
import Verif.Props.Area
import Verif.Props.UpLinear

/-!
# Downsampling is stable and adds no power
-/

namespace Fon
open Fon.Fl hiding min max
open Fon.Fmt Fon.Sink
variable {k k1 k2 : Kind} {c c1 c2 : ChTy}

/-- A weighted mean of numbers that are at most `δ`, where they have a weight. -/
theorem box_le {r δ : ℚ} (hr : 0 ≤ r) (hδ : 0 ≤ δ) (n x : Nat) (u : Nat → ℚ)
    (hu : ∀ j, j < n → overlap (r * j - r) (r * j) (x - 1) x ≠ 0 → |u j| ≤ δ) :
    |∑ j ∈ Finset.range n, u j * overlap (r * j - r) (r * j) (x - 1) x| ≤ δ := by
  refine (Finset.abs_sum_le_sum_abs _ _).trans ?_
  have : ∀ j ∈ Finset.range n, |u j * overlap (r * j - r) (r * j) ((x:ℚ) - 1) x| ≤ δ * overlap (r * j - r) (r * j) (x - 1) x := by
    intro j hj
    have h0 := overlap_nonneg (r * j - r) (r * j) ((x:ℚ) - 1) x
    rw [abs_mul, abs_of_nonneg h0]
    by_cases h : overlap (r * j - r) (r * j) ((x:ℚ) - 1) x = 0
    · rw [h]; simp
    · exact mul_le_mul_of_nonneg_right (hu j (Finset.mem_range.mp hj) h) h0
  refine (Finset.sum_le_sum this).trans ?_
  rw [← Finset.mul_sum]
  exact mul_le_of_le_one_right hδ (sum_share_le hr n x)

example := box_le (r := 1 / 2) (δ := 3) (by norm_num) (by norm_num) 4 1 (fun _ => 2) (fun _ _ _ => by norm_num)

/-- The square of a weighted mean is at most the mean of the squares. -/
theorem box_sq {r : ℚ} (hr : 0 ≤ r) (n x : Nat) (u : Nat → ℚ) :
    (∑ j ∈ Finset.range n, u j * overlap (r * j - r) (r * j) (x - 1) x) ^ 2 ≤
      ∑ j ∈ Finset.range n, u j ^ 2 * overlap (r * j - r) (r * j) (x - 1) x := by
  obtain ⟨Y, hY⟩ : ∃ Y, ∑ j ∈ Finset.range n, u j * overlap (r * j - r) (r * j) ((x:ℚ) - 1) x = Y := ⟨_, rfl⟩
  rw [hY]
  have h0 : 0 ≤ ∑ j ∈ Finset.range n, (u j - Y) ^ 2 * overlap (r * j - r) (r * j) ((x:ℚ) - 1) x :=
    Finset.sum_nonneg fun j _ => mul_nonneg (sq_nonneg _) (overlap_nonneg _ _ _ _)
  have h1 := sum_share_le hr n x
  have e : ∑ j ∈ Finset.range n, (u j - Y) ^ 2 * overlap (r * j - r) (r * j) ((x:ℚ) - 1) x =
      ∑ j ∈ Finset.range n, u j ^ 2 * overlap (r * j - r) (r * j) ((x:ℚ) - 1) x - 2 * Y * Y +
        Y ^ 2 * ∑ j ∈ Finset.range n, overlap (r * j - r) (r * j) ((x:ℚ) - 1) x := by
    have e2 : 2 * Y * Y = ∑ j ∈ Finset.range n, 2 * Y * (u j * overlap (r * j - r) (r * j) ((x:ℚ) - 1) x) := by
      rw [← Finset.mul_sum, hY]
    rw [e2, Finset.mul_sum, ← Finset.sum_sub_distrib, ← Finset.sum_add_distrib]
    exact Finset.sum_congr rfl fun j _ => by ring
  rw [e] at h0
  nlinarith [mul_le_mul_of_nonneg_left h1 (sq_nonneg Y)]

example := box_sq (r := 1 / 2) (by norm_num) 4 1 (fun j => j)

/-- No more than the weight of a frame goes to the first slots. -/
theorem sum_overlap_le (D : Nat) {r p : ℚ} (hr : 0 ≤ r) (hr1 : r ≤ 1) (hp : 0 ≤ p) :
    ∑ x ∈ Finset.range D, overlap (p - r) p ((x:ℚ) - 1) x ≤ r := by
  obtain ⟨M, hM⟩ := exists_nat_ge p
  have := sum_overlap (max D M) hr hr1 hp (hM.trans (by exact_mod_cast le_max_right D M))
  refine le_trans ?_ this.le
  exact Finset.sum_le_sum_of_subset_of_nonneg (Finset.range_subset_range.mpr ((le_max_left D M).trans (Nat.le_succ _)))
    fun _ _ _ => overlap_nonneg _ _ _ _

example := sum_overlap_le 3 (r := 1 / 2) (p := 5) (by norm_num) (by norm_num) (by norm_num)

/-- Every mean over the slots of sums of what the frames give to them. -/
theorem total_le {r : ℚ} (hr : 0 ≤ r) (hr1 : r ≤ 1) (D n : Nat) (v : Nat → ℚ) (hv : ∀ j, 0 ≤ v j) :
    ∑ x ∈ Finset.range D, ∑ j ∈ Finset.range n, v j * overlap (r * j - r) (r * j) ((x:ℚ) - 1) x ≤
      r * ∑ j ∈ Finset.range n, v j := by
  rw [Finset.sum_comm, Finset.mul_sum]
  refine Finset.sum_le_sum fun j _ => ?_
  rw [← Finset.mul_sum, mul_comm r (v j)]
  exact mul_le_mul_of_nonneg_left (sum_overlap_le D hr hr1 (by positivity)) (hv j)

example := total_le (r := 1 / 2) (by norm_num) (by norm_num) 3 4 (fun j => j) (fun j => Nat.cast_nonneg j)

/-- C133: when the rate does not go up, two streams that differ by at most `δ` in the frames that are played during a slot
give slots that differ by at most `δ`, up to the accuracy of the two slots; and the sum of all differences is at most the sum
of the differences of the streams times the ratio. -/
theorem C133_stable (fuel fuel' : Nat) (s s' t t' : Sink k c) (st : Src k1 c1) (st' : Src k2 c2) (it : It k1 c1) (it' : It k2 c2)
    (h : s.stream fuel st = .ok (s', it)) (h' : t.stream fuel' st' = .ok (t', it')) (hsr : st'.rate = st.rate)
    (hsl : st'.len = st.len) (hrt : t.rate = s.rate) (hbt : t.buf.length = s.buf.length) (ho : s.res.offseti = lit 0)
    (ho' : t.res.offseti = lit 0) (r : ℚ) (hq : (ratioOf s.rate st.rate).Is r) (hr : 0 < r) (hr1 : r ≤ 1)
    (hb : (s.buf.length : ℚ) + 1 ≤ r * 2 ^ 52) (i : Nat) (hi : i < k.chans) (w w' : Nat → ℚ)
    (hw : ∀ j f, st.nth j = .ok (some f) → ∀ x : Frame k c, f.convert c = .ok x → SampleVal c x[i] (w j) ∧ |w j| ≤ 1)
    (hw' : ∀ j f, st'.nth j = .ok (some f) → ∀ x : Frame k c, f.convert c = .ok x → SampleVal c x[i] (w' j) ∧ |w' j| ≤ 1) :
    let E := (mixErr c + 5 * 2 ^ (-53 : ℤ) + 2 * ((s.buf.length + 1) * 2 ^ (-53 : ℤ))) * (1 / r + 3)
    ∃ (n : Nat) (y y' : Nat → ℚ), Takes (ratioOf s.rate st.rate) (lit 0) st.len s.buf.length n ∧
      (∀ x, InDst (ratioOf s.rate st.rate) st.len s.buf.length x → ∃ f f', s'.buf[x]? = some f ∧ t'.buf[x]? = some f' ∧
        SampleVal c f[i] (y x) ∧ SampleVal c f'[i] (y' x)) ∧
      (∀ (x : Nat) (δ : ℚ), 0 ≤ δ → (∀ j, j < n → overlap (r * j - r) (r * j) (x - 1) x ≠ 0 → |w j - w' j| ≤ δ) →
        |y x - y' x| ≤ δ + 2 * E) ∧
      ∀ D, ∑ x ∈ Finset.range D, |y x - y' x| ≤ r * ∑ j ∈ Finset.range n, |w j - w' j| + D * (2 * E) := by
  intro E
  obtain ⟨n, g, a1, a2, a0, _⟩ := C58_mix fuel s s' st it h
  obtain ⟨n', g', b1, b2, b0, _⟩ := C58_mix fuel' t t' st' it' h'
  rw [ho] at a1 a0
  rw [ho', hrt, hbt, hsr, hsl] at b1 b0
  cases takes_unique b1 a1
  obtain ⟨hn, A⟩ := box_any a1 hq hr hr1 hb i hi w g (fun j hj => by
    obtain ⟨f, f1, f2⟩ := a2 j hj
    exact hw j f f1 _ f2)
  obtain ⟨-, B⟩ := box_any a1 hq hr hr1 hb i hi w' g' (fun j hj => by
    obtain ⟨f, f1, f2⟩ := b2 j hj
    exact hw' j f f1 _ f2)
  choose y y1 y2 using A
  choose y' y1' y2' using B
  have key : ∀ (x : Nat) (δ : ℚ), |∑ j ∈ Finset.range n, (w j - w' j) * overlap (r * j - r) (r * j) ((x:ℚ) - 1) x| ≤ δ →
      |y x - y' x| ≤ δ + 2 * E := by
    intro x δ hδ
    have e1 := y2 x
    have e2 := y2' x
    simp only [sub_mul, Finset.sum_sub_distrib] at hδ
    change _ ≤ E at e1
    change _ ≤ E at e2
    rw [abs_le] at *
    constructor <;> linarith [e1.1, e1.2, e2.1, e2.2, hδ.1, hδ.2]
  refine ⟨n, y, y', a1, fun x hx => ⟨_, _, a0 x hx, b0 x hx, y1 x, y1' x⟩, fun x δ hδ hu => ?_, fun D => ?_⟩
  · exact key x δ (box_le hr.le hδ n x (fun j => w j - w' j) hu)
  · have := total_le hr.le hr1 D n (fun j => |w j - w' j|) (fun j => abs_nonneg _)
    refine le_trans (Finset.sum_le_sum fun x _ => key x _ ((Finset.abs_sum_le_sum_abs _ _).trans le_rfl)) ?_
    rw [Finset.sum_add_distrib]
    simp only [abs_mul, abs_of_nonneg (overlap_nonneg _ _ _ _)]
    simp only [Finset.sum_const, Finset.card_range, nsmul_eq_mul]
    linarith

/-- Three 8 bit samples at 12 Hz. -/
def exTrio (x y z : BitVec 8) : Audio .mono .ch8 := ⟨lit 12, [#v[x], #v[y], #v[z]]⟩

theorem exTrio_val (x y z : BitVec 8) (hx : |x.toInt| ≤ 127) (hy : |y.toInt| ≤ 127) (hz : |z.toInt| ≤ 127) (j : Nat) (f : Frame .mono .ch8)
    (hf : (Src.audio (exTrio x y z)).nth j = .ok (some f)) (g : Frame .mono .ch8) (hg : f.convert .ch8 = .ok g) :
    SampleVal .ch8 g[0] (([x, y, z].map (fun a : BitVec 8 => (a.toInt : ℚ) / 127)).getD j 0) ∧
      |([x, y, z].map (fun a : BitVec 8 => (a.toInt : ℚ) / 127)).getD j 0| ≤ 1 := by
  have key : ∀ a : BitVec 8, |a.toInt| ≤ 127 → |(a.toInt:ℚ) / 127| ≤ 1 := by
    intro a ha
    rw [abs_div, abs_of_pos (by norm_num : (0:ℚ) < 127), div_le_one (by norm_num)]
    exact_mod_cast ha
  rw [C21_id rfl] at hg
  cases hg
  match j with
  | 0 => cases hf; exact ⟨rfl, key x hx⟩
  | 1 => cases hf; exact ⟨rfl, key y hy⟩
  | 2 => cases hf; exact ⟨rfl, key z hz⟩
  | j + 3 => cases hf

/-- Two streams of three frames from 12 to 8 Hz. -/
example := C133_stable 6 6 (exSink 3 8) _ (exSink 3 8) _ (.audio (exTrio 100#8 (-20#8) 7#8)) (.audio (exTrio 98#8 (-20#8) 9#8)) _ _
  (R.returns₂ (x := (exSink 3 8).stream 6 (.audio (exTrio 100#8 (-20#8) 7#8))) (by decide +kernel))
  (R.returns₂ (x := (exSink 3 8).stream 6 (.audio (exTrio 98#8 (-20#8) 9#8))) (by decide +kernel))
  rfl rfl rfl rfl rfl rfl (binary64.rnd (2 / 3)) (by decide +kernel) (by decide +kernel) (by decide +kernel) (by decide +kernel)
  0 (by decide) _ _ (exTrio_val 100#8 (-20#8) 7#8 (by decide) (by decide) (by decide))
  (exTrio_val 98#8 (-20#8) 9#8 (by decide) (by decide) (by decide))

/-- C133: when the rate does not go up, the power of the result is at most the power of the frames that were taken times the
ratio, up to the accuracy of each slot. -/
theorem C133_power (fuel : Nat) (s s' : Sink k c) (st : Src k1 c1) (it : It k1 c1) (h : s.stream fuel st = .ok (s', it))
    (ho : s.res.offseti = lit 0) (r : ℚ) (hq : (ratioOf s.rate st.rate).Is r) (hr : 0 < r) (hr1 : r ≤ 1)
    (hb : (s.buf.length : ℚ) + 1 ≤ r * 2 ^ 52) (i : Nat) (hi : i < k.chans) (w : Nat → ℚ)
    (hw : ∀ j f, st.nth j = .ok (some f) → ∀ x : Frame k c, f.convert c = .ok x → SampleVal c x[i] (w j) ∧ |w j| ≤ 1) :
    let E := (mixErr c + 5 * 2 ^ (-53 : ℤ) + 2 * ((s.buf.length + 1) * 2 ^ (-53 : ℤ))) * (1 / r + 3)
    ∃ (n : Nat) (y : Nat → ℚ), Takes (ratioOf s.rate st.rate) (lit 0) st.len s.buf.length n ∧
      (∀ x, InDst (ratioOf s.rate st.rate) st.len s.buf.length x → ∃ f, s'.buf[x]? = some f ∧ SampleVal c f[i] (y x)) ∧
      ∀ D, ∑ x ∈ Finset.range D, y x ^ 2 ≤ r * ∑ j ∈ Finset.range n, w j ^ 2 + D * (2 * E + E ^ 2) := by
  intro E
  obtain ⟨n, g, a1, a2, a0, _⟩ := C58_mix fuel s s' st it h
  rw [ho] at a1 a0
  have hg : ∀ j, j < n → SampleVal c (g j)[i] (w j) ∧ |w j| ≤ 1 := fun j hj => by
    obtain ⟨f, f1, f2⟩ := a2 j hj
    exact hw j f f1 _ f2
  obtain ⟨hn, A⟩ := box_any a1 hq hr hr1 hb i hi w g hg
  choose y y1 y2 using A
  have hE : 0 ≤ E := (abs_nonneg _).trans (y2 0)
  refine ⟨n, y, a1, fun x hx => ⟨_, a0 x hx, y1 x⟩, fun D => ?_⟩
  have key : ∀ x : Nat, y x ^ 2 ≤ ∑ j ∈ Finset.range n, w j ^ 2 * overlap (r * j - r) (r * j) ((x:ℚ) - 1) x + (2 * E + E ^ 2) := by
    intro x
    have e1 := box_sq hr.le n x w
    have e2 := box_le hr.le zero_le_one n x w (fun j hj _ => (hg j hj).2)
    have e3 := y2 x
    change _ ≤ E at e3
    generalize ∑ j ∈ Finset.range n, w j * overlap (r * j - r) (r * j) ((x:ℚ) - 1) x = Y at *
    rw [abs_le] at *
    nlinarith [e2.1, e2.2, e3.1, e3.2]
  refine (Finset.sum_le_sum fun x _ => key x).trans ?_
  rw [Finset.sum_add_distrib, Finset.sum_const, Finset.card_range, nsmul_eq_mul]
  have := total_le hr.le hr1 D n (fun j => w j ^ 2) (fun j => sq_nonneg _)
  linarith

example := C133_power 6 (exSink 3 8) _ (.audio (exTrio 100#8 (-20#8) 7#8)) _
  (R.returns₂ (x := (exSink 3 8).stream 6 (.audio (exTrio 100#8 (-20#8) 7#8))) (by decide +kernel))
  rfl (binary64.rnd (2 / 3)) (by decide +kernel) (by decide +kernel) (by decide +kernel) (by decide +kernel)
  0 (by decide) _ (exTrio_val 100#8 (-20#8) 7#8 (by decide) (by decide) (by decide))

/-- C133 when the rate goes up: two streams that differ by at most `δ` give slots that differ by at most `δ` times the ratio, up
to the accuracy of the two slots. -/
theorem C133_up (fuel fuel' : Nat) (s s' t t' : Sink k c) (st : Src k1 c1) (st' : Src k2 c2) (it : It k1 c1) (it' : It k2 c2)
    (h : s.stream fuel st = .ok (s', it)) (h' : t.stream fuel' st' = .ok (t', it')) (hsr : st'.rate = st.rate)
    (hsl : st'.len = st.len) (hrt : t.rate = s.rate) (hbt : t.buf.length = s.buf.length) (ho : s.res.offseti = lit 0)
    (ho' : t.res.offseti = lit 0) (r : ℚ) (hq : (ratioOf s.rate st.rate).Is r) (hr : 1 ≤ r) (hr1 : r ≤ 2 ^ 20)
    (hb : s.buf.length ≤ 2 ^ 51) (i : Nat) (hi : i < k.chans) (w w' : Nat → ℚ)
    (hw : ∀ j f, st.nth j = .ok (some f) → ∀ x : Frame k c, f.convert c = .ok x → SampleVal c x[i] (w j) ∧ |w j| ≤ 1)
    (hw' : ∀ j f, st'.nth j = .ok (some f) → ∀ x : Frame k c, f.convert c = .ok x → SampleVal c x[i] (w' j) ∧ |w' j| ≤ 1)
    (δ : ℚ) (hδ : ∀ j, |w j - w' j| ≤ δ) (x : Nat) (hx : InDst (ratioOf s.rate st.rate) st.len s.buf.length x) :
    ∃ (f f' : Frame k c) (y y' : ℚ), s'.buf[x]? = some f ∧ t'.buf[x]? = some f' ∧ SampleVal c f[i] y ∧ SampleVal c f'[i] y' ∧
      |y - y'| ≤ δ * (r + 2 * ((s.buf.length + 1) * 2 ^ (-53 : ℤ))) + 2 * (mixErr c * (r + 5)) := by
  have h0 : 0 ≤ δ := (abs_nonneg _).trans (hδ 0)
  obtain ⟨n, a1, _, hmono, a2⟩ := C101_mix fuel s s' st it h ho r hq hr hr1 (by omega) i hi w hw
  obtain ⟨n', b1, _, _, b2⟩ := C101_mix fuel' t t' st' it' h' ho' r (by rw [hrt, hsr]; exact hq) hr hr1 (by omega) i hi w' hw'
  rw [hrt, hbt, hsr, hsl] at b1 b2
  cases takes_unique b1 a1
  obtain ⟨f, y, f1, f2, f3⟩ := a2 x hx
  obtain ⟨f', y', f1', f2', f3'⟩ := b2 x hx
  refine ⟨f, f', y, y', f1, f1', f2, f2', ?_⟩
  have hS := share_le c hr (η := (s.buf.length + 1) * 2 ^ (-53 : ℤ))
    (mul_nonneg (by positivity) (two_zpow_pos _).le) (fun j => binary64.rnd (r * j)) n x
    (fun j hj => up_acc hq hr hr1 hb a1 j hj) (fun j j' h1 h2 => hmono j j' h1 h2.le)
  have hT := share_abs c hr _ (fun j => w j - w' j) n x h0 (fun j _ => hδ j) hS
  simp only [sub_mul, Finset.sum_sub_distrib] at hT
  have hc := clampQ_lip (∑ j ∈ Finset.range n, w j * upShare c r x (binary64.rnd (r * j)))
    (∑ j ∈ Finset.range n, w' j * upShare c r x (binary64.rnd (r * j)))
  have hd := hc.trans hT
  generalize δ * (r + 2 * (((s.buf.length:ℚ) + 1) * 2 ^ (-53 : ℤ))) = A at *
  rw [abs_le] at *
  constructor <;> linarith [f3.1, f3.2, f3'.1, f3'.2, hd.1, hd.2]

/-- The same streams at 12 Hz into a sink of 18 Hz. -/
example := C133_up 6 6 (exSink 5 18) _ (exSink 5 18) _ (.audio (exTrio 100#8 (-20#8) 7#8)) (.audio (exTrio 98#8 (-20#8) 9#8)) _ _
  (R.returns₂ (x := (exSink 5 18).stream 6 (.audio (exTrio 100#8 (-20#8) 7#8))) (by decide +kernel))
  (R.returns₂ (x := (exSink 5 18).stream 6 (.audio (exTrio 98#8 (-20#8) 9#8))) (by decide +kernel))
  rfl rfl rfl rfl rfl rfl (3 / 2) (by decide +kernel) (by norm_num) (by norm_num) (by decide +kernel)
  0 (by decide) _ _ (exTrio_val 100#8 (-20#8) 7#8 (by decide) (by decide) (by decide))
  (exTrio_val 98#8 (-20#8) 9#8 (by decide) (by decide) (by decide)) (2 / 127) (by
    intro j
    match j with
    | 0 | 1 | 2 => decide +kernel
    | j + 3 => simp; norm_num) 1 (by decide +kernel)

/-- The bounds for downsampling do not hold when the rate goes up: samples of a quarter come out as three quarters, and a change of a quarter makes a
change of three quarters. -/
theorem C133_only_down : ((⟨lit 24, Resampler.dflt, List.replicate 6 #v[lit 0]⟩ : Sink .mono .ch64).stream 9
    (.audio (k := .mono) (c := .ch64) ⟨lit 8, [#v[lit 0.25], #v[lit 0.25]]⟩)).map (fun r => r.1.buf) =
      .ok [#v[lit 0.75], #v[lit 0], #v[lit 0], #v[lit 0.75], #v[lit 0], #v[lit 0]] ∧
    ((⟨lit 24, Resampler.dflt, List.replicate 6 #v[lit 0]⟩ : Sink .mono .ch64).stream 9
    (.audio (k := .mono) (c := .ch64) ⟨lit 8, [#v[lit 0.25], #v[lit 0]]⟩)).map (fun r => r.1.buf) =
      .ok [#v[lit 0.75], #v[lit 0], #v[lit 0], #v[lit 0], #v[lit 0], #v[lit 0]] ∧
    (0.75 ^ 2 + 0.75 ^ 2 : ℚ) > 24 / 8 * (0.25 ^ 2 + 0.25 ^ 2) := by
  refine ⟨by decide +kernel, by decide +kernel, by norm_num⟩

end Fon
