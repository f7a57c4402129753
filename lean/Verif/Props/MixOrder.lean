import Verif.Props.Layout
import Verif.Props.UpLinear
import Verif.Props.ExtendUp

/-!
# Range of extended audio; mixing before or after resampling
-/

namespace Fon
open Fon.Fl hiding min max
open Fon.Fmt Fon.Sink
variable {k k' : Kind} {c c' : ChTy}

/-! ## C43 -/

theorem extend_int {a b : Audio k c} {st : Src k' c'} {it} (h : a.extend st = (b, .ok it)) :
    a.extendInternal st = .ok (b, it) := by
  unfold Audio.extend at h
  cases he : a.extendInternal st with
  | error e => rw [he] at h; cases h
  | ok p => rw [he] at h; cases h; rfl

/-- C43: all frames that `extend` appends are in range, whatever the rates, the stream and the audio are. -/
theorem C43_extend (a b : Audio k c) (st : Src k' c') (it : It k' c') (h : a.extend st = (b, .ok it)) (i : Nat)
    (y : Frame k c) (hy : b.get (a.len + i) = some y) : y.InRange := by
  have e := extend_int h
  obtain ⟨_, _, _, _, _, h5⟩ := extend_rel e e rfl rfl rfl (fun f _ => f.InRange) dflt_inRange
    (fun _ _ _ _ _ _ _ _ _ _ _ _ => ⟨frame_add_inRange _ _, frame_add_inRange _ _⟩)
  exact h5 i y y hy hy

example := C43_extend (⟨lit 2, []⟩ : Audio .mono .ch32) _ (.audio (k := .mono) (c := .ch64) ⟨lit 4, [#v[.nan], #v[lit 9], #v[lit (-7)]]⟩) _
  (R.returnsSnd (x := (⟨lit 2, []⟩ : Audio .mono .ch32).extend
    (.audio (k := .mono) (c := .ch64) ⟨lit 4, [#v[.nan], #v[lit 9], #v[lit (-7)]]⟩)) (by decide +kernel)) 1

/-- C43: audio made from a stream is in range. -/
theorem C43_withStream (rate : F64) (b : Audio k c) (st : Src k' c') (h : Audio.withStream rate st = .ok b) (i : Nat)
    (y : Frame k c) (hy : b.frames[i]? = some y) : y.InRange := by
  unfold Audio.withStream at h
  cases he : (Audio.withFrames rate [] : Audio k c).extend st with
  | mk p q =>
    rw [he] at h
    cases q with
    | error e => cases h
    | ok it =>
      cases h
      exact C43_extend _ _ st it he i y (by simpa [Audio.len, Audio.withFrames, Audio.get] using hy)

example := C43_withStream (k := .mono) (c := .ch32) (lit 2) _
  (.audio (k := .mono) (c := .ch64) ⟨lit 4, [#v[.nan], #v[lit 9], #v[lit (-7)]]⟩)
  (R.returns (x := (Audio.withStream (lit 2) (.audio (k := .mono) (c := .ch64) ⟨lit 4, [#v[.nan], #v[lit 9], #v[lit (-7)]]⟩) :
    R (Audio .mono .ch32))) (by decide +kernel)) 1

/-- A sample out of range and NaN, appended at another rate. -/
example : ((Audio.withFrames (lit 2) [] : Audio .mono .ch32).extend
    (.audio (k := .mono) (c := .ch32) ⟨lit 1, [#v[lit 7], #v[.nan]]⟩)).1.frames =
    [#v[lit 1], #v[lit 0], #v[lit 1], #v[lit 0]] := by decide +kernel

/-! ## C108 -/

theorem near_clampZ {M m s : ℤ} {S : ℚ} (hM : 0 < M) (hm : m ≤ -M) (hS : |S| ≤ 1) :
    |(clampZ m M s : ℚ) / M - S| ≤ |(s:ℚ) / M - S| := by
  have hMq : (0:ℚ) < M := by exact_mod_cast hM
  obtain ⟨h1, h2⟩ := abs_le.mp hS
  by_cases a1 : M < s
  · rw [show clampZ m M s = M by unfold clampZ; omega, div_self hMq.ne']
    have : (1:ℚ) ≤ s / M := by rw [le_div_iff₀ hMq, one_mul]; exact_mod_cast a1.le
    rw [abs_of_nonneg (by linarith), abs_of_nonneg (by linarith)]; linarith
  by_cases a2 : s < m
  · rw [show clampZ m M s = m by unfold clampZ; omega]
    have e1 : (m:ℚ) / M ≤ -1 := by rw [div_le_iff₀ hMq]; have : (m:ℚ) ≤ -M := by exact_mod_cast hm
                                   linarith
    have e2 : (s:ℚ) / M ≤ m / M := div_le_div_of_nonneg_right (by exact_mod_cast a2.le) hMq.le
    rw [abs_of_nonpos (by linarith), abs_of_nonpos (by linarith)]; linarith
  · rw [show clampZ m M s = s by unfold clampZ; omega]

/-- The sum of two samples is as near to a value in range as the sum of their values. -/
theorem add_near {x y : c.T} {u v S : ℚ} (hx : SampleVal c x u) (hy : SampleVal c y v) (vx : Valid c x) (vy : Valid c y)
    (hS : |S| ≤ 1) : ∃ m, SampleVal c (c.add x y) m ∧ |m - S| ≤ |u + v - S| + mixErr c := by
  cases c
  · refine ⟨_, rfl, ?_⟩
    have := near_clampZ (M := 127) (m := -128) (s := BitVec.toInt x + BitVec.toInt y) (by norm_num) (by norm_num) hS
    rw [show u = (BitVec.toInt x : ℚ) / 127 from hx, show v = (BitVec.toInt y : ℚ) / 127 from hy, C01_ch8_add]
    push_cast at this
    rw [← add_div]
    exact this.trans (le_add_of_nonneg_right (mixErr_pos _).le)
  · refine ⟨_, rfl, ?_⟩
    have := near_clampZ (M := 32767) (m := -32768) (s := BitVec.toInt x + BitVec.toInt y) (by norm_num) (by norm_num) hS
    rw [show u = (BitVec.toInt x : ℚ) / 32767 from hx, show v = (BitVec.toInt y : ℚ) / 32767 from hy, C01_ch16_add]
    push_cast at this
    rw [← add_div]
    exact this.trans (le_add_of_nonneg_right (mixErr_pos _).le)
  all_goals
    have e3 : (ulp .ch32 ≤ mixErr .ch32) ∧ ulp .ch64 ≤ mixErr .ch64 := by norm_num [ulp, mixErr]
    obtain ⟨m, m1, m2⟩ := C69_add vx vy hx hy
    refine ⟨m, m1, ?_⟩
    have e1 := clampQ_lip (u + v) S
    rw [clampQ_of_range (abs_le.mp hS).1 (abs_le.mp hS).2] at e1
    have e2 := abs_sub_le m (clampQ (u + v)) S
    linarith [e3.1, e3.2]

/-- Frames of a sum. -/
theorem plus_nth {sa sb : Src k c} {j : Nat} {f : Frame k c} (hk : k.builtin = true)
    (h : (Src.blend sa sb .plus).nth j = .ok (some f)) :
    ∃ x y, sa.nth j = .ok (some x) ∧ sb.nth j = .ok (some y) ∧ f = x.add y := by
  unfold Src.nth at h
  cases ha : sa.nth j with
  | error e => rw [ha] at h; cases h
  | ok o => cases o with
    | none => rw [ha] at h; cases h
    | some x =>
      cases hb : sb.nth j with
      | error e => rw [ha, hb] at h; cases h
      | ok o => cases o with
        | none => rw [ha, hb] at h; cases h
        | some y =>
          refine ⟨x, y, rfl, rfl, ?_⟩
          rw [ha, hb] at h
          simp only [bind, Except.bind, C21_id hk, (C26_meaning x y).2.2.2.1, pure, Except.pure] at h
          injection h with h
          injection h with h
          exact h.symm

theorem overlap_nonneg (a b c d : ℚ) : 0 ≤ overlap a b c d := le_max_left _ _

/-- The shares of all frames in a slot. -/
theorem sum_share_le {r : ℚ} (hr : 0 ≤ r) (n x : Nat) :
    ∑ j ∈ Finset.range n, overlap (r * j - r) (r * j) (x - 1) x ≤ 1 := by
  have : ∀ n : Nat, ∑ j ∈ Finset.range n, overlap (r * j - r) (r * j) (x - 1) x = ramp x (r * n - r) - ramp x (-r) := by
    intro n
    induction n with
    | zero => simp
    | succ n ih =>
      rw [Finset.sum_range_succ, ih, ← share_overlap hr]
      unfold share
      rw [show r * ((n + 1 : ℕ):ℚ) - r = r * n by push_cast; ring]
      ring
  rw [this]
  linarith [(ramp_range x (r * n - r)).2, (ramp_range x (-r)).1]

/-- Weighted sums of values that differ little. -/
theorem weighted_near {n : Nat} {o z t : Nat → ℚ} {e S : ℚ} (ho : ∀ j, j < n → 0 ≤ o j) (hS : ∑ j ∈ Finset.range n, o j ≤ S)
    (he : 0 ≤ e) (h : ∀ j, j < n → |z j - t j| ≤ e) :
    |∑ j ∈ Finset.range n, z j * o j - ∑ j ∈ Finset.range n, t j * o j| ≤ e * S := by
  rw [← Finset.sum_sub_distrib]
  refine (Finset.abs_sum_le_sum_abs _ _).trans ?_
  refine le_trans ?_ (mul_le_mul_of_nonneg_left hS he)
  rw [Finset.mul_sum]
  refine Finset.sum_le_sum fun j hj => ?_
  have hj := Finset.mem_range.mp hj
  rw [← sub_mul, abs_mul, abs_of_nonneg (ho j hj)]
  exact mul_le_mul_of_nonneg_right (h j hj) (ho j hj)

/-- The middle part: three slots that are near weighted sums. -/
theorem mix_order {y z : c.T} {b b1 b2 S U V E e : ℚ} (h2 : SampleVal c y b1)
    (h3 : SampleVal c z b2) (vy : Valid c y) (vz : Valid c z) (hS : |U + V| ≤ 1) (e1 : |b - S| ≤ E)
    (e2 : |b1 - U| ≤ E) (e3 : |b2 - V| ≤ E) (e4 : |S - (U + V)| ≤ e) :
    ∃ m, SampleVal c (c.add y z) m ∧ |b - m| ≤ 3 * E + e + mixErr c := by
  obtain ⟨m, m1, m2⟩ := add_near h2 h3 vy vz hS
  refine ⟨m, m1, ?_⟩
  have t1 : |b1 + b2 - (U + V)| ≤ 2 * E := by
    rw [abs_le] at e2 e3 ⊢
    constructor <;> linarith
  have m3 := m2.trans (add_le_add_left t1 _)
  rw [abs_le] at e1 e4 m3 ⊢
  constructor <;> linarith

theorem valid_of {x : c.T} {u : ℚ} (h : SampleVal c x u) (hu : |u| ≤ 1) : Valid c x := by
  cases c
  · trivial
  · trivial
  · exact ⟨u, h, abs_le.mp hu⟩
  · exact ⟨u, h, abs_le.mp hu⟩

/-- A sum that is in range. -/
theorem sum_val {x y : c.T} {u v : ℚ} (hx : SampleVal c x u) (hy : SampleVal c y v) (hu : |u| ≤ 1) (hv : |v| ≤ 1)
    (h : |u + v| ≤ 1) : ∃ m, SampleVal c (c.add x y) m ∧ |m| ≤ 1 ∧ |m - (u + v)| ≤ mixErr c := by
  obtain ⟨m, m1, m2⟩ := add_near hx hy (valid_of hx hu) (valid_of hy hv) h
  rw [sub_self, abs_zero, zero_add] at m2
  refine ⟨m, m1, ?_, m2⟩
  cases c
  · have := near_clampZ (M := 127) (m := -128) (s := BitVec.toInt x + BitVec.toInt y) (by norm_num) (by norm_num) h
    rw [← C01_ch8_add] at this
    rw [show u = (BitVec.toInt x : ℚ) / 127 from hx, show v = (BitVec.toInt y : ℚ) / 127 from hy] at this h
    rw [show m = ((ChTy.ch8.add x y).toInt : ℚ) / 127 from m1]
    push_cast at this
    rw [← add_div] at this h
    rw [sub_self, abs_zero] at this
    rw [sub_eq_zero.mp (abs_eq_zero.mp (le_antisymm this (abs_nonneg _)))]
    exact h
  · have := near_clampZ (M := 32767) (m := -32768) (s := BitVec.toInt x + BitVec.toInt y) (by norm_num) (by norm_num) h
    rw [← C01_ch16_add] at this
    rw [show u = (BitVec.toInt x : ℚ) / 32767 from hx, show v = (BitVec.toInt y : ℚ) / 32767 from hy] at this h
    rw [show m = ((ChTy.ch16.add x y).toInt : ℚ) / 32767 from m1]
    push_cast at this
    rw [← add_div] at this h
    rw [sub_self, abs_zero] at this
    rw [sub_eq_zero.mp (abs_eq_zero.mp (le_antisymm this (abs_nonneg _)))]
    exact h
  · obtain ⟨q, q1, q2⟩ : Valid .ch32 (ChTy.ch32.add x y) := Valid.add
    rw [Is.unique m1 q1]; exact abs_le.mpr q2
  · obtain ⟨q, q1, q2⟩ : Valid .ch64 (ChTy.ch64.add x y) := Valid.add
    rw [Is.unique m1 q1]; exact abs_le.mpr q2

/-- Values of the frames of a sum. -/
theorem plus_values (hk : k.builtin = true) (sa sb : Src k c) (i : Nat) (hi : i < k.chans) (u v : Nat → ℚ)
    (hu : ∀ j f, sa.nth j = .ok (some f) → SampleVal c f[i] (u j) ∧ |u j| ≤ 1)
    (hv : ∀ j f, sb.nth j = .ok (some f) → SampleVal c f[i] (v j) ∧ |v j| ≤ 1) (huv : ∀ j, |u j + v j| ≤ 1) :
    ∃ z : Nat → ℚ, (∀ j, |z j - (u j + v j)| ≤ mixErr c) ∧
      ∀ j f, (Src.blend sa sb .plus).nth j = .ok (some f) → SampleVal c f[i] (z j) ∧ |z j| ≤ 1 := by
  have : ∀ j, ∃ z : ℚ, |z - (u j + v j)| ≤ mixErr c ∧
      ∀ f, (Src.blend sa sb .plus).nth j = .ok (some f) → SampleVal c f[i] z ∧ |z| ≤ 1 := by
    intro j
    by_cases h : ∃ f, (Src.blend sa sb .plus).nth j = .ok (some f)
    · obtain ⟨f, hf⟩ := h
      obtain ⟨x, y, h1, h2, rfl⟩ := plus_nth hk hf
      obtain ⟨a1, a2⟩ := hu j x h1
      obtain ⟨b1, b2⟩ := hv j y h2
      obtain ⟨m, m1, m2, m3⟩ := sum_val a1 b1 a2 b2 (huv j)
      refine ⟨m, m3, fun f hf' => ?_⟩
      rw [hf] at hf'
      cases hf'
      exact ⟨by simpa [Frame.add] using m1, m2⟩
    · exact ⟨u j + v j, by rw [sub_self, abs_zero]; exact (mixErr_pos c).le, fun f hf => absurd ⟨f, hf⟩ h⟩
  choose z h1 h2 using this
  exact ⟨z, h1, h2⟩

/-- C108, downsampling (whole rates): resampling the sum of two streams gives the sum of the resampled streams, up to the
errors of C59, if the sum does not clip. -/
theorem C108_down (hk : k.builtin = true) (rate sr : F64) (dst src l : Nat) (hr : rate.Is (dst:ℚ)) (hs : sr.Is (src:ℚ))
    (h0 : 0 < src) (hd0 : 0 < dst) (hs' : src ≤ 2 ^ 51) (hle : dst ≤ src) (hN : dst * l < 2 ^ 51)
    (hB : dst * l + 2 * src ≤ dst * 2 ^ 51) (sa sb : Src k c) (hla : sa.len = some l) (hlb : sb.len = some l)
    (hra : sa.rate = some sr) (hrb : sb.rate = some sr) (b ya yb : Audio k c)
    (h : Audio.withStream rate (.blend sa sb .plus) = .ok b) (ha : Audio.withStream rate sa = .ok ya)
    (hb : Audio.withStream rate sb = .ok yb) (i : Nat) (hi : i < k.chans) (u v : Nat → ℚ)
    (hu : ∀ j f, sa.nth j = .ok (some f) → SampleVal c f[i] (u j) ∧ |u j| ≤ 1)
    (hv : ∀ j f, sb.nth j = .ok (some f) → SampleVal c f[i] (v j) ∧ |v j| ≤ 1) (huv : ∀ j, |u j + v j| ≤ 1) :
    ya.len = b.len ∧ yb.len = b.len ∧ ∀ x, x < b.len → ∃ (f m : Frame k c) (p q : ℚ), b.get x = some f ∧
      (Src.blend (.audio ya) (.audio yb) .plus).nth x = .ok (some m) ∧ SampleVal c f[i] p ∧ SampleVal c m[i] q ∧
      |p - q| ≤ 3 * ((mixErr c + 5 * 2 ^ (-53 : ℤ) + 2 * ((b.len + 1) * 2 ^ (-53 : ℤ))) *
        (1 / binary64.rnd ((dst:ℚ) / src) + 3)) + 2 * mixErr c := by
  have hl52 : l ≤ 2 ^ 53 := by
    have := Nat.le_mul_of_pos_left l hd0
    omega
  have hlab : (Src.blend sa sb .plus).len = some l := by simp [Src.len, hla, hlb]
  have k0 := C49_partial rate sr dst src l hr hs h0 (by omega) hl52 hs' _ hlab hra b h
  have k1 := C49_partial rate sr dst src l hr hs h0 (by omega) hl52 hs' sa hla hra ya ha
  have k2 := C49_partial rate sr dst src l hr hs h0 (by omega) hl52 hs' sb hlb hrb yb hb
  have e1 : ya.frames.length = b.frames.length := k1.trans k0.symm
  have e2 : yb.frames.length = b.frames.length := k2.trans k0.symm
  refine ⟨e1, e2, ?_⟩
  obtain ⟨z, z1, z2⟩ := plus_values hk sa sb i hi u v hu hv huv
  obtain ⟨n, t0, _, _, s0⟩ := C89_partial rate sr dst src l hr hs h0 hd0 hs' hle hN hB _ hlab hra b h i hi z
    (fun j f hf x hx => by rw [C21_id hk] at hx; cases hx; exact z2 j f hf)
  obtain ⟨n1, t1, _, _, s1⟩ := C89_partial rate sr dst src l hr hs h0 hd0 hs' hle hN hB sa hla hra ya ha i hi u
    (fun j f hf x hx => by rw [C21_id hk] at hx; cases hx; exact hu j f hf)
  obtain ⟨n2, t2, _, _, s2⟩ := C89_partial rate sr dst src l hr hs h0 hd0 hs' hle hN hB sb hlb hrb yb hb i hi v
    (fun j f hf x hx => by rw [C21_id hk] at hx; cases hx; exact hv j f hf)
  rw [e1] at t1 s1
  rw [e2] at t2 s2
  cases takes_unique t1 t0
  cases takes_unique t2 t0
  intro x hx
  obtain ⟨f, f1, f2⟩ := s0 x hx
  obtain ⟨g, g1, g2⟩ := s1 x hx
  obtain ⟨w, w1, w2⟩ := s2 x hx
  have hr0 : (0:ℚ) ≤ binary64.rnd ((dst:ℚ) / src) := by
    have := Fmt.rnd_mono (f := binary64) (show (0:ℚ) ≤ (dst:ℚ) / src by positivity)
    rwa [Fmt.rnd_zero] at this
  have hE : 0 ≤ (mixErr c + 5 * 2 ^ (-53 : ℤ) + 2 * ((b.len + 1) * 2 ^ (-53 : ℤ))) *
      (1 / binary64.rnd ((dst:ℚ) / src) + 3) := by
    have := mixErr_pos c
    have := two_zpow_pos (-53)
    positivity
  refine ⟨f, g.add w, ?_⟩
  have hnth : (Src.blend (.audio ya) (.audio yb) .plus).nth x = .ok (some (g.add w)) := by
    simp only [Src.nth, g1, w1, bind, Except.bind, C21_id hk, (C26_meaning g w).2.2.2.1, pure, Except.pure]
  split at f2
  · rename_i hc
    rw [if_pos hc] at g2 w2
    have hdf : SampleVal c (Frame.dflt : Frame k c)[i] 0 := by
      simpa [Frame.dflt] using of_val (mixLaw c).dflt
    refine ⟨0, 0, f1, hnth, ?_, ?_, ?_⟩
    · rw [f2.2]; exact hdf
    · rw [g2.2, w2.2, dflt_add_self]; exact hdf
    · rw [sub_self, abs_zero]; linarith [mixErr_pos c]
  · rename_i hc
    rw [if_neg hc] at g2 w2
    obtain ⟨p, p1, p2⟩ := f2
    obtain ⟨p', p1', p2'⟩ := g2
    obtain ⟨p'', p1'', p2''⟩ := w2
    have hS := sum_share_le hr0 n x
    have hnn : ∀ j, j < n → 0 ≤ overlap (binary64.rnd ((dst:ℚ) / src) * j - binary64.rnd ((dst:ℚ) / src))
      (binary64.rnd ((dst:ℚ) / src) * j) (x - 1) x := fun j _ => overlap_nonneg _ _ _ _
    have hd := weighted_near hnn hS (mixErr_pos c).le (fun j _ => z1 j)
    have hA := weighted_near (z := fun j => u j + v j) (t := fun _ => 0) hnn hS zero_le_one (fun j _ => by
      rw [sub_zero]; exact huv j)
    simp only [zero_mul, Finset.sum_const_zero, sub_zero, one_mul] at hA
    have hsum : ∀ o : Nat → ℚ, ∑ j ∈ Finset.range n, (u j + v j) * o j =
        ∑ j ∈ Finset.range n, u j * o j + ∑ j ∈ Finset.range n, v j * o j := by
      intro o
      rw [← Finset.sum_add_distrib]
      exact Finset.sum_congr rfl (fun j _ => by ring)
    rw [hsum] at hd hA
    have hv1 := (frame_inRange_iff _).mp (C43_withStream rate ya sa ha x g g1) i hi
    have hv2 := (frame_inRange_iff _).mp (C43_withStream rate yb sb hb x w w1) i hi
    obtain ⟨m, m1, m2⟩ := mix_order p1' p1'' hv1 hv2 hA p2 p2' p2'' hd
    refine ⟨p, m, f1, hnth, p1, by simpa [Frame.add] using m1, m2.trans (le_of_eq ?_)⟩
    simp only [Audio.len]
    ring

/-- C108, upsampling (whole rates): the same, if the streams and their sum are quiet enough not to clip when resampled. -/
theorem C108_up (hk : k.builtin = true) (rate sr : F64) (dst src l : Nat) (hr : rate.Is (dst:ℚ)) (hs : sr.Is (src:ℚ))
    (h0 : 0 < src) (hs' : src ≤ 2 ^ 50) (hd' : dst ≤ 2 ^ 51) (hle : src ≤ dst) (h20 : dst ≤ 2 ^ 20 * src)
    (hN : dst * l < 2 ^ 51) (sa sb : Src k c) (hla : sa.len = some l) (hlb : sb.len = some l)
    (hra : sa.rate = some sr) (hrb : sb.rate = some sr) (b ya yb : Audio k c)
    (h : Audio.withStream rate (.blend sa sb .plus) = .ok b) (ha : Audio.withStream rate sa = .ok ya)
    (hb : Audio.withStream rate sb = .ok yb) (i : Nat) (hi : i < k.chans) (u v : Nat → ℚ) (r : ℚ)
    (hr' : r = binary64.rnd ((dst:ℚ) / src))
    (hu : ∀ j f, sa.nth j = .ok (some f) → SampleVal c f[i] (u j)) (hu' : ∀ j, |u j| * (r + 1) ≤ 1)
    (hv : ∀ j f, sb.nth j = .ok (some f) → SampleVal c f[i] (v j)) (hv' : ∀ j, |v j| * (r + 1) ≤ 1)
    (huv : ∀ j, |u j + v j| * (r + 1) ≤ 1) :
    ya.len = b.len ∧ yb.len = b.len ∧ ∀ x, x < b.len → ∃ (f m : Frame k c) (p q : ℚ), b.get x = some f ∧
      (Src.blend (.audio ya) (.audio yb) .plus).nth x = .ok (some m) ∧ SampleVal c f[i] p ∧ SampleVal c m[i] q ∧
      |p - q| ≤ mixErr c * (4 * r + 17) := by
  have hd0 : 0 < dst := by omega
  have hsq : (0:ℚ) < src := by exact_mod_cast h0
  have hr1 : 1 ≤ r := by
    have e0 : binary64.rnd 1 = 1 := Fmt.rnd_of_rep (by simpa using rep_nat53 (n := 1) (by norm_num))
    rw [hr', ← e0]
    refine Fmt.rnd_mono ?_
    rw [le_div_iff₀ hsq, one_mul]; exact_mod_cast hle
  have hr20 : r ≤ 2 ^ 20 := by
    have e0 : binary64.rnd (2 ^ 20) = 2 ^ 20 := Fmt.rnd_of_rep (by exact_mod_cast rep_nat53 (n := 2 ^ 20) (by norm_num))
    rw [hr', ← e0]
    refine Fmt.rnd_mono ?_
    rw [div_le_iff₀ hsq]; exact_mod_cast h20
  have hle1 : ∀ t : ℚ, |t| * (r + 1) ≤ 1 → |t| ≤ 1 := fun t ht => by nlinarith [abs_nonneg t]
  have hleW : ∀ t : ℚ, |t| * (r + 1) ≤ 1 → |t| ≤ 1 / (r + 1) := fun t ht => by rwa [le_div_iff₀ (by linarith)]
  have hlab : (Src.blend sa sb .plus).len = some l := by simp [Src.len, hla, hlb]
  obtain ⟨z, z1, z2⟩ := plus_values hk sa sb i hi u v (fun j f hf => ⟨hu j f hf, hle1 _ (hu' j)⟩)
    (fun j f hf => ⟨hv j f hf, hle1 _ (hv' j)⟩) (fun j => hle1 _ (huv j))
  obtain ⟨k0, t0, s0⟩ := C104_up rate sr dst src l hr hs h0 hs' hd' hle h20 hN _ hlab hra b h i hi z
    (fun j f hf x hx => by rw [C21_id hk] at hx; cases hx; exact z2 j f hf)
  obtain ⟨k1, _, s1⟩ := C104_up rate sr dst src l hr hs h0 hs' hd' hle h20 hN sa hla hra ya ha i hi u
    (fun j f hf x hx => by rw [C21_id hk] at hx; cases hx; exact ⟨hu j f hf, hle1 _ (hu' j)⟩)
  obtain ⟨k2, _, s2⟩ := C104_up rate sr dst src l hr hs h0 hs' hd' hle h20 hN sb hlb hrb yb hb i hi v
    (fun j f hf x hx => by rw [C21_id hk] at hx; cases hx; exact ⟨hv j f hf, hle1 _ (hv' j)⟩)
  rw [← hr'] at s0 s1 s2
  have e1 : ya.frames.length = b.frames.length := k1.trans k0.symm
  have e2 : yb.frames.length = b.frames.length := k2.trans k0.symm
  rw [e1] at s1
  rw [e2] at s2
  refine ⟨e1, e2, fun x hx => ?_⟩
  obtain ⟨f, p, f1, p1, p2⟩ := s0 x hx
  obtain ⟨g, p', g1, p1', p2'⟩ := s1 x hx
  obtain ⟨w, p'', w1, p1'', p2''⟩ := s2 x hx
  have hnth : (Src.blend (.audio ya) (.audio yb) .plus).nth x = .ok (some (g.add w)) := by
    simp only [Src.nth, g1, w1, bind, Except.bind, C21_id hk, (C26_meaning g w).2.2.2.1, pure, Except.pure]
  -- the shares
  have hB : b.frames.length ≤ 2 ^ 51 := by
    rw [k0]
    refine Nat.ceil_le.mpr ?_
    rw [div_le_iff₀ hsq]
    have a1 : (dst * l : ℚ) ≤ 2 ^ 51 := by exact_mod_cast hN.le
    have a2 : (1:ℚ) ≤ src := by exact_mod_cast h0
    push_cast
    nlinarith
  obtain ⟨hratio, _⟩ := pos_int hr hs h0 hd0 (by omega) hd'
  rw [← hr'] at hratio
  obtain ⟨_, _, _, hmono⟩ := up_pos hratio hr1 hr20 (by omega) t0
  have hu0 : (0:ℚ) < 2 ^ (-53:ℤ) := two_zpow_pos _
  have hS := share_le c hr1 (η := (b.frames.length + 1) * 2 ^ (-53 : ℤ))
    (mul_nonneg (by positivity) hu0.le) (fun j => binary64.rnd (r * j)) l x
    (fun j hj => up_acc hratio hr1 hr20 hB t0 j hj) (fun j j' h1 h2 => hmono j j' h1 h2.le)
  have hS1 : ∑ j ∈ Finset.range l, upShare c r x (binary64.rnd (r * j)) ≤ r + 1 := by
    have hBq : (b.frames.length:ℚ) ≤ 2 ^ 51 := by exact_mod_cast hB
    have h4 : (b.frames.length + 1 : ℚ) * 2 ^ (-53:ℤ) ≤ (2 ^ 51 + 1) * 2 ^ (-53:ℤ) :=
      mul_le_mul_of_nonneg_right (by linarith) hu0.le
    have h5 : ((2:ℚ) ^ 51 + 1) * 2 ^ (-53:ℤ) ≤ 1 / 2 := by norm_num
    have h6 := h4.trans h5
    refine hS.trans ?_
    generalize ((b.frames.length:ℚ) + 1) * 2 ^ (-53:ℤ) = η at h6 ⊢
    linarith
  have hnn : ∀ j, j < l → 0 ≤ upShare c r x (binary64.rnd (r * j)) := fun j _ => upShare_nonneg c hr1 x _
  have hin : ∀ t : Nat → ℚ, (∀ j, |t j| * (r + 1) ≤ 1) →
      |∑ j ∈ Finset.range l, t j * upShare c r x (binary64.rnd (r * j))| ≤ 1 := by
    intro t ht
    have := share_abs c hr1 _ t l x (by positivity) (fun j _ => hleW _ (ht j)) hS1
    rwa [one_div_mul_cancel (by linarith)] at this
  have hcl : ∀ t : ℚ, |t| ≤ 1 → clampQ t = t := fun t ht => clampQ_of_range (abs_le.mp ht).1 (abs_le.mp ht).2
  rw [hcl _ (hin u hu')] at p2'
  rw [hcl _ (hin v hv')] at p2''
  have hd := weighted_near hnn hS1 (mixErr_pos c).le (fun j _ => z1 j)
  have hd := (clampQ_lip _ _).trans hd
  have hA := hin (fun j => u j + v j) huv
  rw [hcl _ hA] at hd
  have hsum : ∀ o : Nat → ℚ, ∑ j ∈ Finset.range l, (u j + v j) * o j =
      ∑ j ∈ Finset.range l, u j * o j + ∑ j ∈ Finset.range l, v j * o j := by
    intro o
    rw [← Finset.sum_add_distrib]
    exact Finset.sum_congr rfl (fun j _ => by ring)
  rw [hsum] at hd hA
  have hv1 := (frame_inRange_iff _).mp (C43_withStream rate ya sa ha x g g1) i hi
  have hv2 := (frame_inRange_iff _).mp (C43_withStream rate yb sb hb x w w1) i hi
  obtain ⟨m, m1, m2⟩ := mix_order p1' p1'' hv1 hv2 hA p2 p2' p2'' hd
  refine ⟨f, g.add w, p, m, f1, hnth, p1, by simpa [Frame.add] using m1, m2.trans (le_of_eq ?_)⟩
  ring

/-- Three frames at 4 Hz. -/
def exUpA : Audio .mono .ch8 := ⟨lit 4, [#v[50#8], #v[40#8], #v[55#8]]⟩
/-- Three others. -/
def exUpB : Audio .mono .ch8 := ⟨lit 4, [#v[-20#8], #v[10#8], #v[-7#8]]⟩

example := C108_up (k := .mono) (c := .ch8) rfl (lit 5) (lit 4) 5 4 3 (by decide +kernel) (by decide +kernel)
  (by norm_num) (by norm_num) (by norm_num) (by norm_num) (by norm_num) (by norm_num) (.audio exUpA) (.audio exUpB) rfl rfl
  rfl rfl _ _ _
  (R.returns (x := (Audio.withStream (lit 5) (.blend (.audio exUpA) (.audio exUpB) .plus) : R (Audio .mono .ch8))) (by decide +kernel))
  (R.returns (x := (Audio.withStream (lit 5) (.audio exUpA) : R (Audio .mono .ch8))) (by decide +kernel))
  (R.returns (x := (Audio.withStream (lit 5) (.audio exUpB) : R (Audio .mono .ch8))) (by decide +kernel)) 0 (by decide)
  (fun j => if j = 0 then 50 / 127 else if j = 1 then 40 / 127 else if j = 2 then 55 / 127 else 0)
  (fun j => if j = 0 then -20 / 127 else if j = 1 then 10 / 127 else if j = 2 then -7 / 127 else 0) (5 / 4) (by decide +kernel)
  (by
    intro j f hf
    match j with
    | 0 | 1 | 2 => cases hf; decide +kernel
    | j + 3 => cases hf) (by
    intro j
    match j with
    | 0 | 1 | 2 => norm_num [abs_le]
    | j + 3 => simp) (by
    intro j f hf
    match j with
    | 0 | 1 | 2 => cases hf; decide +kernel
    | j + 3 => cases hf) (by
    intro j
    match j with
    | 0 | 1 | 2 => norm_num [abs_le]
    | j + 3 => simp) (by
    intro j
    match j with
    | 0 | 1 | 2 => norm_num [abs_le]
    | j + 3 => simp)

/-- Where the sum clips, it makes a difference: 100 + 100 is cut to 127 before the average is taken. -/
theorem C108_clips :
    let a : Audio .mono .ch8 := ⟨lit 2, [#v[0#8], #v[100#8], #v[100#8], #v[0#8]]⟩
    let b : Audio .mono .ch8 := ⟨lit 2, [#v[0#8], #v[100#8], #v[-100#8], #v[0#8]]⟩
    (Audio.withStream (lit 1) (.blend (.audio a) (.audio b) .plus) : R (Audio .mono .ch8)).map (·.frames) =
      .ok [#v[0#8], #v[63#8]] ∧
    (Audio.withStream (lit 1) (.audio a) : R (Audio .mono .ch8)).map (·.frames) = .ok [#v[0#8], #v[98#8]] ∧
    (Audio.withStream (lit 1) (.audio b) : R (Audio .mono .ch8)).map (·.frames) = .ok [#v[0#8], #v[0#8]] := by
  decide +kernel

def exMixA : Audio .mono .ch8 := ⟨lit 2, [#v[0#8], #v[20#8], #v[-50#8], #v[0#8]]⟩
def exMixB : Audio .mono .ch8 := ⟨lit 2, [#v[33#8], #v[100#8], #v[-53#8], #v[0#8]]⟩

/-- The hypotheses of C108 can be met. -/
example : (Audio.withStream (lit 1) (.blend (.audio exMixA) (.audio exMixB) .plus) : R (Audio .mono .ch8)).map (·.frames) =
      .ok [#v[16#8], #v[8#8]] ∧
    (Audio.withStream (lit 1) (.audio exMixA) : R (Audio .mono .ch8)).map (·.frames) = .ok [#v[0#8], #v[-15#8]] ∧
    (Audio.withStream (lit 1) (.audio exMixB) : R (Audio .mono .ch8)).map (·.frames) = .ok [#v[16#8], #v[23#8]] ∧
    ∀ b ya yb : Audio .mono .ch8, Audio.withStream (lit 1) (.blend (.audio exMixA) (.audio exMixB) .plus) = .ok b →
      Audio.withStream (lit 1) (.audio exMixA) = .ok ya → Audio.withStream (lit 1) (.audio exMixB) = .ok yb →
      ya.len = b.len := by
  refine ⟨by decide +kernel, by decide +kernel, by decide +kernel, fun b ya yb h ha hb => ?_⟩
  exact (C108_down rfl (lit 1) (lit 2) 1 2 4 (is_lit (rep_nat53 (n := 1) (by norm_num)))
    (is_lit (rep_nat53 (n := 2) (by norm_num))) (by norm_num) (by norm_num) (by norm_num) (by norm_num) (by norm_num)
    (by norm_num) (.audio exMixA) (.audio exMixB) rfl rfl rfl rfl b ya yb h ha hb 0 (by decide)
    (fun j => if j = 1 then 20 / 127 else if j = 2 then -50 / 127 else 0)
    (fun j => if j = 0 then 33 / 127 else if j = 1 then 100 / 127 else if j = 2 then -53 / 127 else 0) (by
      intro j f hf
      match j with
      | 0 | 1 | 2 | 3 => cases hf; norm_num [SampleVal, abs_le, BitVec.toInt]
      | j + 4 => cases hf) (by
      intro j f hf
      match j with
      | 0 | 1 | 2 | 3 => cases hf; norm_num [SampleVal, abs_le, BitVec.toInt]
      | j + 4 => cases hf) (by
      intro j
      match j with
      | 0 | 1 | 2 => norm_num [abs_le]
      | j + 3 => simp)).1

/-- Upsampling, from 4 to 5 Hz. -/
example : (Audio.withStream (lit 5) (.blend (.audio exUp) (.audio exUp) .plus) : R (Audio .mono .ch8)).map (·.frames) =
      .ok [#v[100#8], #v[80#8], #v[108#8], #v[59#8]] ∧
    (Audio.withStream (lit 5) (.audio exUp) : R (Audio .mono .ch8)).map (·.frames) =
      .ok [#v[50#8], #v[40#8], #v[53#8], #v[29#8]] := by
  decide +kernel

end Fon
