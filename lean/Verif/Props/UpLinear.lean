import Verif.Props.Area
import Verif.Props.Upmix

/-!
# C105: upsampling quiet signals is linear
-/

namespace Fon
open Fon.Fl hiding min max
open Fon.Fmt Fon.Sink
variable {k k' : Kind} {c c' : ChTy}

theorem upShare_nonneg (c : ChTy) {r : ℚ} (hr : 1 ≤ r) (x : ℕ) (p : ℚ) : 0 ≤ upShare c r x p := by
  have f1 := Int.floor_le p
  have f2 := Int.lt_floor_add_one p
  unfold upShare
  split_ifs
  · have := gain_mono c (show (0:ℚ) ≤ r - (p - ⌊p⌋) by linarith)
    rwa [gain_of_le c (by norm_num)] at this
  · linarith
  · exact le_rfl

/-- The shares of a slot add up to no more than the ratio, up to the accuracy of the positions. -/
theorem share_le (c : ChTy) {r η : ℚ} (hr : 1 ≤ r) (hη : 0 ≤ η) (P : ℕ → ℚ) (n x : ℕ)
    (hP : ∀ j, j < n → |P j - r * j| ≤ η) (hmono : ∀ j j', j < j' → j' < n → ⌊P j⌋ < ⌊P j'⌋) :
    ∑ j ∈ Finset.range n, upShare c r x (P j) ≤ r + 2 * η := by
  have key : ∀ m, m ≤ n →
      (∑ j ∈ Finset.range m, upShare c r x (P j) ≤ r + 2 * η) ∧
      ((∀ j, j < m → ⌊P j⌋ < x) → ∑ j ∈ Finset.range m, upShare c r x (P j) =
        if 0 < m ∧ ⌊P (m - 1)⌋ + 1 = x then P (m - 1) - ⌊P (m - 1)⌋ else 0) := by
    intro m
    induction m with
    | zero => intro _; simp; linarith
    | succ m ih =>
      intro hm
      obtain ⟨i1, i2⟩ := ih (by omega)
      have f1 := Int.floor_le (P m)
      have f2 := Int.lt_floor_add_one (P m)
      rw [Finset.sum_range_succ]
      by_cases hA : ⌊P m⌋ = x
      · have hb : ∀ j, j < m → ⌊P j⌋ < x := fun j hj => by have := hmono j m hj (by omega); omega
        refine ⟨?_, fun hh => absurd (hh m (by omega)) (by omega)⟩
        rw [i2 hb, upShare, if_pos hA]
        have hg := gain_le c (r - (P m - ⌊P m⌋))
        split_ifs with h1
        · obtain ⟨m', rfl⟩ : ∃ m', m = m' + 1 := ⟨m - 1, by omega⟩
          rw [Nat.add_sub_cancel] at *
          have e1 := (abs_le.mp (hP (m' + 1) (by omega))).1
          have e2 := (abs_le.mp (hP m' (by omega))).2
          push_cast at e1
          have e3 : (⌊P m'⌋ : ℚ) + 1 = ⌊P (m' + 1)⌋ := by
            have : ⌊P m'⌋ + 1 = ⌊P (m' + 1)⌋ := by omega
            exact_mod_cast this
          linarith
        · linarith
      · by_cases hB : ⌊P m⌋ + 1 = x
        · have hb : ∀ j, j < m → ⌊P j⌋ < x := fun j hj => by have := hmono j m hj (by omega); omega
          have hz : ∑ j ∈ Finset.range m, upShare c r x (P j) = 0 := by
            rw [i2 hb, if_neg]
            rintro ⟨h1, h2⟩
            have := hmono (m - 1) m (by omega) (by omega)
            omega
          rw [hz, zero_add, upShare, if_neg hA, if_pos hB]
          refine ⟨by linarith, fun _ => ?_⟩
          rw [if_pos ⟨by omega, by simpa using hB⟩, Nat.add_sub_cancel]
        · have hz : upShare c r x (P m) = 0 := by rw [upShare, if_neg hA, if_neg hB]
          rw [hz, add_zero]
          refine ⟨i1, fun hh => ?_⟩
          rw [i2 (fun j hj => hh j (by omega)), if_neg, if_neg]
          · rintro ⟨_, h2⟩
            rw [Nat.add_sub_cancel] at h2
            exact hB h2
          · rintro ⟨h1, h2⟩
            have h3 := hmono (m - 1) m (by omega) (by omega)
            have := hh m (by omega)
            omega
  exact (key n le_rfl).1

/-- Accuracy of the positions of the frames that are taken. -/
theorem up_acc {q : F64} {r : ℚ} {len : Option Nat} {B n : Nat} (hq : q.Is r) (hr : 1 ≤ r) (hr1 : r ≤ 2 ^ 20)
    (hB : B ≤ 2 ^ 51) (a1 : Takes q (lit 0) len B n) (j : ℕ) (hj : j < n) :
    |binary64.rnd (r * j) - r * j| ≤ (B + 1) * 2 ^ (-53 : ℤ) := by
  obtain ⟨_, hp, hlt, _⟩ := up_pos hq hr hr1 (by omega) a1
  have hu0 : (0:ℚ) < 2 ^ (-53:ℤ) := two_zpow_pos _
  have hBq : (B:ℚ) ≤ 2 ^ 51 := by exact_mod_cast hB
  have hrel : |binary64.rnd (r * j) - r * j| ≤ r * j * 2 ^ (-53:ℤ) := by
    obtain ⟨m, hm⟩ := gen_mult hq.rep.gen
    have := rel_err (f := binary64) (q := r * j) (m * j) (by rw [hm]; push_cast; ring)
    rwa [abs_of_nonneg (show (0:ℚ) ≤ r * j from mul_nonneg (by linarith) j.cast_nonneg)] at this
  refine hrel.trans (mul_le_mul_of_nonneg_right ?_ hu0.le)
  have h1 := hlt j hj
  have h2 := (abs_le.mp hrel).1
  by_contra hc
  push Not at hc
  have h3 : (B + 1 : ℚ) * (1 - 2 ^ (-53:ℤ)) < r * j * (1 - 2 ^ (-53:ℤ)) := mul_lt_mul_of_pos_right hc (by norm_num)
  have h4 : (B + 1 : ℚ) * 2 ^ (-53:ℤ) ≤ (2 ^ 51 + 1) * 2 ^ (-53:ℤ) := mul_le_mul_of_nonneg_right (by linarith) hu0.le
  have h5 : ((2:ℚ) ^ 51 + 1) * 2 ^ (-53:ℤ) ≤ 1 := by norm_num
  nlinarith

theorem share_abs (c : ChTy) {r W S : ℚ} (hr : 1 ≤ r) (P : ℕ → ℚ) (w : ℕ → ℚ) (n x : ℕ) (hW : 0 ≤ W)
    (hw : ∀ j, j < n → |w j| ≤ W) (hS : ∑ j ∈ Finset.range n, upShare c r x (P j) ≤ S) :
    |∑ j ∈ Finset.range n, w j * upShare c r x (P j)| ≤ W * S := by
  refine (Finset.abs_sum_le_sum_abs _ _).trans ?_
  refine le_trans ?_ (mul_le_mul_of_nonneg_left hS hW)
  rw [Finset.mul_sum]
  refine Finset.sum_le_sum fun j hj => ?_
  rw [abs_mul, abs_of_nonneg (upShare_nonneg c hr x _)]
  exact mul_le_mul_of_nonneg_right (hw j (Finset.mem_range.mp hj)) (upShare_nonneg c hr x _)

/-- C105: no slot is louder than the ratio times the loudest frame. -/
theorem C105_loud (fuel : Nat) (s s' : Sink k c) (st : Src k' c') (it : It k' c')
    (h : s.stream fuel st = .ok (s', it)) (ho : s.res.offseti = lit 0) (r : ℚ)
    (hq : (ratioOf s.rate st.rate).Is r) (hr : 1 ≤ r) (hr1 : r ≤ 2 ^ 20) (hb : s.buf.length ≤ 2 ^ 51)
    (i : Nat) (hi : i < k.chans) (W : ℚ) (hW : W ≤ 1)
    (hw : ∀ j f, st.nth j = .ok (some f) → ∀ x : Frame k c, f.convert c = .ok x → ∃ w, SampleVal c x[i] w ∧ |w| ≤ W)
    (x : Nat) (hx : InDst (ratioOf s.rate st.rate) st.len s.buf.length x) :
    ∃ (y : Frame k c) (b : ℚ), s'.buf[x]? = some y ∧ SampleVal c y[i] b ∧
      |b| ≤ max 0 W * (r + 2 * ((s.buf.length + 1) * 2 ^ (-53 : ℤ))) + mixErr c * (r + 5) := by
  classical
  -- values of the frames
  let w : Nat → ℚ := fun j => if h : ∃ v, |v| ≤ W ∧ ∃ f, st.nth j = .ok (some f) ∧ ∃ x : Frame k c, f.convert c = .ok x ∧
    SampleVal c x[i] v then h.choose else 0
  have hw' : ∀ j f, st.nth j = .ok (some f) → ∀ x : Frame k c, f.convert c = .ok x → SampleVal c x[i] (w j) ∧ |w j| ≤ 1 := by
    intro j f h1 x h2
    have hex : ∃ v, |v| ≤ W ∧ ∃ f, st.nth j = .ok (some f) ∧ ∃ x : Frame k c, f.convert c = .ok x ∧ SampleVal c x[i] v := by
      obtain ⟨v, v1, v2⟩ := hw j f h1 x h2
      exact ⟨v, v2, f, h1, x, h2, v1⟩
    have hwj : w j = hex.choose := dif_pos hex
    obtain ⟨c1, f', c2, x', c3, c4⟩ := hex.choose_spec
    rw [h1] at c2; cases c2
    rw [h2] at c3; cases c3
    rw [hwj]
    exact ⟨c4, c1.trans hW⟩
  have hwW : ∀ j, |w j| ≤ max 0 W := by
    intro j
    by_cases hex : ∃ v, |v| ≤ W ∧ ∃ f, st.nth j = .ok (some f) ∧ ∃ x : Frame k c, f.convert c = .ok x ∧ SampleVal c x[i] v
    · have hwj : w j = hex.choose := dif_pos hex
      rw [hwj]; exact hex.choose_spec.1.trans (le_max_right _ _)
    · have hwj : w j = 0 := dif_neg hex
      rw [hwj, abs_zero]; exact le_max_left _ _
  obtain ⟨n, a1, _, hmono, ha⟩ := C101_mix fuel s s' st it h ho r hq hr hr1 (by omega) i hi w hw'
  obtain ⟨y, b, b1, b2, b3⟩ := ha x hx
  refine ⟨y, b, b1, b2, ?_⟩
  have hS := share_le c hr (η := (s.buf.length + 1) * 2 ^ (-53 : ℤ))
    (mul_nonneg (by positivity) (two_zpow_pos _).le) (fun j => binary64.rnd (r * j)) n x
    (fun j hj => up_acc hq hr hr1 hb a1 j hj) (fun j j' h1 h2 => hmono j j' h1 h2.le)
  have hT := share_abs c hr _ w n x (le_max_left 0 W) (fun j _ => hwW j) hS
  have hc : |clampQ (∑ j ∈ Finset.range n, w j * upShare c r x (binary64.rnd (r * j)))| ≤
      |∑ j ∈ Finset.range n, w j * upShare c r x (binary64.rnd (r * j))| := by
    have := clampQ_lip (∑ j ∈ Finset.range n, w j * upShare c r x (binary64.rnd (r * j))) 0
    have c0 : clampQ 0 = 0 := clampQ_of_range (by norm_num) (by norm_num)
    rwa [c0, sub_zero, sub_zero] at this
  have := abs_sub_abs_le_abs_sub b (clampQ (∑ j ∈ Finset.range n, w j * upShare c r x (binary64.rnd (r * j))))
  linarith

example := C105_loud 6 (exSink 9 12) _ (.audio (exAudio 8)) _
  (R.returns₂ (x := (exSink 9 12).stream 6 (.audio (exAudio 8))) (by decide +kernel)) rfl (3 / 2)
  (by decide +kernel) (by norm_num) (by norm_num) (by decide +kernel) 0 (by decide) (5 / 127) (by norm_num) (by
    intro j f hf x hx
    match j with
    | 0 => cases hf; cases hx; exact ⟨1 / 127, by decide +kernel, by decide +kernel⟩
    | 1 => cases hf; cases hx; exact ⟨2 / 127, by decide +kernel, by decide +kernel⟩
    | 2 => cases hf; cases hx; exact ⟨3 / 127, by decide +kernel, by decide +kernel⟩
    | 3 => cases hf; cases hx; exact ⟨4 / 127, by decide +kernel, by decide +kernel⟩
    | 4 => cases hf; cases hx; exact ⟨5 / 127, by decide +kernel, by decide +kernel⟩
    | j + 5 => cases hf) 4 (by decide +kernel)

/-- C105: when the signals are quiet enough not to clip (`r + 1` times their values is at most 1), streaming
`α A + β B` gives `α` times the result of `A` plus `β` times the result of `B`, up to the error of each run. -/
theorem C105_superpose {k1 k2 k3 : Kind} {c1 c2 c3 : ChTy} {fuel fa fb : Nat} {s s' ta ta' tb tb' : Sink k c}
    {st : Src k1 c1} {sa : Src k2 c2} {sb : Src k3 c3}
    {it ia ib} (h : s.stream fuel st = .ok (s', it)) (ha : ta.stream fa sa = .ok (ta', ia))
    (hb : tb.stream fb sb = .ok (tb', ib)) (ho : s.res.offseti = lit 0) (hoa : ta.res.offseti = lit 0)
    (hob : tb.res.offseti = lit 0) (ra : ratioOf ta.rate sa.rate = ratioOf s.rate st.rate)
    (rb : ratioOf tb.rate sb.rate = ratioOf s.rate st.rate) (la : sa.len = st.len) (lb : sb.len = st.len)
    (ba : ta.buf.length = s.buf.length) (bb : tb.buf.length = s.buf.length) {r : ℚ}
    (hq : (ratioOf s.rate st.rate).Is r) (hr : 1 ≤ r) (hr1 : r ≤ 2 ^ 20) (hbuf : s.buf.length ≤ 2 ^ 51)
    (i : Nat) (hi : i < k.chans) (α β : ℚ) (u v : Nat → ℚ)
    (hw : ∀ j f, st.nth j = .ok (some f) → ∀ x : Frame k c, f.convert c = .ok x → SampleVal c x[i] (α * u j + β * v j))
    (hu : ∀ j f, sa.nth j = .ok (some f) → ∀ x : Frame k c, f.convert c = .ok x → SampleVal c x[i] (u j))
    (hv : ∀ j f, sb.nth j = .ok (some f) → ∀ x : Frame k c, f.convert c = .ok x → SampleVal c x[i] (v j))
    (hq1 : ∀ j, |u j| * (r + 1) ≤ 1) (hq2 : ∀ j, |v j| * (r + 1) ≤ 1) (hq3 : ∀ j, |α * u j + β * v j| * (r + 1) ≤ 1)
    (x : Nat) (hx : InDst (ratioOf s.rate st.rate) st.len s.buf.length x) :
    ∃ (y ya yb : Frame k c) (b b1 b2 : ℚ), s'.buf[x]? = some y ∧ ta'.buf[x]? = some ya ∧ tb'.buf[x]? = some yb ∧
      SampleVal c y[i] b ∧ SampleVal c ya[i] b1 ∧ SampleVal c yb[i] b2 ∧
      |b - (α * b1 + β * b2)| ≤ (1 + |α| + |β|) * (mixErr c * (r + 5)) := by
  have hle : ∀ t : ℚ, |t| * (r + 1) ≤ 1 → |t| ≤ 1 / (r + 1) := fun t ht => by rwa [le_div_iff₀ (by linarith)]
  have hle1 : ∀ t : ℚ, |t| * (r + 1) ≤ 1 → |t| ≤ 1 := fun t ht => by nlinarith [abs_nonneg t]
  obtain ⟨n, a1, _, hmono, a2⟩ := C101_mix fuel s s' st it h ho r hq hr hr1 (by omega) i hi _
    (fun j f h1 x h2 => ⟨hw j f h1 x h2, hle1 _ (hq3 j)⟩)
  obtain ⟨na, b1, _, _, b2⟩ := C101_mix fa ta ta' sa ia ha hoa r (by rw [ra]; exact hq) hr hr1 (by omega) i hi _
    (fun j f h1 x h2 => ⟨hu j f h1 x h2, hle1 _ (hq1 j)⟩)
  obtain ⟨nb, c1, _, _, c2⟩ := C101_mix fb tb tb' sb ib hb hob r (by rw [rb]; exact hq) hr hr1 (by omega) i hi _
    (fun j f h1 x h2 => ⟨hv j f h1 x h2, hle1 _ (hq2 j)⟩)
  rw [ra, la, ba] at b1 b2
  rw [rb, lb, bb] at c1 c2
  cases takes_unique b1 a1
  cases takes_unique c1 a1
  obtain ⟨y, p, g1, g2, g3⟩ := a2 x hx
  obtain ⟨ya, pa, g4, g5, g6⟩ := b2 x hx
  obtain ⟨yb, pb, g7, g8, g9⟩ := c2 x hx
  refine ⟨y, ya, yb, p, pa, pb, g1, g4, g7, g2, g5, g8, ?_⟩
  -- nothing clips
  have hu0 : (0:ℚ) < 2 ^ (-53:ℤ) := two_zpow_pos _
  have hS := share_le c hr (η := (s.buf.length + 1) * 2 ^ (-53 : ℤ))
    (mul_nonneg (by positivity) hu0.le) (fun j => binary64.rnd (r * j)) n x
    (fun j hj => up_acc hq hr hr1 hbuf a1 j hj) (fun j j' h1 h2 => hmono j j' h1 h2.le)
  have hS1 : ∑ j ∈ Finset.range n, upShare c r x (binary64.rnd (r * j)) ≤ r + 1 := by
    have hBq : (s.buf.length:ℚ) ≤ 2 ^ 51 := by exact_mod_cast hbuf
    have h4 : (s.buf.length + 1 : ℚ) * 2 ^ (-53:ℤ) ≤ (2 ^ 51 + 1) * 2 ^ (-53:ℤ) :=
      mul_le_mul_of_nonneg_right (by linarith) hu0.le
    have h5 : ((2:ℚ) ^ 51 + 1) * 2 ^ (-53:ℤ) ≤ 1 / 2 := by norm_num
    have h6 := h4.trans h5
    refine hS.trans ?_
    generalize ((s.buf.length:ℚ) + 1) * 2 ^ (-53:ℤ) = η at h6 ⊢
    linarith
  have hcl : ∀ t : Nat → ℚ, (∀ j, |t j| * (r + 1) ≤ 1) →
      clampQ (∑ j ∈ Finset.range n, t j * upShare c r x (binary64.rnd (r * j))) =
        ∑ j ∈ Finset.range n, t j * upShare c r x (binary64.rnd (r * j)) := by
    intro t ht
    have := share_abs c hr _ t n x (by positivity) (fun j _ => hle _ (ht j)) hS1
    rw [one_div_mul_cancel (by linarith)] at this
    exact clampQ_of_range (abs_le.mp this).1 (abs_le.mp this).2
  rw [hcl _ hq3] at g3
  rw [hcl _ hq1] at g6
  rw [hcl _ hq2] at g9
  generalize mixErr c * (r + 5) = E at *
  have hsum : ∑ j ∈ Finset.range n, (α * u j + β * v j) * upShare c r x (binary64.rnd (r * j)) =
      α * ∑ j ∈ Finset.range n, u j * upShare c r x (binary64.rnd (r * j)) +
      β * ∑ j ∈ Finset.range n, v j * upShare c r x (binary64.rnd (r * j)) := by
    rw [Finset.mul_sum, Finset.mul_sum, ← Finset.sum_add_distrib]
    exact Finset.sum_congr rfl (fun j _ => by ring)
  rw [hsum] at g3
  generalize ∑ j ∈ Finset.range n, u j * upShare c r x (binary64.rnd (r * j)) = U at *
  generalize ∑ j ∈ Finset.range n, v j * upShare c r x (binary64.rnd (r * j)) = V at *
  have t1 : |α * (pa - U)| ≤ |α| * E := by rw [abs_mul]; exact mul_le_mul_of_nonneg_left g6 (abs_nonneg _)
  have t2 : |β * (pb - V)| ≤ |β| * E := by rw [abs_mul]; exact mul_le_mul_of_nonneg_left g9 (abs_nonneg _)
  rw [abs_le] at g3 t1 t2 ⊢
  constructor <;> linarith

/-- Two slots at 12 Hz. -/
def exQuick : Sink .mono .ch64 := ⟨lit 12, Resampler.dflt, List.replicate 2 #v[lit 0]⟩
/-- A signal at 8 Hz. -/
def exUpU : Audio .mono .ch64 := ⟨lit 8, [#v[lit 0.25], #v[lit (-0.125)]]⟩
/-- Another one. -/
def exUpV : Audio .mono .ch64 := ⟨lit 8, [#v[lit 0.125], #v[lit 0.375]]⟩
/-- The first and half of the second. -/
def exUpW : Audio .mono .ch64 := ⟨lit 8, [#v[lit 0.3125], #v[lit 0.0625]]⟩

example := C105_superpose (s := exQuick) (ta := exQuick) (tb := exQuick) (st := .audio exUpW) (sa := .audio exUpU)
  (sb := .audio exUpV) (R.returns₂ (x := exQuick.stream 6 (.audio exUpW)) (by decide +kernel))
  (R.returns₂ (x := exQuick.stream 6 (.audio exUpU)) (by decide +kernel))
  (R.returns₂ (x := exQuick.stream 6 (.audio exUpV)) (by decide +kernel)) rfl rfl rfl rfl rfl rfl rfl rfl rfl (r := 3 / 2)
  (by decide +kernel) (by norm_num) (by norm_num) (by decide +kernel) 0 (by decide) 1 (1 / 2)
  (fun j => if j = 0 then 1 / 4 else if j = 1 then -1 / 8 else 0)
  (fun j => if j = 0 then 1 / 8 else if j = 1 then 3 / 8 else 0) (by
    intro j f hf x hx
    match j with
    | 0 | 1 => cases hf; cases hx; decide +kernel
    | j + 2 => cases hf) (by
    intro j f hf x hx
    match j with
    | 0 | 1 => cases hf; cases hx; decide +kernel
    | j + 2 => cases hf) (by
    intro j f hf x hx
    match j with
    | 0 | 1 => cases hf; cases hx; decide +kernel
    | j + 2 => cases hf)
  (fun j => by match j with
    | 0 | 1 => decide +kernel
    | j + 2 => simp)
  (fun j => by match j with
    | 0 | 1 => decide +kernel
    | j + 2 => simp)
  (fun j => by match j with
    | 0 | 1 => decide +kernel
    | j + 2 => simp) 1 (by decide +kernel)

/-- The shares of one frame over all slots. -/
theorem share_total (c : ChTy) {r p : ℚ} (D : ℕ) (hp : 0 ≤ p) (hD : p < D) :
    ∑ x ∈ Finset.range (D + 1), upShare c r x p = gain c (r - (p - ⌊p⌋)) + (p - ⌊p⌋) := by
  have h0 : 0 ≤ ⌊p⌋ := Int.floor_nonneg.mpr hp
  have h1 : ⌊p⌋ < D := Int.floor_lt.mpr (by push_cast; exact hD)
  obtain ⟨m, hm⟩ : ∃ m : ℕ, ⌊p⌋ = m := ⟨⌊p⌋.toNat, by omega⟩
  rw [Finset.sum_eq_add m (m + 1) (by omega)]
  · unfold upShare
    rw [if_pos hm, if_neg (by omega), if_pos (by push_cast; omega)]
  · intro b _ hb
    unfold upShare
    rw [if_neg (by omega), if_neg (by omega)]
  · intro hb; exact absurd (Finset.mem_range.mpr (by omega)) hb
  · intro hb; exact absurd (Finset.mem_range.mpr (by omega)) hb

/-- C105: for quiet signals the sum over all slots and the left-over frame is the sum over the frames of their value times
what they give to the two slots next to them. -/
theorem C105_sum (fuel : Nat) (s s' : Sink k c) (st : Src k' c') (it : It k' c')
    (h : s.stream fuel st = .ok (s', it)) (ho : s.res.offseti = lit 0) (hp : s.res.partial_ = Frame.dflt) (r : ℚ)
    (hq : (ratioOf s.rate st.rate).Is r) (hr : 1 ≤ r) (hr1 : r ≤ 2 ^ 20) (hb : s.buf.length ≤ 2 ^ 51)
    (i : Nat) (hi : i < k.chans) (w : Nat → ℚ)
    (hw : ∀ j f, st.nth j = .ok (some f) → ∀ x : Frame k c, f.convert c = .ok x →
      SampleVal c x[i] (w j) ∧ |w j| * (r + 1) ≤ 1)
    (D : Nat) (hD : ∀ x, InDst (ratioOf s.rate st.rate) st.len s.buf.length x ↔ x < D) :
    ∃ (n : Nat) (y : Nat → ℚ), Takes (ratioOf s.rate st.rate) (lit 0) st.len s.buf.length n ∧
      (∀ x, x < D → ∃ f, s'.buf[x]? = some f ∧ SampleVal c f[i] (y x)) ∧ SampleVal c s'.res.partial_[i] (y D) ∧
      |∑ x ∈ Finset.range (D + 1), y x - ∑ j ∈ Finset.range n, w j *
        (gain c (r - (binary64.rnd (r * j) - ⌊binary64.rnd (r * j)⌋)) + (binary64.rnd (r * j) - ⌊binary64.rnd (r * j)⌋))| ≤
          (D + 1) * (mixErr c * (r + 5)) := by
  have hle : ∀ t : ℚ, |t| * (r + 1) ≤ 1 → |t| ≤ 1 / (r + 1) := fun t ht => by rwa [le_div_iff₀ (by linarith)]
  have hle1 : ∀ t : ℚ, |t| * (r + 1) ≤ 1 → |t| ≤ 1 := fun t ht => by nlinarith [abs_nonneg t]
  obtain ⟨n, g, a1, a2, a3, a4, _⟩ := C58_mix fuel s s' st it h
  rw [ho] at a1 a3 a4
  obtain ⟨hn, hpz, hlt, hmono⟩ := up_pos hq hr hr1 (by omega) a1
  have hwn : ∀ j, j < n → |w j| * (r + 1) ≤ 1 := by
    intro j hj
    obtain ⟨f, f1, f2⟩ := a2 j hj
    exact (hw j f f1 _ f2).2
  have hBq : (s.buf.length:ℚ) ≤ 2 ^ 51 := by exact_mod_cast hb
  have hu0 : (0:ℚ) < 2 ^ (-53:ℤ) := two_zpow_pos _
  have hx : ∀ x, ∃ v, SampleVal c (mixed (ratioOf s.rate st.rate) (lit 0) g x n Frame.dflt)[i] v ∧
      |v - ∑ j ∈ Finset.range n, w j * upShare c r x (binary64.rnd (r * j))| ≤ mixErr c * (r + 5) := by
    intro x
    obtain ⟨β, b1, b2, _⟩ := up_mixed (k := k) (c := c) hq hr hr1 i hi (fun j => binary64.rnd (r * j)) w g x n
      (fun j hj => ⟨(hpz j (by omega)).2.1, (hpz j (by omega)).2.2.1, (hlt j hj).trans_le (by linarith)⟩)
      (fun j j' h1 h2 => hmono j j' h1 h2.le) (fun j hj => by
        obtain ⟨f, f1, f2⟩ := a2 j hj
        obtain ⟨v1, v2⟩ := hw j f f1 _ f2
        exact ⟨val_of v1 (hle1 _ v2), hle1 _ v2⟩)
    have hS := share_le c hr (η := (s.buf.length + 1) * 2 ^ (-53 : ℤ))
      (mul_nonneg (by positivity) hu0.le) (fun j => binary64.rnd (r * j)) n x
      (fun j hj => up_acc hq hr hr1 hb a1 j hj) (fun j j' h1 h2 => hmono j j' h1 h2.le)
    have hS1 : ∑ j ∈ Finset.range n, upShare c r x (binary64.rnd (r * j)) ≤ r + 1 := by
      have h4 : (s.buf.length + 1 : ℚ) * 2 ^ (-53:ℤ) ≤ (2 ^ 51 + 1) * 2 ^ (-53:ℤ) :=
        mul_le_mul_of_nonneg_right (by linarith) hu0.le
      have h5 : ((2:ℚ) ^ 51 + 1) * 2 ^ (-53:ℤ) ≤ 1 / 2 := by norm_num
      have h6 := h4.trans h5
      refine hS.trans ?_
      generalize ((s.buf.length:ℚ) + 1) * 2 ^ (-53:ℤ) = η at h6 ⊢
      linarith
    have := share_abs c hr _ w n x (by positivity) (fun j hj => hle _ (hwn j hj)) hS1
    rw [one_div_mul_cancel (by linarith)] at this
    rw [clampQ_of_range (abs_le.mp this).1 (abs_le.mp this).2] at b2
    exact ⟨β, of_val b1, b2⟩
  choose y y1 y2 using hx
  refine ⟨n, y, a1, fun x hx => ⟨_, a3 x ((hD x).mpr hx), y1 x⟩, ?_, ?_⟩
  · rw [leftOver_mixed hD g a1.1, hp] at a4
    rw [a4]; exact y1 D
  · have hDB : D ≤ s.buf.length := by
      by_contra hc
      have := ((hD s.buf.length).mpr (by omega)).1
      omega
    have hpos : ∀ j, j < n → binary64.rnd (r * j) < D := by
      intro j hj
      obtain ⟨_, p1, p2, _⟩ := hpz j (by omega)
      have hlt := (hD _).mp (a1.1 j hj)
      by_contra hc
      push Not at hc
      have := le_toUsize p1 hc (by omega)
      omega
    have swap : ∑ x ∈ Finset.range (D + 1), ∑ j ∈ Finset.range n, w j * upShare c r x (binary64.rnd (r * j)) =
        ∑ j ∈ Finset.range n, w j * (gain c (r - (binary64.rnd (r * j) - ⌊binary64.rnd (r * j)⌋)) +
          (binary64.rnd (r * j) - ⌊binary64.rnd (r * j)⌋)) := by
      rw [Finset.sum_comm]
      refine Finset.sum_congr rfl fun j hj => ?_
      have hj := Finset.mem_range.mp hj
      rw [← Finset.mul_sum, share_total c D (hpz j (by omega)).2.2.1 (hpos j hj)]
    rw [← swap, ← Finset.sum_sub_distrib]
    refine (Finset.abs_sum_le_sum_abs _ _).trans ?_
    calc _ ≤ ∑ x ∈ Finset.range (D + 1), mixErr c * (r + 5) := Finset.sum_le_sum fun x _ => y2 x
      _ = (D + 1) * (mixErr c * (r + 5)) := by simp

/-- The slots that are written to. -/
theorem exQuickDst (x : Nat) : InDst (ratioOf exQuick.rate (Src.audio exUpU).rate) (Src.audio exUpU).len exQuick.buf.length x ↔
    x < 2 := by
  constructor
  · exact fun h => h.1
  · have : ∀ x < 2, InDst (ratioOf exQuick.rate (Src.audio exUpU).rate) (Src.audio exUpU).len exQuick.buf.length x := by
      decide +kernel
    exact this x

example := C105_sum 6 exQuick _ (.audio exUpU) _
  (R.returns₂ (x := exQuick.stream 6 (.audio exUpU)) (by decide +kernel)) rfl rfl (3 / 2)
  (by decide +kernel) (by norm_num) (by norm_num) (by decide +kernel) 0 (by decide)
  (fun j => if j = 0 then 1 / 4 else if j = 1 then -1 / 8 else 0) (by
    intro j f hf x hx
    match j with
    | 0 | 1 => cases hf; cases hx; decide +kernel
    | j + 2 => cases hf) 2 exQuickDst

/-- C105, float formats: for quiet signals the sum over all slots and the left-over frame is the ratio times the sum of
the signal. -/
theorem C105_sum_float (hc : c = .ch32 ∨ c = .ch64) (fuel : Nat) (s s' : Sink k c) (st : Src k' c') (it : It k' c')
    (h : s.stream fuel st = .ok (s', it)) (ho : s.res.offseti = lit 0) (hp : s.res.partial_ = Frame.dflt) (r : ℚ)
    (hq : (ratioOf s.rate st.rate).Is r) (hr : 1 ≤ r) (hr1 : r ≤ 2 ^ 20) (hb : s.buf.length ≤ 2 ^ 51)
    (i : Nat) (hi : i < k.chans) (w : Nat → ℚ)
    (hw : ∀ j f, st.nth j = .ok (some f) → ∀ x : Frame k c, f.convert c = .ok x →
      SampleVal c x[i] (w j) ∧ |w j| * (r + 1) ≤ 1)
    (D : Nat) (hD : ∀ x, InDst (ratioOf s.rate st.rate) st.len s.buf.length x ↔ x < D) :
    ∃ (n : Nat) (y : Nat → ℚ), Takes (ratioOf s.rate st.rate) (lit 0) st.len s.buf.length n ∧
      (∀ x, x < D → ∃ f, s'.buf[x]? = some f ∧ SampleVal c f[i] (y x)) ∧ SampleVal c s'.res.partial_[i] (y D) ∧
      |∑ x ∈ Finset.range (D + 1), y x - r * ∑ j ∈ Finset.range n, w j| ≤ (D + 1) * (mixErr c * (r + 5)) := by
  obtain ⟨n, y, a1, a2, a3, a4⟩ := C105_sum fuel s s' st it h ho hp r hq hr hr1 hb i hi w hw D hD
  refine ⟨n, y, a1, a2, a3, ?_⟩
  have : r * ∑ j ∈ Finset.range n, w j = ∑ j ∈ Finset.range n, w j *
        (gain c (r - (binary64.rnd (r * j) - ⌊binary64.rnd (r * j)⌋)) + (binary64.rnd (r * j) - ⌊binary64.rnd (r * j)⌋)) := by
    rw [Finset.mul_sum]
    refine Finset.sum_congr rfl fun j _ => ?_
    rcases hc with rfl | rfl <;> simp only [gain] <;> ring
  rw [this]
  exact a4

example := C105_sum_float (.inr rfl) 6 exQuick _ (.audio exUpU) _
  (R.returns₂ (x := exQuick.stream 6 (.audio exUpU)) (by decide +kernel)) rfl rfl (3 / 2)
  (by decide +kernel) (by norm_num) (by norm_num) (by decide +kernel) 0 (by decide)
  (fun j => if j = 0 then 1 / 4 else if j = 1 then -1 / 8 else 0) (by
    intro j f hf x hx
    match j with
    | 0 | 1 => cases hf; cases hx; decide +kernel
    | j + 2 => cases hf) 2 exQuickDst

/-- The hypotheses can be met, and the sum is 1.5 times that of the signal: 0.25, -0.125 and 0.375 at a ratio of 1.5 (0.75
in all slots together, 0 is left over). -/
example : ((⟨lit 12, Resampler.dflt, List.replicate 4 #v[lit 0]⟩ : Sink .mono .ch64).stream 9
      (.audio (k := .mono) (c := .ch64) ⟨lit 8, [#v[lit 0.25], #v[lit (-0.125)], #v[lit 0.375]]⟩)).map
      (fun r => (r.1.buf, r.1.res.partial_)) =
      .ok ([#v[lit 0.375], #v[lit (-0.125)], #v[lit (-0.0625)], #v[lit 0.5625]], #v[lit 0]) ∧
    (∀ x : ℚ, x ∈ [(0.25:ℚ), -0.125, 0.375] → |x| * (1.5 + 1) ≤ 1) ∧
    (0.375 - 0.125 - 0.0625 + 0.5625 : ℚ) = 1.5 * (0.25 - 0.125 + 0.375) := by
  refine ⟨by decide +kernel, ?_, by norm_num⟩
  intro x hx
  simp only [List.mem_cons, List.not_mem_nil, or_false] at hx
  rcases hx with rfl | rfl | rfl <;> norm_num [abs_of_pos, abs_of_neg]

/-- Loud signals clip: at a ratio of 2 both 0.75 and 0.5 become 1, so doubling the quieter is not heard. -/
example : ((⟨lit 16, Resampler.dflt, List.replicate 4 #v[lit 0]⟩ : Sink .mono .ch64).stream 9
      (.audio (k := .mono) (c := .ch64) ⟨lit 8, [#v[lit 0.75], #v[lit 0.5]]⟩)).map (fun r => r.1.buf) =
      .ok [#v[lit 1], #v[lit 0], #v[lit 1], #v[lit 0]] := by decide +kernel

end Fon
