import Verif.Props.Delay
import Verif.Props.MixOrder

/-!
# C59 and C114 for whole streams

`C59_box` describes the slots by the frames that `stream` takes. The frames that it leaves do not matter for the slots
of the destination range, so the slots are described by the whole stream.
-/

namespace Fon
open Fon.Fl hiding min max
open Fon.Fmt Fon.Sink
variable {k k' k'' : Kind} {c c' c'' : ChTy}

/-- Later frames have little share in a slot. -/
theorem sum_late {r e : ℚ} {a b : Nat} {x : ℚ} (hr : 0 < r) (hab : a ≤ b) (he : 0 ≤ e) (h : x - e ≤ r * a - r) (w : Nat → ℚ)
    (hw : ∀ j, |w j| ≤ 1) :
    |∑ j ∈ Finset.range b, w j * share r x (r * j) - ∑ j ∈ Finset.range a, w j * share r x (r * j)| ≤ e := by
  rw [← Finset.sum_Ico_eq_sub _ hab]
  have h1 : |∑ j ∈ Finset.Ico a b, w j * share r x (r * j)| ≤ ∑ j ∈ Finset.Ico a b, share r x (0 + r * j) := by
    refine (Finset.abs_sum_le_sum_abs _ _).trans (Finset.sum_le_sum (fun j _ => ?_))
    have h0 := share_nonneg (s := x) (p := r * j) hr.le
    rw [abs_mul, abs_of_nonneg h0, zero_add]
    exact mul_le_of_le_one_left h0 (hw j)
  rw [Finset.sum_Ico_eq_sub (fun j : Nat => share r x (0 + r * j)) hab, sum_share, sum_share] at h1
  have h2 := (ramp_range x (0 + r * b - r)).2
  have h3 : 1 - ramp x (0 + r * a - r) ≤ e := by
    rcases le_total x (0 + r * a - r) with h' | h'
    · rw [ramp_hi h']; linarith
    · have := ramp_lip x x (0 + r * a - r)
      rw [ramp_hi (le_refl x)] at this
      rw [abs_of_nonneg (by linarith : 0 ≤ x - (0 + r * a - r))] at this
      have := le_abs_self (1 - ramp x (0 + r * a - r))
      linarith
  linarith

/-- The frames that are not taken hardly reach the slots of the destination range. -/
theorem takes_rest {q : F64} {len : Option Nat} {B n : Nat} (a1 : Takes q (lit 0) len B n) {r : ℚ} (hq : q.Is r)
    (hr : 0 < r) (hr1 : r ≤ 1) (hn : n ≤ 2 ^ 53) (w : Nat → ℚ) (hw : ∀ j, |w j| ≤ 1) {x : Nat} (hx : InDst q len B x)
    {N : Nat} (hN : len = some N ∨ len = none ∧ (x:ℚ) + 1 ≤ r * N) :
    |∑ j ∈ Finset.range n, w j * share r x (r * j) - ∑ j ∈ Finset.range N, w j * share r x (r * j)| ≤
      (B + 1) * 2 ^ (-53 : ℤ) := by
  have hu : binary64.u = 2 ^ (-53:ℤ) := rfl
  have hu0 : (0:ℚ) < 2 ^ (-53:ℤ) := two_zpow_pos _
  have hη0 : 0 ≤ ((B:ℚ) + 1) * 2 ^ (-53:ℤ) := by positivity
  obtain ⟨_, t2, t3⟩ := a1
  rcases t3 with t3 | t3
  · rcases hN with hN | ⟨hN, _⟩
    · have : n = N := by rw [t3] at hN; exact Option.some.inj hN
      rw [this, sub_self, abs_zero]; exact hη0
    · rw [t3] at hN; cases hN
  -- the first frame that is not taken is beyond the slot
  have hm : x + 1 ≤ (posOf q (lit 0) n).toUsize := by
    by_contra hc
    refine t3 ⟨?_, fun l hl => ?_⟩
    · have := hx.1; omega
    · have := hx.2 l hl; omega
  obtain ⟨_, p1, p2⟩ := pos_fresh hq (by rwa [abs_of_pos hr]) hn
  have h0 : 0 ≤ r * n := by positivity
  have p0 : 0 ≤ binary64.rnd (r * n) := rnd_nonneg h0
  have plt : binary64.rnd (r * n) < 2 ^ 64 := by
    have hn' : (n:ℚ) ≤ 2 ^ 53 := by exact_mod_cast hn
    rw [abs_of_nonneg h0, hu, abs_le] at p2
    have : (2:ℚ) ^ (-53:ℤ) ≤ 1 := by norm_num
    have : r * n ≤ 2 ^ 53 := by nlinarith
    nlinarith
  have hp : (x:ℚ) + 1 ≤ binary64.rnd (r * n) := by
    rw [toUsize_is p1 p0 plt] at hm
    have : ((x + 1 : ℕ) : ℤ) ≤ ⌊binary64.rnd (r * n)⌋ := by omega
    have := Int.le_floor.mp this
    push_cast at this; exact this
  have hxB : (x:ℚ) + 1 ≤ B := by have := hx.1; exact_mod_cast this
  have key : (x:ℚ) - (B + 1) * 2 ^ (-53:ℤ) ≤ r * n - r := by
    rw [abs_of_nonneg h0, hu, abs_le] at p2
    by_contra hc
    push Not at hc
    nlinarith
  rcases le_total n N with h | h
  · rw [abs_sub_comm]; exact sum_late hr h hη0 key w hw
  · rcases hN with hN | ⟨_, hN⟩
    · have : n = N := le_antisymm (t2 N hN) h
      rw [this, sub_self, abs_zero]; exact hη0
    · exact sum_late hr h hη0 (by linarith) w hw

/-- C59 for the whole stream: if the stream has `N` frames, or is infinite and `N` frames reach beyond the slot, then the
slot is the mean of these `N` frames over its time, up to a small error. -/
theorem C59_whole (fuel : Nat) (s s' : Sink k c) (st : Src k' c') (it : It k' c')
    (h : s.stream fuel st = .ok (s', it)) (ho : s.res.offseti = lit 0) (r : ℚ)
    (hq : (ratioOf s.rate st.rate).Is r) (hr : 0 < r) (hr1 : r ≤ 1) (hb : (s.buf.length : ℚ) + 1 ≤ r * 2 ^ 52)
    (i : Nat) (hi : i < k.chans) (w : Nat → ℚ) (hw1 : ∀ j, |w j| ≤ 1)
    (hw : ∀ j f, st.nth j = .ok (some f) → ∀ x : Frame k c, f.convert c = .ok x → SampleVal c x[i] (w j))
    (x : Nat) (hx : InDst (ratioOf s.rate st.rate) st.len s.buf.length x)
    (N : Nat) (hN : st.len = some N ∨ st.len = none ∧ (x:ℚ) + 1 ≤ r * N) :
    ∃ (y : Frame k c) (b : ℚ), s'.buf[x]? = some y ∧ SampleVal c y[i] b ∧
      |b - ∑ j ∈ Finset.range N, w j * overlap (r * j - r) (r * j) (x - 1) x| ≤
        (mixErr c + 5 * 2 ^ (-53 : ℤ) + 2 * ((s.buf.length + 1) * 2 ^ (-53 : ℤ))) * (1 / r + 3) +
          (s.buf.length + 1) * 2 ^ (-53 : ℤ) := by
  obtain ⟨n, a1, hn, h2⟩ := C59_box fuel s s' st it h ho r hq hr hr1 hb i hi w
    (fun j f h1 x h2 => ⟨hw j f h1 x h2, hw1 j⟩)
  obtain ⟨y, b, b1, b2, b3⟩ := h2 x hx
  refine ⟨y, b, b1, b2, ?_⟩
  have := takes_rest a1 hq hr hr1 hn w hw1 hx hN
  have e : ∀ n, ∑ j ∈ Finset.range n, w j * overlap (r * j - r) (r * j) (x - 1) x =
      ∑ j ∈ Finset.range n, w j * share r x (r * j) :=
    fun n => Finset.sum_congr rfl (fun j _ => by rw [share_overlap hr.le])
  rw [e] at b3 ⊢
  exact (abs_sub_le _ _ _).trans (add_le_add b3 this)

/-- Five samples at 12 Hz, three slots at 8 Hz. -/
example := C59_whole 6 (exSink 3 8) _ (.audio (exAudio 12)) _
  (R.returns₂ (x := (exSink 3 8).stream 6 (.audio (exAudio 12))) (by decide +kernel)) rfl (binary64.rnd (2 / 3))
  (by decide +kernel) (by decide +kernel) (by decide +kernel) (by decide +kernel) 0 (by decide)
  (fun j => if j < 5 then (j + 1) / 127 else 0) (by
    intro j
    split
    · rename_i h
      have : (j:ℚ) < 5 := by exact_mod_cast h
      rw [abs_of_nonneg (by positivity), div_le_one (by norm_num)]; linarith
    · simp) (by
    intro j f hf x hx
    match j with
    | 0 | 1 | 2 | 3 | 4 => cases hf; cases hx; decide +kernel
    | j + 5 => cases hf) 2 (by decide +kernel) 5 (.inl rfl)

/-! ## C114 -/

theorem share_shift (r x p a : ℚ) : share r (x + a) (p + a) = share r x p := by
  unfold share ramp
  rw [show p + a - (x + a - 1) = p - (x - 1) by ring, show p + a - r - (x + a - 1) = p - r - (x - 1) by ring]

theorem share_lip (r x p p' : ℚ) : |share r x p - share r x p'| ≤ 2 * |p - p'| := by
  unfold share
  have b1 := ramp_lip x p p'
  have b2 := ramp_lip x (p - r) (p' - r)
  rw [show p - r - (p' - r) = p - p' by ring] at b2
  rw [abs_le] at *
  constructor <;> linarith [b1.1, b1.2, b2.1, b2.2]

theorem share_far {r x p : ℚ} (hr : 0 < r) (h : p ≤ x - 1 ∨ x + r ≤ p) : share r x p = 0 := by
  unfold share
  rcases h with h | h
  · rw [ramp_lo h, ramp_lo (by linarith)]; ring
  · rw [ramp_hi (by linarith : x ≤ p), ramp_hi (by linarith)]; ring

/-- The mean over a slot changes little if the frames are moved a little. -/
theorem sum_moved {r x e : ℚ} (hr : 0 < r) (hr1 : r ≤ 1) (hx : 0 ≤ x) (he : |e| ≤ 1 / 2) (N : Nat) (w : Nat → ℚ)
    (hw : ∀ j, |w j| ≤ 1) :
    |∑ j ∈ Finset.range N, w j * share r x (r * j + e) - ∑ j ∈ Finset.range N, w j * share r x (r * j)| ≤
      2 * |e| * (3 / r + 1) := by
  rw [← Finset.sum_sub_distrib]
  set L := ⌈(x - 1 - |e|) / r⌉₊ with hL
  set U := ⌊(x + 1 + |e|) / r⌋₊ with hU
  have he0 := abs_nonneg e
  have hz : ∀ j : Nat, j ∉ Finset.Icc L U → w j * share r x (r * j + e) - w j * share r x (r * j) = 0 := by
    intro j hj
    have hj' : r * j < x - 1 - |e| ∨ x + 1 + |e| < r * j := by
      by_contra hc
      push Not at hc
      refine hj (Finset.mem_Icc.mpr ⟨?_, ?_⟩)
      · rw [hL, Nat.ceil_le, div_le_iff₀ hr]; linarith [hc.1]
      · rw [hU, Nat.le_floor_iff (by positivity), le_div_iff₀ hr]; linarith [hc.2]
    have h1 := neg_abs_le e
    have h2 := le_abs_self e
    rw [share_far hr, share_far hr]
    · ring
    · rcases hj' with h | h
      · left; linarith
      · right; linarith
    · rcases hj' with h | h
      · left; linarith
      · right; linarith
  have hle : |∑ j ∈ Finset.range N, (w j * share r x (r * j + e) - w j * share r x (r * j))| ≤
      ∑ j ∈ Finset.Icc L U, 2 * |e| := by
    refine (Finset.abs_sum_le_sum_abs _ _).trans ?_
    refine le_trans (b := ∑ j ∈ Finset.range N with j ∈ Finset.Icc L U, 2 * |e|) ?_ ?_
    · rw [Finset.sum_filter]
      refine Finset.sum_le_sum (fun j _ => ?_)
      split
      · rw [← mul_sub, abs_mul]
        have := share_lip r x (r * j + e) (r * j)
        rw [add_sub_cancel_left] at this
        exact (mul_le_of_le_one_left (abs_nonneg _) (hw j)).trans this
      · rename_i h; rw [hz j h, abs_zero]
    · refine Finset.sum_le_sum_of_subset_of_nonneg (fun j hj => (Finset.mem_filter.mp hj).2) (fun _ _ _ => by positivity)
  refine hle.trans ?_
  rw [Finset.sum_const, Nat.card_Icc, nsmul_eq_mul, mul_comm]
  refine mul_le_mul_of_nonneg_left ?_ (by positivity)
  have h1 : (U:ℚ) ≤ (x + 1 + |e|) / r := Nat.floor_le (by positivity)
  have h2 : (x - 1 - |e|) / r ≤ L := Nat.le_ceil _
  have h3 : (2 + 2 * |e|) / r ≤ 3 / r := div_le_div_of_nonneg_right (by linarith) hr.le
  have h4 : (x + 1 + |e|) / r - (x - 1 - |e|) / r = (2 + 2 * |e|) / r := by ring
  have h5 : 0 ≤ 3 / r + 1 := by positivity
  rcases le_total (U + 1) L with hl | hl
  · have : U + 1 - L = 0 := by omega
    rw [this]; exact_mod_cast h5
  · rw [Nat.cast_sub hl]
    push_cast
    linarith

/-- C114 at every ratio `r ≤ 1`, for whole streams in any formats: `st'` is `st` after `d` frames of silence, and `d` frames
last `X` slots up to `e` slots. Then the first `X` slots are silent and the others are those of `st`, up to a small error
(the first two terms are those of `C59_whole`). -/
theorem C114_down (fuel fuel' d X : Nat) (s s' t t' : Sink k c) (st : Src k' c') (st' : Src k'' c'') (it : It k' c')
    (it' : It k'' c'') (h : s.stream fuel st = .ok (s', it)) (h' : t.stream fuel' st' = .ok (t', it'))
    (hrt : t.rate = s.rate) (hrt' : st'.rate = st.rate)
    (ho : s.res.offseti = lit 0) (ho' : t.res.offseti = lit 0) (r e : ℚ)
    (hq : (ratioOf s.rate st.rate).Is r) (hr : 0 < r) (hr1 : r ≤ 1)
    (hbl : s.buf.length ≤ t.buf.length) (hb : (t.buf.length : ℚ) + 1 ≤ r * 2 ^ 52)
    (hd : |r * d - X| ≤ e) (he : e ≤ 1 / 2) (hl : st'.len = st.len.map (· + d))
    (i : Nat) (hi : i < k.chans) (w : Nat → ℚ) (hw1 : ∀ j, |w j| ≤ 1)
    (hw : ∀ j f, st.nth j = .ok (some f) → ∀ x : Frame k c, f.convert c = .ok x → SampleVal c x[i] (w j))
    (hw' : ∀ j f, st'.nth j = .ok (some f) → ∀ x : Frame k c, f.convert c = .ok x →
      SampleVal c x[i] (if j < d then 0 else w (j - d))) :
    (∀ x, x < X → InDst (ratioOf s.rate st.rate) st'.len t.buf.length x →
      ∃ (y : Frame k c) (b : ℚ), t'.buf[x]? = some y ∧ SampleVal c y[i] b ∧
        |b| ≤ (mixErr c + 5 * 2 ^ (-53 : ℤ) + 2 * ((t.buf.length + 1) * 2 ^ (-53 : ℤ))) * (1 / r + 3) +
          (t.buf.length + 1) * 2 ^ (-53 : ℤ) + e) ∧
    (∀ x, InDst (ratioOf s.rate st.rate) st.len s.buf.length x →
      InDst (ratioOf s.rate st.rate) st'.len t.buf.length (x + X) →
      ∃ (y z : Frame k c) (a b : ℚ), s'.buf[x]? = some y ∧ t'.buf[x + X]? = some z ∧ SampleVal c y[i] a ∧
        SampleVal c z[i] b ∧
        |b - a| ≤ 2 * ((mixErr c + 5 * 2 ^ (-53 : ℤ) + 2 * ((t.buf.length + 1) * 2 ^ (-53 : ℤ))) * (1 / r + 3) +
          (t.buf.length + 1) * 2 ^ (-53 : ℤ)) + 2 * e * (3 / r + 1)) := by
  have hE : 0 ≤ mixErr c + 5 * 2 ^ (-53 : ℤ) := by
    have := (mixLaw c).nonneg
    positivity
  have hbl' : (s.buf.length : ℚ) ≤ t.buf.length := by exact_mod_cast hbl
  have hee : (0:ℚ) ≤ e := (abs_nonneg _).trans hd
  have hcnt : (0:ℚ) ≤ 3 / r + 1 := by positivity
  have hu0 : (0:ℚ) < 2 ^ (-53:ℤ) := two_zpow_pos _
  set v : Nat → ℚ := fun j => if j < d then 0 else w (j - d) with hv
  have hv1 : ∀ j, |v j| ≤ 1 := by
    intro j
    simp only [hv]
    split
    · simp
    · exact hw1 _
  have hov : ∀ (u : Nat → ℚ) (x : ℚ) n, ∑ j ∈ Finset.range n, u j * overlap (r * j - r) (r * j) (x - 1) x =
      ∑ j ∈ Finset.range n, u j * share r x (r * j) :=
    fun u x n => Finset.sum_congr rfl (fun j _ => by rw [share_overlap hr.le])
  -- a number of frames that is enough for both
  have hN : ∀ x : Nat, ∃ N : Nat, (st.len = some N ∨ st.len = none ∧ (x:ℚ) + 1 ≤ r * N) ∧
      (st'.len = some (N + d) ∨ st'.len = none ∧ ((x + X : ℕ):ℚ) + 1 ≤ r * ((N + d : ℕ):ℚ)) := by
    intro x
    cases hs : st.len with
    | some l => exact ⟨l, .inl rfl, .inl (by rw [hl, hs]; rfl)⟩
    | none =>
      have h1 := Nat.le_ceil (((x:ℚ) + X + 1) / r)
      rw [div_le_iff₀ hr] at h1
      refine ⟨⌈((x:ℚ) + X + 1) / r⌉₊, .inr ⟨rfl, ?_⟩, .inr ⟨by rw [hl, hs]; rfl, ?_⟩⟩
      · have : (0:ℚ) ≤ X := by positivity
        linarith
      · push_cast
        have : (0:ℚ) ≤ r * d := by positivity
        linarith
  have hsum : ∀ (x : ℚ) (N : Nat), ∑ j ∈ Finset.range (N + d), v j * share r x (r * j) =
      ∑ j ∈ Finset.range N, w j * share r x (r * j + r * d) := by
    intro x N
    rw [add_comm N d, Finset.sum_range_add]
    rw [Finset.sum_eq_zero (fun j hj => by simp only [hv, if_pos (Finset.mem_range.mp hj), zero_mul]), zero_add]
    refine Finset.sum_congr rfl (fun j _ => ?_)
    simp only [hv, if_neg (show ¬ d + j < d by omega), Nat.add_sub_cancel_left]
    congr 2; push_cast; ring
  have hT := fun x (hx : InDst (ratioOf s.rate st.rate) st'.len t.buf.length x) N hN => C59_whole fuel' t t' st' it' h' ho' r (by rwa [hrt, hrt']) hr hr1 hb i hi v hv1 hw' x
    (by rwa [hrt, hrt']) N hN
  constructor
  · intro x hxX hx
    obtain ⟨N, -, n2⟩ := hN x
    obtain ⟨y, b, b1, b2, b3⟩ := hT x hx (N + d) (by
      refine n2.imp_right (And.imp_right fun h => le_trans ?_ h)
      push_cast
      have : (0:ℚ) ≤ X := by positivity
      linarith)
    refine ⟨y, b, b1, b2, ?_⟩
    rw [hov] at b3
    have h0 : |∑ j ∈ Finset.range (N + d), v j * share r x (r * j) - ∑ j ∈ Finset.range d, v j * share r x (r * j)| ≤ e :=
      sum_late hr (by omega) hee (by
        have : (x:ℚ) + 1 ≤ X := by exact_mod_cast hxX
        rw [abs_le] at hd
        linarith [hd.1]) v hv1
    have h1 : ∑ j ∈ Finset.range d, v j * share r x (r * j) = 0 :=
      Finset.sum_eq_zero (fun j hj => by simp only [hv, if_pos (Finset.mem_range.mp hj), zero_mul])
    rw [h1, sub_zero] at h0
    have := abs_add_le (b - ∑ j ∈ Finset.range (N + d), v j * share r x (r * j))
      (∑ j ∈ Finset.range (N + d), v j * share r x (r * j))
    rw [sub_add_cancel] at this
    linarith
  · intro x hx hx'
    obtain ⟨N, n1, n2⟩ := hN x
    obtain ⟨y, a, a1, a2, a3⟩ := C59_whole fuel s s' st it h ho r hq hr hr1 (by linarith) i hi w hw1 hw x hx N n1
    obtain ⟨z, b, b1, b2, b3⟩ := hT (x + X) hx' (N + d) n2
    refine ⟨y, z, a, b, a1, b1, a2, b2, ?_⟩
    rw [hov] at a3 b3
    rw [hsum] at b3
    have e1 : ∑ j ∈ Finset.range N, w j * share r ((x + X : ℕ):ℚ) (r * j + r * d) =
        ∑ j ∈ Finset.range N, w j * share r x (r * j + (r * d - X)) := by
      refine Finset.sum_congr rfl (fun j _ => ?_)
      rw [← share_shift r x _ X]
      congr 2
      · push_cast; ring
      · ring
    rw [e1] at b3
    have m := sum_moved hr hr1 (by positivity : (0:ℚ) ≤ x) (hd.trans he) N w hw1
    have m' : 2 * |r * d - X| * (3 / r + 1) ≤ 2 * e * (3 / r + 1) :=
      mul_le_mul_of_nonneg_right (by linarith) hcnt
    have hmono : (mixErr c + 5 * 2 ^ (-53 : ℤ) + 2 * ((s.buf.length + 1) * 2 ^ (-53 : ℤ))) * (1 / r + 3) +
          (s.buf.length + 1) * 2 ^ (-53 : ℤ) ≤
        (mixErr c + 5 * 2 ^ (-53 : ℤ) + 2 * ((t.buf.length + 1) * 2 ^ (-53 : ℤ))) * (1 / r + 3) +
          (t.buf.length + 1) * 2 ^ (-53 : ℤ) := by gcongr
    have t1 := abs_sub_le b (∑ j ∈ Finset.range N, w j * share r x (r * j + (r * d - X))) a
    have t2 := abs_sub_le (∑ j ∈ Finset.range N, w j * share r x (r * j + (r * d - X)))
      (∑ j ∈ Finset.range N, w j * share r x (r * j)) a
    rw [abs_sub_comm (∑ j ∈ Finset.range N, w j * share r x (r * j)) a] at t2
    linarith

/-- For whole rates, `d` frames that last exactly `X` slots last `X` slots up to `X * 2^-53` after rounding the ratio. -/
theorem delay_slots {dst src d X : Nat} (h0 : 0 < dst) (hs : 0 < src) (hs' : src ≤ 2 ^ 53) (h : dst * d = X * src) :
    |binary64.rnd ((dst:ℚ) / src) * d - X| ≤ X * 2 ^ (-53 : ℤ) := by
  have hs0 : (0:ℚ) < src := by exact_mod_cast hs
  have h1 : (1:ℚ) ≤ dst := by exact_mod_cast h0
  have h2 : (src:ℚ) ≤ 2 ^ 53 := by exact_mod_cast hs'
  have hq : (0:ℚ) < (dst:ℚ) / src := by positivity
  have hX : (dst:ℚ) / src * d = X := by
    rw [div_mul_eq_mul_div, div_eq_iff hs0.ne']; exact_mod_cast h
  have hn : (2:ℚ) ^ (binary64.emin + binary64.prec - 1) ≤ |(dst:ℚ) / src| := by
    rw [abs_of_pos hq, le_div_iff₀ hs0]
    calc (2:ℚ) ^ (binary64.emin + binary64.prec - 1) * src ≤ 2 ^ (-53 : ℤ) * 2 ^ 53 := by
          refine mul_le_mul ?_ h2 hs0.le (by positivity)
          refine zpow_le_zpow_right₀ (by norm_num) (by decide)
      _ = 1 := by norm_num
      _ ≤ dst := h1
  have := rel_err_normal hn
  rw [abs_of_pos hq] at this
  rw [show binary64.rnd ((dst:ℚ) / src) * d - X = (binary64.rnd ((dst:ℚ) / src) - (dst:ℚ) / src) * d by rw [sub_mul, hX],
    abs_mul, abs_of_nonneg (by positivity : (0:ℚ) ≤ d)]
  calc _ ≤ (dst:ℚ) / src * binary64.u * d := mul_le_mul_of_nonneg_right this (by positivity)
    _ = (dst:ℚ) / src * d * binary64.u := by ring
    _ = _ := by rw [hX]; rfl

/-- Three silent samples before the five samples at 12 Hz, three and five slots at 8 Hz. -/
example := C114_down 6 9 3 2 (exSink 3 8) _ (exSink 5 8) _ (.audio (exAudio 12))
  (.audio ⟨(exAudio 12).rate, List.replicate 3 Frame.dflt ++ (exAudio 12).frames⟩) _ _
  (R.returns₂ (x := (exSink 3 8).stream 6 (.audio (exAudio 12))) (by decide +kernel))
  (R.returns₂ (x := (exSink 5 8).stream 9
    (.audio ⟨(exAudio 12).rate, List.replicate 3 Frame.dflt ++ (exAudio 12).frames⟩)) (by decide +kernel))
  rfl rfl rfl rfl (binary64.rnd ((8 : Nat) / (12 : Nat))) _
  (by decide +kernel) (by decide +kernel) (by decide +kernel) (by decide) (by decide +kernel)
  (delay_slots (by norm_num) (by norm_num) (by norm_num) rfl) (by norm_num) rfl 0 (by decide)
  (fun j => if j < 5 then (j + 1) / 127 else 0) (by
    intro j
    split
    · rename_i h
      have : (j:ℚ) < 5 := by exact_mod_cast h
      rw [abs_of_nonneg (by positivity), div_le_one (by norm_num)]; linarith
    · simp) (by
    intro j f hf x hx
    match j with
    | 0 | 1 | 2 | 3 | 4 => cases hf; cases hx; decide +kernel
    | j + 5 => cases hf) (by
    intro j f hf x hx
    match j with
    | 0 | 1 | 2 | 3 | 4 | 5 | 6 | 7 => cases hf; cases hx; decide +kernel
    | j + 8 => cases hf)

end Fon
