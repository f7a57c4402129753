import Verif.Props.Whole
import Verif.Props.Causal
import Verif.Props.DelayUp

/-!
# C138: periodic signals keep their pitch
-/

namespace Fon
open Fon.Fl hiding min max
open Fon.Fmt Fon.Sink
variable {k k' : Kind} {c c' : ChTy}

section
variable {q : F64} {a m : Nat}

/-- Frames before a slot are not heard in it. -/
theorem mixed_early (off : F64) (g : Nat → Frame k c) {x n : Nat} (h : ∀ j, j < n → hiSlot (posOf q off j) < x)
    (b : Frame k c) : mixed q off g x n b = b := by
  induction n with
  | zero => rfl
  | succ n ih =>
    have h1 := h n (by omega)
    have h2 := slot_le_hi (posOf q off n)
    rw [mixed, if_neg (by omega), if_neg (by omega)]
    exact ih fun j hj => h j (by omega)

/-- Without the first `2^m * d` frames a slot gets what the slot `a * d` later gets with them. -/
theorem mixed_skip (hq : q.Is ((a:ℚ) / ((2 ^ m : Nat) : ℚ))) (h1 : 1 ≤ a) (hm : m ≤ 52) (g g' : Nat → Frame k c)
    (d x n : Nat) (hx : 1 ≤ x ∨ m = 0) (hn : a * (n + 2 ^ m * d) < 2 ^ 53)
    (hg : ∀ j, j < n → g (j + 2 ^ m * d) = g' j) :
    mixed q (lit 0) g (x + a * d) (n + 2 ^ m * d) Frame.dflt = mixed q (lit 0) g' x n Frame.dflt := by
  induction n with
  | zero =>
    rw [Nat.zero_add] at hn ⊢
    refine mixed_early _ g (fun j hj => ?_) _
    have hj' : a * j < a * (2 ^ m * d) := Nat.mul_lt_mul_of_pos_left hj h1
    have e := slot_dyadic hq h1 hm (j := j) (by omega)
    have : a * j / 2 ^ m < a * d := by
      rw [Nat.div_lt_iff_lt_mul (by positivity)]
      calc a * j < a * (2 ^ m * d) := hj'
        _ = a * d * 2 ^ m := by ring
    rcases hx with hx | rfl
    · have h2 : hiSlot (posOf q (lit 0) j) ≤ (posOf q (lit 0) j).toUsize + 1 := by unfold hiSlot; split <;> omega
      omega
    · have h2 := (pos_dyadic hq h1 hm (j := j) (by omega)).is
      rw [pow_zero, Nat.cast_one, div_one] at h2
      rw [hiSlot_int h2]
      omega
  | succ n ih =>
    have hn' : a * (n + 2 ^ m * d) < 2 ^ 53 := lt_of_le_of_lt (Nat.mul_le_mul_left a (by omega)) hn
    obtain ⟨e1, e2, e3, e4⟩ := dyadic_apart hq h1 hm hn'
    rw [show n + 1 + 2 ^ m * d = (n + 2 ^ m * d) + 1 by omega]
    simp only [mixed]
    rw [e1, e2, e3, e4, ih hn' (fun j hj => hg j (by omega)), hg n (by omega)]
    simp only [Nat.add_right_cancel_iff]

/-- The frames taken are so few that their positions are exact. -/
theorem taken_few (hq : q.Is ((a:ℚ) / ((2 ^ m : Nat) : ℚ))) (h1 : 1 ≤ a) (ha : a ≤ 2 ^ 51) (hm : m ≤ 52)
    {len : Option Nat} {B n : Nat} (hb : 2 ^ m * B ≤ 2 ^ 52) (ht : Takes q (lit 0) len B n) : a * n ≤ 2 ^ m * B + a := by
  by_contra hc
  push Not at hc
  obtain ⟨j, hj1, hj2⟩ : ∃ j, 2 ^ m * B ≤ a * j ∧ a * j < 2 ^ m * B + a := by
    refine ⟨(2 ^ m * B + a - 1) / a, ?_, ?_⟩
    · have := Nat.lt_div_mul_add (a := 2 ^ m * B + a - 1) (b := a) (by omega)
      rw [Nat.mul_comm a]; omega
    · have := Nat.mul_div_le (2 ^ m * B + a - 1) a; omega
  have hjn : j < n := Nat.lt_of_mul_lt_mul_left (a := a) (by omega)
  have := (ht.1 j hjn).1
  rw [slot_dyadic hq h1 hm (by omega), Nat.div_lt_iff_lt_mul (by positivity), Nat.mul_comm B] at this
  omega

end

/-- C138: if the ratio is `a / 2^m` and the stream repeats itself after `2^m * d` frames, then the result repeats itself
after `a * d` slots, bit for bit. Only the very first slot is different: it has nothing before it. -/
theorem C138_partial {fuel a m d : Nat} {s s' : Sink k c} {st : Src k' c'} {it : It k' c'}
    (h : s.stream fuel st = .ok (s', it)) (ho : s.res.offseti = lit 0)
    (hq : (ratioOf s.rate st.rate).Is ((a:ℚ) / ((2 ^ m : Nat) : ℚ))) (h1 : 1 ≤ a) (ha : a ≤ 2 ^ 51) (hm : m ≤ 52)
    (hb : 2 ^ m * s.buf.length ≤ 2 ^ 52)
    (hp : ∀ j f, st.nth (j + 2 ^ m * d) = .ok (some f) → st.nth j = .ok (some f)) {x : Nat} (hx0 : 1 ≤ x)
    (hx : InDst (ratioOf s.rate st.rate) st.len s.buf.length (x + a * d)) :
    s'.buf[x + a * d]? = s'.buf[x]? := by
  obtain ⟨n, g, a1, a2, a3, -⟩ := C58_mix fuel s s' st it h
  rw [ho] at a1 a3
  rw [a3 _ hx, a3 x (inDst_down hx (by omega))]
  generalize ratioOf s.rate st.rate = q at *
  have hN : 0 < 2 ^ m := by positivity
  have hn := taken_few hq h1 ha hm hb a1
  have hn' : a * n < 2 ^ 53 := by omega
  -- the first frame that is not taken lies beyond the later slot
  have hbe : x + a * d < (posOf q (lit 0) n).toUsize := by
    rcases a1.2.2 with e | e
    · have := hx.2 n e
      rwa [end_dyadic hq h1 hm hn', ← slot_dyadic hq h1 hm hn'] at this
    · by_contra hc
      exact e (inDst_down hx (not_lt.mp hc))
  have hnd : 2 ^ m * d ≤ n := by
    rw [slot_dyadic hq h1 hm hn', Nat.lt_div_iff_mul_lt hN] at hbe
    by_contra hc
    have : a * n ≤ a * (2 ^ m * d) := Nat.mul_le_mul_left a (by omega)
    have e : 2 ^ m * (x + a * d) = 2 ^ m * x + a * (2 ^ m * d) := by ring
    rw [Nat.mul_comm] at hbe
    omega
  obtain ⟨i, rfl⟩ := Nat.exists_eq_add_of_le' hnd
  congr 1
  rw [mixed_skip hq h1 hm g g d x i (.inl hx0) hn' fun j hj => ?_]
  · refine (mixed_beyond g (by omega) (fun j hj hj' => ?_) _).symm
    have e := (dyadic_apart hq h1 hm hn').1
    have ha0 : (0:ℚ) < a := by exact_mod_cast h1
    have := pos_mono (off := lit 0) hq (by positivity) plus_zero.is hj
    omega
  · obtain ⟨f, f1, f2⟩ := a2 (j + 2 ^ m * d) (by omega)
    obtain ⟨f', f3, f4⟩ := a2 j (by omega)
    rw [hp j f f1] at f3
    cases f3
    rw [f2] at f4
    exact Except.ok.inj f4

/-- Samples that repeat themselves after four frames, at 16 Hz. -/
def exRepeat : Audio .mono .ch64 := ⟨lit 16, [#v[lit 0.75], #v[lit 0.5], #v[lit (-0.25)], #v[lit 0.125],
  #v[lit 0.75], #v[lit 0.5], #v[lit (-0.25)], #v[lit 0.125], #v[lit 0.75], #v[lit 0.5], #v[lit (-0.25)], #v[lit 0.125]]⟩

example := C138_partial (k := .mono) (c := .ch64) (a := 3) (m := 2) (d := 1) (x := 2)
  (R.returns₂ (x := (⟨lit 12, Resampler.dflt, List.replicate 9 #v[lit 0]⟩ : Sink .mono .ch64).stream 13 (.audio exRepeat))
    (by decide +kernel)) rfl (by decide +kernel) (by decide) (by decide) (by decide) (by decide)
  (fun j f h => by
    match j with
    | 0 | 1 | 2 | 3 | 4 | 5 | 6 | 7 => exact h
    | j + 8 => cases h) (by decide) (by decide +kernel)

theorem with_slots {rate : F64} {b : Audio k c} {st : Src k' c'} {r : ℚ} (h : Audio.withStream rate st = .ok b)
    (hq : (ratioOf rate st.rate).Is r) (hr : 0 < r) {l : Nat} (hl : st.len = some l) :
    ∃ s it, (⟨rate, Resampler.dflt, List.replicate b.len Frame.dflt⟩ : Sink k c).stream (l + 1) st = .ok (s, it) ∧
      ∀ x, x < b.len → x < ((ratioOf rate st.rate).mul (f64OfUsize l)).toUsize →
        InDst (ratioOf rate st.rate) st.len b.len x ∧ b.get x = s.buf[x]? := by
  obtain ⟨l', s, t, it, h1, h2, h3, h4⟩ := with_run h
  rw [hl] at h1
  cases h1
  obtain ⟨n, g, a1, _, _, _, a5, _⟩ := C58_mix _ _ _ _ _ h2
  have hb : b.len = Audio.dstLen rate l st.rate := by
    unfold Audio.len
    rw [h4, (flush_keeps s t h3).1, (C36_stream _ _ _ _ _ h2).1, List.length_replicate]
  rw [List.length_replicate, ← hb] at a1
  rw [← hb] at h2
  refine ⟨s, it, h2, fun x hx hx' => ?_⟩
  have hi : InDst (ratioOf rate st.rate) st.len b.len x := ⟨hx, fun l' h' => by rw [hl] at h'; cases h'; exact hx'⟩
  refine ⟨hi, ?_⟩
  unfold Audio.get
  rw [h4]
  refine flush_other h3 ?_
  have := before_next hq hr dflt_off a1 hi (m := l)
    (by unfold posOf; rw [(whole_add_zero dflt_off).1]; exact hx') (fun l' h' => by rw [hl] at h'; cases h'; exact le_rfl)
  unfold posOf at this
  rw [(whole_add_zero dflt_off).1] at this
  rw [a5, (whole_add_zero dflt_off).2]
  exact this

/-- C138 for `with_stream`. -/
theorem C138_withStream {rate : F64} {b : Audio k c} {st : Src k' c'} {a m d l : Nat} (h : Audio.withStream rate st = .ok b)
    (hl : st.len = some l) (hq : (ratioOf rate st.rate).Is ((a:ℚ) / ((2 ^ m : Nat) : ℚ))) (h1 : 1 ≤ a) (ha : a ≤ 2 ^ 51)
    (hm : m ≤ 52) (hb : 2 ^ m * b.len ≤ 2 ^ 52)
    (hp : ∀ j f, st.nth (j + 2 ^ m * d) = .ok (some f) → st.nth j = .ok (some f)) {x : Nat} (hx0 : 1 ≤ x)
    (hx : x + a * d < b.len) (hx' : x + a * d < ((ratioOf rate st.rate).mul (f64OfUsize l)).toUsize) :
    b.get (x + a * d) = b.get x := by
  have ha0 : (0:ℚ) < a := by exact_mod_cast h1
  obtain ⟨s, it, e1, e2⟩ := with_slots h hq (by positivity) hl
  rw [(e2 x (by omega) (by omega)).2, (e2 _ hx hx').2]
  refine C138_partial e1 rfl hq h1 ha hm ?_ hp hx0 ?_
  · rwa [List.length_replicate]
  · rw [List.length_replicate]
    exact (e2 _ hx hx').1

example := C138_withStream (k := .mono) (c := .ch64) (a := 3) (m := 2) (d := 1) (x := 5)
  (R.returns (x := (Audio.withStream (lit 12) (.audio exRepeat) : R (Audio .mono .ch64)))
    (by decide +kernel)) rfl (by decide +kernel) (by decide) (by decide) (by decide) (by decide +kernel)
  (fun j f h => by
    match j with
    | 0 | 1 | 2 | 3 | 4 | 5 | 6 | 7 => exact h
    | j + 8 => cases h) (by decide) (by decide +kernel) (by decide +kernel)

/-- The result repeats itself after three slots, apart from the first slot. -/
theorem C138_first : ((⟨lit 12, Resampler.dflt, List.replicate 9 #v[lit 0]⟩ : Sink .mono .ch64).stream 13 (.audio exRepeat)).map
      (fun r => r.1.buf) = .ok [#v[lit 0.5625], #v[lit 0.3125], #v[lit (-0.0625)], #v[lit 0.59375], #v[lit 0.3125],
        #v[lit (-0.0625)], #v[lit 0.59375], #v[lit 0.3125], #v[lit (-0.0625)]] := by decide +kernel

/-- Samples that repeat themselves after ten frames, at 10 Hz. -/
def exTens : Audio .mono .ch64 := ⟨lit 10, List.replicate 4 #v[lit 0] ++ #v[lit 0.75] :: List.replicate 9 #v[lit 0] ++
  #v[lit 0.75] :: List.replicate 5 #v[lit 0]⟩

/-- C138 is false at other ratios, by example: from rate 10 to rate 3, a signal that repeats itself after ten frames gives
slots that differ in their last bits. -/
theorem C138_false : (∀ j, (exTens.frames)[j + 10]?.all fun f => (exTens.frames)[j]? = some f) ∧
    ((⟨lit 3, Resampler.dflt, List.replicate 6 #v[lit 0]⟩ : Sink .mono .ch64).stream 40 (.audio exTens)).map
      (fun r => (r.1.buf[1]?, r.1.buf[4]?)) = .ok (some #v[lit (5404319552844597 / 2 ^ 56)], some #v[lit (5404319552844585 / 2 ^ 56)]) ∧
    (lit (5404319552844597 / 2 ^ 56) : F64) ≠ lit (5404319552844585 / 2 ^ 56) := by
  refine ⟨fun j => ?_, ?_, ?_⟩
  · match j with
    | 0 | 1 | 2 | 3 | 4 | 5 | 6 | 7 | 8 | 9 => decide +kernel
    | j + 10 => rfl
  · decide +kernel
  · decide +kernel

/-! ## Other ratios -/

/-- Earlier frames have little share in a slot. -/
theorem sum_early {r e : ℚ} {d : Nat} {x : ℚ} (hr : 0 < r) (he : 0 ≤ e) (h : r * d - r ≤ x - 1 + e) (w : Nat → ℚ)
    (hw : ∀ j, |w j| ≤ 1) : |∑ j ∈ Finset.range d, w j * share r x (r * j)| ≤ e := by
  have h1 : |∑ j ∈ Finset.range d, w j * share r x (r * j)| ≤ ∑ j ∈ Finset.range d, share r x (0 + r * j) := by
    refine (Finset.abs_sum_le_sum_abs _ _).trans (Finset.sum_le_sum (fun j _ => ?_))
    have h0 := share_nonneg (s := x) (p := r * j) hr.le
    rw [abs_mul, abs_of_nonneg h0, zero_add]
    exact mul_le_of_le_one_left h0 (hw j)
  rw [sum_share] at h1
  have h2 := (ramp_range x (0 - r)).1
  have h3 : ramp x (0 + r * d - r) ≤ e := by
    rcases le_total (0 + r * d - r) (x - 1) with h' | h'
    · rw [ramp_lo h']; exact he
    · have := ramp_lip x (0 + r * d - r) (x - 1)
      rw [ramp_lo (le_refl (x - 1)), sub_zero] at this
      rw [abs_of_nonneg (by linarith : 0 ≤ 0 + r * d - r - (x - 1))] at this
      have := le_abs_self (ramp x (0 + r * d - r))
      linarith
  linarith

/-- The first frame that is not taken lies beyond all slots, when the rate goes down. -/
theorem reach_down {q : F64} {r : ℚ} (hq : q.Is r) (hr : 0 < r) (hr1 : r ≤ 1) {len : Option Nat} {B n x : Nat}
    (hn : n ≤ 2 ^ 53) (t : Takes q (lit 0) len B n) (hx : InDst q len B x) :
    (x:ℚ) - (B + 1) * 2 ^ (-53:ℤ) ≤ r * n - r := by
  have hu : binary64.u = 2 ^ (-53:ℤ) := rfl
  have hu0 : (0:ℚ) < 2 ^ (-53:ℤ) := two_zpow_pos _
  obtain ⟨p0, p1, p2⟩ := pos_fresh hq (by rwa [abs_of_pos hr]) hn
  have hm : x + 1 ≤ (posOf q (lit 0) n).toUsize := by
    rcases t.2.2 with t3 | t3
    · have := hx.2 n t3
      obtain ⟨_, _, e1⟩ := p0
      obtain ⟨_, _, e2⟩ := p1
      rw [e1] at this
      rw [e2]
      exact this
    · by_contra hc
      exact t3 (inDst_down hx (by omega))
  have h0 : 0 ≤ r * n := by positivity
  have p0 : 0 ≤ binary64.rnd (r * n) := rnd_nonneg h0
  have plt : binary64.rnd (r * n) < 2 ^ 64 := by
    have hn' : (n:ℚ) ≤ 2 ^ 53 := by exact_mod_cast hn
    rw [abs_of_nonneg h0, hu, abs_le] at p2
    have : (2:ℚ) ^ (-53:ℤ) ≤ 1 := by norm_num
    have : r * n ≤ 2 ^ 53 := by nlinarith
    nlinarith
  have hpos : (x:ℚ) + 1 ≤ binary64.rnd (r * n) := by
    rw [toUsize_is p1 p0 plt] at hm
    have : ((x + 1 : ℕ) : ℤ) ≤ ⌊binary64.rnd (r * n)⌋ := by omega
    have := Int.le_floor.mp this
    push_cast at this; exact this
  have hxB : (x:ℚ) + 1 ≤ B := by have := hx.1; exact_mod_cast this
  rw [abs_of_nonneg h0, hu, abs_le] at p2
  by_contra hc
  push Not at hc
  have hB0 : (0:ℚ) ≤ (B + 1) * 2 ^ (-53:ℤ) := by positivity
  have h3 : r * n * 2 ^ (-53:ℤ) ≤ B * 2 ^ (-53:ℤ) := mul_le_mul_of_nonneg_right (by linarith only [hB0, hc, hr1, hxB]) hu0.le
  rw [add_mul, one_mul] at hc
  linarith only [p2.2, hc, h3, hpos, hr1, hu0]

/-- C138 at every ratio `r ≤ 1`, from any format to any format: if the samples repeat themselves after `d` frames and `d`
frames last `X` slots up to `e` slots, then the result repeats itself after `X` slots up to a small error. -/
theorem C138_down {fuel d X : Nat} {s s' : Sink k c} {st : Src k' c'} {it : It k' c'}
    (h : s.stream fuel st = .ok (s', it)) (ho : s.res.offseti = lit 0) {r e : ℚ}
    (hq : (ratioOf s.rate st.rate).Is r) (hr : 0 < r) (hr1 : r ≤ 1) (hb : (s.buf.length : ℚ) + 1 ≤ r * 2 ^ 52)
    (hd : |r * d - X| ≤ e) (he : e ≤ 1 / 2) {i : Nat} (hi : i < k.chans) {w : Nat → ℚ} (hw1 : ∀ j, |w j| ≤ 1)
    (hw : ∀ j f, st.nth j = .ok (some f) → ∀ x : Frame k c, f.convert c = .ok x → SampleVal c x[i] (w j))
    (hp : ∀ j, w (j + d) = w j) {x : Nat} (hx0 : 1 ≤ x)
    (hx : InDst (ratioOf s.rate st.rate) st.len s.buf.length (x + X)) :
    ∃ (y z : Frame k c) (a b : ℚ), s'.buf[x]? = some y ∧ s'.buf[x + X]? = some z ∧ SampleVal c y[i] a ∧
      SampleVal c z[i] b ∧
      |b - a| ≤ 2 * ((mixErr c + 5 * 2 ^ (-53 : ℤ) + 2 * ((s.buf.length + 1) * 2 ^ (-53 : ℤ))) * (1 / r + 3)) +
        (s.buf.length + 1) * 2 ^ (-53 : ℤ) + 2 * e * (3 / r + 2) := by
  obtain ⟨n, t, hn, h2⟩ := C59_box fuel s s' st it h ho r hq hr hr1 hb i hi w
    (fun j f h1 x h2 => ⟨hw j f h1 x h2, hw1 j⟩)
  obtain ⟨y, a, a1, a2, a3⟩ := h2 x (inDst_down hx (by omega))
  obtain ⟨z, b, b1, b2, b3⟩ := h2 (x + X) hx
  refine ⟨y, z, a, b, a1, b1, a2, b2, ?_⟩
  have hov : ∀ (x : ℚ) n, ∑ j ∈ Finset.range n, w j * overlap (r * j - r) (r * j) (x - 1) x =
      ∑ j ∈ Finset.range n, w j * share r x (r * j) :=
    fun x n => Finset.sum_congr rfl (fun j _ => by rw [share_overlap hr.le])
  rw [hov] at a3 b3
  have hee : (0:ℚ) ≤ e := (abs_nonneg _).trans hd
  have hu : binary64.u = 2 ^ (-53:ℤ) := rfl
  have hu0 : (0:ℚ) < 2 ^ (-53:ℤ) := two_zpow_pos _
  have hη0 : 0 ≤ ((s.buf.length:ℚ) + 1) * 2 ^ (-53:ℤ) := by positivity
  -- the next frame is beyond the later slot
  have key : (x:ℚ) + X - (s.buf.length + 1) * 2 ^ (-53:ℤ) ≤ r * n - r := by
    have := reach_down hq hr hr1 hn t hx
    rwa [Nat.cast_add] at this
  have hη1 : ((s.buf.length:ℚ) + 1) * 2 ^ (-53:ℤ) ≤ r / 2 := by
    calc _ ≤ r * 2 ^ 52 * 2 ^ (-53:ℤ) := mul_le_mul_of_nonneg_right hb hu0.le
      _ = r / 2 := by rw [mul_assoc, show (2:ℚ) ^ 52 * 2 ^ (-53:ℤ) = 1 / 2 by norm_num]; ring
  have hx1 : (1:ℚ) ≤ x := by exact_mod_cast hx0
  have hnd : d ≤ n := by
    have hd' := abs_le.mp hd
    have : r * d < r * n := by
      generalize ((s.buf.length:ℚ) + 1) * 2 ^ (-53:ℤ) = η at key hη1
      generalize r * (d:ℚ) = y1 at *
      generalize r * (n:ℚ) = y2 at *
      linarith only [hd'.2, key, hη1, hx1, he, hr]
    have := lt_of_mul_lt_mul_left this hr.le
    exact_mod_cast this.le
  obtain ⟨l, rfl⟩ := Nat.exists_eq_add_of_le' hnd
  have e1 : ∑ j ∈ Finset.range (l + d), w j * share r ((x + X : ℕ):ℚ) (r * j) =
      ∑ j ∈ Finset.range d, w j * share r ((x + X : ℕ):ℚ) (r * j) +
        ∑ j ∈ Finset.range l, w j * share r x (r * j + (r * d - X)) := by
    rw [add_comm l d, Finset.sum_range_add]
    congr 1
    refine Finset.sum_congr rfl (fun j _ => ?_)
    rw [← share_shift r x _ X, add_comm d j, hp]
    congr 2
    · push_cast; ring
    · push_cast; ring
  have m1 := sum_early (x := ((x + X : ℕ):ℚ)) (d := d) hr hee (by
    push_cast
    have hd' := abs_le.mp hd
    linarith [hd'.2]) w hw1
  have m2 := sum_moved hr hr1 (by positivity : (0:ℚ) ≤ x) (hd.trans he) l w hw1
  have m3 := sum_late (x := (x:ℚ)) (e := ((s.buf.length:ℚ) + 1) * 2 ^ (-53:ℤ) + e) hr (show l ≤ l + d by omega)
    (by positivity) (by
      push_cast at key
      have hd' := abs_le.mp hd
      linarith [hd'.2]) w hw1
  have hcnt : (0:ℚ) ≤ 3 / r + 1 := by positivity
  have m4 : 2 * |r * d - X| * (3 / r + 1) ≤ 2 * e * (3 / r + 1) :=
    mul_le_mul_of_nonneg_right (by linarith) hcnt
  rw [e1] at b3
  have m2' := abs_le.mp (m2.trans m4)
  have m1' := abs_le.mp m1
  have m3' := abs_le.mp m3
  have a3' := abs_le.mp a3
  have b3' := abs_le.mp b3
  have ex : 2 * e * (3 / r + 2) = 2 * e * (3 / r + 1) + 2 * e := by ring
  rw [abs_le, ex]
  generalize (mixErr c + 5 * 2 ^ (-53 : ℤ) + 2 * (((s.buf.length:ℚ) + 1) * 2 ^ (-53 : ℤ))) * (1 / r + 3) = E at *
  generalize ((s.buf.length:ℚ) + 1) * 2 ^ (-53:ℤ) = η at *
  generalize 2 * e * (3 / r + 1) = E' at *
  constructor <;> linarith only [m1'.1, m1'.2, m2'.1, m2'.2, m3'.1, m3'.2, a3'.1, a3'.2, b3'.1, b3'.2]

example := C138_down (d := 10) (X := 3) (k := .mono) (c := .ch64) (x := 2)
  (R.returns₂ (x := (⟨lit 3, Resampler.dflt, List.replicate 6 #v[lit 0]⟩ : Sink .mono .ch64).stream 40 (.audio exTens))
    (by decide +kernel)) rfl (r := binary64.rnd ((3 : Nat) / (10 : Nat))) (by decide +kernel) (by decide +kernel)
  (by decide +kernel) (by decide +kernel)
  (delay_slots (by norm_num) (by norm_num) (by norm_num) rfl) (by norm_num) (i := 0) (by decide)
  (w := fun j => if j % 10 = 4 then 0.75 else 0) (by intro j; split <;> norm_num) (by
    intro j f hf x hx
    match j with
    | 0 | 1 | 2 | 3 | 4 | 5 | 6 | 7 | 8 | 9 | 10 | 11 | 12 | 13 | 14 | 15 | 16 | 17 | 18 | 19 =>
      cases hf; cases hx; decide +kernel
    | j + 20 => cases hf) (fun j => by simp) (by decide) (by decide +kernel)

/-- The frames taken are few, and the first frame that is not taken lies beyond all slots, when the rate goes up. -/
theorem reach_up {q : F64} {dst src : Nat} (hq : q.Is (binary64.rnd ((dst:ℚ) / src)))
    (hs : 0 < src) (hsd : src ≤ dst) (hs' : src ≤ 2 ^ 53) (h20 : dst ≤ 2 ^ 20 * src)
    (hge : (1 - 2 ^ (-54 : ℤ)) * ((dst:ℚ) / src) ≤ binary64.rnd ((dst:ℚ) / src)) {len : Option Nat} {B n x : Nat} (hb : 4 * (src * B + dst) ≤ 2 ^ 53)
    (t : Takes q (lit 0) len B n) (hx : InDst q len B x) :
    dst * n < src * B + dst ∧ (x:ℚ) + 1 ≤ (dst:ℚ) / src * n := by
  set ρ : ℚ := (dst:ℚ) / src with hρ
  set r := binary64.rnd ρ with hr
  have hsq : (0:ℚ) < src := by exact_mod_cast hs
  have hρ1 : 1 ≤ ρ := by rw [hρ, one_le_div hsq]; exact_mod_cast hsd
  have hr1 : 1 ≤ r := one_le_rnd hρ1
  have hr20 : r ≤ 2 ^ 20 := by
    have e : binary64.rnd (2 ^ 20 : ℚ) = 2 ^ 20 := by decide +kernel
    rw [← e]
    refine rnd_mono ?_
    rw [hρ, div_le_iff₀ hsq]; exact_mod_cast h20
  have hB : B ≤ 2 ^ 51 := by
    have := Nat.le_mul_of_pos_left B hs
    omega
  obtain ⟨hn, hpos, hlt, _⟩ := up_pos hq hr1 hr20 (by omega) t
  have hxX : x + 1 ≤ B := hx.1
  have hdn : dst * n < src * B + dst := by
    rcases Nat.eq_zero_or_pos n with rfl | h0
    · have : 0 < dst := by omega
      omega
    obtain ⟨n', rfl⟩ : ∃ n', n = n' + 1 := ⟨n - 1, by omega⟩
    by_contra hc
    push Not at hc
    have h1 : src * B ≤ dst * n' := by
      rw [Nat.mul_add, Nat.mul_one] at hc
      omega
    have h3 : (B:ℚ) ≤ ρ * n' := by
      rw [hρ, div_mul_eq_mul_div, le_div_iff₀ hsq, mul_comm]; exact_mod_cast h1
    have := up_ge hge (n := B) (by omega) (by positivity) h3
    have := hlt n' (by omega)
    linarith
  refine ⟨hdn, ?_⟩
  have hm : x + 1 ≤ (posOf q (lit 0) n).toUsize := by
    rcases t.2.2 with t3 | t3
    · have := hx.2 n t3
      obtain ⟨⟨_, _, e1⟩, ⟨_, _, e2⟩, _⟩ := hpos n (by omega)
      rw [e1] at this
      rw [e2]
      exact this
    · by_contra hc
      exact t3 (inDst_down hx (by omega))
  obtain ⟨_, p1, p0, _⟩ := hpos n (by omega)
  obtain ⟨f1, -⟩ := up_floor hs hsd hs' hge (j := n) (by omega)
  rw [← hρ, ← hr] at f1
  have f2 : ((x + 1 : ℕ):ℤ) ≤ ⌊binary64.rnd (r * n)⌋ := by
    by_contra hc
    push Not at hc
    have hc' : binary64.rnd (r * n) < ((x + 1 : ℕ):ℚ) := by
      have := Int.floor_lt.mp hc
      exact_mod_cast this
    rw [toUsize_is p1 p0 (hc'.trans (by
      have : x + 1 < 2 ^ 64 := by omega
      exact_mod_cast this))] at hm
    omega
  rw [f1] at f2
  have := Int.le_floor.mp f2
  push_cast at this
  linarith

/-- C138 when the rate goes up, whole rates, from any format to any format: if the ratio is not rounded down by more than its
2^54th part and `d` frames
last `X` slots, a signal that repeats itself after `d` frames gives slots that repeat themselves after `X`, up to a small
error. -/
theorem C138_up {fuel d X dst src : Nat} {s s' : Sink k c} {st : Src k' c'} {it : It k' c'}
    (h : s.stream fuel st = .ok (s', it)) (ho : s.res.offseti = lit 0)
    (hq : (ratioOf s.rate st.rate).Is (binary64.rnd ((dst:ℚ) / src)))
    (hs : 0 < src) (hsd : src ≤ dst) (hs' : src ≤ 2 ^ 53) (h20 : dst ≤ 2 ^ 20 * src)
    (hge : (1 - 2 ^ (-54 : ℤ)) * ((dst:ℚ) / src) ≤ binary64.rnd ((dst:ℚ) / src)) (hb : 4 * (src * s.buf.length + dst) ≤ 2 ^ 53)
    (hd : dst * d = X * src) {i : Nat} (hi : i < k.chans) {w : Nat → ℚ} (hw1 : ∀ j, |w j| ≤ 1)
    (hw : ∀ j f, st.nth j = .ok (some f) → ∀ x : Frame k c, f.convert c = .ok x → SampleVal c x[i] (w j))
    (hp : ∀ j, w (j + d) = w j) {x : Nat} (hx0 : 1 ≤ x)
    (hx : InDst (ratioOf s.rate st.rate) st.len s.buf.length (x + X)) :
    ∃ (y z : Frame k c) (a b : ℚ), s'.buf[x]? = some y ∧ s'.buf[x + X]? = some z ∧ SampleVal c y[i] a ∧
      SampleVal c z[i] b ∧
      |b - a| ≤ 2 * (mixErr c * (binary64.rnd ((dst:ℚ) / src) + 5)) + 12 * (s.buf.length * 2 ^ (-53 : ℤ)) := by
  set ρ : ℚ := (dst:ℚ) / src with hρ
  set r := binary64.rnd ρ with hr
  have hsq : (0:ℚ) < src := by exact_mod_cast hs
  have hρ1 : 1 ≤ ρ := by rw [hρ, one_le_div hsq]; exact_mod_cast hsd
  have hr1 : 1 ≤ r := one_le_rnd hρ1
  have hr20 : r ≤ 2 ^ 20 := by
    have e : binary64.rnd (2 ^ 20 : ℚ) = 2 ^ 20 := by decide +kernel
    rw [← e]
    refine rnd_mono ?_
    rw [hρ, div_le_iff₀ hsq]; exact_mod_cast h20
  have hX : ρ * d = X := by
    rw [hρ, div_mul_eq_mul_div, div_eq_iff hsq.ne']; exact_mod_cast hd
  have hB : s.buf.length ≤ 2 ^ 51 := by
    have := Nat.le_mul_of_pos_left s.buf.length hs
    omega
  obtain ⟨n, t, hn, -, h2⟩ := C101_mix fuel s s' st it h ho r hq hr1 hr20 (by omega) i hi w
    (fun j f h1 x h2 => ⟨hw j f h1 x h2, hw1 j⟩)
  obtain ⟨y, a, a1, a2, a3⟩ := h2 x (inDst_down hx (by omega))
  obtain ⟨z, b, b1, b2, b3⟩ := h2 (x + X) hx
  refine ⟨y, z, a, b, a1, b1, a2, b2, ?_⟩
  have hxX : x + X + 1 ≤ s.buf.length := hx.1
  obtain ⟨hdn, hbe⟩ := reach_up hq hs hsd hs' h20 hge hb t hx
  rw [← hρ, Nat.cast_add] at hbe
  have hρ0 : 0 < ρ := by linarith
  have hx1 : (0:ℚ) ≤ x := by positivity
  have hnd : d ≤ n := by
    have : ρ * d < ρ * n := by rw [hX]; linarith
    have := lt_of_mul_lt_mul_left this hρ0.le
    exact_mod_cast this.le
  obtain ⟨l, rfl⟩ := Nat.exists_eq_add_of_le' hnd
  have e1 : ∑ j ∈ Finset.range (l + d), w j * upShare c r (x + X) (binary64.rnd (r * j)) =
      ∑ j ∈ Finset.range l, w j * upShare c r (x + X) (binary64.rnd (r * ((j + d : ℕ):ℚ))) := by
    rw [add_comm l d, Finset.sum_range_add, Finset.sum_eq_zero, zero_add]
    · refine Finset.sum_congr rfl (fun j _ => ?_)
      rw [add_comm d j, hp]
    · intro j hj
      have hj' : j + 1 ≤ d := Finset.mem_range.mp hj
      have hle : dst * j ≤ dst * (l + d) := Nat.mul_le_mul_left _ (by omega)
      obtain ⟨f1, -⟩ := up_floor hs hsd hs' hge (j := j) (by omega)
      rw [← hρ, ← hr] at f1
      have f2 : ⌊ρ * j⌋ < (X:ℤ) := by
        rw [Int.floor_lt]
        have : ρ * ((j + 1 : ℕ):ℚ) ≤ ρ * d := mul_le_mul_of_nonneg_left (by exact_mod_cast hj') hρ0.le
        push_cast at this ⊢
        rw [hX] at this
        linarith
      unfold upShare
      rw [f1, if_neg (by push_cast; omega), if_neg (by push_cast; omega), mul_zero]
  have e2 : ∑ j ∈ Finset.range (l + d), w j * upShare c r x (binary64.rnd (r * j)) =
      ∑ j ∈ Finset.range l, w j * upShare c r x (binary64.rnd (r * j)) := by
    refine (Finset.sum_subset (Finset.range_subset_range.mpr (by omega)) (fun j _ hj => ?_)).symm
    have hj' : l ≤ j := by simpa using hj
    rw [upShare_late, mul_zero]
    have h3 : ((x + 1 : ℕ):ℚ) ≤ ρ * j := by
      have : ρ * l ≤ ρ * j := mul_le_mul_of_nonneg_left (by exact_mod_cast hj') hρ0.le
      push_cast at hbe ⊢
      rw [mul_add, hX] at hbe
      linarith
    have := up_ge hge (n := x + 1) (by omega) (by positivity) h3
    push_cast at this
    exact this
  have tot := upShare_moved (c := c) hs hsd hs' hge hd hxX (by omega) w hw1 l
  rw [← hρ, ← hr] at tot
  rw [e1] at b3
  rw [e2] at a3
  have cl := (clampQ_lip _ _).trans tot
  generalize clampQ (∑ j ∈ Finset.range l, w j * upShare c r (x + X) (binary64.rnd (r * ((j + d : ℕ):ℚ)))) = A at *
  generalize clampQ (∑ j ∈ Finset.range l, w j * upShare c r x (binary64.rnd (r * j))) = A' at *
  rw [abs_le] at *
  constructor <;> linarith [a3.1, a3.2, b3.1, b3.2, cl.1, cl.2]

/-- Samples that repeat themselves after three frames, at 3 Hz. -/
def exThrees : Audio .mono .ch8 := ⟨lit 3, [#v[100#8], #v[20#8], #v[-50#8], #v[100#8], #v[20#8], #v[-50#8], #v[100#8],
  #v[20#8], #v[-50#8]]⟩

example := C138_up (d := 3) (X := 5) (dst := 5) (src := 3) (x := 4)
  (R.returns₂ (x := (exSink 15 5).stream 10 (.audio exThrees)) (by decide +kernel)) rfl (by decide +kernel) (by decide)
  (by decide) (by decide) (by decide) (by decide +kernel) (by decide) rfl (i := 0) (by decide)
  (w := fun j => if j % 3 = 0 then 100 / 127 else if j % 3 = 1 then 20 / 127 else -50 / 127)
  (by intro j; split; · norm_num
      split
      · norm_num
      · rw [abs_le]; norm_num) (by
    intro j f hf x hx
    match j with
    | 0 | 1 | 2 | 3 | 4 | 5 | 6 | 7 | 8 => cases hf; cases hx; decide +kernel
    | j + 9 => cases hf) (fun j => by simp) (by decide) (by decide +kernel)

end Fon
