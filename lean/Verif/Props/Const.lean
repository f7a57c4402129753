import Verif.Proofs.MixLaw

/-!
# C45: constant signals
-/

namespace Fon
open Fon.Fl hiding min max
open Fon.Fmt Fon.Sink
variable {k k' : Kind} {c c' : ChTy}

/-- C45 is false for upsampling: a constant signal becomes a series of pulses, and in a float format they
have twice the amplitude. -/
theorem C45_false :
    ((exSink 4 16).stream 9 (.audio (k := .mono) (c := .ch8) ⟨lit 8, [#v[100#8], #v[100#8]]⟩)).map
      (fun r => r.1.buf) = .ok [#v[100#8], #v[0#8], #v[100#8], #v[0#8]] ∧
    ((⟨lit 16, Resampler.dflt, List.replicate 4 #v[lit 0]⟩ : Sink .mono .ch64).stream 9
      (.audio (k := .mono) (c := .ch64) ⟨lit 8, [#v[lit 0.25], #v[lit 0.25]]⟩)).map (fun r => r.1.buf) =
      .ok [#v[lit 0.5], #v[lit 0], #v[lit 0.5], #v[lit 0]] := by
  constructor <;> decide +kernel

/-- Value predicate used in the proof. -/
def val : (c : ChTy) → c.T → ℚ → Prop
  | .ch8 => valI 127
  | .ch16 => valI 32767
  | .ch32 => valF
  | .ch64 => valF

theorem mixLaw (c : ChTy) : MixLaw c (val c) (mixErr c) := by
  cases c
  · exact mixLaw_ch8
  · exact mixLaw_ch16
  · exact mixLaw_ch32
  · exact mixLaw_ch64

theorem val_of {x : c.T} {w : ℚ} (h : SampleVal c x w) (hw : |w| ≤ 1) : val c x w := by
  cases c
  · exact h
  · exact h
  · exact ⟨h, hw⟩
  · exact ⟨h, hw⟩

theorem of_val {x : c.T} {w : ℚ} (h : val c x w) : SampleVal c x w := by
  cases c
  · exact h
  · exact h
  · exact h.1
  · exact h.1

/-- Positions of a fresh sink. -/
theorem pos_fresh {q : F64} {r : ℚ} (hq : q.Is r) (hr1 : |r| ≤ 1) {j : Nat} (hj : j ≤ 2 ^ 53) :
    (q.mul (f64OfUsize j)).Is (binary64.rnd (r * j)) ∧ (posOf q (lit 0) j).Is (binary64.rnd (r * j)) ∧
    |binary64.rnd (r * j) - r * j| ≤ |r * j| * binary64.u := by
  have hj' : (j:ℚ) ≤ 2 ^ 53 := by exact_mod_cast hj
  have h1 : (q.mul (f64OfUsize j)).Is (binary64.rnd (r * j)) := by
    refine hq.mul (is_usize hj) (small ?_)
    rw [abs_mul, abs_of_nonneg (by positivity : (0:ℚ) ≤ j)]
    calc |r| * j ≤ 1 * 2 ^ 53 := mul_le_mul hr1 hj' (by positivity) (by norm_num)
      _ ≤ _ := by norm_num
  refine ⟨h1, add_zero' h1 is_zero, ?_⟩
  obtain ⟨m, hm⟩ := gen_mult hq.rep.gen
  exact rel_err (m * j) (by rw [hm]; push_cast; ring)

theorem share_overlap {r s p : ℚ} (hr : 0 ≤ r) : share r s p = overlap (p - r) p (s - 1) s := by
  unfold share ramp overlap
  rcases le_total p s with h1 | h1 <;> rcases le_total (p - r) (s - 1) with h2 | h2 <;>
    simp only [min_eq_left h1, min_eq_right h1, max_eq_left h2, max_eq_right h2]
  · rw [min_eq_right (by linarith : p - r - (s - 1) ≤ 1), max_eq_left (by linarith : p - r - (s - 1) ≤ 0),
      min_eq_right (by linarith : p - (s - 1) ≤ 1)]; ring
  · rw [min_eq_right (by linarith : p - r - (s - 1) ≤ 1), max_eq_right (by linarith : 0 ≤ p - r - (s - 1)),
      min_eq_right (by linarith : p - (s - 1) ≤ 1), max_eq_right (by linarith : 0 ≤ p - (s - 1)),
      max_eq_right (by linarith : 0 ≤ p - (p - r))]; ring
  · rw [min_eq_right (by linarith : p - r - (s - 1) ≤ 1), max_eq_left (by linarith : p - r - (s - 1) ≤ 0),
      min_eq_left (by linarith : 1 ≤ p - (s - 1))]; ring_nf
  · rw [min_eq_left (by linarith : 1 ≤ p - (s - 1))]
    rcases le_total (p - r) s with h3 | h3
    · rw [min_eq_right (by linarith : p - r - (s - 1) ≤ 1), max_eq_right (by linarith : 0 ≤ p - r - (s - 1)),
        max_eq_right (by linarith : 0 ≤ s - (p - r)), max_eq_right (by norm_num : (0:ℚ) ≤ 1)]; ring
    · rw [min_eq_left (by linarith : 1 ≤ p - r - (s - 1)), max_eq_left (by linarith : s - (p - r) ≤ 0)]; ring

/-- Every slot is a box filter, for the frames that are taken. -/
theorem box_any {q : F64} {len : Option Nat} {B n : Nat} (a1 : Takes q (lit 0) len B n) {r : ℚ} (hq : q.Is r) (hr : 0 < r)
    (hr1 : r ≤ 1) (hb : (B : ℚ) + 1 ≤ r * 2 ^ 52) (i : Nat) (hi : i < k.chans) (w : Nat → ℚ) (g : Nat → Frame k c)
    (hg : ∀ j, j < n → SampleVal c (g j)[i] (w j) ∧ |w j| ≤ 1) :
    n ≤ 2 ^ 53 ∧ ∀ x : Nat, ∃ b : ℚ, SampleVal c (mixed q (lit 0) g x n Frame.dflt)[i] b ∧
      |b - ∑ j ∈ Finset.range n, w j * overlap (r * j - r) (r * j) (x - 1) x| ≤
        (mixErr c + 5 * 2 ^ (-53 : ℤ) + 2 * ((B + 1) * 2 ^ (-53 : ℤ))) * (1 / r + 3) := by
  have hr1' : |r| ≤ 1 := by rwa [abs_of_pos hr]
  have hu : binary64.u = 2 ^ (-53:ℤ) := rfl
  have hu0 : (0:ℚ) < 2 ^ (-53:ℤ) := two_zpow_pos _
  have hue : (2:ℚ) ^ (-53:ℤ) * 2 ^ 53 = 1 := by norm_num
  have hBq : (B:ℚ) + 1 ≤ 2 ^ 52 := hb.trans (by nlinarith)
  have hBn : B < 2 ^ 64 := by
    have : (B:ℚ) < ((2 ^ 64 : ℕ):ℚ) := by push_cast; linarith
    exact_mod_cast this
  have hr52 : 2 ^ (-52:ℤ) ≤ r := by
    have h52 : (2:ℚ) ^ (-52:ℤ) * 2 ^ 52 = 1 := by norm_num
    have : (0:ℚ) ≤ B := by positivity
    nlinarith
  -- number of frames
  have hn : n ≤ 2 ^ 53 := by
    by_contra hc
    have h1 := (a1.1 (2 ^ 53) (by omega)).1
    obtain ⟨_, p1, _⟩ := pos_fresh hq hr1' (j := 2 ^ 53) (le_refl _)
    have hgen : binary64.Gen (r * ((2 ^ 53 : ℕ):ℚ)) := by
      obtain ⟨a, e, g1, g2, g3⟩ := hq.rep.gen
      refine ⟨a, e + 53, g1, by omega, ?_⟩
      rw [g3, zpow_add₀ (by norm_num)]; push_cast; norm_num; ring
    rw [rnd_of_gen hgen] at p1
    have := le_toUsize p1 (m := B) (by push_cast; nlinarith) hBn
    omega
  set η : ℚ := (B + 1) * 2 ^ (-53:ℤ) with hη
  have hη0 : 0 ≤ η := by positivity
  have hη1 : η ≤ 1 / 2 := by
    rw [hη]; nlinarith
  -- positions
  have hp : ∀ j, j < n → (posOf q (lit 0) j).Is (binary64.rnd (r * j)) ∧ 0 ≤ binary64.rnd (r * j) ∧
      binary64.rnd (r * j) < 2 ^ 64 ∧ |binary64.rnd (r * j) - (0 + r * j)| ≤ η := by
    intro j hj
    obtain ⟨_, p1, p2⟩ := pos_fresh hq hr1' (j := j) (by omega)
    have h0 : 0 ≤ r * j := by positivity
    have p0 : 0 ≤ binary64.rnd (r * j) := rnd_nonneg h0
    have plt : binary64.rnd (r * j) < B := by
      by_contra hc
      have := le_toUsize p1 (not_lt.mp hc) hBn
      have := (a1.1 j hj).1
      omega
    refine ⟨p1, p0, by linarith, ?_⟩
    rw [zero_add]
    refine p2.trans ?_
    rw [abs_of_nonneg h0, hu, hη]
    refine mul_le_mul_of_nonneg_right ?_ hu0.le
    rw [abs_of_nonneg h0, hu, abs_le] at p2
    by_contra hc
    push Not at hc
    nlinarith
  refine ⟨hn, fun x => ?_⟩
  -- number of frames that reach the slot
  set L := ⌈((x:ℚ) - 1 - η) / r⌉₊ with hL
  set U := ⌊((x:ℚ) + r + η) / r⌋₊ with hU
  have hLU : ∀ j : Nat, (x:ℚ) - 1 - η ≤ 0 + r * j → 0 + r * j ≤ x + r + η → L ≤ j ∧ j ≤ U := by
    intro j h1 h2
    constructor
    · rw [hL, Nat.ceil_le, div_le_iff₀ hr]; linarith
    · rw [hU, Nat.le_floor_iff (by positivity), le_div_iff₀ hr]; linarith
  obtain ⟨β, hβ, herr⟩ := mixed_box (k := k) (mixLaw c) hq hr52 hr1 n x i hi (fun j => binary64.rnd (r * j)) hp g
    (w := w) (fun j hj => by
      obtain ⟨v1, v2⟩ := hg j hj
      exact ⟨val_of v1 v2, v2⟩) L U hLU
  refine ⟨β, of_val hβ, ?_⟩
  set cc := mixErr c + 5 * 2 ^ (-53 : ℤ) + 2 * η with hcc
  have hcc0 : 0 ≤ cc := by have := (mixLaw c).nonneg; rw [hcc]; linarith
  have hcnt : ((Min.min n (U + 1) - L : ℕ) : ℚ) ≤ 1 / r + 3 := by
    have h1 : (U:ℚ) ≤ ((x:ℚ) + r + η) / r := Nat.floor_le (by positivity)
    have h2 : ((x:ℚ) - 1 - η) / r ≤ L := Nat.le_ceil _
    have h4 : ((x:ℚ) + r + η) / r - ((x:ℚ) - 1 - η) / r = 1 / r + 1 + 2 * η / r := by field_simp; ring
    have h3 : 2 * η / r ≤ 1 := by
      rw [div_le_one hr, hη]; nlinarith
    have h5 : 0 ≤ 1 / r + 3 := by positivity
    rcases le_total (U + 1) L with hl | hl
    · have : Min.min n (U + 1) - L = 0 := by omega
      rw [this]; exact_mod_cast h5
    · have : Min.min n (U + 1) - L ≤ U + 1 - L := by omega
      have : ((Min.min n (U + 1) - L : ℕ) : ℚ) ≤ ((U + 1 - L : ℕ):ℚ) := by exact_mod_cast this
      rw [Nat.cast_sub hl] at this
      push_cast at this
      linarith
  have hsum : ∑ j ∈ Finset.range n, w j * overlap (r * j - r) (r * j) (x - 1) x =
      ∑ j ∈ Finset.range n, w j * share r x (0 + r * j) := by
    refine Finset.sum_congr rfl (fun j _ => ?_)
    rw [share_overlap hr.le, zero_add]
  rw [hsum]
  exact herr.trans (mul_le_mul_of_nonneg_left hcnt hcc0)

/-! ## C59 -/

/-- C59, downsampling (ratio `r ≤ 1`) is a box filter, for every channel format and layout and every finite or infinite
stream: with `n` frames taken, values `w j`, frame `j` covering the time `[r (j - 1), r j]` (in units of destination
frames) and slot `x` the time `[x - 1, x]`, each slot of the destination range gets the mean of the signal over its
time, up to a small error.
(`mixErr` is the accuracy of one addition, `1 / r + 3` bounds the number of frames that reach a slot, the other terms
are the accuracy of positions.) -/
theorem C59_box (fuel : Nat) (s s' : Sink k c) (st : Src k' c') (it : It k' c')
    (h : s.stream fuel st = .ok (s', it)) (ho : s.res.offseti = lit 0) (r : ℚ)
    (hq : (ratioOf s.rate st.rate).Is r) (hr : 0 < r) (hr1 : r ≤ 1) (hb : (s.buf.length : ℚ) + 1 ≤ r * 2 ^ 52)
    (i : Nat) (hi : i < k.chans) (w : Nat → ℚ)
    (hw : ∀ j f, st.nth j = .ok (some f) → ∀ x : Frame k c, f.convert c = .ok x → SampleVal c x[i] (w j) ∧ |w j| ≤ 1) :
    ∃ n, Takes (ratioOf s.rate st.rate) (lit 0) st.len s.buf.length n ∧ n ≤ 2 ^ 53 ∧
      ∀ x, InDst (ratioOf s.rate st.rate) st.len s.buf.length x →
        ∃ (y : Frame k c) (b : ℚ), s'.buf[x]? = some y ∧ SampleVal c y[i] b ∧
          |b - ∑ j ∈ Finset.range n, w j * overlap (r * j - r) (r * j) (x - 1) x| ≤
            (mixErr c + 5 * 2 ^ (-53 : ℤ) + 2 * ((s.buf.length + 1) * 2 ^ (-53 : ℤ))) * (1 / r + 3) := by
  obtain ⟨n, g, a1, a2, a0, _⟩ := C58_mix fuel s s' st it h
  rw [ho] at a1 a0
  obtain ⟨hn, hx⟩ := box_any a1 hq hr hr1 hb i hi w g (fun j hj => by
    obtain ⟨f, f1, f2⟩ := a2 j hj
    exact hw j f f1 _ f2)
  refine ⟨n, a1, hn, fun x hin => ?_⟩
  obtain ⟨b, b1, b2⟩ := hx x
  exact ⟨_, b, a0 x hin, b1, b2⟩

/-- Five samples at 12 Hz, three slots at 8 Hz. -/
example := C59_box 6 (exSink 3 8) _ (.audio (exAudio 12)) _
  (R.returns₂ (x := (exSink 3 8).stream 6 (.audio (exAudio 12))) (by decide +kernel)) rfl (binary64.rnd (2 / 3))
  (by decide +kernel) (by decide +kernel) (by decide +kernel) (by decide +kernel) 0 (by decide)
  (fun j => if j < 5 then (j + 1) / 127 else 0) (by
    intro j f hf x hx
    match j with
    | 0 | 1 | 2 | 3 | 4 => cases hf; cases hx; decide +kernel
    | j + 5 => cases hf)

/-! ## C45 -/

/-- C45 for downsampling and equal rates (ratio `r ≤ 1`), every channel format and layout, every finite or infinite
stream of constant value `w`: slot 0 gets `w * r` and every other slot of the destination range gets `w`, up to a small
error: for Ch64, 48000 to 44100 Hz and an hour of audio it is below `2^-21`.
(`mixErr` is the accuracy of one addition, `1 / r + 4` bounds the number of frames that reach a slot, the other terms
are the accuracy of positions.) -/
theorem C45_partial (fuel : Nat) (s s' : Sink k c) (st : Src k' c') (it : It k' c')
    (h : s.stream fuel st = .ok (s', it)) (ho : s.res.offseti = lit 0) (r : ℚ)
    (hq : (ratioOf s.rate st.rate).Is r) (hr : 0 < r) (hr1 : r ≤ 1) (hb : (s.buf.length : ℚ) + 1 ≤ r * 2 ^ 52)
    (i : Nat) (hi : i < k.chans) (v : c.T) (w : ℚ) (hv : SampleVal c v w) (hw : |w| ≤ 1)
    (hconst : ∀ j f, st.nth j = .ok (some f) → ∀ x : Frame k c, f.convert c = .ok x → x[i] = v)
    (x : Nat) (hx : InDst (ratioOf s.rate st.rate) st.len s.buf.length x) :
    ∃ (y : Frame k c) (b : ℚ), s'.buf[x]? = some y ∧ SampleVal c y[i] b ∧
      |b - (if x = 0 then w * r else w)| ≤
        (mixErr c + 5 * 2 ^ (-53 : ℤ) + 2 * ((s.buf.length + 1) * 2 ^ (-53 : ℤ))) * (1 / r + 4) := by
  obtain ⟨n, a1, hn, h2⟩ := C59_box fuel s s' st it h ho r hq hr hr1 hb i hi (fun _ => w) (fun j f h1 x h2 => by
    rw [hconst j f h1 x h2]; exact ⟨hv, hw⟩)
  obtain ⟨y, β, g1, g2, g3⟩ := h2 x hx
  refine ⟨y, β, g1, g2, ?_⟩
  have hsum : ∑ j ∈ Finset.range n, w * overlap (r * j - r) (r * j) (x - 1) x =
      w * (ramp x (0 + r * n - r) - ramp x (0 - r)) := by
    rw [← sum_share, Finset.mul_sum]
    refine Finset.sum_congr rfl (fun j _ => ?_)
    rw [share_overlap hr.le, zero_add]
  rw [hsum] at g3
  set q := ratioOf s.rate st.rate
  set B := s.buf.length with hB
  have hr1' : |r| ≤ 1 := by rwa [abs_of_pos hr]
  have hu : binary64.u = 2 ^ (-53:ℤ) := rfl
  have hu0 : (0:ℚ) < 2 ^ (-53:ℤ) := two_zpow_pos _
  have hBq : (B:ℚ) + 1 ≤ 2 ^ 52 := hb.trans (by nlinarith)
  set η : ℚ := (B + 1) * 2 ^ (-53:ℤ) with hη
  have hη0 : 0 ≤ η := by positivity
  have hη1 : η ≤ 1 / 2 := by
    have hue : (2:ℚ) ^ (-53:ℤ) * 2 ^ 53 = 1 := by norm_num
    rw [hη]; nlinarith
  set cc := mixErr c + 5 * 2 ^ (-53 : ℤ) + 2 * η with hcc
  have hcc1 : η ≤ cc := by have := (mixLaw c).nonneg; rw [hcc]; linarith
  -- the end of the signal is after the slot
  have hend : (x:ℚ) + 1 ≤ binary64.rnd (r * n) := by
    obtain ⟨m1, p1, p2⟩ := pos_fresh hq hr1' (j := n) hn
    have hlt : binary64.rnd (r * n) < 2 ^ 64 := by
      have h0 : 0 ≤ r * n := by positivity
      have hn' : (n:ℚ) ≤ 2 ^ 53 := by exact_mod_cast hn
      rw [abs_of_nonneg h0, hu, abs_le] at p2
      have : r * n ≤ 2 ^ 53 := by nlinarith
      nlinarith
    have h0 : 0 ≤ binary64.rnd (r * n) := rnd_nonneg (by positivity)
    have key : ∀ z : F64, z.Is (binary64.rnd (r * n)) → x < z.toUsize → (x:ℚ) + 1 ≤ binary64.rnd (r * n) := by
      intro z hz hxz
      rw [toUsize_is hz h0 hlt] at hxz
      have : ((x + 1 : ℕ) : ℤ) ≤ ⌊binary64.rnd (r * n)⌋ := by omega
      rw [Int.le_floor] at this
      push_cast at this; exact this
    rcases a1.2.2 with hl | hl
    · exact key _ m1 (hx.2 n hl)
    · refine key _ p1 ?_
      by_contra hc
      apply hl
      refine ⟨by have := hx.1; omega, fun l hl => ?_⟩
      have := hx.2 l hl
      omega
  have hramp : 1 - η ≤ ramp x (0 + r * n - r) := by
    obtain ⟨_, _, p2⟩ := pos_fresh hq hr1' (j := n) hn
    have h0 : 0 ≤ r * n := by positivity
    rw [abs_of_nonneg h0, hu, abs_le] at p2
    have hxB : (x:ℚ) + 1 ≤ B := by exact_mod_cast hx.1
    have hge : (x:ℚ) + 1 - η ≤ r * n := by
      by_contra hc
      push Not at hc
      have : r * n * 2 ^ (-53:ℤ) ≤ (B + 1) * 2 ^ (-53:ℤ) := mul_le_mul_of_nonneg_right (by linarith) hu0.le
      linarith
    have hm : ramp x ((x:ℚ) - η) ≤ ramp x (0 + r * n - r) := ramp_mono (by linarith)
    rw [ramp_mid (by linarith) (by linarith)] at hm
    linarith
  have hramp' := (ramp_range x (0 + r * n - r)).2
  have hbase : w * (1 - ramp x (0 - r)) = if x = 0 then w * r else w := by
    split
    · rename_i hx0
      rw [hx0, ramp_mid (by push_cast; linarith) (by push_cast; linarith)]; push_cast; ring
    · rename_i hx0
      have : (1:ℚ) ≤ x := by exact_mod_cast Nat.one_le_iff_ne_zero.mpr hx0
      rw [ramp_lo (by linarith)]; ring
  rw [← hbase]
  have e : β - w * (1 - ramp x (0 - r)) = (β - w * (ramp x (0 + r * n - r) - ramp x (0 - r))) +
      w * (ramp x (0 + r * n - r) - 1) := by ring
  rw [e]
  have t1 := abs_add_le (β - w * (ramp x (0 + r * n - r) - ramp x (0 - r))) (w * (ramp x (0 + r * n - r) - 1))
  have t2 : |w * (ramp x (0 + r * n - r) - 1)| ≤ η := by
    rw [abs_mul]
    have : |ramp x (0 + r * n - r) - 1| ≤ η := by rw [abs_le]; constructor <;> linarith
    calc _ ≤ 1 * |ramp x (0 + r * n - r) - 1| := mul_le_mul_of_nonneg_right hw (abs_nonneg _)
      _ ≤ η := by rw [one_mul]; exact this
  have t4 : cc * (3 / r + 2) = cc * (3 / r + 1) + cc := by ring
  linarith

example := C45_partial 10 (exSink 4 8) _ (.user (k := .mono) (c := .ch8) (some (lit 12)) true (some 9) fun _ => #v[100#8]) _
  (R.returns₂ (x := (exSink 4 8).stream 10
    (.user (k := .mono) (c := .ch8) (some (lit 12)) true (some 9) fun _ => #v[100#8])) (by decide +kernel)) rfl
  (binary64.rnd (2 / 3)) (by decide +kernel) (by decide +kernel) (by decide +kernel) (by decide +kernel) 0 (by decide)
  100#8 (100 / 127) (by decide +kernel) (by decide +kernel) (by
    intro j f hf x hx
    simp only [Src.nth, Except.ok.injEq] at hf
    split at hf
    · cases hf
      rw [show Frame.convert (k := .mono) (c := .ch8) .ch8 #v[100#8] = (.ok #v[100#8] : R (Frame .mono .ch8)) by decide +kernel] at hx
      cases hx; rfl
    · cases hf) 2 (by decide +kernel)

/-- C45 at equal rates: the constant arrives as it is. -/
theorem C45_equal (fuel : Nat) (s s' : Sink k c) (st : Src k' c') (it : It k' c')
    (h : s.stream fuel st = .ok (s', it))
    (hr : ∀ x, st.rate = some x → ∃ ρ : ℚ, s.rate.Is ρ ∧ x.Is ρ ∧ ρ ≠ 0)
    (ho : s.res = Resampler.dflt) (hb : s.buf.length ≤ 2 ^ 53) (f : Frame k c)
    (hconst : ∀ j g, st.nth j = .ok (some g) → g.convert c = .ok f) (x : Nat)
    (hx : ∀ l, st.len = some l → x < l) (hx' : x < s.buf.length) :
    ∃ y, s'.buf[x]? = some y ∧ FrameArrives f y := by
  obtain ⟨src, f', y, h1, h2, h3, h4⟩ := (C35_copy fuel s s' st it h hr ho hb).1 x hx hx'
  rw [hconst x src h1] at h2
  cases h2
  exact ⟨y, h3, h4⟩

example := C45_equal 10 (exSink 4 8) _ (.user (k := .mono) (c := .ch8) (some (lit 8)) true (some 9) fun _ => #v[100#8]) _
  (R.returns₂ (x := (exSink 4 8).stream 10
    (.user (k := .mono) (c := .ch8) (some (lit 8)) true (some 9) fun _ => #v[100#8])) (by decide +kernel))
  (fun x hx => by cases hx; exact ⟨8, by decide +kernel, by decide +kernel, by norm_num⟩) rfl (by decide +kernel)
  #v[100#8] (by
    intro j f hf
    simp only [Src.nth, Except.ok.injEq] at hf
    split at hf
    · cases hf; decide +kernel
    · cases hf) 2 (by decide +kernel) (by decide +kernel)

example : ((⟨lit 8, Resampler.dflt, List.replicate 4 #v[lit 0]⟩ : Sink .mono .ch64).stream 19
    (.audio (k := .mono) (c := .ch64) ⟨lit 12, List.replicate 9 #v[lit 0.25]⟩)).map (fun r => r.1.buf.drop 1) =
    .ok [#v[lit 0.25], #v[lit 0.25], #v[lit 0.25]] := by decide +kernel
example : ((⟨lit 8, Resampler.dflt, List.replicate 4 #v[100]⟩ : Sink .mono .ch8).stream 19
    (.audio (k := .mono) (c := .ch8) ⟨lit 12, List.replicate 9 #v[100]⟩)).map (fun r => r.1.buf) =
    .ok [#v[66], #v[99], #v[99], #v[99]] := by decide +kernel

end Fon
