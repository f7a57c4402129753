import Verif.Props.Periodic
import Verif.Props.Upsample
import Verif.Props.Upmix
import Verif.Props.Extend
import Verif.Props.ThereBackWith

/-!
# C142: playing a stream backwards
-/

namespace Fon
open Fon.Fl hiding min max
open Fon.Fmt Fon.Sink
variable {k k' k'' : Kind} {c c' c'' : ChTy}

theorem overlap_mirror (a b c d t : ℚ) : overlap (t - b) (t - a) (t - d) (t - c) = overlap a b c d := by
  unfold overlap
  congr 1
  rw [min_sub_sub_left, max_sub_sub_left]
  rw [max_comm a c, min_comm b d, max_comm c a, min_comm d b]
  ring

/-- The frames in reverse order fill the slots in reverse order. -/
theorem box_mirror {r x : ℚ} (hr : 0 ≤ r) (l : Nat) (w : Nat → ℚ) (R : ℚ) :
    ∑ j ∈ Finset.range l, w (l - 1 - j) * share r (R + 1 - x) (r * j) =
      ∑ j ∈ Finset.range l, w j * share r x (r * j + (R - r * (l - 2))) := by
  rw [← Finset.sum_range_reflect]
  refine Finset.sum_congr rfl fun j hj => ?_
  have hj' := Finset.mem_range.mp hj
  rw [show l - 1 - (l - 1 - j) = j by omega]
  congr 1
  have e : ((l - 1 - j : ℕ) : ℚ) = l - 1 - j := by
    rw [Nat.cast_sub (by omega), Nat.cast_sub (by omega)]; push_cast; ring
  rw [e, share_overlap hr, share_overlap hr, ← overlap_mirror _ _ _ _ R]
  congr 1 <;> ring

/-- The sums that the slots get, forth and back, nearly agree. -/
theorem mirror_close {q : F64} {r e E : ℚ} {l B R n n' x : Nat} (hq : q.Is r) (hr : 0 < r) (hr1 : r ≤ 1)
    (hn : n ≤ 2 ^ 53) (hn' : n' ≤ 2 ^ 53) (t1 : Takes q (lit 0) (some l) B n) (t2 : Takes q (lit 0) (some l) B n')
    (hx : InDst q (some l) B x) (hx' : InDst q (some l) B (R + 1 - x)) (hR : |r * (l - 2) - R| ≤ e) (he : e ≤ 1 / 2)
    (hxR : x ≤ R + 1) (w : Nat → ℚ) (hw1 : ∀ j, |w j| ≤ 1) {a b : ℚ}
    (a3 : |a - ∑ j ∈ Finset.range n, w j * overlap (r * j - r) (r * j) (x - 1) x| ≤ E)
    (b3 : |b - ∑ j ∈ Finset.range n', w (l - 1 - j) * overlap (r * j - r) (r * j) ((R + 1 - x : ℕ) - 1) (R + 1 - x : ℕ)| ≤ E) :
    |b - a| ≤ 2 * E + 2 * ((B + 1) * 2 ^ (-53 : ℤ)) + 2 * e * (3 / r + 1) := by
  have hov : ∀ (w : Nat → ℚ) (x : ℚ) n, ∑ j ∈ Finset.range n, w j * overlap (r * j - r) (r * j) (x - 1) x =
      ∑ j ∈ Finset.range n, w j * share r x (r * j) :=
    fun w x n => Finset.sum_congr rfl (fun j _ => by rw [share_overlap hr.le])
  rw [hov w] at a3
  rw [hov fun j => w (l - 1 - j)] at b3
  have hu0 : (0:ℚ) < 2 ^ (-53:ℤ) := two_zpow_pos _
  have hη0 : 0 ≤ ((B:ℚ) + 1) * 2 ^ (-53:ℤ) := by positivity
  have m1 := sum_late (x := (x:ℚ)) hr (t1.2.1 l rfl) hη0 (reach_down hq hr hr1 hn t1 hx) w hw1
  have m2 := sum_late (x := ((R + 1 - x : ℕ):ℚ)) hr (t2.2.1 l rfl) hη0 (reach_down hq hr hr1 hn' t2 hx') (fun j => w (l - 1 - j))
    (fun j => hw1 _)
  have eR : ((R + 1 - x : ℕ):ℚ) = R + 1 - x := by rw [Nat.cast_sub hxR]; push_cast; ring
  have hR' : |(R:ℚ) - r * (l - 2)| ≤ e := by rw [abs_sub_comm]; exact hR
  have m3 := sum_moved hr hr1 (by positivity : (0:ℚ) ≤ x) (hR'.trans he) l w hw1
  have m4 : 2 * |(R:ℚ) - r * (l - 2)| * (3 / r + 1) ≤ 2 * e * (3 / r + 1) :=
    mul_le_mul_of_nonneg_right (by linarith) (by positivity)
  rw [← box_mirror hr.le l w R, ← eR] at m3
  have m3' := m3.trans m4
  generalize ∑ j ∈ Finset.range l, w (l - 1 - j) * share r ((R + 1 - x : ℕ):ℚ) (r * j) = A at *
  generalize ∑ j ∈ Finset.range l, w j * share r x (r * j) = B at *
  generalize ∑ j ∈ Finset.range n, w j * share r x (r * j) = C at *
  generalize ∑ j ∈ Finset.range n', w (l - 1 - j) * share r ((R + 1 - x : ℕ):ℚ) (r * j) = D at *
  generalize ((B : ℚ) + 1) * 2 ^ (-53 : ℤ) = η at *
  generalize 2 * e * (3 / r + 1) = F at *
  have q1 := abs_le.mp m1
  have q2 := abs_le.mp m2
  have q3 := abs_le.mp m3'
  have q4 := abs_le.mp a3
  have q5 := abs_le.mp b3
  rw [abs_le]
  constructor <;> linarith [q1.1, q1.2, q2.1, q2.2, q3.1, q3.2, q4.1, q4.2, q5.1, q5.2]

/-- C142 when the rate does not go up: if all frames of a stream but two last `R` slots, then the stream played backwards gives
the slots backwards: slot `R + 1 - x` of the one is slot `x` of the other, up to a small error. -/
theorem C142_down {fuel fuel' l R : Nat} {s s' t t' : Sink k c} {st : Src k' c'} {st' : Src k'' c''} {it : It k' c'}
    {it' : It k'' c''} (h : s.stream fuel st = .ok (s', it)) (h' : t.stream fuel' st' = .ok (t', it'))
    (hrt : t.rate = s.rate) (hbt : t.buf.length = s.buf.length) (hrr : st'.rate = st.rate)
    (ho : s.res.offseti = lit 0) (ho' : t.res.offseti = lit 0) {r e : ℚ}
    (hq : (ratioOf s.rate st.rate).Is r) (hr : 0 < r) (hr1 : r ≤ 1) (hb : (s.buf.length : ℚ) + 1 ≤ r * 2 ^ 52)
    (hl : st.len = some l) (hl' : st'.len = some l) (hR : |r * (l - 2) - R| ≤ e) (he : e ≤ 1 / 2)
    {i : Nat} (hi : i < k.chans) {w : Nat → ℚ} (hw1 : ∀ j, |w j| ≤ 1)
    (hw : ∀ j f, st.nth j = .ok (some f) → ∀ x : Frame k c, f.convert c = .ok x → SampleVal c x[i] (w j))
    (hw' : ∀ j f, st'.nth j = .ok (some f) → ∀ x : Frame k c, f.convert c = .ok x → SampleVal c x[i] (w (l - 1 - j)))
    {x : Nat} (hxR : x ≤ R + 1) (hx : InDst (ratioOf s.rate st.rate) st.len s.buf.length x)
    (hx' : InDst (ratioOf s.rate st.rate) st.len s.buf.length (R + 1 - x)) :
    ∃ (y z : Frame k c) (a b : ℚ), s'.buf[x]? = some y ∧ t'.buf[R + 1 - x]? = some z ∧ SampleVal c y[i] a ∧
      SampleVal c z[i] b ∧
      |b - a| ≤ 2 * ((mixErr c + 5 * 2 ^ (-53 : ℤ) + 2 * ((s.buf.length + 1) * 2 ^ (-53 : ℤ))) * (1 / r + 3)) +
        2 * ((s.buf.length + 1) * 2 ^ (-53 : ℤ)) + 2 * e * (3 / r + 1) := by
  obtain ⟨n, t1, hn, h2⟩ := C59_box fuel s s' st it h ho r hq hr hr1 hb i hi w
    (fun j f h1 x h2 => ⟨hw j f h1 x h2, hw1 j⟩)
  obtain ⟨n', t2, hn', h3⟩ := C59_box fuel' t t' st' it' h' ho' r (by rw [hrt, hrr]; exact hq) hr hr1 (by rw [hbt]; exact hb) i hi
    (fun j => w (l - 1 - j)) (fun j f h1 x h2 => ⟨hw' j f h1 x h2, hw1 _⟩)
  rw [hrt, hrr, hbt, hl', ← hl] at t2 h3
  obtain ⟨y, a, a1, a2, a3⟩ := h2 x hx
  obtain ⟨z, b, b1, b2, b3⟩ := h3 _ hx'
  refine ⟨y, z, a, b, a1, b1, a2, b2, ?_⟩
  exact mirror_close hq hr hr1 hn hn' (hl ▸ t1) (hl ▸ t2) (hl ▸ hx) (hl ▸ hx') hR he hxR w hw1 a3 b3

/-- Seven frames at 15 Hz; five of them last three slots at 9 Hz. -/
def exForth : Audio .mono .ch64 := ⟨lit 15, [#v[lit 0.75], #v[lit 0.5], #v[lit (-0.25)], #v[lit 0.125], #v[lit (-0.5)],
  #v[lit 0.25], #v[lit 1]]⟩
/-- The same frames backwards. -/
def exBack : Audio .mono .ch64 := ⟨exForth.rate, exForth.frames.reverse⟩
/-- Their values. -/
def exForthVal : Nat → ℚ
  | 0 => 0.75
  | 1 => 0.5
  | 2 => -0.25
  | 3 => 0.125
  | 4 => -0.5
  | 5 => 0.25
  | 6 => 1
  | _ => 0

example := C142_down (k := .mono) (c := .ch64) (fuel := 9) (fuel' := 9) (l := 7) (R := 3) (x := 2)
  (s := ⟨lit 9, Resampler.dflt, List.replicate 4 #v[lit 0]⟩) (t := ⟨lit 9, Resampler.dflt, List.replicate 4 #v[lit 0]⟩)
  (st := .audio exForth) (st' := .audio exBack)
  (R.returns₂ (x := (⟨lit 9, Resampler.dflt, List.replicate 4 #v[lit 0]⟩ : Sink .mono .ch64).stream 9 (.audio exForth)) (by decide +kernel))
  (R.returns₂ (x := (⟨lit 9, Resampler.dflt, List.replicate 4 #v[lit 0]⟩ : Sink .mono .ch64).stream 9 (.audio exBack)) (by decide +kernel))
  rfl rfl rfl rfl rfl (r := binary64.rnd (3 / 5)) (e := 2 ^ (-50 : ℤ)) (by decide +kernel) (by decide +kernel) (by decide +kernel)
  (by decide +kernel) rfl rfl (by decide +kernel) (by norm_num) (i := 0) (by decide) (w := exForthVal) (by
    intro j
    match j with
    | 0 | 1 | 2 | 3 | 4 | 5 | 6 => decide +kernel
    | j + 7 => exact (show |(0:ℚ)| ≤ 1 by simp)) (by
    intro j f hf x hx
    match j with
    | 0 | 1 | 2 | 3 | 4 | 5 | 6 => cases hf; cases hx; decide +kernel
    | j + 7 => cases hf) (by
    intro j f hf x hx
    match j with
    | 0 | 1 | 2 | 3 | 4 | 5 | 6 => cases hf; cases hx; decide +kernel
    | j + 7 => cases hf) (by decide) (by decide +kernel) (by decide +kernel)

/-- The relative error of the ratio of two rates. -/
theorem ratio_err {hi lo : ℕ} (h0 : 0 < lo) (hle : lo ≤ hi) (hb : hi ≤ 2 ^ 50) :
    |binary64.rnd ((lo:ℚ) / hi) - (lo:ℚ) / hi| ≤ (lo:ℚ) / hi * 2 ^ (-53:ℤ) := by
  have hh : (0:ℚ) < hi := by exact_mod_cast (by omega : 0 < hi)
  have hl1 : (1:ℚ) ≤ lo := by exact_mod_cast h0
  have hbq : (hi:ℚ) ≤ 2 ^ 50 := by exact_mod_cast hb
  have p2 : (0:ℚ) < lo / hi := by positivity
  have n2 : (2:ℚ) ^ (-50:ℤ) ≤ lo / hi := by
    rw [le_div_iff₀ hh]
    calc (2:ℚ) ^ (-50:ℤ) * hi ≤ 2 ^ (-50:ℤ) * 2 ^ 50 := mul_le_mul_of_nonneg_left hbq (two_zpow_pos _).le
      _ = 1 := by norm_num
      _ ≤ lo := hl1
  have nn : (2:ℚ) ^ (binary64.emin + binary64.prec - 1) ≤ 2 ^ (-50:ℤ) := by decide +kernel
  have e2 := rel_err_normal (f := binary64) (q := (lo:ℚ) / hi) (by rw [abs_of_pos p2]; exact nn.trans n2)
  rwa [abs_of_pos p2, (by decide +kernel : binary64.u = 2 ^ (-53:ℤ))] at e2

/-- C142 for `Audio::with_stream` at whole rates: the samples of the stream played backwards are the samples backwards. -/
theorem C142_with (rate sr : F64) (dst src l R : Nat) (hr : rate.Is (dst:ℚ)) (hs : sr.Is (src:ℚ)) (hd0 : 0 < dst)
    (hs' : src ≤ 2 ^ 50) (hle : dst ≤ src) (hN : dst * l < 2 ^ 51) (hB : dst * l + 2 * src ≤ dst * 2 ^ 51)
    (hl2 : 2 ≤ l) (hR : dst * (l - 2) = R * src)
    (st : Src k' c') (st' : Src k'' c'') (hl : st.len = some l) (hl' : st'.len = some l) (hsr : st.rate = some sr)
    (hsr' : st'.rate = some sr) (b b' : Audio k c) (h : Audio.withStream rate st = .ok b)
    (h' : Audio.withStream rate st' = .ok b') (i : Nat) (hi : i < k.chans) (w : Nat → ℚ) (hw1 : ∀ j, |w j| ≤ 1)
    (hw : ∀ j f, st.nth j = .ok (some f) → ∀ x : Frame k c, f.convert c = .ok x → SampleVal c x[i] (w j))
    (hw' : ∀ j f, st'.nth j = .ok (some f) → ∀ x : Frame k c, f.convert c = .ok x → SampleVal c x[i] (w (l - 1 - j)))
    (x : Nat) (hxR : x ≤ R + 1) (hx : src * (x + 1) < dst * l) (hx' : src * (R + 1 - x + 1) < dst * l) :
    let r := binary64.rnd ((dst:ℚ) / src)
    ∃ (y z : Frame k c) (a a' : ℚ), b.frames[x]? = some y ∧ b'.frames[R + 1 - x]? = some z ∧ SampleVal c y[i] a ∧
      SampleVal c z[i] a' ∧
      |a' - a| ≤ 2 * ((mixErr c + 5 * 2 ^ (-53 : ℤ) + 2 * ((b.frames.length + 1) * 2 ^ (-53 : ℤ))) * (1 / r + 3)) +
        2 * ((b.frames.length + 1) * 2 ^ (-53 : ℤ)) + 2 * (R * 2 ^ (-53 : ℤ)) * (3 / r + 1) := by
  intro r
  have h0 : 0 < src := by omega
  have hsq : (0:ℚ) < src := by exact_mod_cast h0
  have hdq : (0:ℚ) < dst := by exact_mod_cast hd0
  obtain ⟨-, hrl⟩ := ratios_inverse hd0 hle hs'
  have v0 : (0:ℚ) < 1 - 2 ^ (-53:ℤ) := by norm_num
  have hr0 : 0 < r := lt_of_lt_of_le (mul_pos (by positivity) v0) hrl
  have hr1 : r ≤ 1 := (rnd_mono ((div_le_one hsq).mpr (by exact_mod_cast hle))).trans_eq (by decide +kernel : binary64.rnd 1 = 1)
  have hq : (ratioOf rate (some sr)).Is r := hr.div hs hsq.ne' (small (by
    refine (abs_of_nonneg (by positivity)).le.trans ?_
    refine ((div_le_one hsq).mpr (by exact_mod_cast hle)).trans ?_
    norm_num))
  -- both slots are in the range that frames are written to
  have hfl : ∀ y, src * (y + 1) < dst * l → ((y + 1 : ℕ):ℚ) ≤ binary64.rnd (r * l) := by
    intro y hy
    have e1 : ((src * (y + 1) + 1 : ℕ):ℚ) ≤ (dst * l : ℕ) := by exact_mod_cast hy
    have e2 : ((y + 1 : ℕ):ℚ) * src ≤ dst * l * (1 - 2 ^ (-53:ℤ)) := by
      have e3 : ((dst * l : ℕ):ℚ) * 2 ^ (-53:ℤ) ≤ 1 := by
        have : ((dst * l : ℕ):ℚ) ≤ 2 ^ 51 := by exact_mod_cast hN.le
        refine (mul_le_mul_of_nonneg_right this (two_zpow_pos _).le).trans (by norm_num)
      push_cast at e1 e3 ⊢
      generalize (2:ℚ) ^ (-53:ℤ) = u at *
      linarith
    refine rnd_ge_nat ?_ ?_
    · have : y + 1 ≤ src * (y + 1) := Nat.le_mul_of_pos_left _ h0
      omega
    · have e3 : (dst:ℚ) / src * (1 - 2 ^ (-53:ℤ)) * l ≤ r * l := mul_le_mul_of_nonneg_right hrl l.cast_nonneg
      refine le_trans ?_ e3
      rw [show (dst:ℚ) / src * (1 - 2 ^ (-53:ℤ)) * l = dst * l * (1 - 2 ^ (-53:ℤ)) / src by ring, le_div_iff₀ hsq]
      exact e2
  have hl53 : l ≤ 2 ^ 53 := le_trans (Nat.le_mul_of_pos_left l hd0) (by omega)
  have hmul : ((ratioOf rate (some sr)).mul (f64OfUsize l)).toUsize = ⌊binary64.rnd (r * l)⌋.toNat := by
    refine toUsize_is (pos_fresh hq (by rwa [abs_of_pos hr0]) hl53).1 (rnd_nonneg (by positivity)) ?_
    have e1 : r * l ≤ (2 ^ 53 : ℕ) := by
      have : (l:ℚ) ≤ (2 ^ 53 : ℕ) := by exact_mod_cast hl53
      exact (mul_le_of_le_one_left l.cast_nonneg hr1).trans this
    exact (rnd_le_of_gen (rep_nat53 le_rfl).gen e1).trans_lt (by norm_num)
  have hlen := C49_partial rate sr dst src l hr hs h0 (by omega) (by omega) (by omega) st hl hsr b h
  have hlen' := C49_partial rate sr dst src l hr hs h0 (by omega) (by omega) (by omega) st' hl' hsr' b' h'
  have hbl : b.frames.length = ⌈(dst * l : ℚ) / src⌉₊ := hlen
  have hbl' : b'.frames.length = b.frames.length := hlen'.trans hlen.symm
  have hIn : ∀ y, src * (y + 1) < dst * l → InDst (ratioOf rate (some sr)) (some l) b.frames.length y := by
    intro y hy
    refine ⟨?_, ?_⟩
    · rw [hbl, Nat.lt_ceil, lt_div_iff₀ hsq]
      have : y * src < dst * l := by nlinarith
      exact_mod_cast this
    · rintro _ ⟨⟩
      rw [hmul]
      have : ((y + 1 : ℕ):ℤ) ≤ ⌊binary64.rnd (r * l)⌋ := Int.le_floor.mpr (by exact_mod_cast hfl y hy)
      omega
  have hnl : ∀ y, src * (y + 1) < dst * l → ¬ ⌊binary64.rnd (r * l)⌋ ≤ (y:ℤ) := by
    intro y hy hc
    have : ((y + 1 : ℕ):ℤ) ≤ ⌊binary64.rnd (r * l)⌋ := Int.le_floor.mpr (by exact_mod_cast hfl y hy)
    push_cast at this
    omega
  have i1 := hIn x hx
  have i2 := hIn _ hx'
  obtain ⟨n, t1, hn, -, h2⟩ := C89_partial rate sr dst src l hr hs h0 hd0 (by omega) hle hN hB st hl hsr b h i hi w
    (fun j f h1 x h2 => ⟨hw j f h1 x h2, hw1 j⟩)
  obtain ⟨n', t2, hn', -, h3⟩ := C89_partial rate sr dst src l hr hs h0 hd0 (by omega) hle hN hB st' hl' hsr' b' h' i hi
    (fun j => w (l - 1 - j)) (fun j f h1 x h2 => ⟨hw' j f h1 x h2, hw1 _⟩)
  rw [hbl'] at t2 h3
  obtain ⟨y, a1, a2⟩ := h2 x i1.1
  obtain ⟨z, b1, b2⟩ := h3 _ i2.1
  rw [if_neg (fun h => hnl x hx h.1)] at a2
  rw [if_neg (fun h => hnl _ hx' h.1)] at b2
  obtain ⟨a, a2, a3⟩ := a2
  obtain ⟨a', b2, b3⟩ := b2
  refine ⟨y, z, a, a', a1, b1, a2, b2, ?_⟩
  have hl2q : ((l - 2 : ℕ):ℚ) = l - 2 := by rw [Nat.cast_sub hl2]; norm_num
  have hRq : (dst:ℚ) / src * (l - 2) = R := by
    rw [← hl2q, div_mul_eq_mul_div, div_eq_iff hsq.ne']; exact_mod_cast hR
  have hR51 : (R:ℚ) ≤ 2 ^ 51 := by
    have e1 : R ≤ R * src := Nat.le_mul_of_pos_right _ h0
    have e2 : dst * (l - 2) ≤ dst * l := Nat.mul_le_mul_left _ (by omega)
    have : R ≤ 2 ^ 51 := by omega
    exact_mod_cast this
  have hδ : |r * (l - 2) - R| ≤ R * 2 ^ (-53:ℤ) := by
    have e1 : |r - (dst:ℚ) / src| ≤ dst / src * 2 ^ (-53:ℤ) := ratio_err hd0 hle hs'
    have e2 : (0:ℚ) ≤ l - 2 := by rw [← hl2q]; positivity
    rw [← hRq, ← sub_mul, abs_mul, abs_of_nonneg e2]
    calc _ ≤ (dst:ℚ) / src * 2 ^ (-53:ℤ) * (l - 2) := mul_le_mul_of_nonneg_right e1 e2
      _ = _ := by ring
  have he : (R:ℚ) * 2 ^ (-53:ℤ) ≤ 1 / 2 :=
    (mul_le_mul_of_nonneg_right hR51 (two_zpow_pos _).le).trans (by norm_num)
  exact mirror_close hq hr0 hr1 (by omega) (by omega) t1 t2 i1 i2 hδ he hxR w hw1 a3 b3

example := C142_with (k := .mono) (c := .ch64) (lit 9) (lit 15) 9 15 7 3 (by decide +kernel) (by decide +kernel) (by decide)
  (by decide) (by decide) (by decide) (by decide) (by decide) (by decide) (.audio exForth) (.audio exBack) rfl rfl rfl rfl _ _
  (R.returns (x := Audio.withStream (k := .mono) (c := .ch64) (lit 9) (.audio exForth)) (by decide +kernel))
  (R.returns (x := Audio.withStream (k := .mono) (c := .ch64) (lit 9) (.audio exBack)) (by decide +kernel))
  0 (by decide) exForthVal (by
    intro j
    match j with
    | 0 | 1 | 2 | 3 | 4 | 5 | 6 => decide +kernel
    | j + 7 => exact (show |(0:ℚ)| ≤ 1 by simp)) (by
    intro j f hf x hx
    match j with
    | 0 | 1 | 2 | 3 | 4 | 5 | 6 => cases hf; cases hx; decide +kernel
    | j + 7 => cases hf) (by
    intro j f hf x hx
    match j with
    | 0 | 1 | 2 | 3 | 4 | 5 | 6 => cases hf; cases hx; decide +kernel
    | j + 7 => cases hf) 1 (by decide) (by decide) (by decide)

/-- C142 when the rate is multiplied by a whole number: a stream of `l` frames played backwards gives exactly the slots
backwards, from the one of the last frame on. -/
theorem C142_whole {fuel fuel' l N : Nat} {s s' t t' : Sink k c} {st : Src k' c'} {st' : Src k' c'} {it it' : It k' c'}
    (h : s.stream fuel st = .ok (s', it)) (h' : t.stream fuel' st' = .ok (t', it'))
    (hrt : t.rate = s.rate) (hrr : st'.rate = st.rate)
    (ho : s.res.offseti = lit 0) (ho' : t.res.offseti = lit 0) (hq : (ratioOf s.rate st.rate).Is (N:ℚ))
    (h1 : 1 ≤ N) (hN : N ≤ 2 ^ 24) (hb : s.buf.length ≤ 2 ^ 52) (hb' : t.buf.length ≤ 2 ^ 52)
    (hst : ∀ j, j < l → st'.nth j = st.nth (l - 1 - j))
    {x : Nat} (hxN : x ≤ N * (l - 1)) (hl : 1 ≤ l) (hx : InDst (ratioOf s.rate st.rate) st.len s.buf.length x)
    (hx' : InDst (ratioOf s.rate st.rate) st'.len t.buf.length (N * (l - 1) - x)) :
    ∃ (y z : Frame k c), s'.buf[x]? = some y ∧ t'.buf[N * (l - 1) - x]? = some z ∧
      ((y = Frame.dflt ∧ z = Frame.dflt) ∨ ∃ (src : Frame k' c') (f : Frame k c), st.nth (x / N) = .ok (some src) ∧
        src.convert c = .ok f ∧ ∀ i (hi : i < k.chans), Boosted N c f[i] y[i] ∧ Boosted N c f[i] z[i]) := by
  obtain ⟨y, y1, y2, y3⟩ := C78_actual fuel N s s' st it h ho hq h1 hN hb x hx
  obtain ⟨z, z1, z2, z3⟩ := C78_actual fuel' N t t' st' it' h' ho' (by rw [hrt, hrr]; exact hq) h1 hN hb' _
    (by rw [hrt, hrr]; exact hx')
  refine ⟨y, z, y1, z1, ?_⟩
  have hdvd : N ∣ N * (l - 1) - x ↔ N ∣ x := by
    constructor
    · intro hd
      have := Nat.dvd_sub (Dvd.intro (l - 1) rfl) hd
      rwa [Nat.sub_sub_self hxN] at this
    · exact fun hd => Nat.dvd_sub (Dvd.intro (l - 1) rfl) hd
  by_cases hd : N ∣ x
  · right
    obtain ⟨src, f, p1, p2, p3⟩ := y3 hd
    obtain ⟨src', f', q1, q2, q3⟩ := z3 (hdvd.mpr hd)
    obtain ⟨j, rfl⟩ := hd
    have hj : j ≤ l - 1 := Nat.le_of_mul_le_mul_left hxN (by omega)
    rw [← Nat.mul_sub, Nat.mul_div_cancel_left _ (by omega), hst _ (by omega), show l - 1 - (l - 1 - j) = j by omega] at q1
    rw [Nat.mul_div_cancel_left _ (by omega)] at p1
    rw [p1] at q1
    cases q1
    rw [p2] at q2
    cases q2
    refine ⟨src, f, ?_, p2, fun i hi => ⟨p3 i hi, q3 i hi⟩⟩
    rw [Nat.mul_div_cancel_left _ (by omega)]; exact p1
  · exact .inl ⟨y2 hd, z2 (fun h => hd (hdvd.mp h))⟩

/-- The same frames played into sinks of 45 Hz, forth and back. -/
example := C142_whole (k := .mono) (c := .ch64) (fuel := 9) (fuel' := 9) (l := 7) (N := 3) (x := 15)
  (s := ⟨lit 45, Resampler.dflt, List.replicate 20 #v[lit 0]⟩) (t := ⟨lit 45, Resampler.dflt, List.replicate 19 #v[lit 0]⟩)
  (st := .audio exForth) (st' := .audio exBack)
  (R.returns₂ (x := (⟨lit 45, Resampler.dflt, List.replicate 20 #v[lit 0]⟩ : Sink .mono .ch64).stream 9 (.audio exForth)) (by decide +kernel))
  (R.returns₂ (x := (⟨lit 45, Resampler.dflt, List.replicate 19 #v[lit 0]⟩ : Sink .mono .ch64).stream 9 (.audio exBack)) (by decide +kernel))
  rfl rfl rfl rfl (by decide +kernel) (by decide) (by decide) (by decide) (by decide) (by
    intro j hj
    match j, hj with
    | 0, _ | 1, _ | 2, _ | 3, _ | 4, _ | 5, _ | 6, _ => rfl) (by decide) (by decide) (by decide +kernel) (by decide +kernel)

/-- When the rate goes up by another ratio, a stream played backwards does not give the slots backwards: of three frames at
12 Hz the one in the middle gives its value to slot 1 and half of it to slot 2 at 18 Hz, forth and back. -/
theorem C142_up_false :
    (Audio.withStream (lit 18) (.audio ⟨lit 12, [#v[lit 0.5], #v[lit 0.25], #v[lit 0.125]]⟩ : Src .mono .ch64) :
      R (Audio .mono .ch64)).map (·.frames) =
        .ok [#v[lit 0.75], #v[lit 0.25], #v[lit 0.125], #v[lit 0.1875], #v[lit 0]] ∧
    (Audio.withStream (lit 18) (.audio ⟨lit 12, [#v[lit 0.125], #v[lit 0.25], #v[lit 0.5]]⟩ : Src .mono .ch64) :
      R (Audio .mono .ch64)).map (·.frames) =
        .ok [#v[lit 0.1875], #v[lit 0.25], #v[lit 0.125], #v[lit 0.75], #v[lit 0]] := by
  refine ⟨by decide +kernel, by decide +kernel⟩

end Fon
