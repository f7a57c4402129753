import Verif.Props.Const
import Verif.Props.Structure
import Verif.Props.Audio

/-!
# What `Audio::extend` and `Audio::with_stream` do with all of the audio

C86 (how many frames are used), C87 (the example of the documentation), C89 (contents after downsampling).
-/

namespace Fon

open Fl hiding min max
open Sink

variable {k k' : Kind} {c c' : ChTy}

/-! ## Left over audio -/

/-- What is left over is what the slot after the destination range would have got. -/
theorem leftOver_mixed {q off : F64} {len : Option Nat} {B D n : Nat} (hD : ∀ x, InDst q len B x ↔ x < D)
    (g : Nat → Frame k c) (h : ∀ j, j < n → InDst q len B (posOf q off j).toUsize) (p : Frame k c) :
    leftOver q off len B g n p = mixed q off g D n p := by
  induction n with
  | zero => rfl
  | succ n ih =>
    have hn := (hD _).mp (h n (by omega))
    have hs : hiSlot (posOf q off n) = (posOf q off n).toUsize + 1 ∨ hiSlot (posOf q off n) = (posOf q off n).toUsize := by
      unfold hiSlot; split <;> simp
    simp only [leftOver, mixed, ih (fun j hj => h j (by omega)), hD]
    rw [if_neg (by omega : ¬ (posOf q off n).toUsize = D)]
    by_cases hh : hiSlot (posOf q off n) = D
    · rw [if_neg (by omega), if_pos hh]
    · rw [if_pos (by omega), if_neg hh]

/-- C89, the left-over frame: after downsampling from a fresh resampler it is the mean of the signal (of the frames that
were taken) over the time of the slot after the destination range. -/
theorem C89_leftOver (fuel : Nat) (s s' : Sink k c) (st : Src k' c') (it : It k' c')
    (h : s.stream fuel st = .ok (s', it)) (ho : s.res.offseti = lit 0) (hp : s.res.partial_ = Frame.dflt) (r : ℚ)
    (hq : (ratioOf s.rate st.rate).Is r) (hr : 0 < r) (hr1 : r ≤ 1) (hb : (s.buf.length : ℚ) + 1 ≤ r * 2 ^ 52)
    (i : Nat) (hi : i < k.chans) (w : Nat → ℚ)
    (hw : ∀ j f, st.nth j = .ok (some f) → ∀ x : Frame k c, f.convert c = .ok x → SampleVal c x[i] (w j) ∧ |w j| ≤ 1)
    (D : Nat) (hD : ∀ x, InDst (ratioOf s.rate st.rate) st.len s.buf.length x ↔ x < D) :
    ∃ n b, Takes (ratioOf s.rate st.rate) (lit 0) st.len s.buf.length n ∧ SampleVal c s'.res.partial_[i] b ∧
      |b - ∑ j ∈ Finset.range n, w j * overlap (r * j - r) (r * j) (D - 1) D| ≤
        (mixErr c + 5 * 2 ^ (-53 : ℤ) + 2 * ((s.buf.length + 1) * 2 ^ (-53 : ℤ))) * (1 / r + 3) := by
  obtain ⟨n, g, a1, a2, _, a4, _⟩ := C58_mix fuel s s' st it h
  rw [ho] at a1 a4
  obtain ⟨_, hx⟩ := box_any a1 hq hr hr1 hb i hi w g (fun j hj => by
    obtain ⟨f, f1, f2⟩ := a2 j hj
    exact hw j f f1 _ f2)
  obtain ⟨b, b1, b2⟩ := hx D
  refine ⟨n, b, a1, ?_, b2⟩
  rw [leftOver_mixed hD g a1.1, hp] at a4
  simp only [a4]
  exact b1

example := C89_leftOver 6 (exSink 9 8) _ (.audio (exAudio 12)) _
  (R.returns₂ (x := (exSink 9 8).stream 6 (.audio (exAudio 12))) (by decide +kernel)) rfl (by decide +kernel)
  (Fmt.rnd binary64 (2 / 3)) (by decide +kernel) (by decide +kernel) (by decide +kernel) (by decide +kernel) 0 (by decide)
  (fun j => if j < 5 then (j + 1) / 127 else 0) (by
    intro j f hf x hx
    match j with
    | 0 | 1 | 2 | 3 | 4 => cases hf; cases hx; decide +kernel
    | j + 5 => cases hf) 3 (fun x => by
    constructor
    · intro h
      by_contra hx
      have hx' : x < 9 := h.1
      have : ∀ x < 9, 3 ≤ x → ¬ InDst (ratioOf (exSink 9 8).rate (Src.audio (exAudio 12)).rate) (some 5) 9 x := by
        decide +kernel
      exact this x hx' (by omega) h
    · have : ∀ x < 3, InDst (ratioOf (exSink 9 8).rate (Src.audio (exAudio 12)).rate) (some 5) 9 x := by decide +kernel
      exact this x)

/-- Two frames of rate 16 into a sink of rate 8: half of the last frame is left over. Of three, the last is not taken. -/
example : ((⟨lit 8, Resampler.dflt, [#v[lit 0], #v[lit 0], #v[lit 0]]⟩ : Sink .mono .ch32).stream 9
    (.audio (k := .mono) (c := .ch32) ⟨lit 16, [#v[lit 0], #v[lit 0], #v[lit 0.75]]⟩)).map (fun r => r.1.res.partial_) =
    .ok #v[lit 0] ∧
  ((⟨lit 8, Resampler.dflt, [#v[lit 0], #v[lit 0], #v[lit 0]]⟩ : Sink .mono .ch32).stream 9
    (.audio (k := .mono) (c := .ch32) ⟨lit 16, [#v[lit 0], #v[lit 0.75]]⟩)).map (fun r => r.1.res.partial_) =
    .ok #v[lit 0.375] := by decide +kernel

/-! ## C86 -/

/-- A frame that starts at least a source frame before the end of the destination range is taken. -/
theorem inDst_int {rate sr : F64} {dst src l n : Nat} (hr : rate.Is (dst:ℚ)) (hs : sr.Is (src:ℚ)) (h0 : 0 < src)
    (hd0 : 0 < dst) (hs' : src ≤ 2 ^ 51) (hd' : dst ≤ 2 ^ 51) (hN : dst * l < 2 ^ 51) (hn : dst * n + src < dst * l) :
    InDst (ratioOf rate (some sr)) (some l) ⌈(dst * l : ℚ) / src⌉₊
      (posOf (ratioOf rate (some sr)) (lit 0) n).toUsize := by
  have hsq : (0:ℚ) < src := by exact_mod_cast h0
  have hs1 : (1:ℚ) ≤ src := by exact_mod_cast h0
  obtain ⟨_, hp⟩ := pos_int hr hs h0 hd0 hs' hd'
  obtain ⟨_, n2, _, n4, n5⟩ := hp n (by omega)
  obtain ⟨l1, _, _, l4, l5⟩ := hp l (by omega)
  set P := binary64.rnd (binary64.rnd ((dst:ℚ) / src) * n)
  set Q := binary64.rnd (binary64.rnd ((dst:ℚ) / src) * l)
  have hNq : (dst * l : ℚ) ≤ 2 ^ 51 := by exact_mod_cast hN.le
  have hnq : (dst * n + src + 1 : ℚ) ≤ dst * l := by exact_mod_cast hn
  have hl0 : (0:ℚ) ≤ dst * l := by positivity
  have hn0 : (0:ℚ) ≤ dst * n := by positivity
  have hP : P * src ≤ dst * n + 3 / 4 := by
    have : P * src ≤ (dst * n : ℚ) / src * (1 + 1 / 2 ^ 53) ^ 2 * src := mul_le_mul_of_nonneg_right n5 hsq.le
    rw [show (dst * n : ℚ) / src * (1 + 1 / 2 ^ 53) ^ 2 * src = dst * n * (1 + 1 / 2 ^ 53) ^ 2 by field_simp] at this
    nlinarith
  have hQ : (dst * l : ℚ) - 3 / 4 ≤ Q * src := by
    have : (dst * l : ℚ) / src * (1 - 1 / 2 ^ 53) ^ 2 * src ≤ Q * src := mul_le_mul_of_nonneg_right l4 hsq.le
    rw [show (dst * l : ℚ) / src * (1 - 1 / 2 ^ 53) ^ 2 * src = dst * l * (1 - 1 / 2 ^ 53) ^ 2 by field_simp] at this
    nlinarith
  have hP0 : 0 ≤ P := le_trans (by positivity) n4
  have hQ0 : 0 ≤ Q := le_trans (by positivity) l4
  have hPlt : P < 2 ^ 64 := by nlinarith
  have hQlt : Q < 2 ^ 64 := by
    have : (dst * l : ℚ) / src ≤ 2 ^ 51 := by rw [div_le_iff₀ hsq]; nlinarith
    nlinarith
  have e1 := toUsize_is n2 hP0 hPlt
  have e2 := toUsize_is l1 hQ0 hQlt
  set m := (posOf (ratioOf rate (some sr)) (lit 0) n).toUsize
  have hm : (m:ℚ) ≤ P := by
    have h1 := Int.floor_le P
    have h2 : ((m:ℤ):ℚ) = (⌊P⌋:ℚ) := by
      rw [e1, Int.toNat_of_nonneg (Int.floor_nonneg.mpr hP0)]
    rw [← h2] at h1; exact_mod_cast h1
  have hms : src * m ≤ dst * n := by
    have : (src * m : ℚ) < dst * n + 1 := by nlinarith
    have : ((src * m : ℕ):ℚ) < ((dst * n + 1 : ℕ):ℚ) := by push_cast; exact this
    have : src * m < dst * n + 1 := by exact_mod_cast this
    omega
  have hmq : (src * m : ℚ) ≤ dst * n := by exact_mod_cast hms
  refine ⟨?_, fun l' hl' => ?_⟩
  · rw [Nat.lt_ceil, lt_div_iff₀ hsq]; nlinarith
  · cases hl'
    have : ((m + 1 : ℕ):ℤ) ≤ ⌊Q⌋ := by
      rw [Int.le_floor]; push_cast
      by_contra hc
      push Not at hc
      nlinarith
    omega

/-- How many frames are taken when the destination has room for all of the audio. -/
theorem used_int {rate sr : F64} {dst src l n : Nat} (hr : rate.Is (dst:ℚ)) (hs : sr.Is (src:ℚ)) (h0 : 0 < src)
    (hd0 : 0 < dst) (hs' : src ≤ 2 ^ 51) (hd' : dst ≤ 2 ^ 51) (hN : dst * l < 2 ^ 51)
    (ht : Takes (ratioOf rate (some sr)) (lit 0) (some l) ⌈(dst * l : ℚ) / src⌉₊ n) :
    n ≤ l ∧ dst * (l - n) ≤ src ∧ (src ≤ dst → n = l) := by
  have hnl := ht.2.1 l rfl
  have hsq : (0:ℚ) < src := by exact_mod_cast h0
  rcases ht.2.2 with h | h
  · cases h; simp
  · have key : ¬ (dst * n + src < dst * l) := fun hh => h (inDst_int hr hs h0 hd0 hs' hd' hN hh)
    refine ⟨hnl, ?_, fun hle => ?_⟩
    · rw [Nat.mul_sub]; omega
    · by_contra hne
      have hn1 : n + 1 ≤ l := by omega
      have h1 : dst * (n + 1) ≤ dst * l := Nat.mul_le_mul_left _ hn1
      rw [Nat.mul_add, Nat.mul_one] at h1
      have heq : dst = src := by omega
      subst heq
      apply h
      obtain ⟨_, hp⟩ := pos_int hr hs h0 hd0 hs' hd'
      have hl51 : l ≤ 2 ^ 51 := le_trans (Nat.le_mul_of_pos_left l hd0) hN.le
      have e1 : ∀ m : Nat, m ≤ 2 ^ 51 → binary64.rnd (binary64.rnd ((dst:ℚ) / dst) * m) = m := by
        intro m hm
        have e0 : binary64.rnd 1 = 1 := Fmt.rnd_of_rep (by simpa using rep_nat53 (n := 1) (by norm_num))
        rw [div_self hsq.ne', e0, one_mul]
        exact Fmt.rnd_of_rep (rep_nat53 (by omega))
      obtain ⟨_, n2, _⟩ := hp n (by omega)
      obtain ⟨l1, _⟩ := hp l (by omega)
      rw [e1 _ (by omega)] at n2
      rw [e1 _ (by omega)] at l1
      refine ⟨?_, fun l' hl' => ?_⟩
      · rw [toUsize_nat n2 (by omega), show (dst * l : ℚ) / dst = (l:ℚ) by field_simp, Nat.ceil_natCast]
        omega
      · cases hl'
        rw [toUsize_nat n2 (by omega), toUsize_nat l1 (by omega)]; omega

/-- C86: extending by an `AudioDrain` (whole rates), what stays in the drained audio is less than a destination frame's
worth, and nothing if the rate does not go down. -/
theorem C86_partial (a b : Audio k c) (x : Audio k' c') (it : It k' c') (dst src : Nat)
    (h : a.extend (.drain x) = (b, .ok it)) (hr : a.rate.Is (dst:ℚ)) (hs : x.rate.Is (src:ℚ)) (h0 : 0 < src)
    (hd0 : 0 < dst) (hs' : src ≤ 2 ^ 51) (hd' : dst ≤ 2 ^ 51) (hN : dst * x.frames.length < 2 ^ 51) :
    ∃ n, n ≤ x.frames.length ∧ dst * (x.frames.length - n) ≤ src ∧ (src ≤ dst → n = x.frames.length) ∧
      it.dropped = [⟨k', c', ⟨x.rate, x.frames.drop n⟩⟩] := by
  unfold Audio.extend at h
  cases he : a.extendInternal (.drain x) with
  | error e => rw [he] at h; cases h
  | ok p =>
    rw [he] at h
    cases h
    obtain ⟨l, s, t, h1, h2, h3, h4, h5⟩ := extend_run _ _ _ _ he
    cases h1
    obtain ⟨n, n1, n2⟩ := C38_drain _ _ _ _ _ h3
    dsimp only [Resampler.dflt] at n1
    have hl51 : x.frames.length ≤ 2 ^ 51 := le_trans (Nat.le_mul_of_pos_left _ hd0) hN.le
    rw [List.length_replicate, show (Src.drain x).rate = some x.rate from rfl,
      dstLen_int hr hs h0 (by omega) (by omega) hs'] at n1
    obtain ⟨u1, u2, u3⟩ := used_int hr hs h0 hd0 hs' hd' hN n1
    exact ⟨n, u1, u2, u3, n2⟩

/-- The hypotheses of C86 can be met: five frames of rate 8 into 12. -/
example : ∃ b it, (Audio.withFrames (k := .mono) (c := .ch8) (lit 12) []).extend (.drain (exAudio 8)) = (b, .ok it) ∧
    it.dropped = [⟨.mono, .ch8, ⟨lit 8, []⟩⟩] := by
  obtain ⟨it, h⟩ := C51_partial (Audio.withFrames (k := .mono) (c := .ch8) (lit 12) []) (.drain (exAudio 8)) (lit 8) 12 8 5
    rfl (is_lit (rep_nat53 (n := 12) (by norm_num))) (is_lit (rep_nat53 (n := 8) (by norm_num))) rfl (by norm_num)
    (by norm_num) (by norm_num) (by norm_num) (by norm_num) rfl rfl rfl
    (by rw [show ⌈((12:ℕ) * (5:ℕ) : ℚ) / (8:ℕ)⌉₊ = 8 by norm_num [Nat.ceil_eq_iff]]; exact ⟨by decide, by decide⟩) (.inl (by decide))
  refine ⟨_, it, Prod.ext rfl h, ?_⟩
  obtain ⟨n, _, _, h3, h4⟩ := C86_partial _ _ (exAudio 8) it 12 8 (Prod.ext rfl h)
    (is_lit (rep_nat53 (n := 12) (by norm_num))) (is_lit (rep_nat53 (n := 8) (by norm_num))) (by norm_num)
    (by norm_num) (by norm_num) (by norm_num) (by decide)
  rw [h4, h3 (by norm_num)]; rfl

/-- C86 is false when downsampling: of ten frames from 48000 to 8000 Hz the last four stay in the drained audio, although
a slot was added for them, which is silent.  Of four frames from 16000 to 8000 Hz the last one is taken but not heard. -/
theorem C86_false :
    (((Audio.withFrames (k := .mono) (c := .ch8) (lit 8000) []).extend
      (.drain (k := .mono) (c := .ch8) ⟨lit 48000, List.replicate 10 #v[120#8]⟩)).2.map (·.dropped)) =
      .ok [⟨.mono, .ch8, ⟨lit 48000, List.replicate 4 #v[120#8]⟩⟩] ∧
    ((Audio.withFrames (k := .mono) (c := .ch8) (lit 8000) []).extend
      (.drain (k := .mono) (c := .ch8) ⟨lit 48000, List.replicate 10 #v[120#8]⟩)).1.frames = [#v[19#8], #v[0#8]] ∧
    (((Audio.withFrames (k := .mono) (c := .ch8) (lit 8000) []).extend
      (.drain (k := .mono) (c := .ch8) ⟨lit 16000, [#v[0#8], #v[0#8], #v[0#8], #v[120#8]]⟩)).2.map (·.dropped)) =
      .ok [⟨.mono, .ch8, ⟨lit 16000, []⟩⟩] ∧
    ((Audio.withFrames (k := .mono) (c := .ch8) (lit 8000) []).extend
      (.drain (k := .mono) (c := .ch8) ⟨lit 16000, [#v[0#8], #v[0#8], #v[0#8], #v[120#8]]⟩)).1.frames =
      [#v[0#8], #v[0#8]] := by
  refine ⟨?_, ?_, ?_, ?_⟩ <;> decide +kernel

/-! ## C89 -/

/-- Adding silence to silence. -/
theorem dflt_add_dflt : (Frame.dflt : Frame k c).add Frame.dflt = Frame.dflt := by
  have : c.add c.dflt c.dflt = c.dflt := by cases c <;> decide +kernel
  ext i hi
  simp [Frame.add, Frame.dflt, this]

/-- C89, contents after downsampling (whole rates, `dst ≤ src`, any format and layout): all slots get the mean of the
signal over their time, as in C59, where the signal consists of the `n` frames that are used.  Only the last slot is silent instead, exactly
if it is past the end of the signal (rounded down) and the frames that were used end with a slot. -/
theorem C89_partial (rate sr : F64) (dst src l : Nat) (hr : rate.Is (dst:ℚ)) (hs : sr.Is (src:ℚ)) (h0 : 0 < src)
    (hd0 : 0 < dst) (hs' : src ≤ 2 ^ 51) (hle : dst ≤ src) (hN : dst * l < 2 ^ 51)
    (hB : dst * l + 2 * src ≤ dst * 2 ^ 51)
    (st : Src k' c') (hl : st.len = some l) (hsr : st.rate = some sr) (b : Audio k c)
    (h : Audio.withStream rate st = .ok b) (i : Nat) (hi : i < k.chans) (w : Nat → ℚ)
    (hw : ∀ j f, st.nth j = .ok (some f) → ∀ x : Frame k c, f.convert c = .ok x → SampleVal c x[i] (w j) ∧ |w j| ≤ 1) :
    let r := binary64.rnd ((dst:ℚ) / src)
    ∃ n, Takes (ratioOf rate (some sr)) (lit 0) (some l) b.frames.length n ∧ n ≤ l ∧ dst * (l - n) ≤ src ∧
      ∀ x, x < b.frames.length → ∃ y : Frame k c, b.frames[x]? = some y ∧
      if ⌊binary64.rnd (r * l)⌋ ≤ x ∧ binary64.rnd (r * n) - ⌊binary64.rnd (r * n)⌋ ≤ 2 ^ (-52 : ℤ) then
        x + 1 = b.frames.length ∧ y = Frame.dflt
      else ∃ v, SampleVal c y[i] v ∧
        |v - ∑ j ∈ Finset.range n, w j * overlap (r * j - r) (r * j) (x - 1) x| ≤
          (mixErr c + 5 * 2 ^ (-53 : ℤ) + 2 * ((b.frames.length + 1) * 2 ^ (-53 : ℤ))) * (1 / r + 3) := by
  intro r
  have hd' : dst ≤ 2 ^ 51 := hle.trans hs'
  have hsq : (0:ℚ) < src := by exact_mod_cast h0
  have hdq : (0:ℚ) < dst := by exact_mod_cast hd0
  have hl51 : l ≤ 2 ^ 51 := le_trans (Nat.le_mul_of_pos_left _ hd0) hN.le
  unfold Audio.withStream at h
  cases he : (Audio.withFrames rate [] : Audio k c).extendInternal st with
  | error e => unfold Audio.extend at h; rw [he] at h; cases h
  | ok p =>
    obtain ⟨l', s, t, h1, h2, h3, h4, h5⟩ := extend_run _ _ st _ he
    unfold Audio.extend at h
    rw [he] at h
    cases h
    rw [hl] at h1
    cases h1
    have hdl : Audio.dstLen (Audio.withFrames rate [] : Audio k c).rate l st.rate = ⌈(dst * l : ℚ) / src⌉₊ := by
      rw [hsr]; exact dstLen_int hr hs h0 (by omega) (by omega) hs'
    rw [hdl] at h3
    set B := ⌈(dst * l : ℚ) / src⌉₊ with hBdef
    obtain ⟨hratio, hpos⟩ := pos_int hr hs h0 hd0 hs' hd'
    obtain ⟨c1, c2, c3⟩ := C36_stream _ _ _ _ _ h3
    dsimp only [Audio.withFrames] at h3 c1 c2 c3
    rw [List.length_replicate, hsr, hl] at c3
    rw [List.length_replicate] at c1
    have hflen : p.1.frames = t.buf := by rw [h5]; simp [Audio.withFrames]
    obtain ⟨k1, _⟩ := flush_keeps s t h4
    have hlen : p.1.frames.length = B := by rw [hflen, k1, c1]
    -- the ratio
    have hrlo : (dst:ℚ) / src * (1 / 2) ≤ r := by
      obtain ⟨_, _, _, g4, _⟩ := hpos 1 (by omega)
      rw [Nat.cast_one, mul_one, mul_one, Fmt.rnd_of_rep hratio.rep] at g4
      have : (0:ℚ) < (dst:ℚ) / src := by positivity
      nlinarith
    have hr0 : 0 < r := lt_of_lt_of_le (by positivity) hrlo
    have hr1 : r ≤ 1 := by
      have e0 : binary64.rnd 1 = 1 := Fmt.rnd_of_rep (by simpa using rep_nat53 (n := 1) (by norm_num))
      rw [← e0]
      refine Fmt.rnd_mono ?_
      rw [div_le_one hsq]; exact_mod_cast hle
    have hBup : (B:ℚ) < dst * l / src + 1 := Nat.ceil_lt_add_one (by positivity)
    have hBq : (B:ℚ) + 1 ≤ r * 2 ^ 52 := by
      have e1 : (dst * l / src + 2 : ℚ) ≤ dst / src * 2 ^ 51 := by
        rw [div_add' _ _ _ hsq.ne', div_mul_eq_mul_div]
        refine div_le_div_of_nonneg_right ?_ hsq.le
        exact_mod_cast hB
      linarith
    -- the destination range
    set q := ratioOf rate (some sr) with hq
    set D := dstEnd q (some l) B with hD
    have hDiff : ∀ x, InDst q (some l) B x ↔ x < D := fun x => inDst_iff
    obtain ⟨m1, _, _, m4, m5⟩ := hpos l hN.le
    have hNq : (dst * l : ℚ) ≤ 2 ^ 51 := by exact_mod_cast hN.le
    have hlq0 : (0:ℚ) ≤ dst * l := by positivity
    have small : ∀ z : ℚ, z ≤ (dst * l : ℚ) / src * (1 + 1 / 2 ^ 53) ^ 2 → z < 2 ^ 64 := by
      intro z hz
      have hs1 : (1:ℚ) ≤ src := by exact_mod_cast h0
      have : (dst * l : ℚ) / src ≤ 2 ^ 51 := by rw [div_le_iff₀ hsq]; nlinarith
      nlinarith
    have hBD : B ≤ D + 1 := by
      by_contra hc
      have hlt : (q.mul (f64OfUsize l)).toUsize + 1 < B := by
        have : D = min (q.mul (f64OfUsize l)).toUsize B := rfl
        omega
      rw [toUsize_is m1 (le_trans (by positivity) m4) (small _ m5)] at hlt
      set Q := binary64.rnd (binary64.rnd ((dst:ℚ) / src) * l)
      have hQ0 : 0 ≤ Q := le_trans (by positivity) m4
      have e1 : Q < (⌊Q⌋.toNat : ℚ) + 1 := by
        have h1 := Int.lt_floor_add_one Q
        have h2 : ((⌊Q⌋.toNat : ℤ):ℚ) = (⌊Q⌋:ℚ) := by rw [Int.toNat_of_nonneg (Int.floor_nonneg.mpr hQ0)]
        rw [← h2] at h1; exact_mod_cast h1
      set m := ⌊Q⌋.toNat
      have e2 : (((m + 1 : ℕ)):ℚ) < dst * l / src := Nat.lt_ceil.mp hlt
      rw [lt_div_iff₀ hsq] at e2
      have e3 : (m + 1) * src + 1 ≤ dst * l := by exact_mod_cast e2
      have e4 : (((m:ℚ) + 1) * src + 1) ≤ dst * l := by exact_mod_cast e3
      have hQ : (dst * l : ℚ) - 3 / 4 ≤ Q * src := by
        have : (dst * l : ℚ) / src * (1 - 1 / 2 ^ 53) ^ 2 * src ≤ Q * src := mul_le_mul_of_nonneg_right m4 hsq.le
        rw [show (dst * l : ℚ) / src * (1 - 1 / 2 ^ 53) ^ 2 * src = dst * l * (1 - 1 / 2 ^ 53) ^ 2 by field_simp] at this
        nlinarith
      nlinarith
    -- what stream does
    obtain ⟨n, g, a1, a2, a0, a4, a5, _⟩ := C58_mix _ _ _ _ _ h3
    dsimp only [Resampler.dflt] at a1 a0 a4 a5
    rw [List.length_replicate, hsr, hl] at a1 a0 a4
    rw [hsr] at a5
    obtain ⟨u1, u2, _⟩ := used_int hr hs h0 hd0 hs' hd' hN a1
    obtain ⟨_, hx⟩ := box_any a1 hratio hr0 hr1 hBq i hi w g (fun j hj => by
      obtain ⟨f, f1, f2⟩ := a2 j hj
      exact hw j f f1 _ f2)
    rw [leftOver_mixed hDiff g a1.1] at a4
    -- where the frames end
    obtain ⟨n1, n2, n3, n4, n5⟩ := hpos n (le_trans (Nat.mul_le_mul_left _ u1) hN.le)
    set P := binary64.rnd (binary64.rnd ((dst:ℚ) / src) * n) with hP
    have hlt : P < 2 ^ 64 := by
      refine small _ (n5.trans ?_)
      have : (n:ℚ) ≤ l := by exact_mod_cast u1
      gcongr
    have h00 : 0 ≤ P := le_trans (by positivity) n4
    have hoffIs : s.res.offseti.Is P := by rw [a5]; exact n3
    have hoffU : s.res.offseti.toUsize = ⌊P⌋.toNat := toUsize_is hoffIs h00 hlt
    have hfr : HasFract s.res.offseti ↔ ¬ P - ⌊P⌋ ≤ 2 ^ (-52 : ℤ) := by
      have f1 := Int.floor_le P
      rw [not_le]
      constructor
      · rintro ⟨z, z1, z2⟩
        cases z1.unique hoffIs
        rw [truncQ, if_pos h00, abs_of_nonneg (by linarith)] at z2
        exact z2
      · intro hz
        exact ⟨P, hoffIs, by rw [truncQ, if_pos h00, abs_of_nonneg (by linarith)]; exact hz⟩
    set Q := binary64.rnd (binary64.rnd ((dst:ℚ) / src) * l) with hQ
    have hQ0 : 0 ≤ Q := le_trans (by positivity) m4
    have hDe : D = min ⌊Q⌋.toNat B := by
      show min (q.mul (f64OfUsize l)).toUsize B = _
      rw [toUsize_is m1 hQ0 (small _ m5)]
    -- flush is not inside of the destination range
    have hoff : D ≤ s.res.offseti.toUsize := by
      rw [a5, toUsize_is n3 h00 hlt, ← toUsize_is n2 h00 hlt]
      rcases a1.2.2 with hh | hh
      · cases hh
        rw [toUsize_is n2 h00 hlt, ← toUsize_is n1 h00 hlt]
        exact min_le_left _ _
      · rw [hDiff] at hh; exact not_lt.mp hh
    -- and not past the next slot
    have hoff1 : P ≤ D + 1 := by
      have hD1 : (((D + 1 : ℕ)):ℚ) = (D:ℚ) + 1 := by push_cast; rfl
      have hB53 : D + 1 ≤ 2 ^ 53 := by
        have : (D:ℚ) + 1 ≤ 2 ^ 52 := by
          have h1 : (D:ℚ) ≤ B := by exact_mod_cast (hDe ▸ min_le_right _ _ : D ≤ B)
          nlinarith
        have : D + 1 ≤ 2 ^ 52 := by exact_mod_cast this
        omega
      have hle' : r * n ≤ D + 1 := by
        rcases Nat.eq_zero_or_pos n with h0 | h0
        · rw [h0]; push_cast; rw [mul_zero]; positivity
        · have hin := (hDiff _).mp (a1.1 (n - 1) (by omega))
          obtain ⟨_, o2, _, o4, _⟩ := hpos (n - 1) (le_trans (Nat.mul_le_mul_left _ (by omega)) hN.le)
          by_contra hc
          push Not at hc
          have hnq : ((n - 1 : ℕ) : ℚ) = n - 1 := by rw [Nat.cast_sub h0]; push_cast; rfl
          have h1 : (D:ℚ) ≤ r * (n - 1 : ℕ) := by rw [hnq]; nlinarith
          have h2 : (D:ℚ) ≤ binary64.rnd (r * (n - 1 : ℕ)) := by
            have := Fmt.rnd_mono (f := binary64) h1
            rwa [Fmt.rnd_of_rep (rep_nat53 (by omega))] at this
          have h3 := le_toUsize o2 h2 (by omega)
          exact absurd hin (not_lt.mpr h3)
      have := Fmt.rnd_mono (f := binary64) hle'
      rw [← hD1, Fmt.rnd_of_rep (rep_nat53 hB53), hD1] at this
      exact this
    refine ⟨n, by rw [hlen]; exact a1, u1, u2, fun x hxl => ?_⟩
    rw [hlen] at hxl ⊢
    rw [hflen]
    by_cases hxD : x < D
    · obtain ⟨v, v1, v2⟩ := hx x
      refine ⟨_, ?_, by rw [if_neg (by omega)]; exact ⟨v, v1, v2⟩⟩
      rw [← a0 x ((hDiff x).mpr hxD)]
      by_cases hf : HasFract s.res.offseti
      · by_cases hil : s.res.offseti.toUsize < s.buf.length
        · rw [C42_write s hf hil] at h4; cases h4
          simp only
          rw [List.getElem?_set_ne (by omega)]
        · exfalso
          obtain ⟨e, he⟩ := (C42_panics_iff s).mpr ⟨hf, by omega⟩
          rw [he] at h4; cases h4
      · rw [C42_nothing s hf] at h4; cases h4; rfl
    · have hxe : x + 1 = B := by omega
      have hDx : D = x := by omega
      have hQx : ⌊Q⌋ ≤ x := by omega
      have hsil : s.buf[x]? = some Frame.dflt := by
        rw [c3 x (by rw [hDiff]; omega)]
        split
        · rename_i hx0
          rw [List.getElem?_replicate, if_pos (by omega)]
          simp only [Option.map_some, Resampler.dflt, dflt_add_dflt]
        · rw [List.getElem?_replicate, if_pos hxl]
      by_cases hf : HasFract s.res.offseti
      · have hf' := hfr.mp hf
        have hxo : s.res.offseti.toUsize = x := by
          have h1 : P ≠ D + 1 := by
            intro h1
            apply hf'
            have : P = ((D + 1 : ℤ) : ℚ) := by rw [h1]; push_cast; rfl
            rw [this, Int.floor_intCast, sub_self]
            exact (Fmt.two_zpow_pos _).le
          have h2 : ⌊P⌋ < (D:ℤ) + 1 := Int.floor_lt.mpr (by push_cast; exact lt_of_le_of_ne hoff1 h1)
          omega
        rw [C42_write s hf (by omega)] at h4; cases h4
        simp only
        obtain ⟨v, v1, v2⟩ := hx D
        refine ⟨_, ?_, by rw [if_neg (fun hh => hf' hh.2)]; exact ⟨v, v1, by rw [← hDx]; exact v2⟩⟩
        rw [hxo, List.getElem?_set_self (by omega), a4]
      · rw [C42_nothing s hf] at h4; cases h4
        exact ⟨_, hsil, by rw [if_pos ⟨hQx, by rwa [hfr, not_not] at hf⟩]; exact ⟨hxe, rfl⟩⟩

/-- The hypotheses of C89 can be met: frames 1, 2, 3, 4, 5 of rate 12 into 8. -/
example : (Audio.withStream (lit 8) (.audio (exAudio 12)) : R (Audio .mono .ch8)).map (·.frames) =
      .ok [#v[0#8], #v[1#8], #v[2#8], #v[3#8]] ∧
    ∀ b : Audio .mono .ch8, Audio.withStream (lit 8) (.audio (exAudio 12)) = .ok b →
      ∃ n, n ≤ 5 ∧ 8 * (5 - n) ≤ 12 ∧ ∀ x, x < b.frames.length → ∃ y, b.frames[x]? = some y := by
  refine ⟨by decide +kernel, fun b hb => ?_⟩
  obtain ⟨n, _, n1, n2, n3⟩ := C89_partial (lit 8) (lit 12) 8 12 5 (is_lit (rep_nat53 (n := 8) (by norm_num)))
    (is_lit (rep_nat53 (n := 12) (by norm_num))) (by norm_num) (by norm_num) (by norm_num) (by norm_num) (by norm_num)
    (by norm_num) (.audio (exAudio 12)) rfl rfl b hb 0 (by decide) (fun j => if j < 5 then (j + 1) / 127 else 0) (by
      intro j f hf x hx
      rw [C21_id rfl] at hx
      cases hx
      match j with
      | 0 | 1 | 2 | 3 | 4 => cases hf; norm_num [SampleVal, abs_of_pos, BitVec.toInt]
      | j + 5 => cases hf)
  exact ⟨n, n1, n2, fun x hx => ⟨_, (n3 x hx).choose_spec.1⟩⟩

/-- C89 is false in general: of ten frames from 48000 to 8000 Hz, the second slot (which covers the second to the seventh
of them) is silent. -/
theorem C89_false : (Audio.withStream (lit 8000) (.audio (k := .mono) (c := .ch64)
    ⟨lit 48000, List.replicate 10 #v[lit 1]⟩) : R (Audio .mono .ch64)).map (fun b => b.frames.map (fun f => f[0].lt (lit 0.5))) =
      .ok [true, true] := by
  decide +kernel

/-! ## C87 -/

/-- C87, any rates: mono audio converted to stereo has equal channels. -/
theorem C87_stereo (rate : F64) (a : Audio .mono c') (b : Audio .stereo c)
    (h : Audio.withStream rate (.audio a) = .ok b) (x : Nat) (y : Frame .stereo c) (hy : b.frames[x]? = some y) :
    y[0] = y[1] := by
  unfold Audio.withStream at h
  cases he : (Audio.withFrames rate [] : Audio .stereo c).extendInternal (.audio a) with
  | error e => unfold Audio.extend at h; rw [he] at h; cases h
  | ok p =>
    obtain ⟨l', s, t, h1, h2, h3, h4, h5⟩ := extend_run _ _ _ _ he
    unfold Audio.extend at h
    rw [he] at h
    cases h
    have hbuf : p.1.frames = t.buf := by rw [h5]; simp [Audio.withFrames]
    obtain ⟨e1, e2⟩ := C82_channel h3 h3 rfl rfl rfl rfl rfl 0 1 (by decide) (by decide)
      (by
        intro x u v hu hv
        rw [List.getElem?_replicate] at hu hv
        split at hu
        · rename_i hlt
          rw [if_pos hlt] at hv
          cases hu; cases hv; simp [Frame.dflt]
        · cases hu)
      (by simp [Resampler.dflt, Frame.dflt])
      (by
        intro j f f2 u v hf hf2 hu hv
        rw [hf] at hf2
        cases hf2
        rw [(C24_upmix f Frame.dflt).1] at hu hv
        cases hu; cases hv; rfl)
    have key : ∀ (x : Nat) (y : Frame .stereo c), s.buf[x]? = some y → y[0] = y[1] :=
      fun x y hy => e1 x y y hy hy
    rw [hbuf] at hy
    by_cases hf : HasFract s.res.offseti
    · by_cases hil : s.res.offseti.toUsize < s.buf.length
      · rw [C42_write s hf hil] at h4; cases h4
        simp only at hy
        by_cases hxo : s.res.offseti.toUsize = x
        · rw [hxo, List.getElem?_set_self (by omega)] at hy
          cases hy; exact e2
        · rw [List.getElem?_set_ne hxo] at hy
          exact key _ _ hy
      · exfalso
        obtain ⟨e, he⟩ := (C42_panics_iff s).mpr ⟨hf, by omega⟩
        rw [he] at h4; cases h4
    · rw [C42_nothing s hf] at h4; cases h4
      exact key _ _ hy

example := C87_stereo (c := .ch16) (lit 8) (exAudio 12) _
  (R.returns (x := (Audio.withStream (lit 8) (.audio (exAudio 12)) : R (Audio .stereo .ch16))) (by decide +kernel)) 2

/-- C87: the example of the documentation (lib.rs:32-42, examples/sawtooth.rs), with any samples.  256 frames of 8 bit
mono at 44100 Hz become 279 frames of 16 bit stereo at 48000 Hz with equal channels, without a panic. -/
theorem C87_sawtooth (a : Audio .mono .ch8) (ha : a.rate = lit 44100) (hl : a.frames.length = 256) :
    ∃ b : Audio .stereo .ch16, Audio.withStream (lit 48000) (.audio a) = .ok b ∧ b.rate = lit 48000 ∧
      b.frames.length = 279 ∧ ∀ (x : Nat) (y : Frame .stereo .ch16), b.frames[x]? = some y → y[0] = y[1] := by
  have i1 : (lit 48000 : F64).Is ((48000:ℕ):ℚ) := is_lit (rep_nat53 (by norm_num))
  have i2 : (lit 44100 : F64).Is ((44100:ℕ):ℚ) := is_lit (rep_nat53 (by norm_num))
  have e : ⌈((48000:ℕ) * (256:ℕ) : ℚ) / (44100:ℕ)⌉₊ = 279 := by norm_num [Nat.ceil_eq_iff]
  obtain ⟨it, h⟩ := C51_partial (Audio.withFrames (k := .stereo) (c := .ch16) (lit 48000) []) (.audio a) (lit 44100)
    48000 44100 256 (by simp [Src.len, hl]) i1 i2 (by simp [Src.rate, ha]) (by norm_num)
    (by norm_num) (by norm_num) (by norm_num) (by norm_num) rfl rfl rfl
    (by rw [e]; exact ⟨by decide, by decide⟩) (.inl (by decide))
  cases hx : (Audio.withFrames (k := .stereo) (c := .ch16) (lit 48000) []).extend (.audio a) with
  | mk b r =>
    rw [hx] at h
    simp only at h
    subst h
    have hb : (Audio.withStream (lit 48000) (.audio a) : R (Audio .stereo .ch16)) = .ok b := by
      unfold Audio.withStream; rw [hx]
    refine ⟨b, hb, (C48_withStream _ _ _ hb).1, ?_, fun x y hy => C87_stereo _ _ _ hb x y hy⟩
    have := C49_partial (lit 48000) (lit 44100) 48000 44100 256 i1 i2 (by norm_num) (by norm_num) (by norm_num)
      (by norm_num) (.audio a) (by simp [Src.len, hl]) (by simp [Src.rate, ha]) b hb
    rw [e] at this
    exact this

example := C87_sawtooth ⟨lit 44100, (List.range 256).map (fun i => #v[BitVec.ofNat 8 i])⟩ rfl (by simp)

/-- The first frames of the sawtooth. -/
example : ((⟨lit 44100, (List.range 256).map (fun i => #v[BitVec.ofNat 8 i])⟩ : Audio .mono .ch8).frames.take 3) =
    [#v[0#8], #v[1#8], #v[2#8]] := by decide +kernel

end Fon
