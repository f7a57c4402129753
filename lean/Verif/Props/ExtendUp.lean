import Verif.Props.Extend
import Verif.Props.Upmix

/-! # `Audio::with_stream` to a higher rate (C104)

What every frame of the new audio holds when the rate of the new audio is at least that of the stream.  With C89 for lower
rates. -/

namespace Fon

open Fon.Fl hiding min max
open Fon.Fmt Fon.Sink

variable {k k' : Kind} {c c' : ChTy}

/-- C104: audio made from a stream of `l` frames at a whole rate `src` has in every slot `x` the sum of `w j` times the
share of frame `j`, clamped and up to a small error; all `l` frames are in the sum, the last slot is filled by `flush`. -/
theorem C104_up (rate sr : F64) (dst src l : Nat) (hr : rate.Is (dst:ℚ)) (hs : sr.Is (src:ℚ)) (h0 : 0 < src)
    (hs' : src ≤ 2 ^ 50) (hd' : dst ≤ 2 ^ 51) (hle : src ≤ dst) (h20 : dst ≤ 2 ^ 20 * src) (hN : dst * l < 2 ^ 51)
    (st : Src k' c') (hl : st.len = some l) (hsr : st.rate = some sr) (b : Audio k c)
    (h : Audio.withStream rate st = .ok b) (i : Nat) (hi : i < k.chans) (w : Nat → ℚ)
    (hw : ∀ j f, st.nth j = .ok (some f) → ∀ x : Frame k c, f.convert c = .ok x → SampleVal c x[i] (w j) ∧ |w j| ≤ 1) :
    let r := binary64.rnd ((dst:ℚ) / src)
    b.frames.length = ⌈(dst * l : ℚ) / src⌉₊ ∧ Takes (ratioOf rate (some sr)) (lit 0) (some l) b.frames.length l ∧
    ∀ x, x < b.frames.length → ∃ (y : Frame k c) (v : ℚ), b.frames[x]? = some y ∧ SampleVal c y[i] v ∧
      |v - clampQ (∑ j ∈ Finset.range l, w j * upShare c r x (binary64.rnd (r * j)))| ≤ mixErr c * (r + 5) := by
  intro r
  have hd0 : 0 < dst := by omega
  have hsq : (0:ℚ) < src := by exact_mod_cast h0
  have hdq : (0:ℚ) < dst := by exact_mod_cast hd0
  have hl51 : l ≤ 2 ^ 51 := le_trans (Nat.le_mul_of_pos_left _ hd0) hN.le
  unfold Audio.withStream at h
  cases he : (Audio.withFrames rate [] : Audio k c).extendInternal st with
  | error e => unfold Audio.extend at h; rw [he] at h; cases h
  | ok p =>
    obtain ⟨l', s, t, h1, h2, h3, h4, h5⟩ := extend_run _ _ st _ he
    unfold Audio.extend at h
    rw [he] at h
    cases h
    rw [hl] at h1
    cases h1
    have hdl : Audio.dstLen (Audio.withFrames rate [] : Audio k c).rate l st.rate = ⌈(dst * l : ℚ) / src⌉₊ := by
      rw [hsr]; exact dstLen_int hr hs h0 (by omega) (by omega) (by omega)
    rw [hdl] at h3
    set B := ⌈(dst * l : ℚ) / src⌉₊ with hBdef
    obtain ⟨hratio, hpos⟩ := pos_int hr hs h0 hd0 (by omega) hd'
    obtain ⟨c1, c2, c3⟩ := C36_stream _ _ _ _ _ h3
    dsimp only [Audio.withFrames] at h3 c1 c2 c3
    rw [List.length_replicate] at c1
    have hflen : p.1.frames = t.buf := by rw [h5]; simp [Audio.withFrames]
    obtain ⟨k1, _⟩ := flush_keeps s t h4
    have hlen : p.1.frames.length = B := by rw [hflen, k1, c1]
    -- the ratio
    have hr1 : 1 ≤ r := by
      have e0 : binary64.rnd 1 = 1 := Fmt.rnd_of_rep (by simpa using rep_nat53 (n := 1) (by norm_num))
      rw [← e0]
      refine Fmt.rnd_mono ?_
      rw [one_le_div hsq]; exact_mod_cast hle
    have hr20 : r ≤ 2 ^ 20 := by
      have e0 : binary64.rnd (2 ^ 20) = 2 ^ 20 := Fmt.rnd_of_rep (by exact_mod_cast rep_nat53 (n := 2 ^ 20) (by norm_num))
      rw [← e0]
      refine Fmt.rnd_mono ?_
      rw [div_le_iff₀ hsq]; exact_mod_cast h20
    have hNq : (dst * l : ℚ) + 1 ≤ 2 ^ 51 := by exact_mod_cast hN
    have hlq0 : (0:ℚ) ≤ dst * l := by positivity
    have hs1 : (1:ℚ) ≤ src := by exact_mod_cast h0
    have hdiv : (dst * l : ℚ) / src ≤ 2 ^ 51 := by rw [div_le_iff₀ hsq]; nlinarith
    have hB52 : B ≤ 2 ^ 52 := by
      refine Nat.ceil_le.mpr (hdiv.trans ?_)
      norm_num
    -- the destination range
    set q := ratioOf rate (some sr) with hq
    set D := dstEnd q (some l) B with hD
    have hDiff : ∀ x, InDst q (some l) B x ↔ x < D := fun x => inDst_iff
    obtain ⟨m1, _, m3, m4, m5⟩ := hpos l hN.le
    set Q := binary64.rnd (binary64.rnd ((dst:ℚ) / src) * l) with hQ
    have hQ64 : Q < 2 ^ 64 := by nlinarith
    have hQ0 : 0 ≤ Q := le_trans (by positivity) m4
    have hDe : D = min ⌊Q⌋.toNat B := by
      show min (q.mul (f64OfUsize l)).toUsize B = _
      rw [toUsize_is m1 hQ0 hQ64]
    have hQf : ((⌊Q⌋.toNat : ℕ):ℚ) = (⌊Q⌋:ℚ) := by
      have : ((⌊Q⌋.toNat : ℤ):ℚ) = (⌊Q⌋:ℚ) := by rw [Int.toNat_of_nonneg (Int.floor_nonneg.mpr hQ0)]
      exact_mod_cast this
    have hQs : (dst * l : ℚ) - 1 / 2 ≤ Q * src := by
      have : (dst * l : ℚ) / src * (1 - 1 / 2 ^ 53) ^ 2 * src ≤ Q * src := mul_le_mul_of_nonneg_right m4 hsq.le
      rw [show (dst * l : ℚ) / src * (1 - 1 / 2 ^ 53) ^ 2 * src = dst * l * (1 - 1 / 2 ^ 53) ^ 2 by field_simp] at this
      nlinarith
    -- what stream does
    obtain ⟨n, g, a1, a2, a0, a4, a5, _⟩ := C58_mix _ _ _ _ _ h3
    dsimp only [Resampler.dflt] at a1 a0 a4 a5
    rw [List.length_replicate, hsr, hl] at a1 a0 a4
    rw [hsr] at a5
    obtain ⟨_, _, u3⟩ := used_int hr hs h0 hd0 (by omega) hd' hN a1
    have hn : n = l := u3 hle
    subst hn
    rw [leftOver_mixed hDiff g a1.1] at a4
    obtain ⟨_, hp, hlt, hmono⟩ := up_pos hratio hr1 hr20 hB52 a1
    have hx : ∀ x, ∃ v, SampleVal c (mixed q (lit 0) g x n Frame.dflt)[i] v ∧
        |v - clampQ (∑ j ∈ Finset.range n, w j * upShare c r x (binary64.rnd (r * j)))| ≤ mixErr c * (r + 5) := by
      intro x
      obtain ⟨β, b1, b2, _⟩ := up_mixed (k := k) (c := c) hratio hr1 hr20 i hi (fun j => binary64.rnd (r * j)) w g x n
        (fun j hj => ⟨(hp j (by omega)).2.1, (hp j (by omega)).2.2.1, (hlt j hj).trans_le (by
          have : (B:ℚ) ≤ 2 ^ 52 := by exact_mod_cast hB52
          linarith)⟩) (fun j j' h1 h2 => hmono j j' h1 h2.le) (fun j hj => by
          obtain ⟨f, f1, f2⟩ := a2 j hj
          obtain ⟨v1, v2⟩ := hw j f f1 _ f2
          exact ⟨val_of v1 v2, v2⟩)
      exact ⟨β, of_val b1, b2⟩
    have hoff : s.res.offseti.Is Q := by rw [a5]; exact m3
    have hoffU : s.res.offseti.toUsize = ⌊Q⌋.toNat := toUsize_is hoff hQ0 hQ64
    refine ⟨hlen, by rw [hlen]; exact a1, fun x hxl => ?_⟩
    rw [hlen] at hxl
    rw [hflen]
    by_cases hxD : x < D
    · obtain ⟨v, v1, v2⟩ := hx x
      refine ⟨_, v, ?_, v1, v2⟩
      rw [← a0 x ((hDiff x).mpr hxD)]
      by_cases hf : HasFract s.res.offseti
      · by_cases hil : s.res.offseti.toUsize < s.buf.length
        · rw [C42_write s hf hil] at h4; cases h4
          simp only
          rw [List.getElem?_set_ne (by omega)]
        · exfalso
          obtain ⟨e, he⟩ := (C42_panics_iff s).mpr ⟨hf, by omega⟩
          rw [he] at h4; cases h4
      · rw [C42_nothing s hf] at h4; cases h4; rfl
    · -- the last slot: the left over frame
      have hDx : ⌊Q⌋.toNat ≤ x := by omega
      have hxB : ((x:ℕ):ℚ) < dst * n / src := Nat.lt_ceil.mp hxl
      rw [lt_div_iff₀ hsq] at hxB
      have e3 : x * src + 1 ≤ dst * n := by exact_mod_cast hxB
      have e4 : (x:ℚ) * src + 1 ≤ dst * n := by exact_mod_cast e3
      have hfx : (x:ℚ) + 1 / 2 / src ≤ Q := by
        rw [← sub_nonneg]
        have : 0 ≤ (Q - (x + 1 / 2 / src)) * src := by
          rw [show (Q - (x + 1 / 2 / src)) * src = Q * src - x * src - 1 / 2 by field_simp; ring]
          linarith
        exact nonneg_of_mul_nonneg_left this hsq
      have hpos' : (0:ℚ) < 1 / 2 / src := by positivity
      have hfl : ⌊Q⌋.toNat = x := by
        have h6 : (x:ℤ) ≤ ⌊Q⌋ := Int.le_floor.mpr (by push_cast; linarith)
        omega
      have hf : HasFract s.res.offseti := by
        refine ⟨Q, hoff, ?_⟩
        rw [truncQ, if_pos hQ0, ← hQf, hfl, abs_of_nonneg (by linarith)]
        have hsrc : (src:ℚ) ≤ 2 ^ 50 := by exact_mod_cast hs'
        have : (1:ℚ) / 2 / 2 ^ 50 ≤ 1 / 2 / src := by gcongr
        have : (2:ℚ) ^ (-52:ℤ) < 1 / 2 / 2 ^ 50 := by norm_num
        exact this.trans_le (by linarith)
      have hil : s.res.offseti.toUsize < s.buf.length := by rw [hoffU, hfl, c1]; exact hxl
      rw [C42_write s hf hil] at h4; cases h4
      have hDx' : D = x := by omega
      obtain ⟨v, v1, v2⟩ := hx x
      refine ⟨_, v, ?_, v1, v2⟩
      simp only
      rw [hoffU, hfl, List.getElem?_set_self (by omega), a4, hDx']

/-- Three frames of rate 4. -/
def exUp : Audio .mono .ch8 := ⟨lit 4, [#v[50#8], #v[40#8], #v[60#8]]⟩

/-- The hypotheses of C104 can be met, and the last slot is filled by `flush`: 50, 40 and 60 of rate 4 into rate 5. -/
example : (Audio.withStream (lit 5) (.audio exUp) : R (Audio .mono .ch8)).map
      (·.frames) = .ok [#v[50#8], #v[40#8], #v[53#8], #v[29#8]] ∧
    ∀ b : Audio .mono .ch8, Audio.withStream (lit 5) (.audio exUp) = .ok b →
      b.frames.length = ⌈((5:ℕ) * (3:ℕ) : ℚ) / (4:ℕ)⌉₊ := by
  refine ⟨by decide +kernel, fun b hb => ?_⟩
  exact (C104_up (lit 5) (lit 4) 5 4 3 (is_lit (rep_nat53 (n := 5) (by norm_num)))
    (is_lit (rep_nat53 (n := 4) (by norm_num))) (by norm_num) (by norm_num) (by norm_num) (by norm_num) (by norm_num)
    (by norm_num) (.audio exUp) rfl rfl b hb 0 (by decide)
    (fun j => if j = 0 then 50 / 127 else if j = 1 then 40 / 127 else 60 / 127) (by
      intro j f hf x hx
      rw [C21_id rfl] at hx
      cases hx
      match j with
      | 0 | 1 | 2 => cases hf; norm_num [SampleVal, abs_of_pos, BitVec.toInt]
      | j + 3 => cases hf)).1

end Fon
