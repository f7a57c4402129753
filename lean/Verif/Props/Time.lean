import Verif.Spec.Standard
import Verif.Props.Audio
import Verif.Props.Structure

/-!
# C131: resampling keeps time

For whole rates, frame `i` of a stream belongs at position `i * dst / src` of the sink.
-/

namespace Fon
open Fmt Fl Sink
variable {k k' : Kind} {c c' : ChTy} {rate sr : F64} {dst src : Nat}

/-- C131: the position that is used differs from the exact position of the frame only by two roundings.  The difference does not
add up over the stream. -/
theorem C131_position (hr : rate.Is (dst:ℚ)) (hs : sr.Is (src:ℚ)) (h0 : 0 < src) (hd0 : 0 < dst) (hs' : src ≤ 2 ^ 51)
    (hd' : dst ≤ 2 ^ 51) (i : Nat) (hN : dst * i ≤ 2 ^ 51) :
    ∃ p, (posOf (ratioOf rate (some sr)) (lit 0) i).Is p ∧ 0 ≤ p ∧
      |p - (dst * i : ℚ) / src| ≤ (dst * i : ℚ) / src * (2 ^ (-52 : ℤ) + 2 ^ (-106 : ℤ)) := by
  obtain ⟨_, h⟩ := pos_int hr hs h0 hd0 hs' hd'
  obtain ⟨_, h2, _, h4, h5⟩ := h i hN
  have hx : (0:ℚ) ≤ (dst * i : ℚ) / src := by positivity
  refine ⟨_, h2, rnd_nonneg (mul_nonneg (rnd_nonneg (by positivity)) (by positivity)), ?_⟩
  norm_num
  norm_num at h4 h5
  rw [abs_le]; constructor <;> linarith

example := C131_position (rate := lit 48000) (sr := lit 44100) (dst := 48000) (src := 44100) (by decide +kernel) (by decide +kernel)
  (by norm_num) (by norm_num) (by norm_num) (by norm_num) 147 (by norm_num)

/-- C131: between the usual rates, after 12 hours the position is off by less than 1/500000 of a frame. -/
theorem C131_hours (hr : rate.Is (dst:ℚ)) (hs : sr.Is (src:ℚ)) (hsu : src ∈ usualRates) (hdu : dst ∈ usualRates) (i : Nat)
    (hi : i ≤ 12 * 60 * 60 * src) :
    ∃ p, (posOf (ratioOf rate (some sr)) (lit 0) i).Is p ∧ |p - (dst * i : ℚ) / src| < 1 / 500000 := by
  have hm : ∀ r ∈ usualRates, 0 < r ∧ r ≤ 192000 := by decide
  obtain ⟨s0, s1⟩ := hm _ hsu
  obtain ⟨d0, d1⟩ := hm _ hdu
  have hN : dst * i ≤ 192000 * (12 * 60 * 60 * 192000) := Nat.mul_le_mul d1 (hi.trans (Nat.mul_le_mul_left _ s1))
  obtain ⟨p, hp, _, he⟩ := C131_position hr hs s0 d0 (by omega) (by omega) i (by omega)
  refine ⟨p, hp, lt_of_le_of_lt he ?_⟩
  have hsq : (0:ℚ) < src := by exact_mod_cast s0
  have hle : (dst * i : ℚ) / src ≤ 192000 * (12 * 60 * 60) := by
    rw [div_le_iff₀ hsq]
    have h1 : (i:ℚ) ≤ 12 * 60 * 60 * src := by exact_mod_cast hi
    have h2 : (dst:ℚ) ≤ 192000 := by exact_mod_cast d1
    calc (dst:ℚ) * i ≤ 192000 * (12 * 60 * 60 * src) := mul_le_mul h2 h1 (by positivity) (by norm_num)
      _ = _ := by ring
  refine lt_of_le_of_lt (mul_le_mul_of_nonneg_right hle (by positivity)) (by norm_num)

example := C131_hours (rate := lit 48000) (sr := lit 44100) (dst := 48000) (src := 44100) (by decide +kernel) (by decide +kernel)
  (by decide) (by decide) 158760000 (by norm_num)

/-- The exact position, as quotient and remainder. -/
theorem exact_split (h0 : 0 < src) (n : Nat) : (n:ℚ) / src = (n / src : ℕ) + ((n % src : ℕ) : ℚ) / src := by
  have hsq : (0:ℚ) < src := by exact_mod_cast h0
  have : (src:ℚ) * (n / src : ℕ) + (n % src : ℕ) = n := by exact_mod_cast Nat.div_add_mod n src
  rw [div_eq_iff hsq.ne', add_mul, div_mul_cancel₀ _ hsq.ne']
  linarith

example := exact_split (src := 7) (by norm_num) 23

/-- C131: a frame whose exact position lies between two slots goes to these two slots. -/
theorem C131_between (hr : rate.Is (dst:ℚ)) (hs : sr.Is (src:ℚ)) (h0 : 0 < src) (hd0 : 0 < dst) (hs' : src ≤ 2 ^ 50)
    (hd' : dst ≤ 2 ^ 51) (i : Nat) (hN : dst * i ≤ 2 ^ 50) (h : ¬ src ∣ dst * i) :
    (posOf (ratioOf rate (some sr)) (lit 0) i).toUsize = dst * i / src ∧
      hiSlot (posOf (ratioOf rate (some sr)) (lit 0) i) = dst * i / src + 1 := by
  obtain ⟨p, hp, hp0, he⟩ := C131_position hr hs h0 hd0 (by omega) hd' i (by omega)
  have hsq : (0:ℚ) < src := by exact_mod_cast h0
  have hspl := exact_split h0 (dst * i)
  set D := dst * i / src with hD
  have hm1 : 1 ≤ dst * i % src := Nat.pos_of_ne_zero fun hz => h (Nat.dvd_of_mod_eq_zero hz)
  have hm2 : dst * i % src + 1 ≤ src := Nat.mod_lt _ h0
  have f1 : (1:ℚ) / src ≤ ((dst * i % src : ℕ) : ℚ) / src := by
    gcongr; exact_mod_cast hm1
  have f2 : ((dst * i % src : ℕ) : ℚ) / src ≤ 1 - 1 / src := by
    rw [le_sub_iff_add_le, ← add_div, div_le_one hsq]; exact_mod_cast hm2
  have hNq : (dst * i : ℚ) ≤ 2 ^ 50 := by exact_mod_cast hN
  have hsq2 : (src:ℚ) ≤ 2 ^ 50 := by exact_mod_cast hs'
  have herr : (dst * i : ℚ) / src * (2 ^ (-52 : ℤ) + 2 ^ (-106 : ℤ)) + 2 ^ (-52 : ℤ) < 1 / src := by
    rw [div_mul_eq_mul_div, div_add' _ _ _ hsq.ne', div_lt_div_iff_of_pos_right hsq]
    have h3 : (0:ℚ) ≤ dst * i := by positivity
    have h4 : (2:ℚ) ^ (-52 : ℤ) = 1 / 2 ^ 52 := by norm_num
    have h5 : (2:ℚ) ^ (-106 : ℤ) ≤ 1 / 2 ^ 53 := by norm_num
    rw [h4]
    calc (dst * i : ℚ) * (1 / 2 ^ 52 + 2 ^ (-106:ℤ)) + 1 / 2 ^ 52 * src
        ≤ 2 ^ 50 * (1 / 2 ^ 52 + 1 / 2 ^ 53) + 1 / 2 ^ 52 * 2 ^ 50 := by gcongr
      _ < 1 := by norm_num
  push_cast at hspl
  rw [hspl] at he herr
  obtain ⟨he1, he2⟩ := abs_le.mp he
  generalize ((D:ℚ) + ((dst * i % src : ℕ) : ℚ) / src) * (2 ^ (-52 : ℤ) + 2 ^ (-106 : ℤ)) = X at he1 he2 herr
  generalize hE : (2:ℚ) ^ (-52 : ℤ) = E at herr
  have hE0 : 0 < E := hE ▸ two_zpow_pos (-52)
  have hfl : ⌊p⌋ = (D:ℤ) := by
    rw [Int.floor_eq_iff]; push_cast
    constructor <;> linarith
  have hDlt : (D:ℚ) ≤ 2 ^ 50 := by
    have : D ≤ dst * i := Nat.div_le_self _ _
    exact_mod_cast this.trans hN
  have hto : (posOf (ratioOf rate (some sr)) (lit 0) i).toUsize = D := by
    rw [toUsize_is hp hp0 ?_, hfl, Int.toNat_natCast]
    have : (0:ℚ) < 1 / src := by positivity
    linarith
  refine ⟨hto, ?_⟩
  rw [hiSlot_is hp hp0, hfl, hto, hE, if_pos]
  push_cast
  linarith

example := C131_between (rate := lit 48000) (sr := lit 44100) (dst := 48000) (src := 44100) (by decide +kernel) (by decide +kernel)
  (by norm_num) (by norm_num) (by norm_num) (by norm_num) 100 (by norm_num) (by decide)

/-- C131: the share of each of the two slots, up to rounding: the later slot gets the fraction of the exact position, but not more
than the ratio, and the earlier slot the rest of the ratio. -/
theorem C131_share (hr : rate.Is (dst:ℚ)) (hs : sr.Is (src:ℚ)) (h0 : 0 < src) (hd0 : 0 < dst) (hs' : src ≤ 2 ^ 50)
    (hd' : dst ≤ 2 ^ 51) (i : Nat) (hN : dst * i ≤ 2 ^ 50) (h : ¬ src ∣ dst * i) :
    ∃ a b : ℚ, (hiWeight (ratioOf rate (some sr)) (lit 0) i).Is a ∧ (loWeight (ratioOf rate (some sr)) (lit 0) i).Is b ∧
      |a - min (((dst * i % src : ℕ) : ℚ) / src) (dst / src)| ≤ (dst * (i + 1) : ℚ) / src * 2 ^ (-51 : ℤ) ∧
      |a + b - dst / src| ≤ (dst:ℚ) / src * 2 ^ (-51 : ℤ) := by
  obtain ⟨p, hp, hp0, he⟩ := C131_position hr hs h0 hd0 (by omega) hd' i (by omega)
  obtain ⟨hto, _⟩ := C131_between hr hs h0 hd0 hs' hd' i hN h
  have hsq : (0:ℚ) < src := by exact_mod_cast h0
  have hdq : (0:ℚ) < dst := by exact_mod_cast hd0
  have hd1 : (1:ℚ) ≤ dst := by exact_mod_cast hd0
  have hx0 : (0:ℚ) ≤ (dst * i : ℚ) / src := by positivity
  have hx1 : (dst * i : ℚ) / src ≤ 2 ^ 50 := by
    rw [div_le_iff₀ hsq]
    have h1 : (dst * i : ℚ) ≤ 2 ^ 50 := by exact_mod_cast hN
    have h2 : (1:ℚ) ≤ src := by exact_mod_cast h0
    nlinarith
  have hp1 : p < 2 ^ 64 := by
    have := (abs_le.mp he).2
    have h3 : (2:ℚ) ^ (-52 : ℤ) + 2 ^ (-106 : ℤ) ≤ 1 := by norm_num
    nlinarith
  have hfl : ⌊p⌋ = ((dst * i / src : ℕ) : ℤ) := by
    rw [toUsize_is hp hp0 hp1] at hto
    rw [← hto, Int.toNat_of_nonneg (Int.floor_nonneg.mpr hp0)]
  obtain ⟨hq, _⟩ := pos_int hr hs h0 hd0 (by omega : src ≤ 2 ^ 51) hd'
  have hρ : (0:ℚ) < dst / src := by positivity
  have hρ1 : (1:ℚ) / 2 ^ 51 ≤ dst / src := by
    rw [div_le_div_iff₀ (by norm_num) hsq]
    have : (src:ℚ) ≤ 2 ^ 50 := by exact_mod_cast hs'
    nlinarith
  have tiny : (2:ℚ) ^ (binary64.emin + binary64.prec - 1) ≤ 1 / 2 ^ 52 := by
    rw [show (1:ℚ) / 2 ^ 52 = 2 ^ (-52:ℤ) by norm_num]
    exact zpow_le_zpow_right₀ (by norm_num) (by decide)
  have hrel := rel_err_normal (f := binary64) (q := (dst:ℚ) / src) (by
    rw [abs_of_pos hρ]
    exact (tiny.trans (by norm_num)).trans hρ1)
  have hu : binary64.u = 1 / 2 ^ 53 := by norm_num [Fmt.u, binary64]
  rw [abs_of_pos hρ, hu] at hrel
  set r := binary64.rnd ((dst:ℚ) / src)
  have hrpos : 0 < r := by
    have := (abs_le.mp hrel).1
    nlinarith
  obtain ⟨a, b, a1, a2, a3, a4, a5, a6, a7, a8⟩ := weights_partial hq hrpos hp hp0
  have h51 : (2:ℚ) ^ (-51 : ℤ) = 1 / 2 ^ 51 := by norm_num
  refine ⟨a, b, a1, a2, ?_, ?_⟩
  · rw [a3, hfl, Int.cast_natCast]
    refine (abs_min_sub_min_le_max _ _ _ _).trans (max_le ?_ ?_)
    · have hspl := exact_split h0 (dst * i)
      push_cast at hspl he
      have e : p - (dst * i / src : ℕ) - ((dst * i % src : ℕ) : ℚ) / src = p - (dst * i : ℚ) / src := by
        rw [hspl]; ring
      rw [e]
      refine he.trans ?_
      have h2 : (2:ℚ) ^ (-52 : ℤ) + 2 ^ (-106 : ℤ) ≤ 2 ^ (-51 : ℤ) := by norm_num
      have h3 : (dst * i : ℚ) / src ≤ (dst * (i + 1) : ℚ) / src := by gcongr; linarith
      exact mul_le_mul h3 h2 (by positivity) (by positivity)
    · refine hrel.trans ?_
      have h3 : (dst : ℚ) / src ≤ (dst * (i + 1) : ℚ) / src := by
        gcongr
        have : (0:ℚ) ≤ i := by positivity
        nlinarith
      exact mul_le_mul h3 (by norm_num) (by norm_num) (by positivity)
  · have t1 : |a + b - r| ≤ r * 2 ^ (-53 : ℤ) :=
      a8.trans (mul_le_mul_of_nonneg_right (by linarith) (two_zpow_pos _).le)
    have e53 : (2:ℚ) ^ (-53 : ℤ) = 1 / 2 ^ 53 := by norm_num
    rw [e53] at t1
    rw [h51]
    have hr2 : r ≤ 2 * (dst / src) := by
      have := (abs_le.mp hrel).2
      nlinarith
    calc |a + b - dst / src| = |(a + b - r) + (r - dst / src)| := by congr 1; ring
      _ ≤ |a + b - r| + |r - dst / src| := abs_add_le _ _
      _ ≤ r * (1 / 2 ^ 53) + dst / src * (1 / 2 ^ 53) := add_le_add t1 hrel
      _ ≤ dst / src * (1 / 2 ^ 51) := by linarith

example := C131_share (rate := lit 48000) (sr := lit 44100) (dst := 48000) (src := 44100) (by decide +kernel) (by decide +kernel)
  (by norm_num) (by norm_num) (by norm_num) (by norm_num) 100 (by norm_num) (by decide)

/-- C131: a frame whose exact position is slot `D` goes to `D` and at most one of its neighbours. -/
theorem C131_whole (hr : rate.Is (dst:ℚ)) (hs : sr.Is (src:ℚ)) (h0 : 0 < src) (hd0 : 0 < dst) (hs' : src ≤ 2 ^ 50)
    (hd' : dst ≤ 2 ^ 51) (i D : Nat) (hN : dst * i ≤ 2 ^ 50) (h : dst * i = src * D) :
    let p := posOf (ratioOf rate (some sr)) (lit 0) i
    p.toUsize = D ∧ (hiSlot p = D ∨ hiSlot p = D + 1) ∨ p.toUsize + 1 = D ∧ hiSlot p = D := by
  intro x
  obtain ⟨p, hp, hp0, he⟩ := C131_position hr hs h0 hd0 (by omega) hd' i (by omega)
  have hsq : (0:ℚ) < src := by exact_mod_cast h0
  have hD : (dst * i : ℚ) / src = D := by
    rw [div_eq_iff hsq.ne']; exact_mod_cast h.trans (Nat.mul_comm _ _)
  have hDle : D ≤ 2 ^ 50 := le_trans (Nat.le_mul_of_pos_left D h0) (h ▸ hN)
  have hDq : (D:ℚ) ≤ 2 ^ 50 := by exact_mod_cast hDle
  rw [hD] at he
  obtain ⟨he1, he2⟩ := abs_le.mp he
  have hsm : (D:ℚ) * (2 ^ (-52 : ℤ) + 2 ^ (-106 : ℤ)) < 1 / 2 := by
    have : (2:ℚ) ^ (-52 : ℤ) + 2 ^ (-106 : ℤ) < 1 / 2 ^ 51 := by norm_num
    have h0 : (0:ℚ) ≤ D := by positivity
    calc (D:ℚ) * (2 ^ (-52 : ℤ) + 2 ^ (-106 : ℤ)) ≤ 2 ^ 50 * (2 ^ (-52 : ℤ) + 2 ^ (-106 : ℤ)) := by gcongr
      _ < 1 / 2 := by norm_num
  generalize (D:ℚ) * (2 ^ (-52 : ℤ) + 2 ^ (-106 : ℤ)) = X at he1 he2 hsm
  rcases le_or_gt (D:ℚ) p with hc | hc
  · have hfl : ⌊p⌋ = (D:ℤ) := by
      rw [Int.floor_eq_iff]; push_cast; constructor <;> linarith
    have hto : x.toUsize = D := by
      rw [toUsize_is hp hp0 (by linarith), hfl, Int.toNat_natCast]
    refine .inl ⟨hto, ?_⟩
    rw [hiSlot_is hp hp0, hto]
    split
    · exact .inr rfl
    · exact .inl rfl
  · have hD1 : 1 ≤ D := by
      rcases Nat.eq_zero_or_pos D with rfl | h
      · simp at hc; linarith
      · exact h
    have hfl : ⌊p⌋ = ((D - 1 : ℕ):ℤ) := by
      rw [Int.floor_eq_iff]; push_cast [Nat.cast_sub hD1]; constructor <;> linarith
    have hto : x.toUsize = D - 1 := by
      rw [toUsize_is hp hp0 (by linarith), hfl, Int.toNat_natCast]
    refine .inr ⟨by omega, ?_⟩
    rw [hiSlot_is hp hp0, hto, if_pos]
    · omega
    · rw [hfl]
      push_cast [Nat.cast_sub hD1]
      have : (2:ℚ) ^ (-52 : ℤ) < 1 / 4 := by norm_num
      exact this.trans (by linarith)

example := C131_whole (rate := lit 48000) (sr := lit 44100) (dst := 48000) (src := 44100) (by decide +kernel) (by decide +kernel)
  (by norm_num) (by norm_num) (by norm_num) (by norm_num) 147 160 (by norm_num) (by norm_num)

/-- C131: frame `m` of a stream has no effect on slots that are more than one slot away from its exact position. -/
theorem C131_local (fuel fuel' : Nat) (s s' t' : Sink k c) (st st2 : Src k' c') (it it2 : It k' c') (m : Nat)
    (h : s.stream fuel st = .ok (s', it)) (h2 : s.stream fuel' st2 = .ok (t', it2)) (hst : st.rate = some sr)
    (hr2 : st2.rate = st.rate) (hl : st2.len = st.len) (hm : ∀ j, j ≠ m → st2.nth j = st.nth j) (ho : s.res.offseti = lit 0)
    (hr : s.rate.Is (dst:ℚ)) (hs : sr.Is (src:ℚ)) (h0 : 0 < src) (hd0 : 0 < dst) (hs' : src ≤ 2 ^ 50)
    (hd' : dst ≤ 2 ^ 51) (hN : dst * m ≤ 2 ^ 50) (x : Nat) (hx : src * (x + 1) < dst * m ∨ dst * m + src < src * x) :
    t'.buf[x]? = s'.buf[x]? := by
  obtain ⟨e, _, _⟩ := C80_local fuel fuel' s s' t' st st2 it it2 m h h2 hr2 hl hm
  rw [ho, hst] at e
  by_cases hd : src ∣ dst * m
  · obtain ⟨D, hD⟩ := hd
    rw [hD] at hx
    have hx' : x + 1 < D ∨ D + 1 < x := by
      rcases hx with hx | hx
      · exact .inl (Nat.lt_of_mul_lt_mul_left hx)
      · rw [← Nat.mul_succ] at hx
        exact .inr (Nat.lt_of_mul_lt_mul_left hx)
    rcases C131_whole hr hs h0 hd0 hs' hd' m D hN hD with ⟨h1, h2⟩ | ⟨h1, h2⟩
    · exact e x (by omega) (by omega)
    · exact e x (by omega) (by omega)
  · obtain ⟨h1, h2⟩ := C131_between hr hs h0 hd0 hs' hd' m hN hd
    have hq := Nat.div_add_mod (dst * m) src
    have hlt := Nat.mod_lt (dst * m) h0
    have hne : x ≠ dst * m / src ∧ x ≠ dst * m / src + 1 := by
      constructor
      · rintro rfl
        rw [Nat.mul_add] at hx; omega
      · rintro rfl
        simp only [Nat.mul_add, Nat.mul_one] at hx; omega
    exact e x (by rw [h1]; exact hne.1) (by rw [h2]; exact hne.2)

/-- The last of five samples at 12 Hz is replaced; of the four slots at 8 Hz the first is one in which it cannot be heard. -/
example : ((exSink 4 8).stream 9 (.audio (exAudio 12))).map (fun r => r.1.buf[0]?) =
    ((exSink 4 8).stream 9 (.audio ⟨lit 12, (exAudio 12).frames.set 4 #v[99#8]⟩)).map (fun r => r.1.buf[0]?) := by decide +kernel
example := C131_local (sr := lit 12) (dst := 8) (src := 12) 9 9 (exSink 4 8) _ _ (.audio (exAudio 12))
  (.audio ⟨lit 12, (exAudio 12).frames.set 4 #v[99#8]⟩) _ _ 4
  (R.returns₂ (x := (exSink 4 8).stream 9 (.audio (exAudio 12))) (by decide +kernel))
  (R.returns₂ (x := (exSink 4 8).stream 9 (.audio ⟨lit 12, (exAudio 12).frames.set 4 #v[99#8]⟩)) (by decide +kernel)) rfl rfl rfl
  (by
    intro j hj
    match j with
    | 0 | 1 | 2 | 3 => rfl
    | 4 => exact absurd rfl hj
    | j + 5 => rfl) rfl (by decide +kernel) (by decide +kernel) (by norm_num) (by norm_num) (by norm_num) (by norm_num)
  (by norm_num) 0 (.inl (by norm_num))

end Fon
