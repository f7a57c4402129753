import Verif.Props.Periodic

/-!
# C139: resampling in pieces
-/

namespace Fon
open Fon.Fl hiding min max
open Fon.Fmt Fon.Sink
variable {k k' : Kind} {c c' : ChTy}

/-- C139, skipping: two streams of which the second is the first without its first `2^m * d` frames, at the ratio `a / 2^m`.
A slot of the second, apart from the very first slot, is the slot `a * d` later of the first, bit for bit. -/
theorem C139_skip {fuel fuel' a m d : Nat} {s s' t t' : Sink k c} {st st2 : Src k' c'} {it it2 : It k' c'}
    (h : s.stream fuel st = .ok (s', it)) (h2 : t.stream fuel' st2 = .ok (t', it2))
    (hr : t.rate = s.rate) (hr2 : st2.rate = st.rate) (ho : s.res.offseti = lit 0) (ho2 : t.res.offseti = lit 0)
    (hq : (ratioOf s.rate st.rate).Is ((a:ℚ) / ((2 ^ m : Nat) : ℚ))) (h1 : 1 ≤ a) (ha : a ≤ 2 ^ 51) (hm : m ≤ 52)
    (hb : 2 ^ m * s.buf.length ≤ 2 ^ 52) (hb2 : 2 ^ m * t.buf.length ≤ 2 ^ 52)
    (hst : ∀ j, st2.nth j = st.nth (j + 2 ^ m * d)) {x : Nat} (hx0 : 1 ≤ x ∨ m = 0)
    (hx : InDst (ratioOf s.rate st.rate) st.len s.buf.length (x + a * d))
    (hx2 : InDst (ratioOf s.rate st.rate) st2.len t.buf.length x) :
    t'.buf[x]? = s'.buf[x + a * d]? := by
  obtain ⟨n, g, a1, a2, a3, -⟩ := C58_mix fuel s s' st it h
  obtain ⟨n2, g2, b1, b2, b3, -⟩ := C58_mix fuel' t t' st2 it2 h2
  rw [ho] at a1 a3
  rw [ho2, hr, hr2] at b1 b3
  rw [a3 _ hx, b3 x hx2]
  generalize ratioOf s.rate st.rate = q at *
  have hN : 0 < 2 ^ m := by positivity
  have hn := taken_few hq h1 ha hm hb a1
  have hn' : a * n < 2 ^ 53 := by omega
  have hn2 := taken_few hq h1 ha hm hb2 b1
  have hn2' : a * n2 < 2 ^ 53 := by omega
  have far : ∀ {len B n x}, InDst q len B x → Takes q (lit 0) len B n → a * n < 2 ^ 53 →
      x < (posOf q (lit 0) n).toUsize := by
    intro len B n x hx a1 hn'
    rcases a1.2.2 with e | e
    · have := hx.2 n e
      rwa [end_dyadic hq h1 hm hn', ← slot_dyadic hq h1 hm hn'] at this
    · by_contra hc
      exact e (inDst_down hx (not_lt.mp hc))
  have hbe := far hx a1 hn'
  have hbe2 := far hx2 b1 hn2'
  have hnd : 2 ^ m * d ≤ n := by
    rw [slot_dyadic hq h1 hm hn'] at hbe
    by_contra hc
    have h3 : a * n ≤ a * (2 ^ m * d) := Nat.mul_le_mul_left a (by omega)
    have h4 : a * n / 2 ^ m ≤ a * d := by
      refine Nat.div_le_of_le_mul (h3.trans_eq ?_)
      ring
    omega
  obtain ⟨i, rfl⟩ := Nat.exists_eq_add_of_le' hnd
  have ha0 : (0:ℚ) < a := by exact_mod_cast h1
  have mono : ∀ {i j}, i ≤ j → (posOf q (lit 0) i).toUsize ≤ (posOf q (lit 0) j).toUsize := fun hj =>
    pos_mono (off := lit 0) hq (by positivity) plus_zero.is hj
  obtain ⟨N, hN1, hN2, hN3⟩ : ∃ N, N ≤ i ∧ N ≤ n2 ∧ (N = i ∨ N = n2) := ⟨min i n2, by omega, by omega, by omega⟩
  have hNi : a * (N + 2 ^ m * d) < 2 ^ 53 := lt_of_le_of_lt (Nat.mul_le_mul_left a (by omega)) hn'
  have hap := (dyadic_apart hq h1 hm hNi).1
  have hxN : x < (posOf q (lit 0) N).toUsize := by
    rcases hN3 with rfl | rfl
    · omega
    · exact hbe2
  congr 1
  rw [mixed_beyond g (n := N + 2 ^ m * d) (by omega) (fun j hj _ => by have := mono hj; omega),
    mixed_beyond g2 (n := N) hN2 (fun j hj _ => by have := mono hj; omega)]
  refine (mixed_skip hq h1 hm g g2 d x N hx0 hNi fun j hj => ?_).symm
  obtain ⟨f, f1, f2⟩ := a2 (j + 2 ^ m * d) (by omega)
  obtain ⟨f', f3, f4⟩ := b2 j (by omega)
  rw [hst j, f1] at f3
  cases f3
  rw [f2] at f4
  exact Except.ok.inj f4

/-- Samples at 16 Hz. -/
def exPieces : Audio .mono .ch64 := ⟨lit 16, [#v[lit 0.75], #v[lit 0.5], #v[lit (-0.25)], #v[lit 0.125], #v[lit 0.5],
  #v[lit (-0.5)], #v[lit 0.25]]⟩
/-- The first four of them. -/
def exPieceA : Audio .mono .ch64 := ⟨lit 16, exPieces.frames.take 4⟩
/-- The other three. -/
def exPieceB : Audio .mono .ch64 := ⟨lit 16, exPieces.frames.drop 4⟩

example := C139_skip (k := .mono) (c := .ch64) (a := 3) (m := 2) (d := 1) (x := 1)
  (R.returns₂ (x := (⟨lit 12, Resampler.dflt, List.replicate 9 #v[lit 0]⟩ : Sink .mono .ch64).stream 13 (.audio exPieces))
    (by decide +kernel))
  (R.returns₂ (x := (⟨lit 12, Resampler.dflt, List.replicate 4 #v[lit 0]⟩ : Sink .mono .ch64).stream 9 (.audio exPieceB))
    (by decide +kernel)) rfl rfl rfl rfl (by decide +kernel) (by decide) (by decide) (by decide) (by decide) (by decide)
  (fun j => rfl) (.inl (by decide)) (by decide +kernel) (by decide +kernel)

section
variable {q : F64} {a m : Nat}

theorem fract_dyadic {x : F64} {j : Nat} (h : x.Is ((j:ℚ) / ((2 ^ m : Nat) : ℚ))) :
    HasFract x ↔ 2 ^ (-52 : ℤ) < (j:ℚ) / ((2 ^ m : Nat) : ℚ) - ((j / 2 ^ m : Nat) : ℚ) := by
  have h0 : (0:ℚ) ≤ (j:ℚ) / ((2 ^ m : Nat) : ℚ) := by positivity
  have e : ((truncQ ((j:ℚ) / ((2 ^ m : Nat) : ℚ)) : ℤ) : ℚ) = ((j / 2 ^ m : Nat) : ℚ) := by
    rw [truncQ_nonneg h0, floor_pow]; norm_cast
  have h1 : ((j / 2 ^ m : Nat) : ℚ) ≤ (j:ℚ) / ((2 ^ m : Nat) : ℚ) := Nat.cast_div_le
  constructor
  · rintro ⟨p, hp, hp'⟩
    rw [hp.unique h, e, abs_of_nonneg (by linarith)] at hp'
    exact hp'
  · intro hh
    refine ⟨_, h, ?_⟩
    rw [e, abs_of_nonneg (by linarith)]
    exact hh

/-- Positions that are a whole number of slots apart have the same fractional part. -/
theorem fract_apart (hq : q.Is ((a:ℚ) / ((2 ^ m : Nat) : ℚ))) (h1 : 1 ≤ a) (hm : m ≤ 52) {j d : Nat}
    (hj : a * (j + 2 ^ m * d) < 2 ^ 53) :
    HasFract (posOf q (lit 0) (j + 2 ^ m * d)) ↔ HasFract (posOf q (lit 0) j) := by
  have hj' : a * j < 2 ^ 53 := lt_of_le_of_lt (Nat.mul_le_mul_left a (by omega)) hj
  rw [fract_dyadic (pos_dyadic hq h1 hm hj).is, fract_dyadic (pos_dyadic hq h1 hm hj').is]
  have hp : 0 < 2 ^ m := by positivity
  have e : a * (j + 2 ^ m * d) = a * j + 2 ^ m * (a * d) := by ring
  rw [e, Nat.add_mul_div_left _ _ hp]
  have hp' : ((2 ^ m : Nat) : ℚ) ≠ 0 := by positivity
  have e2 : ((a * j + 2 ^ m * (a * d) : Nat) : ℚ) / ((2 ^ m : Nat) : ℚ) = ((a * j : Nat) : ℚ) / ((2 ^ m : Nat) : ℚ) + ((a * d : Nat) : ℚ) := by
    rw [div_add' _ _ _ hp']; congr 1; push_cast; ring
  rw [e2, Nat.cast_add, add_sub_add_right_eq_sub]

end

open Classical in
/-- The whole result of `with_stream` at a ratio `a / 2^m`, including the slot that `flush` writes. -/
theorem with_mixed {rate sr : F64} {b : Audio k c} {st : Src k' c'} {a m l dst src : Nat}
    (h : Audio.withStream rate st = .ok b) (hl : st.len = some l) (hrate : rate.Is (dst:ℚ)) (hsr : st.rate = some sr)
    (hs : sr.Is (src:ℚ)) (h0 : 0 < src) (he : dst * 2 ^ m = a * src) (h1 : 1 ≤ a) (hm : m ≤ 52) (hN : dst * l < 2 ^ 52)
    (hs' : src ≤ 2 ^ 51) (ha : a ≤ 2 ^ 51) (hal : a * l < 2 ^ 53) :
    (ratioOf rate st.rate).Is ((a:ℚ) / ((2 ^ m : Nat) : ℚ)) ∧
    b.len = ⌈((a * l : Nat) : ℚ) / ((2 ^ m : Nat) : ℚ)⌉₊ ∧ ∃ n g, Takes (ratioOf rate st.rate) (lit 0) (some l) b.len n ∧
      (∀ j, j < n → ∃ f, st.nth j = .ok (some f) ∧ f.convert c = .ok (g j)) ∧
      ∀ x, x < b.len → b.get x = some (if x < a * l / 2 ^ m ∨ HasFract (posOf (ratioOf rate st.rate) (lit 0) n) then
        mixed (ratioOf rate st.rate) (lit 0) g x n Frame.dflt else Frame.dflt) := by
  have hN0 : 0 < 2 ^ m := by positivity
  have hp' : ((2 ^ m : Nat) : ℚ) ≠ 0 := by positivity
  have hs0 : (src:ℚ) ≠ 0 := by exact_mod_cast h0.ne'
  have e0 : (dst:ℚ) / src = (a:ℚ) / ((2 ^ m : Nat) : ℚ) := by
    rw [div_eq_div_iff hs0 hp']; exact_mod_cast he
  have hq : (ratioOf rate st.rate).Is ((a:ℚ) / ((2 ^ m : Nat) : ℚ)) := by
    have hrep : binary64.Rep ((a:ℚ) / ((2 ^ m : Nat) : ℚ)) := by
      refine rep_dyadic (a : ℤ) (-m : ℤ) ?_ ?_ ?_ ?_
      · push_cast; rw [zpow_neg, zpow_natCast]; field_simp
      · rw [abs_of_nonneg (by positivity)]
        exact_mod_cast lt_of_le_of_lt ha (by decide)
      · show (-1074 : ℤ) ≤ _; omega
      · show _ ≤ (971 : ℤ); omega
    rw [hsr]
    have := hrate.div hs hs0 (by rw [e0, rnd_of_rep hrep]; exact hrep.le_maxF)
    rwa [e0, rnd_of_rep hrep] at this
  have hl53 : l ≤ 2 ^ 53 := (Nat.le_mul_of_pos_left l h1).trans hal.le
  have hb : b.len = ⌈((a * l : Nat) : ℚ) / ((2 ^ m : Nat) : ℚ)⌉₊ := by
    rw [C49_partial rate sr dst src l hrate hs h0 hN hl53 hs' st hl hsr b h]
    congr 1
    rw [mul_div_right_comm, e0]; push_cast; ring
  refine ⟨hq, hb, ?_⟩
  obtain ⟨l', s, t, it, k1, k2, k3, k4⟩ := with_run h
  rw [hl] at k1
  cases k1
  obtain ⟨n, g, a1, a2, a3, a4, a5, _⟩ := C58_mix _ _ _ _ _ k2
  have a6 := (C36_stream _ _ _ _ _ k2).2.2
  have hbs : b.len = s.buf.length := by unfold Audio.len; rw [k4, (flush_keeps s t k3).1]
  have hbd : (List.replicate (Audio.dstLen rate l st.rate) (Frame.dflt : Frame k c)).length = b.len := by
    rw [hbs, (C36_stream _ _ _ _ _ k2).1]
  simp only [hbd, hl] at a1 a3 a4 a6
  generalize ratioOf rate st.rate = q at *
  have hn : n ≤ l := a1.2.1 l rfl
  have han : a * n < 2 ^ 53 := lt_of_le_of_lt (Nat.mul_le_mul_left a hn) hal
  have hD : ∀ x, InDst q (some l) b.len x ↔ x < a * l / 2 ^ m := by
    intro x
    have hle : a * l / 2 ^ m ≤ b.len := by
      rw [hb]
      have : ((a * l / 2 ^ m : Nat) : ℚ) ≤ (⌈((a * l : Nat) : ℚ) / ((2 ^ m : Nat) : ℚ)⌉₊ : ℚ) :=
        Nat.cast_div_le.trans (Nat.le_ceil _)
      exact_mod_cast this
    simp only [InDst, Option.some.injEq, forall_eq']
    rw [end_dyadic hq h1 hm hal]
    omega
  have hbl : b.len ≤ a * l / 2 ^ m + 1 := by
    rw [hb, Nat.ceil_le, div_le_iff₀ (by positivity)]
    have := Nat.lt_div_mul_add (a := a * l) (b := 2 ^ m) hN0
    have h3 : a * l ≤ (a * l / 2 ^ m + 1) * 2 ^ m := by rw [Nat.add_mul, Nat.one_mul]; omega
    exact_mod_cast h3
  have hoff : s.res.offseti.Is (((a * n : Nat) : ℚ) / ((2 ^ m : Nat) : ℚ)) := by
    have hmul := (mul_dyadic hq h1 hm han).is
    have := dflt_off (k := k) (c := c) |>.add hmul (by rw [zero_add, rnd_of_rep hmul.rep]; exact hmul.rep.le_maxF)
    rw [zero_add, rnd_of_rep hmul.rep] at this
    rw [a5]; exact this
  have hoffU : s.res.offseti.toUsize = a * n / 2 ^ m := usize_pow hoff han
  have hfr : HasFract s.res.offseti ↔ HasFract (posOf q (lit 0) n) := by
    rw [fract_dyadic hoff, fract_dyadic (pos_dyadic hq h1 hm han).is]
  have hend : a * n / 2 ^ m = a * l / 2 ^ m := by
    refine le_antisymm (Nat.div_le_div_right (Nat.mul_le_mul_left a hn)) ?_
    rcases a1.2.2 with e | e
    · cases e; exact le_rfl
    · have e' : ¬ InDst q (some l) b.len (posOf q (lit 0) n).toUsize := e
      rw [hD, slot_dyadic hq h1 hm han] at e'
      omega
  refine ⟨n, g, a1, a2, fun x hx => ?_⟩
  by_cases hxD : x < a * l / 2 ^ m
  · rw [if_pos (.inl hxD)]
    unfold Audio.get
    rw [k4, flush_other k3 (by omega)]
    exact a3 x ((hD x).mpr hxD)
  · have hxe : x = a * l / 2 ^ m := by omega
    unfold Audio.get
    rw [k4]
    by_cases hf : HasFract s.res.offseti
    · rw [if_pos (.inr (hfr.mp hf))]
      rw [C42_write s hf (by omega)] at k3
      cases k3
      simp only
      rw [hoffU, hend, ← hxe, List.getElem?_set_self (by omega), a4, leftOver_mixed hD g a1.1, hxe]
      rfl
    · rw [if_neg (by rw [← hfr]; tauto)]
      rw [C42_nothing s hf] at k3
      cases k3
      rw [← hbd, List.length_replicate] at hx
      rw [a6 x (by rw [hD]; omega)]
      simp only [List.getElem?_replicate]
      by_cases hx0 : x = 0
      · rw [if_pos hx0, if_pos (by omega)]
        simp only [Option.map_some, Resampler.dflt, dflt_add_dflt]
      · rw [if_neg hx0, if_pos hx]

/-- C139: resampling a signal in two pieces, of which the first has `2^m * d` frames, at the ratio `a / 2^m`, gives what
resampling it as a whole gives, bit for bit, in all slots but the first one of the second piece. If the rate is multiplied
by a whole number there is no difference at all. -/
theorem C139_partial {rate sr : F64} {b b1 b2 : Audio k c} {st st1 st2 : Src k' c'} {a m d l dst src : Nat}
    (h : Audio.withStream rate st = .ok b) (h1 : Audio.withStream rate st1 = .ok b1) (h2 : Audio.withStream rate st2 = .ok b2)
    (hl : st.len = some (l + 2 ^ m * d)) (hl1 : st1.len = some (2 ^ m * d)) (hl2 : st2.len = some l)
    (hrate : rate.Is (dst:ℚ)) (hsr : st.rate = some sr) (hsr1 : st1.rate = some sr) (hsr2 : st2.rate = some sr)
    (hs : sr.Is (src:ℚ)) (h0 : 0 < src) (he : dst * 2 ^ m = a * src) (ha1 : 1 ≤ a) (hm : m ≤ 52)
    (hN : dst * (l + 2 ^ m * d) < 2 ^ 52) (hs' : src ≤ 2 ^ 51) (ha : a ≤ 2 ^ 51) (hal : a * (l + 2 ^ m * d) < 2 ^ 53)
    (hst1 : ∀ j, j < 2 ^ m * d → st1.nth j = st.nth j) (hst2 : ∀ j, st2.nth j = st.nth (j + 2 ^ m * d)) :
    b1.len = a * d ∧ b.len = b1.len + b2.len ∧
    ∀ x, (x ≠ a * d ∨ m = 0) → b.get x = (b1.frames ++ b2.frames)[x]? := by
  have hN0 : 0 < 2 ^ m := by positivity
  have hp' : ((2 ^ m : Nat) : ℚ) ≠ 0 := by positivity
  have le1 : 2 ^ m * d ≤ l + 2 ^ m * d := by omega
  have le2 : l ≤ l + 2 ^ m * d := by omega
  obtain ⟨hq, hb, n, g, t1, t2, t3⟩ := with_mixed h hl hrate hsr hs h0 he ha1 hm hN hs' ha hal
  obtain ⟨-, hb1, n1, g1, u1, u2, u3⟩ := with_mixed h1 hl1 hrate hsr1 hs h0 he ha1 hm
    (lt_of_le_of_lt (Nat.mul_le_mul_left dst le1) hN) hs' ha (lt_of_le_of_lt (Nat.mul_le_mul_left a le1) hal)
  obtain ⟨-, hb2, n2, g2, v1, v2, v3⟩ := with_mixed h2 hl2 hrate hsr2 hs h0 he ha1 hm
    (lt_of_le_of_lt (Nat.mul_le_mul_left dst le2) hN) hs' ha (lt_of_le_of_lt (Nat.mul_le_mul_left a le2) hal)
  rw [hsr] at hq t1 t3
  rw [hsr1] at u1 u3
  rw [hsr2] at v1 v3
  generalize ratioOf rate (some sr) = q at *
  have eP : a * (2 ^ m * d) = 2 ^ m * (a * d) := by ring
  have eA : a * (l + 2 ^ m * d) = a * l + 2 ^ m * (a * d) := by ring
  have b1l : b1.len = a * d := by
    rw [hb1, eP, Nat.cast_mul, mul_div_cancel_left₀ _ hp', Nat.ceil_natCast]
  have bl : b.len = b2.len + a * d := by
    rw [hb, hb2, eA, ← Nat.ceil_add_natCast (by positivity)]
    congr 1
    rw [Nat.cast_add, Nat.cast_mul (2 ^ m), add_div, mul_div_cancel_left₀ _ hp']
  refine ⟨b1l, by omega, fun x hx => ?_⟩
  have hn2 : n2 ≤ l := v1.2.1 l rfl
  have hn2' : a * (n2 + 2 ^ m * d) < 2 ^ 53 := lt_of_le_of_lt (Nat.mul_le_mul_left a (by omega)) hal
  have ht := takes_delay hq ha1 hm d (by rintro l' ⟨⟩; exact hal) v1 hn2'
  rw [Option.map_some, ← bl] at ht
  cases takes_unique t1 ht
  have ha0 : (0:ℚ) < a := by exact_mod_cast ha1
  have slotP : (posOf q (lit 0) (2 ^ m * d)).toUsize = a * d := by
    rw [slot_dyadic hq ha1 hm (by omega), eP, Nat.mul_div_cancel_left _ hN0]
  have hn1 : n1 = 2 ^ m * d := by
    have h3 : n1 ≤ 2 ^ m * d := u1.2.1 _ rfl
    rcases u1.2.2 with e | e
    · cases e; rfl
    · by_contra hc
      refine e ?_
      have h4 : a * n1 < a * (2 ^ m * d) := Nat.mul_lt_mul_of_pos_left (by omega) ha1
      have h5 : (posOf q (lit 0) n1).toUsize < a * d := by
        rw [slot_dyadic hq ha1 hm (by omega), Nat.div_lt_iff_lt_mul hN0]
        calc _ < _ := h4
          _ = _ := by ring
      refine ⟨by omega, ?_⟩
      rintro l' ⟨⟩
      rw [end_dyadic hq ha1 hm (by omega), eP, Nat.mul_div_cancel_left _ hN0]
      exact h5
  subst hn1
  have dA : a * (l + 2 ^ m * d) / 2 ^ m = a * l / 2 ^ m + a * d := by
    rw [eA, Nat.add_mul_div_left _ _ hN0]
  have dP : a * (2 ^ m * d) / 2 ^ m = a * d := by rw [eP, Nat.mul_div_cancel_left _ hN0]
  have hf1 : b1.frames.length = a * d := b1l
  rcases Nat.lt_or_ge x (a * d) with hx1 | hx1
  · rw [List.getElem?_append_left (by omega)]
    have := u3 x (by omega)
    rw [if_pos (.inl (by omega))] at this
    rw [t3 x (by omega), if_pos (.inl (by rw [dA]; exact Nat.lt_add_left _ hx1)), show b1.frames[x]? = b1.get x from rfl, this]
    congr 1
    rw [mixed_beyond g (n := 2 ^ m * d) (by omega) fun j hj _ => by
      have := pos_mono (off := lit 0) hq (by positivity) plus_zero.is hj
      omega]
    refine mixed_same (fun j hj => ?_) _
    obtain ⟨f, f1, f2⟩ := t2 j (by omega)
    obtain ⟨f', f3, f4⟩ := u2 j hj
    rw [hst1 j hj, f1] at f3
    cases f3
    rw [f2] at f4
    exact Except.ok.inj f4
  · obtain ⟨y, rfl⟩ := Nat.exists_eq_add_of_le' hx1
    rw [List.getElem?_append_right (by omega), hf1, Nat.add_sub_cancel, show b2.frames[y]? = b2.get y from rfl]
    rcases Nat.lt_or_ge y b2.len with hy | hy
    · rw [t3 _ (by omega), v3 y hy]
      congr 1
      have cond : (y + a * d < a * (l + 2 ^ m * d) / 2 ^ m ∨ HasFract (posOf q (lit 0) (n2 + 2 ^ m * d))) ↔
          (y < a * l / 2 ^ m ∨ HasFract (posOf q (lit 0) n2)) := by
        rw [dA, fract_apart hq ha1 hm hn2', Nat.add_lt_add_iff_right]
      by_cases hc : y < a * l / 2 ^ m ∨ HasFract (posOf q (lit 0) n2)
      · rw [if_pos (cond.mpr hc), if_pos hc]
        refine mixed_skip hq ha1 hm g g2 d y n2 ?_ hn2' fun j hj => ?_
        · rcases hx with hx | hx
          · left; omega
          · exact .inr hx
        · obtain ⟨f, f1, f2⟩ := t2 (j + 2 ^ m * d) (by omega)
          obtain ⟨f', f3, f4⟩ := v2 j hj
          rw [hst2 j, f1] at f3
          cases f3
          rw [f2] at f4
          exact Except.ok.inj f4
      · rw [if_neg (fun hh => hc (cond.mp hh)), if_neg hc]
    · unfold Audio.get
      rw [List.getElem?_eq_none, List.getElem?_eq_none]
      · exact hy
      · have : b.frames.length = b.len := rfl
        omega

example := C139_partial (k := .mono) (c := .ch64) (a := 3) (m := 2) (d := 1) (dst := 12) (src := 16)
  (R.returns (x := (Audio.withStream (lit 12) (.audio exPieces) : R (Audio .mono .ch64))) (by decide +kernel))
  (R.returns (x := (Audio.withStream (lit 12) (.audio exPieceA) : R (Audio .mono .ch64))) (by decide +kernel))
  (R.returns (x := (Audio.withStream (lit 12) (.audio exPieceB) : R (Audio .mono .ch64))) (by decide +kernel))
  rfl rfl rfl (by decide +kernel) rfl rfl rfl (by decide +kernel) (by decide) (by decide) (by decide) (by decide) (by decide)
  (by decide) (by decide) (by decide) (fun j hj => by
    match j with
    | 0 | 1 | 2 | 3 => rfl
    | j + 4 => simp at hj) (fun j => rfl)

/-- C139 is false without the exception, by example: the first slot of the second piece lacks what the frames before it
would add to it. -/
theorem C139_seam :
    ((Audio.withStream (lit 12) (.audio exPieces) : R (Audio .mono .ch64)).map (·.frames[3]?)) ≠
      ((Audio.withStream (lit 12) (.audio exPieceB) : R (Audio .mono .ch64)).map (·.frames[0]?)) ∧
    ((Audio.withStream (lit 12) (.audio exPieceA) : R (Audio .mono .ch64)).map (·.len)) = .ok 3 := by
  constructor <;> decide +kernel

/-- C139 for `extend`: a signal added in two pieces instead of at once. -/
theorem C139_extend {sr : F64} {x y z y' : Audio k c} {st st1 st2 : Src k' c'} {it it1 it2} {a m d l dst src : Nat}
    (h : x.extend st = (y, .ok it)) (h1 : x.extend st1 = (z, .ok it1)) (h2 : z.extend st2 = (y', .ok it2))
    (hl : st.len = some (l + 2 ^ m * d)) (hl1 : st1.len = some (2 ^ m * d)) (hl2 : st2.len = some l)
    (hrate : x.rate.Is (dst:ℚ)) (hsr : st.rate = some sr) (hsr1 : st1.rate = some sr) (hsr2 : st2.rate = some sr)
    (hs : sr.Is (src:ℚ)) (h0 : 0 < src) (he : dst * 2 ^ m = a * src) (ha1 : 1 ≤ a) (hm : m ≤ 52)
    (hN : dst * (l + 2 ^ m * d) < 2 ^ 52) (hs' : src ≤ 2 ^ 51) (ha : a ≤ 2 ^ 51) (hal : a * (l + 2 ^ m * d) < 2 ^ 53)
    (hst1 : ∀ j, j < 2 ^ m * d → st1.nth j = st.nth j) (hst2 : ∀ j, st2.nth j = st.nth (j + 2 ^ m * d)) :
    y'.len = y.len ∧ (∀ i, i ≠ x.len + a * d → y'.get i = y.get i) ∧ (m = 0 → y' = y) := by
  obtain ⟨b, e1, rfl⟩ := C130_append h
  obtain ⟨b1, e2, rfl⟩ := C130_append h1
  obtain ⟨b2, e3, rfl⟩ := C130_append h2
  obtain ⟨k1, k2, k3⟩ := C139_partial e1 e2 e3 hl hl1 hl2 hrate hsr hsr1 hsr2 hs h0 he ha1 hm hN hs' ha hal hst1 hst2
  have k2' : b.frames.length = b1.frames.length + b2.frames.length := k2
  have k1' : b1.frames.length = a * d := k1
  refine ⟨?_, fun i hi => ?_, fun h0 => ?_⟩
  · simp only [Audio.len, List.length_append]; omega
  · simp only [Audio.get, List.append_assoc]
    rcases Nat.lt_or_ge i x.frames.length with hx | hx
    · rw [List.getElem?_append_left hx, List.getElem?_append_left hx]
    · rw [List.getElem?_append_right hx, List.getElem?_append_right hx]
      refine (k3 _ (.inl ?_)).symm
      simp only [Audio.len] at hi
      omega
  · congr 1
    simp only [List.append_assoc]
    congr 1
    refine List.ext_getElem? (fun i => (k3 i (.inr h0)).symm)

example := C139_extend (a := 3) (m := 2) (d := 1) (dst := 12) (src := 16) (sr := lit 16)
  (x := (⟨lit 12, [#v[lit 1]]⟩ : Audio .mono .ch64)) (st := .audio exPieces) (st1 := .audio exPieceA) (st2 := .audio exPieceB)
  (R.returnsSnd (x := (⟨lit 12, [#v[lit 1]]⟩ : Audio .mono .ch64).extend (.audio exPieces)) (by decide +kernel))
  (R.returnsSnd (x := (⟨lit 12, [#v[lit 1]]⟩ : Audio .mono .ch64).extend (.audio exPieceA)) (by decide +kernel))
  (R.returnsSnd (x := ((⟨lit 12, [#v[lit 1]]⟩ : Audio .mono .ch64).extend (.audio exPieceA)).1.extend (.audio exPieceB))
    (by decide +kernel))
  rfl rfl rfl (by decide +kernel) rfl rfl rfl (by decide +kernel) (by decide) (by decide) (by decide) (by decide) (by decide)
  (by decide) (by decide) (by decide) (fun j hj => by
    match j with
    | 0 | 1 | 2 | 3 => rfl
    | j + 4 => simp at hj) (fun j => rfl)

/-! ## Other ratios -/

/-- C139 at every ratio `r ≤ 1`, from any format to any format: if a signal lacks its first `d` frames, and `d` frames last
`X` slots up to `e` slots, then it is heard `X` slots earlier and else the same up to a small error, apart from the very
first slot. -/
theorem C139_down {fuel fuel' d X : Nat} {s s' t t' : Sink k c} {st st2 : Src k' c'} {it it2 : It k' c'}
    (h : s.stream fuel st = .ok (s', it)) (h2 : t.stream fuel' st2 = .ok (t', it2))
    (hrt : t.rate = s.rate) (hr2 : st2.rate = st.rate) (ho : s.res.offseti = lit 0) (ho2 : t.res.offseti = lit 0) {r e : ℚ}
    (hq : (ratioOf s.rate st.rate).Is r) (hr : 0 < r) (hr1 : r ≤ 1) (hb : (s.buf.length : ℚ) + 1 ≤ r * 2 ^ 52)
    (hbt : t.buf.length ≤ s.buf.length)
    (hd : |r * d - X| ≤ e) (he : e ≤ 1 / 2) {i : Nat} (hi : i < k.chans) {w : Nat → ℚ} (hw1 : ∀ j, |w j| ≤ 1)
    (hw : ∀ j f, st.nth j = .ok (some f) → ∀ x : Frame k c, f.convert c = .ok x → SampleVal c x[i] (w j))
    (hw2 : ∀ j f, st2.nth j = .ok (some f) → ∀ x : Frame k c, f.convert c = .ok x → SampleVal c x[i] (w (j + d)))
    {x : Nat} (hx0 : 1 ≤ x) (hx : InDst (ratioOf s.rate st.rate) st.len s.buf.length (x + X))
    (hx2 : InDst (ratioOf s.rate st.rate) st2.len t.buf.length x) :
    ∃ (y z : Frame k c) (a b : ℚ), t'.buf[x]? = some y ∧ s'.buf[x + X]? = some z ∧ SampleVal c y[i] a ∧
      SampleVal c z[i] b ∧
      |b - a| ≤ 2 * ((mixErr c + 5 * 2 ^ (-53 : ℤ) + 2 * ((s.buf.length + 1) * 2 ^ (-53 : ℤ))) * (1 / r + 3)) +
        (s.buf.length + 1) * 2 ^ (-53 : ℤ) + 2 * e * (3 / r + 2) := by
  obtain ⟨n, tk, hn, b2⟩ := C59_box fuel s s' st it h ho r hq hr hr1 hb i hi w
    (fun j f h1 x h2 => ⟨hw j f h1 x h2, hw1 j⟩)
  have hbt' : (t.buf.length:ℚ) ≤ s.buf.length := by exact_mod_cast hbt
  obtain ⟨n2, tk2, hn2, a2⟩ := C59_box fuel' t t' st2 it2 h2 ho2 r (by rw [hrt, hr2]; exact hq) hr hr1 (by linarith) i hi
    (fun j => w (j + d)) (fun j f h1 x h2 => ⟨hw2 j f h1 x h2, hw1 _⟩)
  rw [hrt, hr2] at tk2 a2
  obtain ⟨y, a, a1, a2, a3⟩ := a2 x hx2
  obtain ⟨z, b, b1, b2, b3⟩ := b2 (x + X) hx
  refine ⟨y, z, a, b, a1, b1, a2, b2, ?_⟩
  have hov : ∀ (w : ℕ → ℚ) (x : ℚ) n, ∑ j ∈ Finset.range n, w j * overlap (r * j - r) (r * j) (x - 1) x =
      ∑ j ∈ Finset.range n, w j * share r x (r * j) :=
    fun w x n => Finset.sum_congr rfl (fun j _ => by rw [share_overlap hr.le])
  rw [hov w] at b3
  rw [hov fun j => w (j + d)] at a3
  have hee : (0:ℚ) ≤ e := (abs_nonneg _).trans hd
  have hu0 : (0:ℚ) < 2 ^ (-53:ℤ) := two_zpow_pos _
  have hη0 : 0 ≤ ((s.buf.length:ℚ) + 1) * 2 ^ (-53:ℤ) := by positivity
  have hηt : ((t.buf.length:ℚ) + 1) * 2 ^ (-53:ℤ) ≤ ((s.buf.length:ℚ) + 1) * 2 ^ (-53:ℤ) :=
    mul_le_mul_of_nonneg_right (by linarith) hu0.le
  have hcnt : (0:ℚ) ≤ 3 / r + 1 := by positivity
  have hcnt' : (0:ℚ) ≤ 1 / r + 3 := by positivity
  have a3 := a3.trans (mul_le_mul_of_nonneg_right (show _ ≤ mixErr c + 5 * 2 ^ (-53 : ℤ) +
    2 * (((s.buf.length:ℚ) + 1) * 2 ^ (-53 : ℤ)) by linarith only [hηt]) hcnt')
  have key := reach_down hq hr hr1 hn tk hx
  have key2 := reach_down hq hr hr1 hn2 tk2 hx2
  rw [Nat.cast_add] at key
  have hη1 : ((s.buf.length:ℚ) + 1) * 2 ^ (-53:ℤ) ≤ r / 2 := by
    calc _ ≤ r * 2 ^ 52 * 2 ^ (-53:ℤ) := mul_le_mul_of_nonneg_right hb hu0.le
      _ = r / 2 := by rw [mul_assoc, show (2:ℚ) ^ 52 * 2 ^ (-53:ℤ) = 1 / 2 by norm_num]; ring
  have hx1 : (1:ℚ) ≤ x := by exact_mod_cast hx0
  have hd' := abs_le.mp hd
  have hnd : d ≤ n := by
    have : r * d < r * n := by
      generalize ((s.buf.length:ℚ) + 1) * 2 ^ (-53:ℤ) = η at key hη1
      generalize r * (d:ℚ) = y1 at *
      generalize r * (n:ℚ) = y2 at *
      linarith only [hd'.2, key, hη1, hx1, he, hr]
    have := lt_of_mul_lt_mul_left this hr.le
    exact_mod_cast this.le
  obtain ⟨l, rfl⟩ := Nat.exists_eq_add_of_le' hnd
  have e1 : ∑ j ∈ Finset.range (l + d), w j * share r ((x + X : ℕ):ℚ) (r * j) =
      ∑ j ∈ Finset.range d, w j * share r ((x + X : ℕ):ℚ) (r * j) +
        ∑ j ∈ Finset.range l, w (j + d) * share r x (r * j + (r * d - X)) := by
    rw [add_comm l d, Finset.sum_range_add]
    congr 1
    refine Finset.sum_congr rfl (fun j _ => ?_)
    rw [← share_shift r x _ X, add_comm d j]
    congr 2
    · push_cast; ring
    · push_cast; ring
  have m1 := sum_early (x := ((x + X : ℕ):ℚ)) (d := d) hr hee (by
    push_cast
    linarith [hd'.2]) w hw1
  have m2 := sum_moved hr hr1 (by positivity : (0:ℚ) ≤ x) (hd.trans he) l (fun j => w (j + d)) (fun j => hw1 _)
  have m3 : |∑ j ∈ Finset.range n2, w (j + d) * share r x (r * j) - ∑ j ∈ Finset.range l, w (j + d) * share r x (r * j)| ≤
      ((s.buf.length:ℚ) + 1) * 2 ^ (-53:ℤ) + e := by
    rcases le_total l n2 with hln | hln
    · refine sum_late (x := (x:ℚ)) hr hln (by positivity) ?_ (fun j => w (j + d)) (fun j => hw1 _)
      push_cast at key
      linarith only [hd'.2, key]
    · rw [abs_sub_comm]
      refine sum_late (x := (x:ℚ)) hr hln (by positivity) ?_ (fun j => w (j + d)) (fun j => hw1 _)
      generalize ((s.buf.length:ℚ) + 1) * 2 ^ (-53:ℤ) = η at *
      generalize ((t.buf.length:ℚ) + 1) * 2 ^ (-53:ℤ) = η' at *
      linarith only [hee, key2, hηt]
  have m4 : 2 * |r * d - X| * (3 / r + 1) ≤ 2 * e * (3 / r + 1) :=
    mul_le_mul_of_nonneg_right (by linarith) hcnt
  rw [e1] at b3
  have m2' := abs_le.mp (m2.trans m4)
  have m1' := abs_le.mp m1
  have m3' := abs_le.mp m3
  have a3' := abs_le.mp a3
  have b3' := abs_le.mp b3
  have ex : 2 * e * (3 / r + 2) = 2 * e * (3 / r + 1) + 2 * e := by ring
  rw [abs_le, ex]
  generalize (mixErr c + 5 * 2 ^ (-53 : ℤ) + 2 * (((s.buf.length:ℚ) + 1) * 2 ^ (-53 : ℤ))) * (1 / r + 3) = E at *
  generalize ((s.buf.length:ℚ) + 1) * 2 ^ (-53:ℤ) = η at *
  generalize 2 * e * (3 / r + 1) = E' at *
  constructor <;> linarith only [m1'.1, m1'.2, m2'.1, m2'.2, m3'.1, m3'.2, a3'.1, a3'.2, b3'.1, b3'.2]

/-- `exTens` without its first ten samples. -/
def exTensRest : Audio .mono .ch64 := ⟨lit 10, exTens.frames.drop 10⟩

example := C139_down (d := 10) (X := 3) (k := .mono) (c := .ch64) (x := 2)
  (R.returns₂ (x := (⟨lit 3, Resampler.dflt, List.replicate 6 #v[lit 0]⟩ : Sink .mono .ch64).stream 40 (.audio exTens))
    (by decide +kernel))
  (R.returns₂ (x := (⟨lit 3, Resampler.dflt, List.replicate 3 #v[lit 0]⟩ : Sink .mono .ch64).stream 40 (.audio exTensRest))
    (by decide +kernel)) rfl rfl rfl rfl (r := binary64.rnd ((3 : Nat) / (10 : Nat))) (by decide +kernel)
  (by decide +kernel) (by decide +kernel) (by decide +kernel) (by decide)
  (delay_slots (by norm_num) (by norm_num) (by norm_num) rfl) (by norm_num) (i := 0) (by decide)
  (w := fun j => if j % 10 = 4 then 0.75 else 0) (by intro j; split <;> norm_num) (by
    intro j f hf x hx
    match j with
    | 0 | 1 | 2 | 3 | 4 | 5 | 6 | 7 | 8 | 9 | 10 | 11 | 12 | 13 | 14 | 15 | 16 | 17 | 18 | 19 =>
      cases hf; cases hx; decide +kernel
    | j + 20 => cases hf) (by
    intro j f hf x hx
    match j with
    | 0 | 1 | 2 | 3 | 4 | 5 | 6 | 7 | 8 | 9 => cases hf; cases hx; decide +kernel
    | j + 10 => cases hf) (by decide) (by decide +kernel) (by decide +kernel)

/-- C139 when the rate goes up, whole rates, from any format to any format: if the ratio is not rounded down by more than its
2^54th part and `d` frames
last `X` slots, a signal that lacks its first `d` frames is heard `X` slots earlier, up to a small error, apart from the
very first slot. -/
theorem C139_up {fuel fuel' d X dst src : Nat} {s s' t t' : Sink k c} {st st2 : Src k' c'} {it it2 : It k' c'}
    (h : s.stream fuel st = .ok (s', it)) (h2 : t.stream fuel' st2 = .ok (t', it2))
    (hrt : t.rate = s.rate) (hr2 : st2.rate = st.rate) (ho : s.res.offseti = lit 0) (ho2 : t.res.offseti = lit 0)
    (hq : (ratioOf s.rate st.rate).Is (binary64.rnd ((dst:ℚ) / src)))
    (hs : 0 < src) (hsd : src ≤ dst) (hs' : src ≤ 2 ^ 53) (h20 : dst ≤ 2 ^ 20 * src)
    (hge : (1 - 2 ^ (-54 : ℤ)) * ((dst:ℚ) / src) ≤ binary64.rnd ((dst:ℚ) / src)) (hb : 4 * (src * s.buf.length + dst) ≤ 2 ^ 53)
    (hbt : t.buf.length ≤ s.buf.length)
    (hd : dst * d = X * src) {i : Nat} (hi : i < k.chans) {w : Nat → ℚ} (hw1 : ∀ j, |w j| ≤ 1)
    (hw : ∀ j f, st.nth j = .ok (some f) → ∀ x : Frame k c, f.convert c = .ok x → SampleVal c x[i] (w j))
    (hw2 : ∀ j f, st2.nth j = .ok (some f) → ∀ x : Frame k c, f.convert c = .ok x → SampleVal c x[i] (w (j + d)))
    {x : Nat} (hx0 : 1 ≤ x) (hx : InDst (ratioOf s.rate st.rate) st.len s.buf.length (x + X))
    (hx2 : InDst (ratioOf s.rate st.rate) st2.len t.buf.length x) :
    ∃ (y z : Frame k c) (a b : ℚ), t'.buf[x]? = some y ∧ s'.buf[x + X]? = some z ∧ SampleVal c y[i] a ∧
      SampleVal c z[i] b ∧
      |b - a| ≤ 2 * (mixErr c * (binary64.rnd ((dst:ℚ) / src) + 5)) + 12 * (s.buf.length * 2 ^ (-53 : ℤ)) := by
  set ρ : ℚ := (dst:ℚ) / src with hρ
  set r := binary64.rnd ρ with hr
  have hsq : (0:ℚ) < src := by exact_mod_cast hs
  have hρ1 : 1 ≤ ρ := by rw [hρ, one_le_div hsq]; exact_mod_cast hsd
  have hr1 : 1 ≤ r := one_le_rnd hρ1
  have hr20 : r ≤ 2 ^ 20 := by
    have e : binary64.rnd (2 ^ 20 : ℚ) = 2 ^ 20 := by decide +kernel
    rw [← e]
    refine rnd_mono ?_
    rw [hρ, div_le_iff₀ hsq]; exact_mod_cast h20
  have hX : ρ * d = X := by
    rw [hρ, div_mul_eq_mul_div, div_eq_iff hsq.ne']; exact_mod_cast hd
  have hB : s.buf.length ≤ 2 ^ 51 := by
    have := Nat.le_mul_of_pos_left s.buf.length hs
    omega
  have hbt' : 4 * (src * t.buf.length + dst) ≤ 2 ^ 53 := by
    have := Nat.mul_le_mul_left src hbt
    omega
  obtain ⟨n, tk, -, -, b2⟩ := C101_mix fuel s s' st it h ho r hq hr1 hr20 (by omega) i hi w
    (fun j f h1 x h2 => ⟨hw j f h1 x h2, hw1 j⟩)
  obtain ⟨n2, tk2, -, -, a2⟩ := C101_mix fuel' t t' st2 it2 h2 ho2 r (by rw [hrt, hr2]; exact hq) hr1 hr20 (by omega) i hi
    (fun j => w (j + d)) (fun j f h1 x h2 => ⟨hw2 j f h1 x h2, hw1 _⟩)
  rw [hrt, hr2] at tk2 a2
  obtain ⟨y, a, a1, a2, a3⟩ := a2 x hx2
  obtain ⟨z, b, b1, b2, b3⟩ := b2 (x + X) hx
  refine ⟨y, z, a, b, a1, b1, a2, b2, ?_⟩
  have hxX : x + X + 1 ≤ s.buf.length := hx.1
  obtain ⟨hdn, hbe⟩ := reach_up hq hs hsd hs' h20 hge hb tk hx
  obtain ⟨-, hbe2⟩ := reach_up hq hs hsd hs' h20 hge hbt' tk2 hx2
  rw [← hρ, Nat.cast_add] at hbe
  rw [← hρ] at hbe2
  have hρ0 : 0 < ρ := by linarith
  have hx1 : (0:ℚ) ≤ x := by positivity
  have hnd : d ≤ n := by
    have : ρ * d < ρ * n := by rw [hX]; linarith
    have := lt_of_mul_lt_mul_left this hρ0.le
    exact_mod_cast this.le
  obtain ⟨l, rfl⟩ := Nat.exists_eq_add_of_le' hnd
  have e1 : ∑ j ∈ Finset.range (l + d), w j * upShare c r (x + X) (binary64.rnd (r * j)) =
      ∑ j ∈ Finset.range l, w (j + d) * upShare c r (x + X) (binary64.rnd (r * ((j + d : ℕ):ℚ))) := by
    rw [add_comm l d, Finset.sum_range_add, Finset.sum_eq_zero, zero_add]
    · refine Finset.sum_congr rfl (fun j _ => ?_)
      rw [add_comm d j]
    · intro j hj
      have hj' : j + 1 ≤ d := Finset.mem_range.mp hj
      have hle : dst * j ≤ dst * (l + d) := Nat.mul_le_mul_left _ (by omega)
      obtain ⟨f1, -⟩ := up_floor hs hsd hs' hge (j := j) (by omega)
      rw [← hρ, ← hr] at f1
      have f2 : ⌊ρ * j⌋ < (X:ℤ) := by
        rw [Int.floor_lt]
        have : ρ * ((j + 1 : ℕ):ℚ) ≤ ρ * d := mul_le_mul_of_nonneg_left (by exact_mod_cast hj') hρ0.le
        push_cast at this ⊢
        rw [hX] at this
        linarith
      unfold upShare
      rw [f1, if_neg (by push_cast; omega), if_neg (by push_cast; omega), mul_zero]
  have cut : ∀ {p q : ℕ}, p ≤ q → (x:ℚ) + 1 ≤ ρ * p →
      ∑ j ∈ Finset.range q, w (j + d) * upShare c r x (binary64.rnd (r * j)) =
      ∑ j ∈ Finset.range p, w (j + d) * upShare c r x (binary64.rnd (r * j)) := by
    intro p q hpq hp
    refine (Finset.sum_subset (Finset.range_subset_range.mpr hpq) (fun j _ hj => ?_)).symm
    have hj' : p ≤ j := by simpa using hj
    rw [upShare_late, mul_zero]
    have h3 : ((x + 1 : ℕ):ℚ) ≤ ρ * j := by
      have : ρ * p ≤ ρ * j := mul_le_mul_of_nonneg_left (by exact_mod_cast hj') hρ0.le
      push_cast
      linarith
    have := up_ge hge (n := x + 1) (by omega) (by positivity) h3
    push_cast at this
    exact this
  have e2 : ∑ j ∈ Finset.range n2, w (j + d) * upShare c r x (binary64.rnd (r * j)) =
      ∑ j ∈ Finset.range l, w (j + d) * upShare c r x (binary64.rnd (r * j)) := by
    have hl : (x:ℚ) + 1 ≤ ρ * l := by
      push_cast at hbe
      rw [mul_add, hX] at hbe
      linarith
    rcases le_total l n2 with hln | hln
    · exact cut hln hl
    · exact (cut hln hbe2).symm
  have tot := upShare_moved (c := c) hs hsd hs' hge hd hxX (by omega) (fun j => w (j + d)) (fun j => hw1 _) l
  rw [← hρ, ← hr] at tot
  rw [e1] at b3
  rw [e2] at a3
  have cl := (clampQ_lip _ _).trans tot
  generalize clampQ (∑ j ∈ Finset.range l, w (j + d) * upShare c r (x + X) (binary64.rnd (r * ((j + d : ℕ):ℚ)))) = A at *
  generalize clampQ (∑ j ∈ Finset.range l, w (j + d) * upShare c r x (binary64.rnd (r * j))) = A' at *
  rw [abs_le] at *
  constructor <;> linarith [a3.1, a3.2, b3.1, b3.2, cl.1, cl.2]

example := C139_up (d := 3) (X := 5) (dst := 5) (src := 3) (x := 4)
  (R.returns₂ (x := (exSink 15 5).stream 10 (.audio exThrees)) (by decide +kernel))
  (R.returns₂ (x := (exSink 10 5).stream 10 (.audio ⟨lit 3, exThrees.frames.drop 3⟩)) (by decide +kernel)) rfl rfl rfl rfl
  (by decide +kernel) (by decide) (by decide) (by decide) (by decide) (by decide +kernel) (by decide) (by decide) rfl
  (i := 0) (by decide)
  (w := fun j => if j % 3 = 0 then 100 / 127 else if j % 3 = 1 then 20 / 127 else -50 / 127)
  (by intro j; split; · norm_num
      split
      · norm_num
      · rw [abs_le]; norm_num) (by
    intro j f hf x hx
    match j with
    | 0 | 1 | 2 | 3 | 4 | 5 | 6 | 7 | 8 => cases hf; cases hx; decide +kernel
    | j + 9 => cases hf) (by
    intro j f hf x hx
    match j with
    | 0 | 1 | 2 | 3 | 4 | 5 => cases hf; cases hx; decide +kernel
    | j + 6 => cases hf) (by decide) (by decide +kernel) (by decide +kernel)

end Fon
