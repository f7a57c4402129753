import Verif.Props.Sink

/-!
# What `Sink::stream` computes
-/

namespace Fon
open Fon.Fl Fon.Fmt Fon.Sink
variable {k k' : Kind} {c c' : ChTy}

theorem hiSlot_eq (x : F64) : hiSlot x = ceilU x := by
  have eps : (Fl.epsilon : F64).Is (2 ^ (-52:ℤ)) := is_epsilon
  suffices h : (∃ q, x.Is q ∧ 2 ^ (-52 : ℤ) < q - truncQ q) ↔ Fl.lt Fl.epsilon (x.rem (Fl.lit 1)) = true by
    unfold hiSlot ceilU
    by_cases hc : ∃ q, x.Is q ∧ 2 ^ (-52 : ℤ) < q - truncQ q
    · rw [if_pos hc, if_pos (h.mp hc)]
    · rw [if_neg hc, if_neg (fun hh => hc (h.mpr hh))]
  cases x with
  | nan =>
    obtain ⟨_, _, e⟩ := eps
    rw [e]
    constructor
    · rintro ⟨q, ⟨_, _, h⟩, _⟩; cases h
    · intro h; cases h
  | inf s =>
    obtain ⟨_, _, e⟩ := eps
    obtain ⟨_, _, e1⟩ := (is_one : (Fl.lit 1 : F64).Is _)
    rw [e, e1]
    constructor
    · rintro ⟨q, ⟨_, _, h⟩, _⟩; cases h
    · intro h; cases h
  | fin q nz h =>
    have hq : (Fl.fin q nz h : F64).Is q := is_fin
    have hiff : (∃ p, (Fl.fin q nz h : F64).Is p ∧ 2 ^ (-52 : ℤ) < p - truncQ p) ↔ 2 ^ (-52 : ℤ) < q - truncQ q := by
      constructor
      · rintro ⟨p, hp, hh⟩; rw [hq.unique hp]; exact hh
      · intro hh; exact ⟨q, hq, hh⟩
    rw [hiff]
    rcases lt_or_ge q 0 with h0 | h0
    · have hr := hq.rem_one_neg h0
      have e : q - (truncQ q : ℚ) = -(-q - ⌊-q⌋) := by rw [truncQ_neg h0]; push_cast; ring
      rw [eps.lt hr, decide_eq_true_eq, e]
    · have hr := hq.rem_one h0
      rw [eps.lt hr, decide_eq_true_eq, truncQ_nonneg h0]

theorem placeN_succ (q off : F64) (d : Nat) (g : Nat → Frame k c) (i n : Nat) (st) :
    placeN q off d g i (n + 1) st = place q off d (i + n) (g (i + n)) (placeN q off d g i n st) := by
  induction n generalizing i st with
  | zero => rfl
  | succ n ih =>
    rw [placeN, ih, show i + 1 + n = i + (n + 1) by omega]; rfl

theorem placeN_mixed (q off : F64) (d : Nat) (g : Nat → Frame k c) (n : Nat) (buf : List (Frame k c)) (p : Frame k c)
    (s : Nat) (hs : s < d) :
    (placeN q off d g 0 n (buf, p)).1[s]? = buf[s]?.map (mixed q off g s n) := by
  induction n with
  | zero =>
    rw [placeN]
    cases h : buf[s]? <;> simp [mixed, h]
  | succ n ih =>
    rw [placeN_succ, Nat.zero_add]
    have hmod : ∀ (l : List (Frame k c)) (j : Nat) (f : Frame k c → Frame k c),
        (l.modify j f)[s]? = l[s]?.map (fun b => if j = s then f b else b) := by
      intro l j f
      rw [List.getElem?_modify]
      rfl
    unfold place
    dsimp only
    split
    · rename_i hc
      rw [hmod, hmod, ih, Option.map_map, Option.map_map]
      congr 1
      funext b
      simp only [Function.comp, mixed, hiSlot_eq]
      rfl
    · rename_i hc
      rw [hmod, ih, Option.map_map]
      congr 1
      funext b
      have : ceilU (posOf q off n) ≠ s := by
        have : ¬ ceilU (posOf q off n) < d := hc
        omega
      simp only [Function.comp, mixed, hiSlot_eq, this, if_false]
      rfl

theorem placeN_leftOver (q off : F64) (len : Option Nat) (b : Nat) (g : Nat → Frame k c) (n : Nat)
    (buf : List (Frame k c)) (p : Frame k c) :
    (placeN q off (dstEnd q len b) g 0 n (buf, p)).2 = leftOver q off len b g n p := by
  induction n with
  | zero => rfl
  | succ n ih =>
    rw [placeN_succ, Nat.zero_add]
    unfold place leftOver
    dsimp only
    simp only [inDst_iff, hiSlot_eq]
    split
    · rename_i hc
      rw [if_pos (show ceilU (posOf q off n) < _ from hc), ih]
    · rename_i hc
      rw [if_neg (show ¬ ceilU (posOf q off n) < _ from hc), ih]; rfl

/-! ## C58 -/

/-- C58: the complete effect of `Sink::stream`.  It takes frames as long as their position is in the destination
range (`Takes`), converts them, and mixes each into the one or two slots nearest to its position; slots in the
destination range start from silence. -/
theorem C58_mix (fuel : Nat) (s s' : Sink k c) (st : Src k' c') (it : It k' c') (h : s.stream fuel st = .ok (s', it)) :
    ∃ (n : Nat) (g : Nat → Frame k c),
      Takes (ratioOf s.rate st.rate) s.res.offseti st.len s.buf.length n ∧
      (∀ j, j < n → ∃ f, st.nth j = .ok (some f) ∧ f.convert c = .ok (g j)) ∧
      (∀ i, InDst (ratioOf s.rate st.rate) st.len s.buf.length i →
        s'.buf[i]? = some (mixed (ratioOf s.rate st.rate) s.res.offseti g i n Frame.dflt)) ∧
      s'.res.partial_ = leftOver (ratioOf s.rate st.rate) s.res.offseti st.len s.buf.length g n s.res.partial_ ∧
      s'.res.offseti = s.res.offseti.add ((ratioOf s.rate st.rate).mul (f64OfUsize n)) ∧
      s'.rate = s.rate := by
  obtain ⟨_, n, g, _, _, a3, a4, a5, a6, a7, _⟩ := stream_takes fuel s s' _ it h
  refine ⟨n, g, a3, a4, ?_, ?_, a7, a6⟩
  · intro i hi
    have := congrArg (fun x => x.1[i]?) a5
    simp only at this
    rw [this, placeN_mixed _ _ _ _ _ _ _ _ (inDst_iff.mp hi), prepare_in _ _ _ (inDst_iff.mp hi) (dstEnd_le _ _ _)]
    rfl
  · have := congrArg Prod.snd a5
    simp only at this
    rw [this, placeN_leftOver]

example := C58_mix 6 (exSink 3 8) _ (.audio (exAudio 12)) _
  (R.returns₂ (x := (exSink 3 8).stream 6 (.audio (exAudio 12))) (by decide +kernel))

/-- Three frames of rate 12 into a sink of rate 8: the second slot gets two thirds of the second frame. -/
example : ((⟨lit 8, Resampler.dflt, [#v[lit 0], #v[lit 0]]⟩ : Sink .mono .ch32).stream 9
    (.audio (k := .mono) (c := .ch32) ⟨lit 12, [#v[lit 0], #v[lit 0.75], #v[lit 0]]⟩)).map (fun r => r.1.buf) =
    .ok [#v[lit 0], #v[lit 0.5]] := by decide +kernel

/-! ## C46 -/

/-- Rounding has a small relative error for all multiples of the smallest subnormal number. -/
theorem rel_err {f : Fmt} {q : ℚ} (n : ℤ) (hq : q = n * 2 ^ f.emin) : |f.rnd q - q| ≤ |q| * f.u := by
  rcases eq_or_ne q 0 with rfl | h0
  · rw [rnd_zero]; simp
  rcases (emin_le_expo (f := f) q).eq_or_lt with he | he
  · have := rnd_nearest_mult (f := f) q n
    rw [← he, ← hq, sub_self, abs_zero] at this
    exact this.trans (mul_nonneg (abs_nonneg _) u_pos.le)
  · have h1 := le_abs_of_expo q h0 he
    have h2 := abs_rnd_sub_le (f := f) q
    have hp := f.hprec
    have e : (2:ℚ) ^ f.expo q / 2 = 2 ^ (f.prec - 1) * 2 ^ f.expo q * f.u := by
      unfold Fmt.u
      rw [← zpow_natCast, ← zpow_add₀ (by norm_num), ← zpow_add₀ (by norm_num), Nat.cast_sub (by omega), div_eq_mul_inv,
        ← zpow_neg_one, ← zpow_add₀ (by norm_num)]
      congr 1; push_cast; ring
    rw [e] at h2
    exact h2.trans (mul_le_mul_of_nonneg_right h1 u_pos.le)

theorem gen_mult {f : Fmt} {q : ℚ} (h : f.Gen q) : ∃ n : ℤ, q = n * 2 ^ f.emin := by
  obtain ⟨m, e, _, h2, h3⟩ := h
  refine ⟨m * 2 ^ (e - f.emin).toNat, ?_⟩
  rw [h3]
  push_cast
  rw [mul_assoc, ← zpow_natCast, ← zpow_add₀ (by norm_num), Int.toNat_of_nonneg (by omega)]
  congr 2; ring

theorem sub_rel_err {f : Fmt} {p q : ℚ} (hp : f.Gen p) (hq : f.Gen q) : |f.rnd (p - q) - (p - q)| ≤ |p - q| * f.u := by
  obtain ⟨m, h1⟩ := gen_mult hp
  obtain ⟨n, h2⟩ := gen_mult hq
  exact rel_err (m - n) (by rw [h1, h2]; push_cast; ring)

theorem mixed_by (q off : F64) (g : Nat → Frame k c) (s n : Nat) (b : Frame k c) :
    mixed q off g s n b = mixedBy (posOf q off) (loWeight q off) (hiWeight q off) g s n b := by
  induction n with
  | zero => rfl
  | succ n ih => simp only [mixed, mixedBy, ih]

/-- For a positive ratio `r` and a position `p` the later slot has weight `min (fract p) r` exactly, both weights
are between 0 and the ratio, and their sum differs from the ratio by at most half a unit in the last place of the
second weight. -/
theorem weights_partial {q off : F64} {r p : ℚ} {i : Nat} (hq : q.Is r) (hr : 0 < r) (hp : (posOf q off i).Is p)
    (hp0 : 0 ≤ p) : ∃ a b : ℚ, (hiWeight q off i).Is a ∧ (loWeight q off i).Is b ∧ a = min (p - ⌊p⌋) r ∧
      0 ≤ a ∧ a ≤ r ∧ 0 ≤ b ∧ b ≤ r ∧ |a + b - r| ≤ (r - a) * 2 ^ (-53 : ℤ) := by
  have h1 : (hiWeight q off i).Is (min (p - ⌊p⌋) r) := (hp.rem_one hp0).min hq
  have hf := Int.floor_le p
  have ha0 : 0 ≤ min (p - ⌊p⌋) r := le_min (by linarith) hr.le
  have ha1 : min (p - ⌊p⌋) r ≤ r := min_le_right _ _
  generalize min (p - ⌊p⌋) r = a at *
  have hle : binary64.rnd (r - a) ≤ r := rnd_le_of_gen hq.rep.gen (by linarith)
  have hge : 0 ≤ binary64.rnd (r - a) := rnd_nonneg (by linarith)
  have h2 : (loWeight q off i).Is (binary64.rnd (r - a)) := by
    refine hq.sub h1 ?_
    rw [abs_of_nonneg hge]
    refine hle.trans ?_
    have := hq.rep.le_maxF
    rwa [abs_of_pos hr] at this
  refine ⟨a, _, h1, h2, rfl, ha0, ha1, hge, hle, ?_⟩
  have := sub_rel_err hq.rep.gen h1.rep.gen
  rw [abs_of_nonneg (by linarith : 0 ≤ r - a)] at this
  rw [show a + binary64.rnd (r - a) - r = binary64.rnd (r - a) - (r - a) by ring]
  exact this

/-- The difference of two numbers within a factor of 2 is exact. -/
theorem sterbenz {f : Fmt} {r a : ℚ} (hr : f.Gen r) (ha : f.Gen a) (h : r ≤ 2 * a) (h' : a ≤ r) : f.Gen (r - a) := by
  obtain ⟨m, e, g1, g2, g3⟩ := hr
  obtain ⟨m', e', g1', g2', g3'⟩ := ha
  have key : ∀ (n e : ℤ) (z : ℚ), r - a = n * 2 ^ e → z = r ∨ z = a → ∀ m : ℤ, |m| < 2 ^ f.prec → z = m * 2 ^ e →
      f.emin ≤ e → f.Gen (r - a) := by
    intro n e z hn hz m hm hzm he
    refine ⟨n, e, ?_, he, hn⟩
    have hp := two_zpow_pos e
    have h0 : 0 ≤ (n:ℚ) := by
      by_contra hc
      push Not at hc
      have : (n:ℚ) * 2 ^ e < 0 := mul_neg_of_neg_of_pos hc hp
      linarith
    have h1 : (n:ℚ) ≤ m := by
      by_contra hc
      push Not at hc
      have : (m:ℚ) * 2 ^ e < n * 2 ^ e := mul_lt_mul_of_pos_right hc hp
      rcases hz with rfl | rfl <;> linarith
    have h0' : 0 ≤ n := by exact_mod_cast h0
    have h1' : n ≤ m := by exact_mod_cast h1
    rw [abs_of_nonneg h0']
    rw [abs_of_nonneg (h0'.trans h1')] at hm
    omega
  rcases le_total e e' with hle | hle
  · refine key (m - m' * 2 ^ (e' - e).toNat) e r ?_ (.inl rfl) m g1 g3 g2
    rw [g3, g3']
    push_cast
    rw [sub_mul, mul_assoc (m':ℚ), ← zpow_natCast, ← zpow_add₀ (by norm_num), Int.toNat_of_nonneg (by omega)]
    congr 3; ring
  · refine key (m * 2 ^ (e - e').toNat - m') e' a ?_ (.inr rfl) m' g1' g3' g2'
    rw [g3, g3']
    push_cast
    rw [sub_mul, mul_assoc (m:ℚ), ← zpow_natCast, ← zpow_add₀ (by norm_num), Int.toNat_of_nonneg (by omega)]
    congr 3; ring

/-- When at least half of the frame goes to the later slot the sum is exact. -/
theorem weights_exact {q off : F64} {r p : ℚ} {i : Nat} (hq : q.Is r) (hr : 0 < r) (hp : (posOf q off i).Is p)
    (hp0 : 0 ≤ p) (hh : r ≤ 2 * (p - ⌊p⌋)) : ∃ a b : ℚ, (hiWeight q off i).Is a ∧ (loWeight q off i).Is b ∧ a + b = r := by
  obtain ⟨a, b, h1, h2, ha, h3, h4, h5, h6, h7⟩ := weights_partial hq hr hp hp0
  have hb : b = binary64.rnd (r - a) := by
    refine h2.unique (hq.sub h1 ?_)
    rw [abs_of_nonneg (rnd_nonneg (by linarith))]
    refine (rnd_le_of_gen hq.rep.gen (by linarith)).trans ?_
    have := hq.rep.le_maxF
    rwa [abs_of_pos hr] at this
  have h8 : r ≤ 2 * a := by
    rw [ha]
    rcases min_choice (p - ⌊p⌋) r with h | h <;> rw [h] <;> linarith
  refine ⟨a, b, h1, h2, ?_⟩
  rw [hb, rnd_of_gen]
  · ring
  · exact sterbenz hq.rep.gen h1.rep.gen h8 h4

example : ∃ a b : ℚ, (hiWeight (lit 1.5) (lit 0) 1).Is a ∧ (loWeight (lit 1.5) (lit 0) 1).Is b ∧ a = 1 / 2 ∧ b = 1 := by
  refine ⟨_, _, ⟨false, ?_, ?_⟩, ⟨false, ?_, ?_⟩, rfl, rfl⟩
  · exact ⟨rep_dyadic 1 (-1) (by norm_num) (by decide) (by decide) (by decide), by decide⟩
  · decide +kernel
  · exact ⟨rep_dyadic 1 0 (by norm_num) (by decide) (by decide) (by decide), by decide⟩
  · decide +kernel

/-- C46: for a positive ratio `r`, each of the frames `g j` that are taken goes to the slot at its position with weight
`b` and to the next slot (if there is a fraction) with weight `a`: with `p` the position, `a = min (fract p) r` exactly,
both weights are between 0 and the ratio, and their sum differs from the ratio by at most half a unit in the last place
of `b`; it is exact if at least half of the frame goes to the later slot.  No slot gets anything else. -/
theorem C46_partial (fuel : Nat) (s s' : Sink k c) (st : Src k' c') (it : It k' c') (h : s.stream fuel st = .ok (s', it))
    {r : ℚ} (hq : (ratioOf s.rate st.rate).Is r) (hr : 0 < r) :
    ∃ (n : Nat) (g : Nat → Frame k c) (lo hi : Nat → F64),
      Takes (ratioOf s.rate st.rate) s.res.offseti st.len s.buf.length n ∧
      (∀ j, j < n → ∃ f, st.nth j = .ok (some f) ∧ f.convert c = .ok (g j)) ∧
      (∀ i, InDst (ratioOf s.rate st.rate) st.len s.buf.length i →
        s'.buf[i]? = some (mixedBy (posOf (ratioOf s.rate st.rate) s.res.offseti) lo hi g i n Frame.dflt)) ∧
      ∀ j, j < n → ∀ p, (posOf (ratioOf s.rate st.rate) s.res.offseti j).Is p → 0 ≤ p →
        ∃ a b : ℚ, (hi j).Is a ∧ (lo j).Is b ∧ a = min (p - ⌊p⌋) r ∧ 0 ≤ a ∧ a ≤ r ∧ 0 ≤ b ∧ b ≤ r ∧
          |a + b - r| ≤ (r - a) * 2 ^ (-53 : ℤ) ∧ (r ≤ 2 * (p - ⌊p⌋) → a + b = r) := by
  obtain ⟨n, g, a1, a2, a3, _⟩ := C58_mix fuel s s' st it h
  refine ⟨n, g, loWeight (ratioOf s.rate st.rate) s.res.offseti, hiWeight (ratioOf s.rate st.rate) s.res.offseti,
    a1, a2, fun i hi => ?_, fun j hj p hp hp0 => ?_⟩
  · rw [a3 i hi, mixed_by]
  · obtain ⟨a, b, b1, b2, b3, b4, b5, b6, b7, b8⟩ := weights_partial hq hr hp hp0
    refine ⟨a, b, b1, b2, b3, b4, b5, b6, b7, b8, fun hh => ?_⟩
    obtain ⟨a', b', c1, c2, c3⟩ := weights_exact hq hr hp hp0 hh
    rw [b1.unique c1, b2.unique c2]; exact c3

example := C46_partial 6 (exSink 7 12) _ (.audio (exAudio 8)) _
  (R.returns₂ (x := (exSink 7 12).stream 6 (.audio (exAudio 8))) (by decide +kernel)) (r := 1.5) (by decide +kernel)
  (by norm_num)

/-- C46 is false: the weights of a frame need not add up to the ratio, not even if they are added as floats.  Here the
first frame is 1 and the others are 0, so the slots are its weights. -/
theorem C46_false : ((⟨lit 5, ⟨Frame.dflt, lit (4503599627370497 / 18014398509481984)⟩, [#v[lit 0], #v[lit 0]]⟩ :
    Sink .mono .ch64).stream 9 (.audio (k := .mono) (c := .ch64) ⟨lit 6, [#v[lit 1], #v[lit 0], #v[lit 0]]⟩)).map
      (fun r => match r.1.buf with
        | [x, y] => decide ((x[0] : F64).add y[0] = (lit 5 : F64).div (lit 6))
        | _ => true) = .ok false := by
  decide +kernel

end Fon
