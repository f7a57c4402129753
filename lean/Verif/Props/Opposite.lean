import Verif.Spec.Opposite
import Verif.Props.Structure

/-!
# C83 for the integer formats

`C83_false` refutes that inverting the stream inverts the result.  Two things are true: with opposite numbers the results
are opposite to within one unit, and with the inverted bits of `!` to within one unit for each frame that is added.
-/

namespace Fon
open Fon.Fl hiding min max
open Fon.Fmt Fon.Sink
variable {k k1 k3 : Kind} {c c1 c3 : ChTy}

theorem tdiv_small {N X M : ℤ} (hN : 0 < N) (hX : |X| ≤ N) (h0 : 0 ≤ M) (hM : M ≤ N) : |(X * M).tdiv N| ≤ N := by
  have h : |X * M| ≤ N * N := by
    rw [abs_mul, abs_of_nonneg h0]; exact mul_le_mul hX hM h0 hN.le
  rw [abs_le] at h ⊢
  rcases le_total 0 (X * M) with h1 | h1
  · rw [Int.tdiv_eq_ediv_of_nonneg h1]
    have := Int.ediv_nonneg h1 hN.le
    exact ⟨by omega, Int.ediv_le_of_le_mul hN h.2⟩
  · rw [← neg_neg (X * M), Int.neg_tdiv, Int.tdiv_eq_ediv_of_nonneg (by omega)]
    have h2 := Int.ediv_nonneg (a := -(X * M)) (by omega) hN.le
    have h3 : -(X * M) / N ≤ N := Int.ediv_le_of_le_mul hN (by omega)
    omega

/-- One frame is added to a slot, and its opposite to the opposite slot. -/
theorem anti_step {N A B X Y M : ℤ} (hN : 0 < N) (hX : |X| ≤ N) (hXY : X + Y = 0) (h0 : 0 ≤ M) (hM : M ≤ N)
    (h1 : -1 ≤ A + B) (h2 : A + B ≤ 0) :
    let cl := clampZ (-(N + 1)) N;
    -1 ≤ cl (A + cl ((X * M).tdiv N)) + cl (B + cl ((Y * M).tdiv N)) ∧
    cl (A + cl ((X * M).tdiv N)) + cl (B + cl ((Y * M).tdiv N)) ≤ 0 := by
  intro cl
  have hT := tdiv_small hN hX h0 hM
  rw [show Y = -X by omega, neg_mul, Int.neg_tdiv]
  generalize (X * M).tdiv N = T at *
  rw [abs_le] at hT
  simp only [cl, clampZ]
  omega

/-- Products with inverted bits. -/
theorem not_prod {N X Y M : ℤ} (hN : 0 < N) (hXY : X + Y = -1) (h0 : 0 ≤ M) (hM : M ≤ N) :
    -1 ≤ (X * M).tdiv N + (Y * M).tdiv N ∧ (X * M).tdiv N + (Y * M).tdiv N ≤ 0 := by
  have key : ∀ X Y : ℤ, 0 ≤ X → X + Y = -1 → -1 ≤ (X * M).tdiv N + (Y * M).tdiv N ∧ (X * M).tdiv N + (Y * M).tdiv N ≤ 0 := by
    intro X Y hX hXY
    have e : Y * M = -(X * M + M) := by rw [show Y = -(X + 1) by omega]; ring
    have p : 0 ≤ X * M := mul_nonneg hX h0
    rw [e, Int.neg_tdiv, Int.tdiv_eq_ediv_of_nonneg p, Int.tdiv_eq_ediv_of_nonneg (by omega)]
    have h1 : X * M / N ≤ (X * M + M) / N := Int.ediv_le_ediv hN (by omega)
    have h2 : (X * M + M) / N ≤ (X * M + N) / N := Int.ediv_le_ediv hN (by omega)
    rw [show X * M + N = X * M + 1 * N by ring, Int.add_mul_ediv_right _ _ hN.ne'] at h2
    omega
  rcases le_total 0 X with h | h
  · exact key X Y h hXY
  · rcases eq_or_lt_of_le h with h | h
    · exact key X Y h.ge hXY
    · have := key Y X (by omega) (by omega)
      omega

theorem not_step {N A B X Y M d : ℤ} (hN : 0 < N) (hXY : X + Y = -1) (h0 : 0 ≤ M) (hM : M ≤ N)
    (hd : 0 ≤ d) (h1 : -d ≤ A + B) (h2 : A + B ≤ 0) :
    let cl := clampZ (-(N + 1)) N;
    -(d + 1) ≤ cl (A + cl ((X * M).tdiv N)) + cl (B + cl ((Y * M).tdiv N)) ∧
    cl (A + cl ((X * M).tdiv N)) + cl (B + cl ((Y * M).tdiv N)) ≤ 0 := by
  intro cl
  obtain ⟨p1, p2⟩ := not_prod hN hXY h0 hM
  generalize (X * M).tdiv N = T at *
  generalize (Y * M).tdiv N = U at *
  simp only [cl, clampZ]
  omega

theorem weight8 {w : F64} (hw : ∃ ω, w.Is ω ∧ 0 ≤ ω ∧ |ω| ≤ 2 ^ (100:ℤ)) :
    0 ≤ BitVec.toInt (ChTy.ch8.ofF64 w : Ch8) ∧ BitVec.toInt (ChTy.ch8.ofF64 w : Ch8) ≤ 127 := by
  obtain ⟨ω, h1, h2, -⟩ := hw
  have h := wF_nonneg .ch8 h2
  simp only [wF] at h
  rw [← ofF64_ch8_is h1] at h
  have := BitVec.toInt_lt (x := (ChTy.ch8.ofF64 w : Ch8))
  exact ⟨by exact_mod_cast h, by omega⟩

theorem weight16 {w : F64} (hw : ∃ ω, w.Is ω ∧ 0 ≤ ω ∧ |ω| ≤ 2 ^ (100:ℤ)) :
    0 ≤ BitVec.toInt (ChTy.ch16.ofF64 w : Ch16) ∧ BitVec.toInt (ChTy.ch16.ofF64 w : Ch16) ≤ 32767 := by
  obtain ⟨ω, h1, h2, -⟩ := hw
  have h := wF_nonneg .ch16 h2
  simp only [wF] at h
  rw [← ofF64_ch16_is h1] at h
  have := BitVec.toInt_lt (x := (ChTy.ch16.ofF64 w : Ch16))
  exact ⟨by exact_mod_cast h, by omega⟩

theorem FrameAnti.weigh (hc : c = .ch8 ∨ c = .ch16) {a b x y : Frame k c} (h : FrameAnti 1 a b) (h' : FrameOpp x y) {w : F64}
    (hw : ∃ ω, w.Is ω ∧ 0 ≤ ω ∧ |ω| ≤ 2 ^ (100:ℤ)) :
    FrameAnti 1 (a.add (x.mul (Frame.ofF64 w))) (b.add (y.mul (Frame.ofF64 w))) := by
  intro i hi
  simp only [add_mul_get]
  obtain ⟨p, q, a1, a2, a3, a4⟩ := h i hi
  obtain ⟨-, -, r, b3, b4⟩ := h' i hi
  generalize a[i] = A at *
  generalize b[i] = B at *
  generalize x[i] = X at *
  generalize y[i] = Y at *
  rcases hc with rfl | rfl
  · obtain ⟨w1, w2⟩ := weight8 hw
    change p = (BitVec.toInt A : ℚ) at a1
    change q = (BitVec.toInt B : ℚ) at a2
    change r = (BitVec.toInt X : ℚ) at b3
    change -r = (BitVec.toInt Y : ℚ) at b4
    have e : BitVec.toInt X + BitVec.toInt Y = 0 := by
      have : (BitVec.toInt X : ℚ) + BitVec.toInt Y = 0 := by linarith
      exact_mod_cast this
    have hx := BitVec.toInt_lt (x := (X : Ch8))
    have hy := BitVec.toInt_lt (x := (Y : Ch8))
    obtain ⟨s1, s2⟩ := anti_step (N := 127) (A := BitVec.toInt A) (B := BitVec.toInt B) (by norm_num)
      (abs_le.mpr ⟨by omega, by omega⟩) e w1 w2
      (by rw [a1, a2] at a3; exact_mod_cast a3) (by rw [a1, a2] at a4; exact_mod_cast a4)
    refine ⟨_, _, rfl, rfl, ?_, ?_⟩ <;>
      rw [C01_ch8_add, C01_ch8_add, (C02_ch8 _ _).2, (C02_ch8 _ _).2]
    · exact_mod_cast s1
    · exact_mod_cast s2
  · obtain ⟨w1, w2⟩ := weight16 hw
    change p = (BitVec.toInt A : ℚ) at a1
    change q = (BitVec.toInt B : ℚ) at a2
    change r = (BitVec.toInt X : ℚ) at b3
    change -r = (BitVec.toInt Y : ℚ) at b4
    have e : BitVec.toInt X + BitVec.toInt Y = 0 := by
      have : (BitVec.toInt X : ℚ) + BitVec.toInt Y = 0 := by linarith
      exact_mod_cast this
    have hx := BitVec.toInt_lt (x := (X : Ch16))
    have hy := BitVec.toInt_lt (x := (Y : Ch16))
    obtain ⟨s1, s2⟩ := anti_step (N := 32767) (A := BitVec.toInt A) (B := BitVec.toInt B) (by norm_num)
      (abs_le.mpr ⟨by omega, by omega⟩) e w1 w2
      (by rw [a1, a2] at a3; exact_mod_cast a3) (by rw [a1, a2] at a4; exact_mod_cast a4)
    refine ⟨_, _, rfl, rfl, ?_, ?_⟩ <;>
      rw [C01_ch16_add, C01_ch16_add, (C02_ch16 _ _).2, (C02_ch16 _ _).2]
    · exact_mod_cast s1
    · exact_mod_cast s2

theorem FrameAnti.weigh_not (hc : c = .ch8 ∨ c = .ch16) {d : Nat} {a b x y : Frame k c} (h : FrameAnti d a b)
    (h' : y = x.neg) {w : F64} (hw : ∃ ω, w.Is ω ∧ 0 ≤ ω ∧ |ω| ≤ 2 ^ (100:ℤ)) :
    FrameAnti (d + 1) (a.add (x.mul (Frame.ofF64 w))) (b.add (y.mul (Frame.ofF64 w))) := by
  intro i hi
  simp only [add_mul_get]
  obtain ⟨p, q, a1, a2, a3, a4⟩ := h i hi
  have b3 : y[i] = c.neg x[i] := by rw [h', Frame.neg, Vector.getElem_map]
  rw [b3]
  generalize a[i] = A at *
  generalize b[i] = B at *
  generalize x[i] = X at *
  rcases hc with rfl | rfl
  · obtain ⟨w1, w2⟩ := weight8 hw
    change p = (BitVec.toInt A : ℚ) at a1
    change q = (BitVec.toInt B : ℚ) at a2
    have e : BitVec.toInt X + BitVec.toInt (ChTy.ch8.neg X : Ch8) = -1 := by rw [(C04_ch8 X).2]; omega
    obtain ⟨s1, s2⟩ := not_step (N := 127) (A := BitVec.toInt A) (B := BitVec.toInt B) (d := d) (by norm_num)
      e w1 w2 (by positivity) (by rw [a1, a2] at a3; exact_mod_cast a3) (by rw [a1, a2] at a4; exact_mod_cast a4)
    refine ⟨_, _, rfl, rfl, ?_, ?_⟩ <;>
      rw [C01_ch8_add, C01_ch8_add, (C02_ch8 _ _).2, (C02_ch8 _ _).2]
    · exact_mod_cast s1
    · exact_mod_cast s2
  · obtain ⟨w1, w2⟩ := weight16 hw
    change p = (BitVec.toInt A : ℚ) at a1
    change q = (BitVec.toInt B : ℚ) at a2
    have e : BitVec.toInt X + BitVec.toInt (ChTy.ch16.neg X : Ch16) = -1 := by rw [(C04_ch16 X).2]; omega
    obtain ⟨s1, s2⟩ := not_step (N := 32767) (A := BitVec.toInt A) (B := BitVec.toInt B) (d := d) (by norm_num)
      e w1 w2 (by positivity) (by rw [a1, a2] at a3; exact_mod_cast a3) (by rw [a1, a2] at a4; exact_mod_cast a4)
    refine ⟨_, _, rfl, rfl, ?_, ?_⟩ <;>
      rw [C01_ch16_add, C01_ch16_add, (C02_ch16 _ _).2, (C02_ch16 _ _).2]
    · exact_mod_cast s1
    · exact_mod_cast s2

theorem FrameAnti.dflt (hc : c = .ch8 ∨ c = .ch16) (d : Nat) : FrameAnti d (Frame.dflt : Frame k c) Frame.dflt := by
  intro i hi
  rw [dflt_get]
  refine ⟨0, 0, ?_, ?_, by simp, by simp⟩ <;> rcases hc with rfl | rfl <;> (change (0:ℚ) = _; decide +kernel)

/-- C83, integer formats: if the samples of two streams are opposite numbers, then those of the result are opposite to within
one unit.  Ratios from 0 to `2^99`, offsets that are not negative. -/
theorem C83_int {fuel fuel' : Nat} {s s' t t' : Sink k c} {st : Src k1 c1} {st2 : Src k3 c3} {it it2}
    (hc : c = .ch8 ∨ c = .ch16)
    (h : s.stream fuel st = .ok (s', it)) (h2 : t.stream fuel' st2 = .ok (t', it2))
    (hr : t.rate = s.rate) (ho : t.res.offseti = s.res.offseti) (hb : t.buf.length = s.buf.length)
    (hr2 : st2.rate = st.rate) (hl2 : st2.len = st.len)
    {r o : ℚ} (hq : (ratioOf s.rate st.rate).Is r) (hr0 : 0 ≤ r) (hr1 : r ≤ 2 ^ (99:ℤ))
    (hoff : s.res.offseti.Is o) (ho0 : 0 ≤ o)
    (hst : ∀ j f f2 (x y : Frame k c), st.nth j = .ok (some f) → st2.nth j = .ok (some f2) →
      f.convert c = .ok x → f2.convert c = .ok y → FrameOpp x y) :
    (∀ x, InDst (ratioOf s.rate st.rate) st.len s.buf.length x →
      ∃ a b, s'.buf[x]? = some a ∧ t'.buf[x]? = some b ∧ FrameAnti 1 a b) ∧
    (FrameAnti 1 s.res.partial_ t.res.partial_ → FrameAnti 1 s'.res.partial_ t'.res.partial_) := by
  set d := dstEnd (ratioOf s.rate st.rate) st.len s.buf.length with hd
  obtain ⟨n, _, h3, h4⟩ := stream_rel h h2 hr ho hb hr2 hl2
    (fun o a b => match o with
      | some x => x < d → FrameAnti 1 a b
      | none => FrameAnti 1 s.res.partial_ t.res.partial_ → FrameAnti 1 a b)
  obtain ⟨e1, e2, e3⟩ := h4 (by
    intro j hj f f2 x y n1 n2 c1 c2
    have hxy := hst j f f2 x y n1 n2 c1 c2
    obtain ⟨w1, w2⟩ := weights_nonneg hq hr0 hr1 hoff ho0 j
    refine ⟨fun a b hab hx => (hab hx).weigh hc hxy w2, fun o _ a b hab => ?_⟩
    cases o with
    | none => exact fun hx => (hab hx).weigh hc hxy w1
    | some z => exact fun hx => (hab hx).weigh hc hxy w1)
    (prepare_rel (dstEnd_le _ _ _) hb (fun hp => hp) (fun _ _ _ => FrameAnti.dflt hc 1)
      (fun hz a b ha hb hx => by omega) (fun x hx _ a b ha hb hx' => by omega))
  refine ⟨fun x hx => ?_, e3⟩
  have g1 : s'.buf[x]? = some (s'.buf[x]'(by rw [(C36_stream _ _ _ _ _ h).1]; exact hx.1)) :=
    List.getElem?_eq_getElem _
  have g2 : t'.buf[x]? = some (t'.buf[x]'(by rw [(C36_stream _ _ _ _ _ h2).1, hb]; exact hx.1)) :=
    List.getElem?_eq_getElem _
  exact ⟨_, _, g1, g2, e2 x _ _ g1 g2 (inDst_iff.mp hx)⟩

/-- The opposite of `exRow`. -/
def exMirror : Audio .mono .ch8 := ⟨lit 12, [#v[-100#8], #v[-50#8], #v[-25#8], #v[0#8], #v[100#8]]⟩
/-- `!` of `exRow`. -/
def exNotted : Audio .mono .ch8 := ⟨lit 12, [#v[-101#8], #v[-51#8], #v[-26#8], #v[-1#8], #v[99#8]]⟩

example := C83_int (s := exSink 4 8) (t := exSink 4 8) (st := .audio exRow) (st2 := .audio exMirror) (.inl rfl)
  (R.returns₂ (x := (exSink 4 8).stream 6 (.audio exRow)) (by decide +kernel))
  (R.returns₂ (x := (exSink 4 8).stream 6 (.audio exMirror)) (by decide +kernel)) rfl rfl rfl rfl rfl
  (r := Fmt.rnd binary64 (2 / 3)) (o := 0) (by decide +kernel) (by decide +kernel) (by decide +kernel) (by decide +kernel)
  (by norm_num) (by
    intro j f f2 x y hf hf2 hx hy
    match j with
    | 0 => cases hf; cases hf2; cases hx; cases hy; exact frameOpp_of 100 (by decide +kernel)
    | 1 => cases hf; cases hf2; cases hx; cases hy; exact frameOpp_of 50 (by decide +kernel)
    | 2 => cases hf; cases hf2; cases hx; cases hy; exact frameOpp_of 25 (by decide +kernel)
    | 3 => cases hf; cases hf2; cases hx; cases hy; exact frameOpp_of 0 (by decide +kernel)
    | 4 => cases hf; cases hf2; cases hx; cases hy; exact frameOpp_of (-100) (by decide +kernel)
    | j + 5 => cases hf)

/-- The bound is reached: where the sum clips, the results are 127 and -128. -/
theorem C83_int_tight :
    let run := fun (p w : Ch8) => ((⟨lit 4, ⟨#v[p], lit 0⟩, List.replicate 3 #v[9#8]⟩ : Sink .mono .ch8).stream 9
      (.audio (k := .mono) (c := .ch8) ⟨lit 8, List.replicate 4 #v[w]⟩)).map (fun r => (r.1.buf, r.1.res.partial_))
    run 100#8 60#8 = .ok ([#v[29#8], #v[58#8], #v[9#8]], #v[127#8]) ∧
    run (-100#8) (-60#8) = .ok ([#v[-29#8], #v[-58#8], #v[9#8]], #v[-128#8]) := by
  constructor <;> decide +kernel

/-- C83, integer formats: if the samples of the second stream are those of the first, inverted by `!`, then a slot of the
result is the opposite, or lower by at most one unit for each time that a frame was added. -/
theorem C83_not {fuel fuel' : Nat} {s s' t t' : Sink k c} {st : Src k1 c1} {st2 : Src k3 c3} {it it2}
    (hc : c = .ch8 ∨ c = .ch16)
    (h : s.stream fuel st = .ok (s', it)) (h2 : t.stream fuel' st2 = .ok (t', it2))
    (hr : t.rate = s.rate) (ho : t.res.offseti = s.res.offseti) (hb : t.buf.length = s.buf.length)
    (hr2 : st2.rate = st.rate) (hl2 : st2.len = st.len)
    {r o : ℚ} (hq : (ratioOf s.rate st.rate).Is r) (hr0 : 0 ≤ r) (hr1 : r ≤ 2 ^ (99:ℤ))
    (hoff : s.res.offseti.Is o) (ho0 : 0 ≤ o)
    (hst : ∀ j f f2 (x y : Frame k c), st.nth j = .ok (some f) → st2.nth j = .ok (some f2) →
      f.convert c = .ok x → f2.convert c = .ok y → y = x.neg) :
    ∃ n, Takes (ratioOf s.rate st.rate) s.res.offseti st.len s.buf.length n ∧
      ∀ x, InDst (ratioOf s.rate st.rate) st.len s.buf.length x → ∃ a b, s'.buf[x]? = some a ∧ t'.buf[x]? = some b ∧
        FrameAnti (hits (ratioOf s.rate st.rate) s.res.offseti x n) a b := by
  obtain ⟨n, g, a1, a2, a3, -⟩ := C58_mix fuel s s' st it h
  obtain ⟨m, g', b1, b2, b3, -⟩ := C58_mix fuel' t t' st2 it2 h2
  rw [hr, hr2, hl2, ho, hb] at b1 b3
  cases takes_unique a1 b1
  refine ⟨n, a1, fun x hx => ⟨_, _, a3 x hx, b3 x hx, ?_⟩⟩
  have key : ∀ m, m ≤ n → FrameAnti (hits (ratioOf s.rate st.rate) s.res.offseti x m)
      (mixed (ratioOf s.rate st.rate) s.res.offseti g x m Frame.dflt)
      (mixed (ratioOf s.rate st.rate) s.res.offseti g' x m Frame.dflt) := by
    intro m
    induction m with
    | zero => intro _; exact FrameAnti.dflt hc 0
    | succ m ih =>
      intro hm
      obtain ⟨w1, w2⟩ := weights_nonneg hq hr0 hr1 hoff ho0 m
      obtain ⟨f, f1, f2⟩ := a2 m (by omega)
      obtain ⟨f', f1', f2'⟩ := b2 m (by omega)
      have hg := hst m f f' _ _ f1 f1' f2 f2'
      have h0 := ih (by omega)
      simp only [mixed, hits]
      split_ifs
      · exact (h0.weigh_not hc hg w2).weigh_not hc hg w1
      · exact h0.weigh_not hc hg w2
      · exact h0.weigh_not hc hg w1
      · exact h0
  exact key n le_rfl

example := C83_not (s := exSink 4 8) (t := exSink 4 8) (st := .audio exRow) (st2 := .audio exNotted) (.inl rfl)
  (R.returns₂ (x := (exSink 4 8).stream 6 (.audio exRow)) (by decide +kernel))
  (R.returns₂ (x := (exSink 4 8).stream 6 (.audio exNotted)) (by decide +kernel)) rfl rfl rfl rfl rfl
  (r := Fmt.rnd binary64 (2 / 3)) (o := 0) (by decide +kernel) (by decide +kernel) (by decide +kernel) (by decide +kernel)
  (by norm_num) (by
    intro j f f2 x y hf hf2 hx hy
    match j with
    | 0 | 1 | 2 | 3 | 4 => cases hf; cases hf2; cases hx; cases hy; decide +kernel
    | j + 5 => cases hf)

end Fon
