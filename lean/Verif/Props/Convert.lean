import Verif.Spec.Convert
import Verif.Props.Layout
import Verif.Props.Downmix

/-!
# Changing the format before resampling, or while
-/

namespace Fon
open Fon.Fl hiding min max
open Fon.Fmt Fon.Sink
variable {k k1 : Kind} {c c1 d : ChTy}

/-- Samples that hold the same number, in range. -/
def SameVal (c : ChTy) (x y : c.T) : Prop := Valid c x ∧ Valid c y ∧ ∃ q, Stored c x q ∧ Stored c y q

theorem SameVal.weigh {a b x y : c.T} (h : SameVal c a b) (h' : SameVal c x y) {w : F64} {ω : ℚ} (hw : w.Is ω)
    (hω : |ω| ≤ 2 ^ (100:ℤ)) : SameVal c (c.add a (c.mul x (c.ofF64 w))) (c.add b (c.mul y (c.ofF64 w))) := by
  obtain ⟨v1, v2, q, s1, s2⟩ := h
  obtain ⟨u1, u2, p, t1, t2⟩ := h'
  exact ⟨Valid.add, Valid.add, _, stored_weigh v1 u1 s1 t1 hw hω, stored_weigh v2 u2 s2 t2 hw hω⟩

example := SameVal.weigh (c := .ch8) (a := 5#8) (b := 5#8) (x := 9#8) (y := 9#8) ⟨trivial, trivial, 5, by decide, by decide⟩
  ⟨trivial, trivial, 9, by decide, by decide⟩ (w := lit 0.5) (ω := 0.5) (by decide +kernel) (by decide +kernel)

theorem SameVal.same {x y : c.T} (h : SameVal c x y) (q : ℚ) : Stored c x q ↔ Stored c y q := by
  obtain ⟨_, _, p, h1, h2⟩ := h
  exact ⟨fun h => Stored.unique h h1 ▸ h2, fun h => Stored.unique h h2 ▸ h1⟩

example := SameVal.same (c := .ch64) (x := lit 0) (y := (lit 0).neg) ⟨by decide +kernel, by decide +kernel, 0, by decide +kernel,
  by decide +kernel⟩ 0

theorem arrives_val {x y : c.T} (v : Valid c x) (h : Arrives c x y) : SameVal c x y := by
  obtain ⟨p, hp, _⟩ := v.stored
  have fl : ∀ {f : Fmt} {x y : Fl f}, x.InRange → x.Is p → (∀ p, x.Is p → y.Is (clampQ p)) → y.Is p ∧ y.InRange := by
    rintro f x y ⟨q, h1, h2, h3⟩ hx hy
    cases h1.unique hx
    have := hy _ hx
    rw [clampQ, min_eq_right h3, max_eq_right h2] at this
    exact ⟨this, _, this, h2, h3⟩
  cases c
  · cases h; exact ⟨trivial, trivial, p, hp, hp⟩
  · cases h; exact ⟨trivial, trivial, p, hp, hp⟩
  · obtain ⟨h1, h2⟩ := fl v hp h.1; exact ⟨v, h2, p, hp, h1⟩
  · obtain ⟨h1, h2⟩ := fl v hp h.1; exact ⟨v, h2, p, hp, h1⟩

example := arrives_val (c := .ch32) (x := lit 0.5) (y := lit 0.5) (by decide +kernel) (by
  constructor
  · intro p hp
    cases Fl.Is.unique hp (by decide +kernel : (lit 0.5 : F32).Is 0.5)
    decide +kernel
  · exact fun h => absurd (by decide +kernel : (lit 0.5 : F32).Is 0.5) (h 0.5))

/-- What C132 needs of the stream and the buffer made from it. -/
theorem same_rate (b : Audio k c) (st : Src k1 c1) (l : Nat) (hl : st.len = some l) (hl' : l < 2 ^ 51)
    (hk : k.builtin = true) (hk1 : k1.builtin = true) (hs : st.safe = true) (hp : st.playable) {sr : F64} (hsr : st.rate = some sr)
    {ρ : ℚ} (hρ : sr.Is ρ) (h0 : ρ ≠ 0) (hrep : binary64.Rep (ρ * l)) (hf : (Audio.withFrames sr [] : Audio k c).Fits l)
    (hb : Audio.withStream sr st = .ok b) : b.rate = sr ∧ b.len = l ∧
      ∀ j, j < l → ∃ src f y, st.nth j = .ok (some src) ∧ src.convert c = .ok f ∧ b.get j = some y ∧ FrameArrives f y := by
  obtain ⟨b', itb, c1', c2, c3, _, c5⟩ := C50_partial (Audio.withFrames sr [] : Audio k c) st l hl hl' hk hk1 hs hp (by
    intro z hz
    rw [hsr] at hz
    cases hz
    exact ⟨ρ, hρ, hρ, h0, hrep⟩) hf
  have : b' = b := by
    unfold Audio.withStream at hb
    rw [c1'] at hb
    exact Except.ok.inj hb
  subst this
  refine ⟨c2, by simpa [Audio.withFrames, Audio.len] using c3, fun j hj => ?_⟩
  obtain ⟨src, f, y, h1, h2, h3, h4⟩ := c5 j hj
  rw [show (Audio.withFrames sr [] : Audio k c).len + j = j from Nat.zero_add j] at h3
  exact ⟨src, f, y, h1, h2, h3, h4⟩

/-- Four stereo samples at 12 Hz. -/
def exFour : Audio .stereo .ch16 := ⟨lit 12, [#v[100#16, 7000#16], #v[-2000#16, 40#16], #v[7#16, 900#16], #v[300#16, 300#16]]⟩

example := same_rate (k := .mono) (c := .ch8) _ (.audio exFour) 4 rfl (by norm_num) rfl rfl rfl (by decide) (sr := lit 12)
  rfl (ρ := 12) (by decide +kernel) (by norm_num) (by exact_mod_cast rep_nat53 (n := 12 * 4) (by norm_num)) (by decide +kernel)
  (R.returns (x := (Audio.withStream (lit 12) (.audio exFour) : R (Audio .mono .ch8))) (by decide +kernel))

/-- C132: converting a stream to the format and layout of an audio buffer first, at its own rate, and then extending the buffer
with the result gives the samples that extending the buffer with the stream gives. -/
theorem C132_first (a b x y : Audio k c) (st : Src k1 c1) (l : Nat) (hl : st.len = some l) (hl' : l < 2 ^ 51)
    (hk : k.builtin = true) (hk1 : k1.builtin = true) (hs : st.safe = true) (hp : st.playable) {sr : F64} (hsr : st.rate = some sr)
    {ρ : ℚ} (hρ : sr.Is ρ) (h0 : ρ ≠ 0) (hrep : binary64.Rep (ρ * l))
    (hv : ∀ j f (g : Frame k c), st.nth j = .ok (some f) → f.convert c = .ok g → ∀ i (hi : i < k.chans), Valid c g[i])
    {r : ℚ} (hq : (ratioOf a.rate (some sr)).Is r) (hr : |r| ≤ 2 ^ (99:ℤ)) (hf : (Audio.withFrames sr [] : Audio k c).Fits l)
    (hb : Audio.withStream sr st = .ok b) {it it2} (hx : a.extend st = (x, .ok it)) (hy : a.extend (.audio b) = (y, .ok it2)) :
    x.rate = y.rate ∧ x.len = y.len ∧ ∀ i f g, x.get i = some f → y.get i = some g → FrameSame f g := by
  obtain ⟨c2, hbl, c5⟩ := same_rate b st l hl hl' hk hk1 hs hp hsr hρ h0 hrep hf hb
  have e1 : a.extendInternal st = .ok (x, it) := by
    unfold Audio.extend at hx
    cases he : a.extendInternal st with
    | error e => rw [he] at hx; cases hx
    | ok p => rw [he] at hx; cases hx; rfl
  have e2 : a.extendInternal (.audio b) = .ok (y, it2) := by
    unfold Audio.extend at hy
    cases he : a.extendInternal (.audio b) with
    | error e => rw [he] at hy; cases hy
    | ok p => rw [he] at hy; cases hy; rfl
  obtain ⟨r1, r2, d, l1, l2, hrel⟩ := extend_rel e1 e2 rfl (by rw [hsr]; exact congrArg some c2)
    (by rw [hl]; exact congrArg some hbl) (fun f g => ∀ i (hi : i < k.chans), SameVal c f[i] g[i])
    (by
      intro i hi
      rw [dflt_get]
      have v := (Valid.consts c).2.2.2
      obtain ⟨p, hp, _⟩ := v.stored
      exact ⟨v, v, p, hp, hp⟩)
    (by
      intro j f f2 x y n1 n2 g1 g2 a0 b0 hab
      rw [C21_id hk] at g2
      cases g2
      have nj : b.frames[j]? = some f2 := Except.ok.inj n2
      have hj : j < l := by
        rw [← hbl]
        exact (List.getElem?_eq_some_iff.mp nj).1
      obtain ⟨src, f', y', m1, m2, m3, m4⟩ := c5 j hj
      rw [n1] at m1
      cases m1
      rw [g1] at m2
      cases m2
      have : y' = f2 := by
        exact Option.some.inj (m3.symm.trans nj)
      subst this
      have hxy : ∀ i (hi : i < k.chans), SameVal c x[i] y'[i] := fun i hi => arrives_val (hv j f x n1 g1 i hi) (m4 i hi)
      obtain ⟨⟨u, h1, h2⟩, ⟨v, h3, h4⟩⟩ := weights_bound hq hr (lit 0) j
      rw [hsr]
      constructor
      · intro i hi
        simp only [add_mul_get]
        exact (hab i hi).weigh (hxy i hi) h3 h4
      · intro i hi
        simp only [add_mul_get]
        exact (hab i hi).weigh (hxy i hi) h1 h2)
  refine ⟨r1.trans r2.symm, by rw [l1, l2], fun i f g hf hg => ?_⟩
  rcases Nat.lt_or_ge i a.len with hi | hi
  · have k1 := (C48_keeps a x st it hx).2.1 i hi
    have k2 := (C48_keeps a y _ it2 hy).2.1 i hi
    rw [hf] at k1
    rw [hg, ← k1] at k2
    cases k2
    exact fun _ _ _ => Iff.rfl
  · obtain ⟨m, rfl⟩ := Nat.exists_eq_add_of_le hi
    exact fun i hi q => (hrel m f g hf hg i hi).same q

/-- Four stereo samples of 16 bit at 12 Hz into a mono buffer of 8 bit at 8 Hz. -/
example := C132_first (k := .mono) (c := .ch8) ⟨lit 8, [#v[5#8]]⟩ _ _ _ (.audio exFour) 4 rfl (by norm_num) rfl rfl rfl (by decide)
  (sr := lit 12) rfl (ρ := 12) (by decide +kernel) (by norm_num) (by exact_mod_cast rep_nat53 (n := 12 * 4) (by norm_num))
  (fun _ _ _ _ _ _ _ => trivial) (r := binary64.rnd (2 / 3)) (by decide +kernel) (by decide +kernel) (by decide +kernel)
  (R.returns (x := (Audio.withStream (lit 12) (.audio exFour) : R (Audio .mono .ch8))) (by decide +kernel))
  (R.returnsSnd (x := (⟨lit 8, [#v[5#8]]⟩ : Audio .mono .ch8).extend (.audio exFour)) (by decide +kernel))
  (R.returnsSnd (x := (⟨lit 8, [#v[5#8]]⟩ : Audio .mono .ch8).extend (.audio
    (R.out (Audio.withStream (lit 12) (.audio exFour) : R (Audio .mono .ch8)) (by decide +kernel)))) (by decide +kernel))

/-- C132: converting first has no influence on whether `extend` panics. -/
theorem C132_panics (a b : Audio k c) (st : Src k1 c1) (l : Nat) (hl : st.len = some l) (hl' : l < 2 ^ 51)
    (hk : k.builtin = true) (hk1 : k1.builtin = true) (hs : st.safe = true) (hp : st.playable) {sr : F64} (hsr : st.rate = some sr)
    {ρ : ℚ} (hρ : sr.Is ρ) (h0 : ρ ≠ 0) (hrep : binary64.Rep (ρ * l)) (hf : (Audio.withFrames sr [] : Audio k c).Fits l)
    (hf' : a.Fits (Audio.dstLen a.rate l (some sr))) (hb : Audio.withStream sr st = .ok b) :
    (∃ e, (a.extend st).2 = .error e) ↔ ∃ e, (a.extend (.audio b)).2 = .error e := by
  obtain ⟨c2, hbl, -⟩ := same_rate b st l hl hl' hk hk1 hs hp hsr hρ h0 hrep hf hb
  have hr : (Src.audio b).rate = some sr := congrArg some c2
  rw [C51_iff a st l hl hk hk1 hs hp (by rw [hsr]; exact hf'),
    C51_iff a (.audio b) l (congrArg some hbl) hk hk rfl (.inl (by rw [hr]; simp)) (by rw [hr]; exact hf'), hr, hsr]

/-- Seven frames from 7 Hz to 29 Hz, where both panic. -/
example : ∃ e, ((⟨lit 29, []⟩ : Audio .mono .ch16).extend (.audio
    (R.out (Audio.withStream (lit 7) (.audio ⟨lit 7, List.replicate 7 #v[1#8]⟩ : Src .mono .ch8) : R (Audio .mono .ch16))
      (by decide +kernel)))).2 = .error e :=
  (C132_panics (k := .mono) (c := .ch16) ⟨lit 29, []⟩ _ (.audio (k := .mono) (c := .ch8) ⟨lit 7, List.replicate 7 #v[1#8]⟩) 7 rfl
    (by norm_num) rfl rfl rfl (by decide) rfl (ρ := 7) (by decide +kernel) (by norm_num)
    (by exact_mod_cast rep_nat53 (n := 7 * 7) (by norm_num)) (by decide +kernel) (by decide +kernel)
    (R.returns (by decide +kernel))).mp (by
      have h : ((⟨lit 29, []⟩ : Audio .mono .ch16).extend (.audio (k := .mono) (c := .ch8) ⟨lit 7, List.replicate 7 #v[1#8]⟩)).2.toBool
          = false := by decide +kernel
      revert h
      generalize ((⟨lit 29, []⟩ : Audio .mono .ch16).extend (.audio (k := .mono) (c := .ch8) ⟨lit 7, List.replicate 7 #v[1#8]⟩)).2 = x
      cases x <;> simp [Except.toBool])

/-- C132 needs samples in range: converting first clamps a sample of 4, and resampling without converting first does not. -/
theorem C132_range : ∃ (a b : Audio .mono .ch64) (st : Src .mono .ch64), Audio.withStream (lit 12) st = .ok b ∧
    st.rate = some (lit 12) ∧ (a.extend st).1.get 1 = some #v[lit 0.5] ∧ (a.extend (.audio b)).1.get 1 = some #v[lit 0] :=
  ⟨⟨lit 6, []⟩, _, .audio ⟨lit 12, [#v[lit (-1)], #v[lit 4], #v[lit (-1)], #v[lit (-1)]]⟩,
    R.returns (by decide +kernel), rfl, by decide +kernel, by decide +kernel⟩

/-! ## Changing the format after resampling -/

/-- The two scales of samples. -/
theorem scale_err {x : c.T} {u p : ℚ} (h : SampleVal c x u) (hp : (c.toF64 x).Is p) : |p - u| ≤ scaleErr c := by
  have hu : binary64.u = 2 ^ (-53:ℤ) := rfl
  cases c
  · have e := ofCh8_err (f := binary64) x
    have r := i8_range x
    rw [hp.unique (ofCh8_is (f := binary64) x), show u = (BitVec.toInt x : ℚ) / 127 from h]
    rw [hu] at e
    have r1 : (-128:ℚ) ≤ BitVec.toInt x := by exact_mod_cast r.1
    have r2 : (BitVec.toInt x : ℚ) ≤ 127 := by exact_mod_cast r.2
    generalize convV binary64 255 (BitVec.toInt x) = y at *
    rw [show scaleErr .ch8 = 1 / 127 + 2 ^ (-49:ℤ) from rfl]
    rw [abs_le] at *
    norm_num at *
    constructor <;> linarith [e.1, e.2]
  · have e := ofCh16_err (f := binary64) x
    have r := i16_range x
    rw [hp.unique (ofCh16_is (f := binary64) x), show u = (BitVec.toInt x : ℚ) / 32767 from h]
    rw [hu] at e
    have r1 : (-32768:ℚ) ≤ BitVec.toInt x := by exact_mod_cast r.1
    have r2 : (BitVec.toInt x : ℚ) ≤ 32767 := by exact_mod_cast r.2
    generalize convV binary64 65535 (BitVec.toInt x) = y at *
    rw [show scaleErr .ch16 = 1 / 32767 + 2 ^ (-49:ℤ) from rfl]
    rw [abs_le] at *
    norm_num at *
    constructor <;> linarith [e.1, e.2]
  · rw [hp.unique (widen_is h), sub_self, abs_zero]; exact le_rfl
  · rw [hp.unique h, sub_self, abs_zero]; exact le_rfl

example := scale_err (c := .ch8) (x := -128#8) (u := -128 / 127) (p := -1) rfl (by decide +kernel)

/-- The error of a conversion in the scale of the resampler. -/
theorem conv_val {x : c.T} {u : ℚ} (h : SampleVal c x u) (v : Valid c x) :
    ∃ w, SampleVal d (Frame.chanConv d x) w ∧ |w - u| ≤ convErr c d := by
  obtain ⟨p, hp, hp1⟩ := Valid.toF64 v
  have v' : Valid d (Frame.chanConv d x) := Valid.ofF64 ⟨p, hp, hp1⟩
  obtain ⟨m, hm, hm1⟩ := Valid.toF64 v'
  have key : |m - p| ≤ downErr d := by
    cases d
    · obtain ⟨b, b1, b2⟩ := C13_ch8 _ p hp hp1.1 hp1.2
      rw [hm.unique b1]
      exact b2.trans (by norm_num [downErr])
    · obtain ⟨b, b1, b2⟩ := C13_ch16 _ p hp hp1.1 hp1.2
      rw [hm.unique b1]
      exact b2.trans (by norm_num [downErr])
    · have b1 := widen_is (hp.cast binary32 (small ((abs_le.mpr hp1).trans (by norm_num))))
      rw [hm.unique b1]
      refine (err_lt_u (f := binary32) (q := p) 1 (lt_of_le_of_lt (abs_le.mpr hp1) (by norm_num)) (by norm_num)).trans ?_
      have : binary32.u = 2 ^ (-24:ℤ) := rfl
      rw [this]
      norm_num [downErr]
    · rw [hm.unique hp, sub_self, abs_zero]
      norm_num [downErr]
  obtain ⟨w, hw⟩ : ∃ w, SampleVal d (Frame.chanConv d x) w := by
    cases d
    · exact ⟨_, rfl⟩
    · exact ⟨_, rfl⟩
    · obtain ⟨q, hq, _⟩ := v'; exact ⟨q, hq⟩
    · obtain ⟨q, hq, _⟩ := v'; exact ⟨q, hq⟩
  refine ⟨w, hw, ?_⟩
  have e1 := scale_err h hp
  have e2 := scale_err hw hm
  rw [convErr]
  rw [abs_le] at *
  constructor <;> linarith [e1.1, e1.2, e2.1, e2.2, key.1, key.2]

example := conv_val (c := .ch16) (d := .ch8) (x := 12345#16) rfl trivial

/-- C132 for a change of the format after resampling, for downsampling and equal rates: streaming into a sink of another format
gives what streaming into a sink of the format of the stream and converting its slots gives, up to the errors of `C59_box` in
the two formats and of two conversions. -/
theorem C132_down (fuel fuel' : Nat) (s s' : Sink k c) (t t' : Sink k d) (st : Src k c) (it it' : It k c)
    (hk : k.builtin = true) (h : s.stream fuel st = .ok (s', it)) (h' : t.stream fuel' st = .ok (t', it'))
    (hrt : t.rate = s.rate) (hbt : t.buf.length = s.buf.length)
    (ho : s.res.offseti = lit 0) (ho' : t.res.offseti = lit 0) (r : ℚ)
    (hq : (ratioOf s.rate st.rate).Is r) (hr : 0 < r) (hr1 : r ≤ 1) (hb : (s.buf.length : ℚ) + 1 ≤ r * 2 ^ 52)
    (hw : ∀ j f, st.nth j = .ok (some f) → ∀ i (hi : i < k.chans), (∃ w, SampleVal c f[i] w ∧ |w| ≤ 1) ∧
      ∃ w, SampleVal d (d.ofF64 (c.toF64 f[i])) w ∧ |w| ≤ 1)
    (x : Nat) (hx : InDst (ratioOf s.rate st.rate) st.len s.buf.length x) :
    ∃ (y : Frame k c) (m z : Frame k d), s'.buf[x]? = some y ∧ y.convert d = .ok m ∧ t'.buf[x]? = some z ∧
      ∀ i (hi : i < k.chans), ∃ a b : ℚ, SampleVal d m[i] a ∧ SampleVal d z[i] b ∧
      |b - a| ≤ (mixErr c + 5 * 2 ^ (-53 : ℤ) + 2 * ((s.buf.length + 1) * 2 ^ (-53 : ℤ))) * (1 / r + 3) +
        (mixErr d + 5 * 2 ^ (-53 : ℤ) + 2 * ((s.buf.length + 1) * 2 ^ (-53 : ℤ))) * (1 / r + 3) + 2 * convErr c d := by
  obtain ⟨n, g, a1, a2, a0, _⟩ := C58_mix fuel s s' st it h
  obtain ⟨n', g', b1, b2, b0, _⟩ := C58_mix fuel' t t' st it' h'
  rw [ho] at a1 a0
  rw [ho', hrt, hbt] at b1
  rw [ho', hrt, hbt] at b0
  cases takes_unique b1 a1
  have hg : ∀ l, l < n → ∃ f, st.nth l = .ok (some f) ∧ g l = f ∧ g' l = f.map (fun x => d.ofF64 (c.toF64 x)) := by
    intro l hl
    obtain ⟨f, f1, f2⟩ := a2 l hl
    obtain ⟨f', f1', f2'⟩ := b2 l hl
    rw [f1] at f1'
    cases f1'
    rw [C21_id hk] at f2
    rw [C21_inplace hk] at f2'
    cases f2
    exact ⟨_, f1, rfl, (Except.ok.inj f2').symm⟩
  refine ⟨_, _, _, a0 x hx, C21_inplace hk _, b0 x hx, fun i hi => ?_⟩
  have hE : 0 < convErr c d := by cases c <;> cases d <;> norm_num [convErr, scaleErr, downErr]
  have hv : ∀ l, ∃ u w : ℚ, |u| ≤ 1 ∧ |w| ≤ 1 ∧ |w - u| ≤ convErr c d ∧
      (l < n → SampleVal c (g l)[i] u ∧ SampleVal d (g' l)[i] w) := by
    intro l
    by_cases hl : l < n
    · obtain ⟨f, f1, f2, f3⟩ := hg l hl
      obtain ⟨⟨u, u1, u2⟩, ⟨w, w1, w2⟩⟩ := hw l f f1 i hi
      obtain ⟨w', w1', w2'⟩ := conv_val (d := d) u1 (valid_of u1 u2)
      have : w' = w := by
        cases d
        · exact Eq.trans w1' (Eq.symm w1)
        · exact Eq.trans w1' (Eq.symm w1)
        · exact Fl.Is.unique w1' w1
        · exact Fl.Is.unique w1' w1
      subst this
      exact ⟨u, w', u2, w2, w2', fun _ => ⟨by rw [f2]; exact u1, by rw [f3, Vector.getElem_map]; exact w1⟩⟩
    · exact ⟨0, 0, by simp, by simp, by simpa using hE.le, fun h => absurd h hl⟩
  choose u w hu hw' hm hval using hv
  obtain ⟨hn, A⟩ := box_any a1 hq hr hr1 hb i hi u g (fun l hl => ⟨(hval l hl).1, hu l⟩)
  obtain ⟨-, B⟩ := box_any a1 hq hr hr1 hb i hi w g' (fun l hl => ⟨(hval l hl).2, hw' l⟩)
  obtain ⟨p, p1, p2⟩ := A x
  obtain ⟨b, q1, q2⟩ := B x
  obtain ⟨a, m1, m3⟩ := conv_val (d := d) p1 (mixed_valid _ _ _ _ _ _ _)
  refine ⟨a, b, by rw [Vector.getElem_map]; exact m1, q1, ?_⟩
  have hsum : |∑ l ∈ Finset.range n, w l * overlap (r * l - r) (r * l) (x - 1) x -
      ∑ l ∈ Finset.range n, u l * overlap (r * l - r) (r * l) (x - 1) x| ≤ convErr c d := by
    have e : ∑ l ∈ Finset.range n, w l * overlap (r * l - r) (r * l) (x - 1) x -
      ∑ l ∈ Finset.range n, u l * overlap (r * l - r) (r * l) (x - 1) x =
        convErr c d * ∑ l ∈ Finset.range n, ((w l - u l) / convErr c d) * share r x (0 + r * l) := by
      rw [← Finset.sum_sub_distrib, Finset.mul_sum]
      refine Finset.sum_congr rfl (fun l _ => ?_)
      rw [zero_add, share_overlap hr.le]
      field_simp
    rw [e, abs_mul, abs_of_pos hE]
    refine mul_le_of_le_one_right hE.le (abs_box_le hr.le _ _ (fun l _ => ?_))
    rw [abs_div, abs_of_pos hE, div_le_one hE]
    exact hm l
  generalize ∑ l ∈ Finset.range n, w l * overlap (r * l - r) (r * l) (x - 1) x = W at *
  generalize ∑ l ∈ Finset.range n, u l * overlap (r * l - r) (r * l) (x - 1) x = U at *
  generalize (mixErr c + 5 * 2 ^ (-53 : ℤ) + 2 * (((s.buf.length : ℚ) + 1) * 2 ^ (-53 : ℤ))) * (1 / r + 3) = E at *
  generalize (mixErr d + 5 * 2 ^ (-53 : ℤ) + 2 * (((s.buf.length : ℚ) + 1) * 2 ^ (-53 : ℤ))) * (1 / r + 3) = E' at *
  rw [abs_le] at *
  constructor <;> linarith [p2.1, p2.2, q2.1, q2.2, m3.1, m3.2, hsum.1, hsum.2]

/-- Four stereo samples of 16 bit at 12 Hz, two slots of 16 and of 8 bit at 8 Hz. -/
example := C132_down (k := .stereo) (c := .ch16) (d := .ch8) 6 6 ⟨lit 8, .dflt, List.replicate 2 Frame.dflt⟩ _
  ⟨lit 8, .dflt, List.replicate 2 Frame.dflt⟩ _ (.audio exFour) _ _ rfl
  (R.returns₂ (x := (⟨lit 8, .dflt, List.replicate 2 Frame.dflt⟩ : Sink .stereo .ch16).stream 6 (.audio exFour)) (by decide +kernel))
  (R.returns₂ (x := (⟨lit 8, .dflt, List.replicate 2 Frame.dflt⟩ : Sink .stereo .ch8).stream 6 (.audio exFour)) (by decide +kernel))
  rfl rfl rfl rfl (binary64.rnd (2 / 3)) (by decide +kernel) (by decide +kernel) (by decide +kernel) (by decide +kernel) (by
    intro j f hf i hi
    match j with
    | 0 | 1 | 2 | 3 =>
      cases hf
      obtain rfl | rfl : i = 0 ∨ i = 1 := by change i < 2 at hi; omega
      all_goals exact ⟨⟨_, rfl, by decide +kernel +revert⟩, _, rfl, by decide +kernel +revert⟩
    | j + 4 => cases hf) 1 (by decide +kernel)

/-- The two orders differ: 300 of 32767 is 1 of 127, and half of that is 0. -/
theorem C132_after : ∃ (a : Audio .mono .ch16) (b : Audio .mono .ch8) (st : Src .mono .ch16) (y : Frame .mono .ch16),
    a.rate = b.rate ∧ (a.extend st).1.get 1 = some y ∧ (y.convert .ch8 : R (Frame .mono .ch8)) = .ok #v[1#8] ∧
    (b.extend st).1.get 1 = some #v[0#8] :=
  ⟨⟨lit 6, []⟩, ⟨lit 6, []⟩, .audio ⟨lit 12, List.replicate 4 #v[300#16]⟩, #v[298#16], rfl, by decide +kernel, by decide +kernel,
    by decide +kernel⟩

end Fon
