import Verif.Props.Whole
import Verif.Props.Layout
import Verif.Spec.Downmix

/-!
# C116: mono is the mean of left and right; C106 for down-mixing
-/

namespace Fon
open Fon.Fl hiding min max
open Fon.Fmt Fon.Sink
variable {k k' : Kind} {c d : ChTy}

/-! ## C116 -/

/-- The mean of two numbers in [-1, 1] in f64 arithmetic. -/
theorem mean_is {x y : F64} {p q : ℚ} (hx : x.Is p) (hy : y.Is q) (hp : |p| ≤ 1) (hq : |q| ≤ 1) :
    ∃ a, ((x.add y).mul (lit 0.5)).Is a ∧ |a| ≤ 1 ∧ |a - (p + q) / 2| ≤ 2 ^ (-52 : ℤ) := by
  have hu : binary64.u = 2 ^ (-53:ℤ) := rfl
  have hu0 : (0:ℚ) < 2 ^ (-53:ℤ) := two_zpow_pos _
  rw [abs_le] at hp hq
  have h2 : |p + q| ≤ 2 := abs_le.mpr ⟨by linarith, by linarith⟩
  have h3 : |binary64.rnd (p + q) - (p + q)| ≤ |p + q| * binary64.u := by
    obtain ⟨m, h1⟩ := gen_mult hx.rep.gen
    obtain ⟨n, h2⟩ := gen_mult hy.rep.gen
    exact rel_err (m + n) (by rw [h1, h2]; push_cast; ring)
  have s1 : (x.add y).Is (binary64.rnd (p + q)) := hx.add hy (small (h2.trans (by norm_num)))
  have b1 : |binary64.rnd (p + q)| ≤ 2 := by
    have e2 : binary64.rnd (2:ℚ) = 2 := by decide +kernel
    have e3 : binary64.rnd (-2:ℚ) = -2 := by decide +kernel
    rw [abs_le] at h2 ⊢
    exact ⟨by rw [← e3]; exact rnd_mono h2.1, by rw [← e2]; exact rnd_mono h2.2⟩
  have b2 : |binary64.rnd (p + q) * 0.5| ≤ 1 := by
    rw [abs_mul]; norm_num; linarith
  have s2 := s1.mul (is_lit (f := binary64) (q := 0.5) (rep_dyadic 1 (-1) (by norm_num) (by decide) (by decide) (by decide))) (small (b2.trans (by norm_num)))
  have b3 := err_lt_u (f := binary64) (q := binary64.rnd (p + q) * 0.5) 1 (lt_of_le_of_lt b2 (by norm_num)) (by norm_num)
  refine ⟨_, s2, ?_, ?_⟩
  · have e2 : binary64.rnd (1:ℚ) = 1 := by decide +kernel
    have e3 : binary64.rnd (-1:ℚ) = -1 := by decide +kernel
    rw [abs_le] at b2 ⊢
    exact ⟨by rw [← e3]; exact rnd_mono b2.1, by rw [← e2]; exact rnd_mono b2.2⟩
  · rw [hu] at h3 b3
    have : |p + q| * 2 ^ (-53:ℤ) ≤ 2 * 2 ^ (-53:ℤ) := mul_le_mul_of_nonneg_right h2 hu0.le
    norm_num at b3 this h3 ⊢
    rw [abs_le] at *
    constructor <;> linarith [b3.1, b3.2, h3.1, h3.2]

theorem chanAvg_err (l r : c.T) (hl : Valid c l) (hr : Valid c r) :
    ∃ p q m : ℚ, (c.toF64 l).Is p ∧ (c.toF64 r).Is q ∧ |p| ≤ 1 ∧ |q| ≤ 1 ∧ (d.toF64 (Frame.chanAvg d l r)).Is m ∧ |m| ≤ 1 ∧
      |m - (p + q) / 2| ≤ downErr d := by
  obtain ⟨p, hp, hp1⟩ := Valid.toF64 hl
  obtain ⟨q, hq, hq1⟩ := Valid.toF64 hr
  obtain ⟨a, a1, a2, a3⟩ := mean_is hp hq (abs_le.mpr hp1) (abs_le.mpr hq1)
  have hv := Valid.toF64 (Valid.ofF64 (c := d) ⟨a, a1, abs_le.mp a2⟩)
  obtain ⟨m, hm, hm1⟩ := hv
  refine ⟨p, q, m, hp, hq, abs_le.mpr hp1, abs_le.mpr hq1, hm, abs_le.mpr hm1, ?_⟩
  have key : |m - a| ≤ downErr d - 2 ^ (-52 : ℤ) := by
    cases d
    · obtain ⟨b, b1, b2⟩ := C13_ch8 _ a a1 (abs_le.mp a2).1 (abs_le.mp a2).2
      rw [hm.unique b1]
      exact b2.trans (by norm_num [downErr])
    · obtain ⟨b, b1, b2⟩ := C13_ch16 _ a a1 (abs_le.mp a2).1 (abs_le.mp a2).2
      rw [hm.unique b1]
      exact b2.trans (by norm_num [downErr])
    · have b1 := widen_is (a1.cast binary32 (small (a2.trans (by norm_num))))
      rw [hm.unique b1]
      refine (err_lt_u (f := binary32) (q := a) 1 (lt_of_le_of_lt a2 (by norm_num)) (by norm_num)).trans ?_
      have : binary32.u = 2 ^ (-24:ℤ) := rfl
      rw [this]
      norm_num [downErr]
    · rw [hm.unique a1, sub_self, abs_zero]
      norm_num [downErr]
  exact (abs_sub_le m a _).trans ((add_le_add key a3).trans (sub_add_cancel _ _).le)

/-- C116: converting Stereo or Surround to Mono, between any formats, gives the mean of the (front) left and right
channels, up to half a step of the new format and rounding. -/
theorem C116_mean (d : ChTy) (l r a b e f : c.T) (hl : Valid c l) (hr : Valid c r) :
    ∃ (x : d.T) (p q m : ℚ), (Frame.convert d (k := .stereo) #v[l, r] : R (Frame .mono d)) = .ok #v[x] ∧
      (Frame.convert d (k := .surround) #v[a, l, b, r, e, f] : R (Frame .mono d)) = .ok #v[x] ∧
      (c.toF64 l).Is p ∧ (c.toF64 r).Is q ∧ (d.toF64 x).Is m ∧ |m - (p + q) / 2| ≤ downErr d := by
  obtain ⟨p, q, m, h1, h2, -, -, h3, -, h4⟩ := chanAvg_err (d := d) l r hl hr
  exact ⟨_, p, q, m, convert_stereo_mono _, convert_surround_mono _, h1, h2, h3, h4⟩

example := C116_mean (c := .ch8) .ch16 (-50#8) (101#8) (1#8) (2#8) (3#8) (4#8) trivial trivial

theorem chanAvg_ch8 (l r : Ch8) :
    |2 * (Frame.chanAvg (c := .ch8) .ch8 l r : Ch8).toInt - (l.toInt + r.toInt)| ≤ 1 := by
  obtain ⟨p, q, m, h1, h2, -, -, h3, -, h4⟩ := chanAvg_err (c := .ch8) (d := .ch8) l r trivial trivial
  have e1 := ofCh8_err (f := binary64) l
  have e2 := ofCh8_err (f := binary64) r
  have e3 := ofCh8_err (f := binary64) (Frame.chanAvg (c := .ch8) .ch8 l r)
  rw [h1.unique (ofCh8_is (f := binary64) l), h2.unique (ofCh8_is (f := binary64) r), h3.unique (ofCh8_is (f := binary64) _)] at h4
  generalize hx : (Frame.chanAvg (c := .ch8) .ch8 l r : Ch8).toInt = x at *
  have hu : binary64.u = 2 ^ (-53:ℤ) := rfl
  rw [hu] at e1 e2 e3
  rw [show downErr .ch8 = 1 / 255 + 2 ^ (-49 : ℤ) from rfl] at h4
  generalize convV binary64 255 l.toInt = p' at *
  generalize convV binary64 255 r.toInt = q' at *
  generalize convV binary64 255 x = m' at *
  rw [abs_le] at *
  have k1 : ((2 * x - (l.toInt + r.toInt) : ℤ) : ℚ) < 2 := by
    push_cast; norm_num at *; linarith [e1.1, e1.2, e2.1, e2.2, e3.1, e3.2, h4.1, h4.2]
  have k2 : (-2:ℚ) < ((2 * x - (l.toInt + r.toInt) : ℤ) : ℚ) := by
    push_cast; norm_num at *; linarith [e1.1, e1.2, e2.1, e2.2, e3.1, e3.2, h4.1, h4.2]
  have k1' : 2 * x - (l.toInt + r.toInt) < 2 := by exact_mod_cast k1
  have k2' : -2 < 2 * x - (l.toInt + r.toInt) := by exact_mod_cast k2
  constructor <;> omega

theorem chanAvg_ch16 (l r : Ch16) :
    |2 * (Frame.chanAvg (c := .ch16) .ch16 l r : Ch16).toInt - (l.toInt + r.toInt)| ≤ 1 := by
  obtain ⟨p, q, m, h1, h2, -, -, h3, -, h4⟩ := chanAvg_err (c := .ch16) (d := .ch16) l r trivial trivial
  have e1 := ofCh16_err (f := binary64) l
  have e2 := ofCh16_err (f := binary64) r
  have e3 := ofCh16_err (f := binary64) (Frame.chanAvg (c := .ch16) .ch16 l r)
  rw [h1.unique (ofCh16_is (f := binary64) l), h2.unique (ofCh16_is (f := binary64) r), h3.unique (ofCh16_is (f := binary64) _)] at h4
  generalize hx : (Frame.chanAvg (c := .ch16) .ch16 l r : Ch16).toInt = x at *
  have hu : binary64.u = 2 ^ (-53:ℤ) := rfl
  rw [hu] at e1 e2 e3
  rw [show downErr .ch16 = 1 / 65535 + 2 ^ (-49 : ℤ) from rfl] at h4
  generalize convV binary64 65535 l.toInt = p' at *
  generalize convV binary64 65535 r.toInt = q' at *
  generalize convV binary64 65535 x = m' at *
  rw [abs_le] at *
  have k1 : ((2 * x - (l.toInt + r.toInt) : ℤ) : ℚ) < 2 := by
    push_cast; norm_num at *; linarith [e1.1, e1.2, e2.1, e2.2, e3.1, e3.2, h4.1, h4.2]
  have k2 : (-2:ℚ) < ((2 * x - (l.toInt + r.toInt) : ℤ) : ℚ) := by
    push_cast; norm_num at *; linarith [e1.1, e1.2, e2.1, e2.2, e3.1, e3.2, h4.1, h4.2]
  have k1' : 2 * x - (l.toInt + r.toInt) < 2 := by exact_mod_cast k1
  have k2' : -2 < 2 * x - (l.toInt + r.toInt) := by exact_mod_cast k2
  constructor <;> omega

/-- C116 for integer samples in one format: the exact mean if it is a sample, otherwise one of its neighbours. -/
theorem C116_int (l r : Ch8) (l' r' : Ch16) :
    (∃ x : Ch8, (Frame.convert .ch8 (k := .stereo) (c := .ch8) #v[l, r] : R (Frame .mono .ch8)) = .ok #v[x] ∧
      |2 * x.toInt - (l.toInt + r.toInt)| ≤ 1) ∧
    (∃ x : Ch16, (Frame.convert .ch16 (k := .stereo) (c := .ch16) #v[l', r'] : R (Frame .mono .ch16)) = .ok #v[x] ∧
      |2 * x.toInt - (l'.toInt + r'.toInt)| ≤ 1) :=
  ⟨⟨_, convert_stereo_mono _, chanAvg_ch8 l r⟩, ⟨_, convert_stereo_mono _, chanAvg_ch16 l' r'⟩⟩

/-- Means that are not samples are rounded down or up. -/
example : (Frame.convert .ch8 (k := .stereo) (c := .ch8) #v[-50#8, 101#8] : R (Frame .mono .ch8)) = .ok #v[25#8] ∧
    (Frame.convert .ch8 (k := .stereo) (c := .ch8) #v[0#8, 1#8] : R (Frame .mono .ch8)) = .ok #v[1#8] ∧
    (Frame.convert .ch8 (k := .stereo) (c := .ch8) #v[-20#8, 100#8] : R (Frame .mono .ch8)) = .ok #v[40#8] := by
  decide +kernel

/-! ## C106 -/

theorem valid_abs {f : Fmt} {x : Fl f} {q : ℚ} (h : x.InRange) (hx : x.Is q) : |q| ≤ 1 := by
  obtain ⟨p, p1, p2⟩ := h
  rw [hx.unique p1]; exact abs_le.mpr p2

/-- The mean in the scale of the resampler. -/
theorem avg_val {l r : c.T} {u v : ℚ} (hl : SampleVal c l u) (hr : SampleVal c r v) (vl : Valid c l) (vr : Valid c r) :
    ∃ m, SampleVal c (Frame.chanAvg c l r) m ∧ (|u| ≤ 1 → |v| ≤ 1 → |m| ≤ 1) ∧ |m - (u + v) / 2| ≤ mixErr c := by
  cases c
  · have h := chanAvg_ch8 l r
    change u = (BitVec.toInt l : ℚ) / 127 at hl
    change v = (BitVec.toInt r : ℚ) / 127 at hr
    refine ⟨_, rfl, ?_, ?_⟩
    · intro hu hv
      rw [hl, abs_div, abs_of_pos (by norm_num : (0:ℚ) < 127), div_le_one (by norm_num)] at hu
      rw [hr, abs_div, abs_of_pos (by norm_num : (0:ℚ) < 127), div_le_one (by norm_num)] at hv
      have hu' : |BitVec.toInt l| ≤ 127 := by exact_mod_cast hu
      have hv' : |BitVec.toInt r| ≤ 127 := by exact_mod_cast hv
      rw [abs_div, div_le_one (by norm_num)]
      have : |BitVec.toInt (Frame.chanAvg (c := .ch8) .ch8 l r : Ch8)| ≤ 127 := by
        rw [abs_le] at *; omega
      refine le_trans (b := 127) (by exact_mod_cast this) (by norm_num)
    · have h' : |2 * ((Frame.chanAvg (c := .ch8) .ch8 l r : Ch8).toInt : ℚ) - (BitVec.toInt l + BitVec.toInt r)| ≤ 1 := by
        exact_mod_cast h
      rw [hl, hr]
      rw [show mixErr .ch8 = 17 / (8 * 127) from rfl]
      rw [abs_le] at *
      constructor <;> linarith [h'.1, h'.2]
  · have h := chanAvg_ch16 l r
    change u = (BitVec.toInt l : ℚ) / 32767 at hl
    change v = (BitVec.toInt r : ℚ) / 32767 at hr
    refine ⟨_, rfl, ?_, ?_⟩
    · intro hu hv
      rw [hl, abs_div, abs_of_pos (by norm_num : (0:ℚ) < 32767), div_le_one (by norm_num)] at hu
      rw [hr, abs_div, abs_of_pos (by norm_num : (0:ℚ) < 32767), div_le_one (by norm_num)] at hv
      have hu' : |BitVec.toInt l| ≤ 32767 := by exact_mod_cast hu
      have hv' : |BitVec.toInt r| ≤ 32767 := by exact_mod_cast hv
      rw [abs_div, div_le_one (by norm_num)]
      have : |BitVec.toInt (Frame.chanAvg (c := .ch16) .ch16 l r : Ch16)| ≤ 32767 := by
        rw [abs_le] at *; omega
      refine le_trans (b := 32767) (by exact_mod_cast this) (by norm_num)
    · have h' : |2 * ((Frame.chanAvg (c := .ch16) .ch16 l r : Ch16).toInt : ℚ) - (BitVec.toInt l + BitVec.toInt r)| ≤ 1 := by
        exact_mod_cast h
      rw [hl, hr]
      rw [show mixErr .ch16 = 17 / (8 * 32767) from rfl]
      rw [abs_le] at *
      constructor <;> linarith [h'.1, h'.2]
  · obtain ⟨a, a1, a2, a3⟩ := mean_is (widen_is hl) (widen_is hr) (valid_abs vl hl) (valid_abs vr hr)
    refine ⟨_, a1.cast binary32 (small (a2.trans (by norm_num))), fun _ _ => ?_, ?_⟩
    · have e2 : binary32.rnd (1:ℚ) = 1 := by decide +kernel
      have e3 : binary32.rnd (-1:ℚ) = -1 := by decide +kernel
      rw [abs_le] at a2 ⊢
      exact ⟨by rw [← e3]; exact rnd_mono a2.1, by rw [← e2]; exact rnd_mono a2.2⟩
    · have h4 := err_lt_u (f := binary32) (q := a) 1 (lt_of_le_of_lt a2 (by norm_num)) (by norm_num)
      have hu' : binary32.u = 2 ^ (-24:ℤ) := rfl
      rw [hu'] at h4
      have := abs_sub_le (binary32.rnd a) a ((u + v) / 2)
      rw [show mixErr .ch32 = 4 * 2 ^ (-24 : ℤ) from rfl]
      norm_num at h4 a3 ⊢
      linarith
  · obtain ⟨a, a1, a2, a3⟩ := mean_is hl hr (valid_abs vl hl) (valid_abs vr hr)
    refine ⟨a, a1, fun _ _ => a2, a3.trans ?_⟩
    rw [show mixErr .ch64 = 4 * 2 ^ (-53 : ℤ) from rfl]
    norm_num

theorem mixed_valid (q off : F64) (g : Nat → Frame k c) (x n i : Nat) (hi : i < k.chans) :
    Valid c (mixed q off g x n Frame.dflt)[i] := by
  have hd : Valid c c.dflt := by cases c <;> decide +kernel
  induction n with
  | zero => simpa [mixed, Frame.dflt] using hd
  | succ n ih =>
    rw [mixed]
    split <;> split <;> first | exact ih | (simp only [Frame.add, Vector.getElem_zipWith]; exact Valid.add)

/-- Where the down-mix takes its channels from. -/
theorem downmix_from (hk : k = .stereo ∨ k = .surround) : ∃ i j, ∃ (hi : i < k.chans) (hj : j < k.chans),
    ∀ f : Frame k c, (f.convert c : R (Frame .mono c)) = .ok #v[Frame.chanAvg c f[i] f[j]] := by
  rcases hk with rfl | rfl
  · exact ⟨0, 1, by decide, by decide, fun f => convert_stereo_mono f⟩
  · exact ⟨1, 3, by decide, by decide, fun f => convert_surround_mono f⟩

/-- Two slots at 8 Hz. -/
def exDown (k : Kind) : Sink k .ch8 := ⟨lit 8, .dflt, List.replicate 2 Frame.dflt⟩
/-- Three stereo samples at 12 Hz. -/
def exTriple : Audio .stereo .ch8 := ⟨lit 12, [#v[1#8, 100#8], #v[-20#8, 40#8], #v[7#8, 90#8]]⟩

/-- C106 where channels are averaged, for downsampling and equal rates: streaming into a mono sink gives what streaming
into a sink of the layout of the stream and down-mixing its slots gives, up to a small error (twice the error of `C59_box`
and two roundings of means). -/
theorem C106_down (fuel fuel' : Nat) (s s' : Sink k c) (t t' : Sink .mono c) (st : Src k c) (it it' : It k c)
    (hk : k = .stereo ∨ k = .surround) (h : s.stream fuel st = .ok (s', it)) (h' : t.stream fuel' st = .ok (t', it'))
    (hrt : t.rate = s.rate) (hbt : t.buf.length = s.buf.length)
    (ho : s.res.offseti = lit 0) (ho' : t.res.offseti = lit 0) (r : ℚ)
    (hq : (ratioOf s.rate st.rate).Is r) (hr : 0 < r) (hr1 : r ≤ 1) (hb : (s.buf.length : ℚ) + 1 ≤ r * 2 ^ 52)
    (hw : ∀ j f, st.nth j = .ok (some f) → ∀ i (hi : i < k.chans), ∃ w, SampleVal c f[i] w ∧ |w| ≤ 1)
    (x : Nat) (hx : InDst (ratioOf s.rate st.rate) st.len s.buf.length x) :
    ∃ (y : Frame k c) (m z : Frame .mono c) (a b : ℚ), s'.buf[x]? = some y ∧ y.convert c = .ok m ∧ t'.buf[x]? = some z ∧
      SampleVal c m[0] a ∧ SampleVal c z[0] b ∧
      |b - a| ≤ 2 * ((mixErr c + 5 * 2 ^ (-53 : ℤ) + 2 * ((s.buf.length + 1) * 2 ^ (-53 : ℤ))) * (1 / r + 3)) +
        2 * mixErr c := by
  obtain ⟨i, j, hi, hj, hc⟩ := downmix_from (c := c) hk
  obtain ⟨n, g, a1, a2, a0, _⟩ := C58_mix fuel s s' st it h
  obtain ⟨n', g', b1, b2, b0, _⟩ := C58_mix fuel' t t' st it' h'
  rw [ho] at a1 a0
  rw [ho', hrt, hbt] at b1
  rw [ho', hrt, hbt] at b0
  cases takes_unique b1 a1
  have hkb : k.builtin = true := by rcases hk with rfl | rfl <;> rfl
  have hg : ∀ l, l < n → ∃ f, st.nth l = .ok (some f) ∧ g l = f ∧ g' l = #v[Frame.chanAvg c f[i] f[j]] := by
    intro l hl
    obtain ⟨f, f1, f2⟩ := a2 l hl
    obtain ⟨f', f1', f2'⟩ := b2 l hl
    rw [f1] at f1'
    cases f1'
    rw [C21_id hkb] at f2
    rw [hc] at f2'
    cases f2
    exact ⟨_, f1, rfl, (Except.ok.inj f2').symm⟩
  -- the values of the stream
  have hv : ∀ l, ∃ u v w : ℚ, |u| ≤ 1 ∧ |v| ≤ 1 ∧ |w| ≤ 1 ∧ |w - (u + v) / 2| ≤ mixErr c ∧
      (l < n → SampleVal c (g l)[i] u ∧ SampleVal c (g l)[j] v ∧ SampleVal c (g' l)[0] w) := by
    intro l
    by_cases hl : l < n
    · obtain ⟨f, f1, f2, f3⟩ := hg l hl
      obtain ⟨u, u1, u2⟩ := hw l f f1 i hi
      obtain ⟨v, v1, v2⟩ := hw l f f1 j hj
      obtain ⟨w, w1, w2, w3⟩ := avg_val u1 v1 (valid_of u1 u2) (valid_of v1 v2)
      refine ⟨u, v, w, u2, v2, w2 u2 v2, w3, fun _ => ⟨by rw [f2]; exact u1, by rw [f2]; exact v1, by rw [f3]; exact w1⟩⟩
    · exact ⟨0, 0, 0, by simp, by simp, by simp, by simpa using (mixErr_pos c).le, fun h => absurd h hl⟩
  choose u v w hu hv hw' hm hval using hv
  have hi' : 0 < Kind.mono.chans := by decide
  obtain ⟨hn, A⟩ := box_any a1 hq hr hr1 hb i hi u g (fun l hl => ⟨(hval l hl).1, hu l⟩)
  obtain ⟨-, B⟩ := box_any a1 hq hr hr1 hb j hj v g (fun l hl => ⟨(hval l hl).2.1, hv l⟩)
  obtain ⟨-, C⟩ := box_any a1 hq hr hr1 hb 0 hi' w g' (fun l hl => ⟨(hval l hl).2.2, hw' l⟩)
  obtain ⟨p, p1, p2⟩ := A x
  obtain ⟨p', p1', p2'⟩ := B x
  obtain ⟨b, q1, q2⟩ := C x
  obtain ⟨a, m1, -, m3⟩ := avg_val p1 p1' (mixed_valid _ _ _ _ _ _ _) (mixed_valid _ _ _ _ _ _ _)
  refine ⟨_, _, _, a, b, a0 x hx, hc _, b0 x hx, m1, q1, ?_⟩
  -- the sums
  have hsum : |∑ l ∈ Finset.range n, w l * overlap (r * l - r) (r * l) (x - 1) x -
      ((∑ l ∈ Finset.range n, u l * overlap (r * l - r) (r * l) (x - 1) x) +
        ∑ l ∈ Finset.range n, v l * overlap (r * l - r) (r * l) (x - 1) x) / 2| ≤ mixErr c := by
    have hE := mixErr_pos c
    have e : ∑ l ∈ Finset.range n, w l * overlap (r * l - r) (r * l) (x - 1) x -
      ((∑ l ∈ Finset.range n, u l * overlap (r * l - r) (r * l) (x - 1) x) +
        ∑ l ∈ Finset.range n, v l * overlap (r * l - r) (r * l) (x - 1) x) / 2 =
        mixErr c * ∑ l ∈ Finset.range n, ((w l - (u l + v l) / 2) / mixErr c) * share r x (0 + r * l) := by
      rw [← Finset.sum_add_distrib, div_eq_mul_inv, Finset.sum_mul, ← Finset.sum_sub_distrib, Finset.mul_sum]
      refine Finset.sum_congr rfl (fun l _ => ?_)
      rw [zero_add, share_overlap hr.le]
      field_simp
    rw [e, abs_mul, abs_of_pos hE]
    refine mul_le_of_le_one_right hE.le (abs_box_le hr.le _ _ (fun l _ => ?_))
    rw [abs_div, abs_of_pos hE, div_le_one hE]
    exact hm l
  generalize ∑ l ∈ Finset.range n, w l * overlap (r * l - r) (r * l) (x - 1) x = W at *
  generalize ∑ l ∈ Finset.range n, u l * overlap (r * l - r) (r * l) (x - 1) x = U at *
  generalize ∑ l ∈ Finset.range n, v l * overlap (r * l - r) (r * l) (x - 1) x = V at *
  generalize (mixErr c + 5 * 2 ^ (-53 : ℤ) + 2 * (((s.buf.length : ℚ) + 1) * 2 ^ (-53 : ℤ))) * (1 / r + 3) = E at *
  rw [abs_le] at *
  constructor <;> linarith [p2.1, p2.2, p2'.1, p2'.2, q2.1, q2.2, m3.1, m3.2, hsum.1, hsum.2]

/-- Three stereo samples at 12 Hz, two slots at 8 Hz. -/
example := C106_down 6 6 (exDown .stereo) _ (exDown .mono) _ (.audio exTriple) _ _ (.inl rfl)
  (R.returns₂ (x := (exDown .stereo).stream 6 (.audio exTriple)) (by decide +kernel))
  (R.returns₂ (x := (exDown .mono).stream 6 (.audio exTriple)) (by decide +kernel)) rfl rfl rfl rfl (binary64.rnd (2 / 3))
  (by decide +kernel) (by decide +kernel) (by decide +kernel) (by decide +kernel) (by
    intro j f hf i hi
    match j with
    | 0 | 1 | 2 =>
      cases hf
      obtain rfl | rfl : i = 0 ∨ i = 1 := by change i < 2 at hi; omega
      all_goals exact ⟨_, rfl, by decide +kernel +revert⟩
    | j + 3 => cases hf) 1 (by decide +kernel)

end Fon
