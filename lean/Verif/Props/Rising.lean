import Verif.Props.Local

/-!
# C147: signals that rise stay rising
-/

namespace Fon
open Fon.Fl hiding min max
open Fon.Fmt Fon.Sink
variable {k k' : Kind} {c c' : ChTy}

/-- C147: when the rate does not go up and the signal rises until the end of slot `x`, then the slots before it do not fall, up
to the accuracy of the box filter.  The first slot is left out. -/
theorem C147_partial (fuel : Nat) (s s' : Sink k c) (st : Src k' c') (it : It k' c')
    (h : s.stream fuel st = .ok (s', it)) (ho : s.res.offseti = lit 0) (r : ℚ)
    (hq : (ratioOf s.rate st.rate).Is r) (hr : 0 < r) (hr1 : r ≤ 1) (hb : (s.buf.length : ℚ) + 1 ≤ r * 2 ^ 52)
    (i : Nat) (hi : i < k.chans) (w : Nat → ℚ)
    (hw : ∀ j f, st.nth j = .ok (some f) → ∀ g : Frame k c, f.convert c = .ok g → SampleVal c g[i] (w j)) (hw1 : ∀ j, |w j| ≤ 1)
    (x x' : Nat) (hx1 : 1 ≤ x) (hxx : x < x') (hx : InDst (ratioOf s.rate st.rate) st.len s.buf.length x')
    (hm : ∀ j j' : Nat, j ≤ j' → (x:ℚ) - 1 < r * j → r * j' < x' + r → w j ≤ w j') :
    ∃ (f g : Frame k c) (a b : ℚ), s'.buf[x]? = some f ∧ s'.buf[x']? = some g ∧ SampleVal c f[i] a ∧ SampleVal c g[i] b ∧
      a ≤ b + 2 * boxErr c r s.buf.length := by
  have hx0 : InDst (ratioOf s.rate st.rate) st.len s.buf.length x := ⟨by have := hx.1; omega, fun l hl => by
    have := hx.2 l hl; omega⟩
  -- the frame that is played at the end of slot `x`
  obtain ⟨m, hm0⟩ : ∃ m : Nat, m = ⌈(x:ℚ) / r⌉₊ := ⟨_, rfl⟩
  have hm1 : (x:ℚ) ≤ r * m := by
    have := Nat.le_ceil ((x:ℚ) / r)
    rw [← hm0, div_le_iff₀ hr] at this
    linarith
  have hm2 : r * m < x + r := by
    have := Nat.ceil_lt_add_one (a := (x:ℚ) / r) (by positivity)
    rw [← hm0] at this
    have h1 := mul_lt_mul_of_pos_left this hr
    rw [mul_add, mul_div_cancel₀ _ hr.ne'] at h1
    linarith
  have hxq : (x:ℚ) + 1 ≤ x' := by exact_mod_cast hxx
  have hxq1 : (1:ℚ) ≤ x := by exact_mod_cast hx1
  obtain ⟨f, a, f1, a1, _, a2⟩ := C95_local fuel s s' st it h ho r hq hr hr1 hb i hi (-1) (w m) (by norm_num)
    (abs_le.mp (hw1 m)).1 x hx0 hx1 (fun j f hf g hg => ⟨w j, hw j f hf g hg, hw1 j, fun h1 h2 =>
      ⟨(abs_le.mp (hw1 j)).1, hm j m (by
        by_contra hc
        push Not at hc
        have : (m:ℚ) + 1 ≤ j := by exact_mod_cast hc
        nlinarith) h1 (by linarith)⟩⟩)
  obtain ⟨g, b, g1, b1, b2, _⟩ := C95_local fuel s s' st it h ho r hq hr hr1 hb i hi (w m) 1 (abs_le.mp (hw1 m)).2
    (by norm_num) x' hx (by omega) (fun j f hf g hg => ⟨w j, hw j f hf g hg, hw1 j, fun h1 h2 =>
      ⟨hm m j (by
        by_contra hc
        push Not at hc
        have : (j:ℚ) + 1 ≤ m := by exact_mod_cast hc
        nlinarith) (by linarith) h2, (abs_le.mp (hw1 j)).2⟩⟩)
  exact ⟨f, g, a, b, f1, g1, a1, b1, by linarith⟩

/-- The same for signals that fall. -/
theorem C147_falling (fuel : Nat) (s s' : Sink k c) (st : Src k' c') (it : It k' c')
    (h : s.stream fuel st = .ok (s', it)) (ho : s.res.offseti = lit 0) (r : ℚ)
    (hq : (ratioOf s.rate st.rate).Is r) (hr : 0 < r) (hr1 : r ≤ 1) (hb : (s.buf.length : ℚ) + 1 ≤ r * 2 ^ 52)
    (i : Nat) (hi : i < k.chans) (w : Nat → ℚ)
    (hw : ∀ j f, st.nth j = .ok (some f) → ∀ g : Frame k c, f.convert c = .ok g → SampleVal c g[i] (w j)) (hw1 : ∀ j, |w j| ≤ 1)
    (x x' : Nat) (hx1 : 1 ≤ x) (hxx : x < x') (hx : InDst (ratioOf s.rate st.rate) st.len s.buf.length x')
    (hm : ∀ j j' : Nat, j ≤ j' → (x:ℚ) - 1 < r * j → r * j' < x' + r → w j' ≤ w j) :
    ∃ (f g : Frame k c) (a b : ℚ), s'.buf[x]? = some f ∧ s'.buf[x']? = some g ∧ SampleVal c f[i] a ∧ SampleVal c g[i] b ∧
      b ≤ a + 2 * boxErr c r s.buf.length := by
  have hx0 : InDst (ratioOf s.rate st.rate) st.len s.buf.length x := ⟨by have := hx.1; omega, fun l hl => by
    have := hx.2 l hl; omega⟩
  obtain ⟨m, hm0⟩ : ∃ m : Nat, m = ⌈(x:ℚ) / r⌉₊ := ⟨_, rfl⟩
  have hm1 : (x:ℚ) ≤ r * m := by
    have := Nat.le_ceil ((x:ℚ) / r)
    rw [← hm0, div_le_iff₀ hr] at this
    linarith
  have hm2 : r * m < x + r := by
    have := Nat.ceil_lt_add_one (a := (x:ℚ) / r) (by positivity)
    rw [← hm0] at this
    have h1 := mul_lt_mul_of_pos_left this hr
    rw [mul_add, mul_div_cancel₀ _ hr.ne'] at h1
    linarith
  have hxq : (x:ℚ) + 1 ≤ x' := by exact_mod_cast hxx
  have hxq1 : (1:ℚ) ≤ x := by exact_mod_cast hx1
  obtain ⟨f, a, f1, a1, a2, _⟩ := C95_local fuel s s' st it h ho r hq hr hr1 hb i hi (w m) 1 (abs_le.mp (hw1 m)).2
    (by norm_num) x hx0 hx1 (fun j f hf g hg => ⟨w j, hw j f hf g hg, hw1 j, fun h1 h2 =>
      ⟨hm j m (by
        by_contra hc
        push Not at hc
        have : (m:ℚ) + 1 ≤ j := by exact_mod_cast hc
        nlinarith) h1 (by linarith), (abs_le.mp (hw1 j)).2⟩⟩)
  obtain ⟨g, b, g1, b1, _, b2⟩ := C95_local fuel s s' st it h ho r hq hr hr1 hb i hi (-1) (w m) (by norm_num)
    (abs_le.mp (hw1 m)).1 x' hx (by omega) (fun j f hf g hg => ⟨w j, hw j f hf g hg, hw1 j, fun h1 h2 =>
      ⟨(abs_le.mp (hw1 j)).1, hm m j (by
        by_contra hc
        push Not at hc
        have : (j:ℚ) + 1 ≤ m := by exact_mod_cast hc
        nlinarith) (by linarith) h2⟩⟩)
  exact ⟨f, g, a, b, f1, g1, a1, b1, by linarith⟩

/-! ## Examples -/

/-- A value for each of the five frames of `exAudio` and of the frames after it. -/
def exStair (j : Nat) : ℚ := (min (j:ℚ) 4 + 1) / 127

theorem exStair_val (j : Nat) (f : Frame .mono .ch8) (hf : (Src.audio (exAudio 12)).nth j = .ok (some f)) (g : Frame .mono .ch8)
    (hg : f.convert .ch8 = .ok g) : SampleVal .ch8 g[0] (exStair j) := by
  match j with
  | 0 | 1 | 2 | 3 | 4 => cases hf; cases hg; decide +kernel
  | j + 5 => cases hf

theorem exStair_le (j : Nat) : |exStair j| ≤ 1 := by
  have h1 : min (j:ℚ) 4 ≤ 4 := min_le_right _ _
  have h2 : 0 ≤ min (j:ℚ) 4 := le_min (by positivity) (by norm_num)
  unfold exStair
  rw [abs_le]
  constructor <;> linarith

theorem exStair_mono (j j' : Nat) (h : j ≤ j') : exStair j ≤ exStair j' := by
  have h1 : min (j:ℚ) 4 ≤ min (j':ℚ) 4 := min_le_min_right _ (by exact_mod_cast h)
  unfold exStair
  linarith

/-- The slots 1 and 2 of five samples that rise, at 12 Hz, played at 8 Hz. -/
example := C147_partial 6 (exSink 3 8) _ (.audio (exAudio 12)) _
  (R.returns₂ (x := (exSink 3 8).stream 6 (.audio (exAudio 12))) (by decide +kernel)) rfl
  (Fmt.rnd binary64 (2 / 3)) (by decide +kernel) (by decide +kernel) (by decide +kernel) (by decide +kernel)
  0 (by decide) exStair exStair_val exStair_le 1 2 le_rfl (by norm_num) (by decide +kernel) (fun j j' h _ _ => exStair_mono j j' h)

/-- Nearby samples. -/
theorem exStair_near (j j' : Nat) : |exStair j - exStair j'| ≤ 1 / 127 * |(j:ℚ) - j'| := by
  have h := abs_min_sub_min_le_max (j:ℚ) 4 j' 4
  rw [sub_self, abs_zero, max_eq_left (abs_nonneg _)] at h
  unfold exStair
  rw [← sub_div, abs_div, abs_of_pos (by norm_num : (0:ℚ) < 127), div_le_iff₀ (by norm_num)]
  rw [add_sub_add_right_eq_sub]
  linarith

/-- Five frames that fall. -/
def exFalling : Audio .mono .ch8 := ⟨lit 12, [#v[-1#8], #v[-2#8], #v[-3#8], #v[-4#8], #v[-5#8]]⟩

example := C147_falling 6 (exSink 3 8) _ (.audio exFalling) _
  (R.returns₂ (x := (exSink 3 8).stream 6 (.audio exFalling)) (by decide +kernel)) rfl
  (Fmt.rnd binary64 (2 / 3)) (by decide +kernel) (by decide +kernel) (by decide +kernel) (by decide +kernel)
  0 (by decide) (fun j => -exStair j) (by
    intro j f hf x hx
    match j with
    | 0 | 1 | 2 | 3 | 4 => cases hf; cases hx; decide +kernel
    | j + 5 => cases hf) (fun j => by rw [abs_neg]; exact exStair_le j) 1 2 le_rfl (by norm_num) (by decide +kernel)
  (fun j j' h _ _ => neg_le_neg (exStair_mono j j' h))

/-- C147 is false when the rate goes up: a signal that rises from 1/4 to 1/2 goes up and down. -/
theorem C147_false :
    (Audio.withStream (lit 2) (.audio (k := .mono) (c := .ch64) ⟨lit 1, [#v[lit 0.25], #v[lit 0.375], #v[lit 0.5]]⟩) :
      R (Audio .mono .ch64)).map (·.frames) = .ok [#v[lit 0.5], #v[lit 0], #v[lit 0.75], #v[lit 0], #v[lit 1], #v[lit 0]] := by
  decide +kernel

end Fon
