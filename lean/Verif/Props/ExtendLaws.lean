import Verif.Props.MixOrder

/-!
# C109: the laws of resampling for `extend`
-/

namespace Fon
open Fon.Fl hiding min max
open Fon.Fmt Fon.Sink
variable {k k1 k2 k3 : Kind} {c c1 c2 c3 : ChTy}

/-- C109: how many frames `extend` appends does not depend on the samples, the formats and the layouts. -/
theorem C109_length {a x : Audio k c} {b y : Audio k2 c2} {st : Src k1 c1} {st2 : Src k3 c3} {it it2}
    (h : a.extend st = (x, .ok it)) (h2 : b.extend st2 = (y, .ok it2)) (hr : b.rate = a.rate) (hr2 : st2.rate = st.rate)
    (hl2 : st2.len = st.len) : ∃ d, x.len = a.len + d ∧ y.len = b.len + d := by
  obtain ⟨_, _, d, e1, e2, _⟩ := extend_rel (extend_int h) (extend_int h2) hr hr2 hl2 (fun _ _ => True) trivial
    (fun _ _ _ _ _ _ _ _ _ _ _ _ => ⟨trivial, trivial⟩)
  exact ⟨d, e1, e2⟩

/-- Two frames to be extended. -/
def exOld : Audio .mono .ch8 := ⟨lit 8, [#v[70#8], #v[80#8]]⟩
/-- One frame in stereo. -/
def exOldPair : Audio .stereo .ch8 := ⟨lit 8, [#v[70#8, 0#8]]⟩

example := C109_length (a := exOld) (b := exOldPair) (st := .audio exRow) (st2 := .audio exPairs)
  (R.returnsSnd (x := exOld.extend (.audio exRow)) (by decide +kernel))
  (R.returnsSnd (x := exOldPair.extend (.audio exPairs)) (by decide +kernel)) rfl rfl rfl

/-- C109: channels do not mix.  Streams with the same samples in channel `i` of the one and channel `i'` of the other
(after conversion) append the same samples to these channels. -/
theorem C109_channel {a x : Audio k c} {b y : Audio k2 c} {st : Src k1 c1} {st2 : Src k3 c3} {it it2}
    (h : a.extend st = (x, .ok it)) (h2 : b.extend st2 = (y, .ok it2)) (hr : b.rate = a.rate) (hr2 : st2.rate = st.rate)
    (hl2 : st2.len = st.len) (i i' : Nat) (hi : i < k.chans) (hi' : i' < k2.chans)
    (hst : ∀ j f f2 (x : Frame k c) (y : Frame k2 c), st.nth j = .ok (some f) → st2.nth j = .ok (some f2) →
      f.convert c = .ok x → f2.convert c = .ok y → x[i] = y[i']) (n : Nat) (f : Frame k c) (g : Frame k2 c)
    (hf : x.get (a.len + n) = some f) (hg : y.get (b.len + n) = some g) : f[i] = g[i'] := by
  obtain ⟨_, _, _, _, _, e⟩ := extend_rel (extend_int h) (extend_int h2) hr hr2 hl2 (fun f g => f[i] = g[i'])
    (by simp only [dflt_get])
    (fun j f f2 x y n1 n2 c1 c2 a' b' (hab : a'[i] = b'[i']) => by
      have hxy := hst j f f2 x y n1 n2 c1 c2
      exact ⟨by simp only [add_mul_get, hab, hxy], by simp only [add_mul_get, hab, hxy]⟩)
  exact e n f g hf hg

example := C109_channel (a := exOld) (b := exOldPair) (st := .audio exRow) (st2 := .audio exPairs)
  (R.returnsSnd (x := exOld.extend (.audio exRow)) (by decide +kernel))
  (R.returnsSnd (x := exOldPair.extend (.audio exPairs)) (by decide +kernel)) rfl rfl rfl 0 1 (by decide) (by decide) (by
    intro j f f2 x y n1 n2 c1 c2
    match j with
    | 0 | 1 | 2 | 3 | 4 => cases n1; cases n2; cases c1; cases c2; rfl
    | j + 5 => cases n1) 2

/-- C109: louder in, louder out. -/
theorem C109_mono {a b x y : Audio k c} {st : Src k1 c1} {st2 : Src k3 c3} {it it2}
    (h : a.extend st = (x, .ok it)) (h2 : b.extend st2 = (y, .ok it2)) (hr : b.rate = a.rate) (hr2 : st2.rate = st.rate)
    (hl2 : st2.len = st.len) {r : ℚ} (hq : (ratioOf a.rate st.rate).Is r) (hr0 : 0 ≤ r) (hr1 : r ≤ 2 ^ (99:ℤ))
    (hst : ∀ j f f2 (x y : Frame k c), st.nth j = .ok (some f) → st2.nth j = .ok (some f2) →
      f.convert c = .ok x → f2.convert c = .ok y → FrameLe x y) (n : Nat) (f g : Frame k c)
    (hf : x.get (a.len + n) = some f) (hg : y.get (b.len + n) = some g) : FrameLe f g := by
  obtain ⟨_, _, _, _, _, e⟩ := extend_rel (extend_int h) (extend_int h2) hr hr2 hl2 FrameLe FrameLe.dflt
    (fun j f f2 x y n1 n2 c1 c2 a' b' hab => by
      have hxy := hst j f f2 x y n1 n2 c1 c2
      obtain ⟨w1, w2⟩ := weights_nonneg hq hr0 hr1 is_zero le_rfl j
      exact ⟨hab.weigh hxy w2, hab.weigh hxy w1⟩)
  exact e n f g hf hg

example := C109_mono (a := exOld) (b := exOld) (st := .audio exRow) (st2 := .audio exRow2)
  (R.returnsSnd (x := exOld.extend (.audio exRow)) (by decide +kernel))
  (R.returnsSnd (x := exOld.extend (.audio exRow2)) (by decide +kernel)) rfl rfl rfl (r := Fmt.rnd binary64 (2 / 3))
  (by decide +kernel) (by decide +kernel) (by decide +kernel) (by
    intro j f f2 x y n1 n2 c1 c2
    match j with
    | 0 | 1 | 2 | 3 | 4 => cases n1; cases n2; cases c1; cases c2; decide +kernel
    | j + 5 => cases n1) 2

/-- C109: inverting the stream inverts what is appended (float formats, see `C83_false` for the others). -/
theorem C109_invert (hc : c = .ch32 ∨ c = .ch64) {a b x y : Audio k c} {st : Src k1 c1} {st2 : Src k3 c3} {it it2}
    (h : a.extend st = (x, .ok it)) (h2 : b.extend st2 = (y, .ok it2)) (hr : b.rate = a.rate) (hr2 : st2.rate = st.rate)
    (hl2 : st2.len = st.len) {r : ℚ} (hq : (ratioOf a.rate st.rate).Is r) (hr1 : |r| ≤ 2 ^ (99:ℤ))
    (hst : ∀ j f f2 (x y : Frame k c), st.nth j = .ok (some f) → st2.nth j = .ok (some f2) →
      f.convert c = .ok x → f2.convert c = .ok y → FrameOpp x y) (n : Nat) (f g : Frame k c)
    (hf : x.get (a.len + n) = some f) (hg : y.get (b.len + n) = some g) : FrameOpp f g := by
  obtain ⟨_, _, _, _, _, e⟩ := extend_rel (extend_int h) (extend_int h2) hr hr2 hl2 FrameOpp (FrameOpp.dflt hc)
    (fun j f f2 x y n1 n2 c1 c2 a' b' hab => by
      have hxy := hst j f f2 x y n1 n2 c1 c2
      obtain ⟨w1, w2⟩ := weights_bound hq hr1 (lit 0) j
      exact ⟨hab.weigh hc hxy w2, hab.weigh hc hxy w1⟩)
  exact e n f g hf hg

/-- One frame of a float format. -/
def exOldFloat : Audio .mono .ch64 := ⟨lit 8, [#v[lit 0.125]]⟩

example := C109_invert (c := .ch64) (.inr rfl) (a := exOldFloat) (b := exOldFloat) (st := .audio exWave) (st2 := .audio exAnti)
  (R.returnsSnd (x := exOldFloat.extend (.audio exWave)) (by decide +kernel))
  (R.returnsSnd (x := exOldFloat.extend (.audio exAnti)) (by decide +kernel)) rfl rfl rfl (r := 1 / 2)
  (by decide +kernel) (by decide +kernel) (by
    intro j f f2 x y n1 n2 c1 c2
    match j with
    | 0 | 1 => cases n1; cases n2; cases c1; cases c2; exact frameOpp_of (1 / 2) (by decide +kernel)
    | 2 => cases n1; cases n2; cases c1; cases c2; exact frameOpp_of 1 (by decide +kernel)
    | 3 => cases n1; cases n2; cases c1; cases c2; exact frameOpp_of (-1) (by decide +kernel)
    | j + 4 => cases n1) 1

/-- C109: silence in, silence out. -/
theorem C109_silence {a x : Audio k c} {st : Src k1 c} {it} (h : a.extend st = (x, .ok it)) (hk : k.builtin = true)
    (hk1 : k1.builtin = true) {r : ℚ} (hq : (ratioOf a.rate st.rate).Is r) (hr1 : |r| ≤ 2 ^ (99:ℤ))
    (hsil : ∀ j f, st.nth j = .ok (some f) → f = Frame.dflt) (n : Nat) (f : Frame k c)
    (hf : x.get (a.len + n) = some f) : f = Frame.dflt := by
  have e := extend_int h
  obtain ⟨_, _, _, _, _, e⟩ := extend_rel e e rfl rfl rfl (fun f _ => f = Frame.dflt) rfl
    (fun j f f2 x y n1 n2 c1 c2 a' b' hab => by
      rw [hsil j f n1, convert_dflt hk hk1] at c1
      cases c1
      obtain ⟨⟨u, h1, h2⟩, ⟨v, h3, h4⟩⟩ := weights_bound hq hr1 (lit 0) j
      subst hab
      constructor
      · ext i hi
        rw [add_mul_get, dflt_get]
        exact silent_chan h3 h4
      · ext i hi
        rw [add_mul_get, dflt_get]
        exact silent_chan h1 h2)
  exact e n f f hf hf

/-- Silence. -/
def exSilence : Audio .mono .ch8 := ⟨lit 12, [#v[0#8], #v[0#8], #v[0#8]]⟩

example := C109_silence (a := exOld) (st := .audio exSilence)
  (R.returnsSnd (x := exOld.extend (.audio exSilence)) (by decide +kernel)) rfl rfl (r := Fmt.rnd binary64 (2 / 3))
  (by decide +kernel) (by decide +kernel) (by
    intro j f hf
    match j with
    | 0 | 1 | 2 => cases hf; decide +kernel
    | j + 3 => cases hf) 1

/-- Inverted and louder streams, from 3 to 2 Hz, after one frame that was there before. -/
example : let a : Audio .mono .ch64 := ⟨lit 2, [#v[lit 1]]⟩
    (a.extend (.audio (k := .mono) (c := .ch64) ⟨lit 3, [#v[lit 0.5], #v[lit 0.25], #v[lit (-1)]]⟩)).1.len = 3 ∧
    ((a.extend (.audio (k := .mono) (c := .ch64) ⟨lit 3, [#v[lit 0.5], #v[lit 0.25], #v[lit (-1)]]⟩)).1.get 1).map
      (fun f => f[0].lt (lit 0.34) && (lit 0.33 : F64).lt f[0]) = some true ∧
    ((a.extend (.audio (k := .mono) (c := .ch64) ⟨lit 3, [#v[lit (-0.5)], #v[lit (-0.25)], #v[lit 1]]⟩)).1.get 1).map
      (fun f => f[0].lt (lit (-0.33)) && (lit (-0.34) : F64).lt f[0]) = some true := by decide +kernel

end Fon
