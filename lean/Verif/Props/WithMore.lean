import Verif.Props.WithForms
import Verif.Props.Rising
import Verif.Props.Image
import Verif.Props.Trips
import Verif.Props.Fade

/-!
# C145, C147 and C151 for `Audio::with_stream`
-/

namespace Fon
open Fon.Fl hiding min max
open Fon.Fmt Fon.Sink
variable {k k' : Kind} {c c' : ChTy}

/-- C145 for `with_stream`: with a changing volume a slot has the level it has without it, times the volume. -/
theorem C145_withStream (hk : k.builtin = true) {rate sr : F64} {a b : Audio k c} {sa sb : Src k c} {dst src l : Nat}
    (h : Audio.withStream rate (.blend sa sb .amplify) = .ok b) (h' : Audio.withStream rate sa = .ok a)
    (hla : sa.len = some l) (hlb : (Src.blend sa sb .amplify).len = some l)
    (hd : rate.Is (dst:ℚ)) (hsr : sa.rate = some sr) (hs : sr.Is (src:ℚ)) (hd0 : 0 < dst) (hle : dst ≤ src)
    (hs' : src ≤ 2 ^ 51) (hN : dst * l < 2 ^ 51) (hB : dst * l + 2 * src ≤ dst * 2 ^ 51) {i : Nat} (hi : i < k.chans) {u v : Nat → ℚ}
    (hu : ∀ j f, sa.nth j = .ok (some f) → SampleVal c f[i] (u j)) (hu1 : ∀ j, |u j| ≤ 1)
    (hv : ∀ j f, sb.nth j = .ok (some f) → SampleVal c f[i] (v j)) (hv1 : ∀ j, |v j| ≤ 1)
    {x : Nat} (hx : x + 1 < b.len) {G δ : ℚ} (hG : |G| ≤ 1) (hδ : 0 ≤ δ)
    (hvG : ∀ j f, sb.nth j = .ok (some f) → (x:ℚ) - 1 < binary64.rnd ((dst:ℚ) / src) * j →
      binary64.rnd ((dst:ℚ) / src) * j < x + binary64.rnd ((dst:ℚ) / src) → |v j - G| ≤ δ) :
    a.len = b.len ∧
    ∃ (y z : Frame k c) (p q : ℚ), b.get x = some y ∧ a.get x = some z ∧ SampleVal c y[i] p ∧ SampleVal c z[i] q ∧
      |p - q * G| ≤ δ + mixErr c + 2 * ((mixErr c + 5 * 2 ^ (-53 : ℤ) + 2 * ((b.len + 1) * 2 ^ (-53 : ℤ))) *
        (1 / binary64.rnd ((dst:ℚ) / src) + 3)) := by
  have hsr' : (Src.blend sa sb .amplify).rate = some sr := hsr
  have hl51 : l ≤ 2 ^ 51 := le_trans (Nat.le_mul_of_pos_left _ hd0) hN.le
  have e1 := C49_partial rate sr dst src l hd hs (by omega) (by omega) (by omega) hs' _ hlb hsr' b h
  have e2 := C49_partial rate sr dst src l hd hs (by omega) (by omega) (by omega) hs' _ hla hsr a h'
  have hab : a.len = b.len := by rw [e1, e2]
  obtain ⟨hq, hr0, hr1, hBq, s, it, h1, h2⟩ := with_down h hlb hd hsr' hs hd0 hle hs' hN hB
  obtain ⟨-, -, -, -, t, it', g1, g2⟩ := with_down h' hla hd hsr hs hd0 hle hs' hN hB
  have len : (List.replicate b.len (Frame.dflt : Frame k c)).length = b.len := List.length_replicate
  have hin := (h2 x hx).1
  rw [hlb, ← hla] at hin
  have := C145_down hk h1 g1 rfl (by simp [hab]) (hlb.trans hla.symm) rfl rfl hq hr0 hr1 (by rw [len]; exact hBq) hi hu hu1 hv hv1
    (x := x) (by rw [len]; exact hin) hG hδ hvG
  rw [len, ← (h2 x hx).2, ← (g2 x (by omega)).2] at this
  exact ⟨hab, this⟩

/-- C147 for `with_stream`: rising signals stay rising, for all slots but the first and the last. -/
theorem C147_withStream {rate sr : F64} {b : Audio k c} {st : Src k' c'} {dst src l : Nat} (h : Audio.withStream rate st = .ok b)
    (hl : st.len = some l) (hd : rate.Is (dst:ℚ)) (hsr : st.rate = some sr) (hs : sr.Is (src:ℚ)) (hd0 : 0 < dst) (hle : dst ≤ src)
    (hs' : src ≤ 2 ^ 51) (hN : dst * l < 2 ^ 51) (hb : dst * l + 2 * src ≤ dst * 2 ^ 51)
    (i : Nat) (hi : i < k.chans) (w : Nat → ℚ)
    (hw : ∀ j f, st.nth j = .ok (some f) → ∀ g : Frame k c, f.convert c = .ok g → SampleVal c g[i] (w j)) (hw1 : ∀ j, |w j| ≤ 1)
    (hm : ∀ j j' : Nat, j ≤ j' → w j ≤ w j') (x x' : Nat) (hx1 : 1 ≤ x) (hxx : x < x') (hx : x' + 1 < b.len) :
    ∃ (f g : Frame k c) (p q : ℚ), b.get x = some f ∧ b.get x' = some g ∧ SampleVal c f[i] p ∧ SampleVal c g[i] q ∧
      p ≤ q + 2 * boxErr c (binary64.rnd ((dst:ℚ) / src)) b.len := by
  obtain ⟨hq, hr0, hr1, hBq, s, it, h1, h2⟩ := with_down h hl hd hsr hs hd0 hle hs' hN hb
  have len : (List.replicate b.len (Frame.dflt : Frame k c)).length = b.len := List.length_replicate
  have := C147_partial (l + 1) _ s st it h1 rfl _ hq hr0 hr1 (by rw [len]; exact hBq) i hi w hw hw1 x x' hx1 hxx
    (by rw [len]; exact (h2 x' hx).1) (fun j j' hj _ _ => hm j j' hj)
  rw [len, ← (h2 x (by omega)).2, ← (h2 x' hx).2] at this
  exact this

/-- C147_slope for `with_stream`: the steps from slot to slot. -/
theorem C147_withStream_slope {rate sr : F64} {b : Audio k c} {st : Src k' c'} {dst src l : Nat} (h : Audio.withStream rate st = .ok b)
    (hl : st.len = some l) (hd : rate.Is (dst:ℚ)) (hsr : st.rate = some sr) (hs : sr.Is (src:ℚ)) (hd0 : 0 < dst) (hle : dst ≤ src)
    (hs' : src ≤ 2 ^ 51) (hN : dst * l < 2 ^ 51) (hb : dst * l + 2 * src ≤ dst * 2 ^ 51)
    (i : Nat) (hi : i < k.chans) (w : Nat → ℚ)
    (hw : ∀ j f, st.nth j = .ok (some f) → ∀ g : Frame k c, f.convert c = .ok g → SampleVal c g[i] (w j) ∧ |w j| ≤ 1)
    (d : ℚ) (hd1 : 0 ≤ d) (hm : ∀ j : Nat, |w (j + 1) - w j| ≤ d) (x : Nat) (hx1 : 1 ≤ x) (hx : x + 2 < b.len) :
    let r := binary64.rnd ((dst:ℚ) / src)
    ∃ (f g : Frame k c) (p q : ℚ), b.get x = some f ∧ b.get (x + 1) = some g ∧ SampleVal c f[i] p ∧ SampleVal c g[i] q ∧
      |q - p| ≤ d * (1 / r + r / 4) + 2 * boxErr c r b.len := by
  intro r
  obtain ⟨hq, hr0, hr1, hBq, s, it, h1, h2⟩ := with_down h hl hd hsr hs hd0 hle hs' hN hb
  have len : (List.replicate b.len (Frame.dflt : Frame k c)).length = b.len := List.length_replicate
  have := C147_slope (l + 1) _ s st it h1 rfl _ hq hr0 hr1 (by rw [len]; exact hBq) i hi w hw x hx1
    (by rw [len]; exact (h2 (x + 1) hx).1) d hd1 (fun j _ _ => hm j)
  rw [len, ← (h2 x (by omega)).2, ← (h2 (x + 1) hx).2] at this
  exact this

/-- C151 for `with_stream`: a tone and its images, in every slot. -/
theorem C151_withStream {rate sr : F64} {b : Audio k c} {st : Src k' c'} {src N l : Nat} (h : Audio.withStream rate st = .ok b)
    (hl : st.len = some l) (hd : rate.Is ((N * src : Nat):ℚ)) (hsr : st.rate = some sr) (hs : sr.Is (src:ℚ)) (h0 : 0 < src)
    (h1 : 1 ≤ N) (hN24 : N ≤ 2 ^ 24) (hs' : src ≤ 2 ^ 51) (hN : N * src * l < 2 ^ 52)
    (i : Nat) (hi : i < k.chans) (w : Nat → ℚ)
    (hw : ∀ j f, st.nth j = .ok (some f) → ∀ x : Frame k c, f.convert c = .ok x → SampleVal c x[i] (w j))
    (hw1 : ∀ j, gain c N * |w j| ≤ 1) (A δ θ e : ℝ) (ht : ∀ j < l, |(w j : ℝ) - A * Real.cos (δ * j + θ)| ≤ e) (he : 0 ≤ e) :
    b.len = N * l ∧ ∀ x < N * l, ∃ (y : Frame k c) (v : ℚ), b.get x = some y ∧ SampleVal c y[i] v ∧
      |(v:ℝ) - ∑ m ∈ Finset.range N, A * ((gain c N : ℚ) : ℝ) / N * Real.cos ((δ + 2 * Real.pi * m) / N * x + θ)| ≤
        ((gain c N : ℚ) : ℝ) * e + ((mixErr c : ℚ) : ℝ) := by
  have hsq : (src:ℚ) ≠ 0 := by exact_mod_cast h0.ne'
  have hD : N * l ≤ 2 ^ 52 := le_trans (by
    rw [Nat.mul_right_comm]
    exact Nat.le_mul_of_pos_right _ h0) hN.le
  have hl52 : l ≤ 2 ^ 52 := le_trans (Nat.le_mul_of_pos_left _ h1) hD
  have hq : (ratioOf rate (some sr)).Is (N:ℚ) := by
    have e1 : ((N * src : Nat):ℚ) / src = N := by push_cast; field_simp
    have e2 := hd.div hs hsq
    rw [e1, Fmt.rnd_of_rep (by simpa using rep_nat53 (n := N) (by omega))] at e2
    refine e2 (le_trans ?_ (show (2:ℚ) ^ 24 ≤ binary64.maxF by decide +kernel))
    rw [Nat.abs_cast]
    exact_mod_cast hN24
  obtain ⟨-, hlen, s, it, g1, g2, g3⟩ := with_whole hd hs h0 hs' hN (by omega) (D := N * l) (by ring) hq (by exact_mod_cast h1)
    (by push_cast; ring) (by omega) hl hsr h
  refine ⟨hlen, fun x hx => ?_⟩
  have len : (List.replicate (N * l) (Frame.dflt : Frame k c)).length = N * l := List.length_replicate
  have := C151_partial (l + 1) N _ s st it g1 rfl (by rw [hsr]; exact hq) h1 hN24 (by rw [len]; exact hD) i hi w hw hw1 x
    (by rw [len]; exact g3 x hx) A δ θ e (fun _ => ht _ (Nat.div_lt_of_lt_mul hx)) he
  rw [g2] at this
  exact this

/-! ## Examples -/

example := C147_withStream (k := .mono) (c := .ch8) (dst := 10) (src := 12) (l := 5) (rate := lit 10) (sr := lit 12)
  (st := .audio (exAudio 12)) (R.returns (x := (Audio.withStream (lit 10) (.audio (exAudio 12)) : R (Audio .mono .ch8))) (by decide +kernel)) rfl
  (by decide +kernel) rfl (by decide +kernel) (by decide) (by decide) (by decide) (by decide) (by decide) 0 (by decide)
  exStair exStair_val exStair_le exStair_mono 1 2 le_rfl (by decide) (by decide +kernel)

example := C147_withStream_slope (k := .mono) (c := .ch8) (dst := 10) (src := 12) (l := 5) (rate := lit 10) (sr := lit 12)
  (st := .audio (exAudio 12)) (R.returns (x := (Audio.withStream (lit 10) (.audio (exAudio 12)) : R (Audio .mono .ch8))) (by decide +kernel)) rfl
  (by decide +kernel) rfl (by decide +kernel) (by decide) (by decide) (by decide) (by decide) (by decide) 0 (by decide)
  exStair (fun j f hf g hg => ⟨exStair_val j f hf g hg, exStair_le j⟩) (1 / 127) (by norm_num)
  (fun j => by have := exStair_near (j + 1) j; push_cast at this; rwa [add_sub_cancel_left, abs_one, mul_one] at this) 1 le_rfl (by decide +kernel)

/-- The values of `exZigzag` are those of a tone. -/
theorem exZigzag_all (j : Nat) (_ : j < 6) :
    |(((-1) ^ j * (100 / 127) : ℚ) : ℝ) - 100 / 127 * Real.cos (Real.pi * j + 0)| ≤ 0 := by
  rw [add_zero, mul_comm Real.pi, Real.cos_nat_mul_pi]
  push_cast
  rw [mul_comm, sub_self, abs_zero]

example := C151_withStream (k := .mono) (c := .ch8) (src := 12) (N := 2) (l := 6) (rate := lit 24) (sr := lit 12)
  (st := .audio exZigzag) (R.returns (x := (Audio.withStream (lit 24) (.audio exZigzag) : R (Audio .mono .ch8))) (by decide +kernel)) rfl
  (by decide +kernel) rfl (by decide +kernel) (by decide) (by decide) (by decide) (by decide) (by decide) 0 (by decide)
  (fun j => (-1) ^ j * (100 / 127)) exZigzag_val (fun j => by simpa [gain] using exZigzag_le j) (100 / 127) Real.pi 0 0 exZigzag_all le_rfl

example := C145_withStream (k := .mono) (c := .ch32) rfl (dst := 3) (src := 4) (l := 4) (rate := lit 3) (sr := lit 4)
  (sa := .audio exLoud) (sb := .audio exFade)
  (R.returns (x := (Audio.withStream (lit 3) (.blend (.audio exLoud) (.audio exFade) .amplify) : R (Audio .mono .ch32))) (by decide +kernel))
  (R.returns (x := (Audio.withStream (lit 3) (.audio exLoud) : R (Audio .mono .ch32))) (by decide +kernel)) rfl rfl
  (by decide +kernel) rfl (by decide +kernel) (by decide) (by decide) (by decide) (by decide) (by decide) (i := 0) (by decide) exLoud_val
  (fun j => (exLoud_le j).trans (by norm_num)) exFade_val exFade_le (x := 1) (by decide +kernel) (G := 3 / 4) (δ := 1 / 8)
  (by norm_num [abs_le]) (by norm_num) (fun j f _ h1 h2 => by
    have e : binary64.rnd (((3 : Nat) : ℚ) / (4 : Nat)) = 3 / 4 := by decide +kernel
    rw [e] at h1 h2
    have h3 : j < 3 := by
      have : (j:ℚ) < 3 := by push_cast at h2; linarith
      exact_mod_cast this
    have h4 : 0 < j := by
      have : (0:ℚ) < j := by push_cast at h1; linarith
      exact_mod_cast this
    rw [exFadeVal, if_pos (by omega)]
    interval_cases j <;> norm_num [abs_le])

end Fon
