import Verif.Props.Pieces
import Verif.Props.Standard

/-!
# The usual rates, upwards (C114, C138, C139)
-/

namespace Fon

open Fmt Fl

variable {k k' k'' : Kind} {c c' c'' : ChTy}

/-- No ratio of two usual rates is rounded down by more than its 2^54th part. -/
theorem usual_near : ∀ src ∈ usualRates, ∀ dst ∈ usualRates, src ≤ dst →
    (1 - 2 ^ (-54 : ℤ)) * ((dst:ℚ) / src) ≤ binary64.rnd ((dst:ℚ) / src) := by decide +kernel

example := usual_near 11025 (by decide) 16000 (by decide) (by decide)

/-- The ratio 16000 / 11025 is rounded down, though. -/
example : binary64.rnd (16000 / 11025) < 16000 / 11025 := by decide +kernel

/-- C114 between the usual rates, upwards. -/
theorem C114_usual (fuel fuel' d X dst src : Nat) (s s' t t' : Sink k c) (st : Src k' c') (st' : Src k'' c'') (it : It k' c')
    (it' : It k'' c'') (h : s.stream fuel st = .ok (s', it)) (h' : t.stream fuel' st' = .ok (t', it'))
    (hrt : t.rate = s.rate) (hrt' : st'.rate = st.rate)
    (ho : s.res.offseti = lit 0) (ho' : t.res.offseti = lit 0)
    (hr : s.rate.Is (dst:ℚ)) {sr : F64} (hsr : st.rate = some sr) (hs : sr.Is (src:ℚ))
    (hsu : src ∈ usualRates) (hdu : dst ∈ usualRates) (hsd : src ≤ dst)
    (hbl : s.buf.length ≤ t.buf.length) (hb : t.buf.length ≤ 10 ^ 10)
    (hd : dst * d = X * src) (hl : st'.len = st.len.map (· + d))
    (i : Nat) (hi : i < k.chans) (w : Nat → ℚ) (hw1 : ∀ j, |w j| ≤ 1)
    (hw : ∀ j f, st.nth j = .ok (some f) → ∀ x : Frame k c, f.convert c = .ok x → SampleVal c x[i] (w j))
    (hw' : ∀ j f, st'.nth j = .ok (some f) → ∀ x : Frame k c, f.convert c = .ok x →
      SampleVal c x[i] (if j < d then 0 else w (j - d))) :
    (∀ x, x < X → InDst (ratioOf s.rate st.rate) st'.len t.buf.length x →
      ∃ (y : Frame k c) (b : ℚ), t'.buf[x]? = some y ∧ SampleVal c y[i] b ∧
        |b| ≤ mixErr c * (binary64.rnd ((dst:ℚ) / src) + 5)) ∧
    (∀ x, InDst (ratioOf s.rate st.rate) st.len s.buf.length x →
      InDst (ratioOf s.rate st.rate) st'.len t.buf.length (x + X) →
      ∃ (y z : Frame k c) (a b : ℚ), s'.buf[x]? = some y ∧ t'.buf[x + X]? = some z ∧ SampleVal c y[i] a ∧
        SampleVal c z[i] b ∧
        |b - a| ≤ 2 * (mixErr c * (binary64.rnd ((dst:ℚ) / src) + 5)) + 12 * (t.buf.length * 2 ^ (-53 : ℤ))) := by
  have hm : ∀ r ∈ usualRates, 0 < r ∧ r ≤ 192000 := by decide
  obtain ⟨s0, s1⟩ := hm _ hsu
  obtain ⟨d0, d1⟩ := hm _ hdu
  have hmul : src * t.buf.length ≤ 192000 * 10 ^ 10 := Nat.mul_le_mul s1 hb
  exact C114_up fuel fuel' d X dst src s s' t t' st st' it it' h h' hrt hrt' ho ho'
    (by rw [hsr]; exact (pos_int hr hs s0 d0 (by omega) (by omega)).1) s0 hsd (by omega)
    (by have := Nat.mul_le_mul_left (2 ^ 20) s0; omega) (usual_near _ hsu _ hdu hsd) hbl (by omega) hd hl i hi w hw1 hw hw'

example := C114_usual 6 8 2 3 48000 32000 (exSink 7 48000) _ (exSink 10 48000) _ (.audio (exAudio 32000))
  (.audio ⟨(exAudio 32000).rate, List.replicate 2 Frame.dflt ++ (exAudio 32000).frames⟩) _ _
  (R.returns₂ (x := (exSink 7 48000).stream 6 (.audio (exAudio 32000))) (by decide +kernel))
  (R.returns₂ (x := (exSink 10 48000).stream 8
    (.audio ⟨(exAudio 32000).rate, List.replicate 2 Frame.dflt ++ (exAudio 32000).frames⟩)) (by decide +kernel))
  rfl rfl rfl rfl (by decide +kernel) (sr := lit 32000) rfl (by decide +kernel) (by decide) (by decide) (by decide) (by decide)
  (by decide) rfl rfl 0 (by decide) (fun j => if j < 5 then (j + 1) / 127 else 0) (by
    intro j
    split
    · rename_i h
      have : (j:ℚ) < 5 := by exact_mod_cast h
      rw [abs_of_nonneg (by positivity), div_le_one (by norm_num)]; linarith
    · simp) (by
    intro j f hf x hx
    match j with
    | 0 | 1 | 2 | 3 | 4 => cases hf; cases hx; decide +kernel
    | j + 5 => cases hf) (by
    intro j f hf x hx
    match j with
    | 0 | 1 | 2 | 3 | 4 | 5 | 6 => cases hf; cases hx; decide +kernel
    | j + 7 => cases hf)

/-- Samples that repeat themselves after two frames, at 32 kHz. -/
def exTwos : Audio .mono .ch8 := ⟨lit 32000, [#v[100#8], #v[20#8], #v[100#8], #v[20#8], #v[100#8], #v[20#8]]⟩

/-- C138 between the usual rates, upwards. -/
theorem C138_usual {fuel d X dst src : Nat} {s s' : Sink k c} {st : Src k' c'} {it : It k' c'}
    (h : s.stream fuel st = .ok (s', it)) (ho : s.res.offseti = lit 0)
    (hr : s.rate.Is (dst:ℚ)) {sr : F64} (hsr : st.rate = some sr) (hs : sr.Is (src:ℚ))
    (hsu : src ∈ usualRates) (hdu : dst ∈ usualRates) (hsd : src ≤ dst) (hb : s.buf.length ≤ 10 ^ 10)
    (hd : dst * d = X * src) {i : Nat} (hi : i < k.chans) {w : Nat → ℚ} (hw1 : ∀ j, |w j| ≤ 1)
    (hw : ∀ j f, st.nth j = .ok (some f) → ∀ x : Frame k c, f.convert c = .ok x → SampleVal c x[i] (w j))
    (hp : ∀ j, w (j + d) = w j) {x : Nat} (hx0 : 1 ≤ x)
    (hx : InDst (ratioOf s.rate st.rate) st.len s.buf.length (x + X)) :
    ∃ (y z : Frame k c) (a b : ℚ), s'.buf[x]? = some y ∧ s'.buf[x + X]? = some z ∧ SampleVal c y[i] a ∧
      SampleVal c z[i] b ∧
      |b - a| ≤ 2 * (mixErr c * (binary64.rnd ((dst:ℚ) / src) + 5)) + 12 * (s.buf.length * 2 ^ (-53 : ℤ)) := by
  have hm : ∀ r ∈ usualRates, 0 < r ∧ r ≤ 192000 := by decide
  obtain ⟨s0, s1⟩ := hm _ hsu
  obtain ⟨d0, d1⟩ := hm _ hdu
  have hmul : src * s.buf.length ≤ 192000 * 10 ^ 10 := Nat.mul_le_mul s1 hb
  exact C138_up h ho (by rw [hsr]; exact (pos_int hr hs s0 d0 (by omega) (by omega)).1) s0 hsd (by omega)
    (by have := Nat.mul_le_mul_left (2 ^ 20) s0; omega) (usual_near _ hsu _ hdu hsd) (by omega) hd hi hw1 hw hp hx0 hx

example := C138_usual (d := 2) (X := 3) (dst := 48000) (src := 32000) (x := 4)
  (R.returns₂ (x := (exSink 9 48000).stream 7 (.audio exTwos)) (by decide +kernel)) rfl (by decide +kernel)
  (sr := lit 32000) rfl (by decide +kernel) (by decide) (by decide) (by decide) (by decide) rfl (i := 0) (by decide)
  (w := fun j => if j % 2 = 0 then 100 / 127 else 20 / 127)
  (by intro j; split <;> norm_num [abs_le]) (by
    intro j f hf x hx
    match j with
    | 0 | 1 | 2 | 3 | 4 | 5 => cases hf; cases hx; decide +kernel
    | j + 6 => cases hf) (fun j => by simp) (by decide) (by decide +kernel)

/-- C139 between the usual rates, upwards. -/
theorem C139_usual {fuel fuel' d X dst src : Nat} {s s' t t' : Sink k c} {st st2 : Src k' c'} {it it2 : It k' c'}
    (h : s.stream fuel st = .ok (s', it)) (h2 : t.stream fuel' st2 = .ok (t', it2))
    (hrt : t.rate = s.rate) (hr2 : st2.rate = st.rate) (ho : s.res.offseti = lit 0) (ho2 : t.res.offseti = lit 0)
    (hr : s.rate.Is (dst:ℚ)) {sr : F64} (hsr : st.rate = some sr) (hs : sr.Is (src:ℚ))
    (hsu : src ∈ usualRates) (hdu : dst ∈ usualRates) (hsd : src ≤ dst) (hb : s.buf.length ≤ 10 ^ 10)
    (hbt : t.buf.length ≤ s.buf.length)
    (hd : dst * d = X * src) {i : Nat} (hi : i < k.chans) {w : Nat → ℚ} (hw1 : ∀ j, |w j| ≤ 1)
    (hw : ∀ j f, st.nth j = .ok (some f) → ∀ x : Frame k c, f.convert c = .ok x → SampleVal c x[i] (w j))
    (hw2 : ∀ j f, st2.nth j = .ok (some f) → ∀ x : Frame k c, f.convert c = .ok x → SampleVal c x[i] (w (j + d)))
    {x : Nat} (hx0 : 1 ≤ x) (hx : InDst (ratioOf s.rate st.rate) st.len s.buf.length (x + X))
    (hx2 : InDst (ratioOf s.rate st.rate) st2.len t.buf.length x) :
    ∃ (y z : Frame k c) (a b : ℚ), t'.buf[x]? = some y ∧ s'.buf[x + X]? = some z ∧ SampleVal c y[i] a ∧
      SampleVal c z[i] b ∧
      |b - a| ≤ 2 * (mixErr c * (binary64.rnd ((dst:ℚ) / src) + 5)) + 12 * (s.buf.length * 2 ^ (-53 : ℤ)) := by
  have hm : ∀ r ∈ usualRates, 0 < r ∧ r ≤ 192000 := by decide
  obtain ⟨s0, s1⟩ := hm _ hsu
  obtain ⟨d0, d1⟩ := hm _ hdu
  have hmul : src * s.buf.length ≤ 192000 * 10 ^ 10 := Nat.mul_le_mul s1 hb
  exact C139_up h h2 hrt hr2 ho ho2 (by rw [hsr]; exact (pos_int hr hs s0 d0 (by omega) (by omega)).1) s0 hsd (by omega)
    (by have := Nat.mul_le_mul_left (2 ^ 20) s0; omega) (usual_near _ hsu _ hdu hsd) (by omega) hbt hd hi hw1 hw hw2 hx0 hx
    hx2

example := C139_usual (d := 2) (X := 3) (dst := 48000) (src := 32000) (x := 4)
  (R.returns₂ (x := (exSink 9 48000).stream 7 (.audio exTwos)) (by decide +kernel))
  (R.returns₂ (x := (exSink 6 48000).stream 7 (.audio ⟨lit 32000, exTwos.frames.drop 2⟩)) (by decide +kernel)) rfl rfl rfl rfl
  (by decide +kernel) (sr := lit 32000) rfl (by decide +kernel) (by decide) (by decide) (by decide) (by decide) (by decide) rfl
  (i := 0) (by decide)
  (w := fun j => if j % 2 = 0 then 100 / 127 else 20 / 127)
  (by intro j; split <;> norm_num [abs_le]) (by
    intro j f hf x hx
    match j with
    | 0 | 1 | 2 | 3 | 4 | 5 => cases hf; cases hx; decide +kernel
    | j + 6 => cases hf) (by
    intro j f hf x hx
    match j with
    | 0 | 1 | 2 | 3 => cases hf; cases hx; decide +kernel
    | j + 4 => cases hf) (by decide) (by decide +kernel) (by decide +kernel)

end Fon
