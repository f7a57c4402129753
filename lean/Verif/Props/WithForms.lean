import Verif.Props.Stretch
import Verif.Props.Crossing
import Verif.Props.Vanish

/-!
# C149, C150 and C157 for `Audio::with_stream`
-/

namespace Fon
open Fon.Fl hiding min max
open Fon.Fmt Fon.Sink
variable {k k' : Kind} {c c' : ChTy}

/-- What `with_stream` does at whole rates that do not go up, for all slots but the last. -/
theorem with_down {rate sr : F64} {b : Audio k c} {st : Src k' c'} {dst src l : Nat} (h : Audio.withStream rate st = .ok b)
    (hl : st.len = some l) (hd : rate.Is (dst:ℚ)) (hsr : st.rate = some sr) (hs : sr.Is (src:ℚ)) (hd0 : 0 < dst) (hle : dst ≤ src)
    (hs' : src ≤ 2 ^ 51) (hN : dst * l < 2 ^ 51) (hb : dst * l + 2 * src ≤ dst * 2 ^ 51) :
    (ratioOf rate st.rate).Is (binary64.rnd ((dst:ℚ) / src)) ∧ 0 < binary64.rnd ((dst:ℚ) / src) ∧ binary64.rnd ((dst:ℚ) / src) ≤ 1 ∧
    (b.len:ℚ) + 1 ≤ binary64.rnd ((dst:ℚ) / src) * 2 ^ 52 ∧
    ∃ s it, (⟨rate, Resampler.dflt, List.replicate b.len Frame.dflt⟩ : Sink k c).stream (l + 1) st = .ok (s, it) ∧
      ∀ x, x + 1 < b.len → InDst (ratioOf rate st.rate) st.len b.len x ∧ b.get x = s.buf[x]? := by
  have h0 : 0 < src := by omega
  have hsq : (0:ℚ) < src := by exact_mod_cast h0
  have hdq : (0:ℚ) < dst := by exact_mod_cast hd0
  have hl51 : l ≤ 2 ^ 51 := le_trans (Nat.le_mul_of_pos_left _ hd0) hN.le
  have hlen := C49_partial rate sr dst src l hd hs h0 (by omega) (by omega) hs' st hl hsr b h
  obtain ⟨hratio, hpos⟩ := pos_int hd hs h0 hd0 hs' (hle.trans hs')
  have hrlo : (dst:ℚ) / src * (1 / 2) ≤ binary64.rnd ((dst:ℚ) / src) := by
    obtain ⟨_, _, _, g4, _⟩ := hpos 1 (by omega)
    rw [Nat.cast_one, mul_one, mul_one, Fmt.rnd_of_rep hratio.rep] at g4
    have : (0:ℚ) < (dst:ℚ) / src := by positivity
    nlinarith
  have hr0 : 0 < binary64.rnd ((dst:ℚ) / src) := lt_of_lt_of_le (by positivity) hrlo
  have hr1 : binary64.rnd ((dst:ℚ) / src) ≤ 1 := by
    have e0 : binary64.rnd 1 = 1 := Fmt.rnd_of_rep (by simpa using rep_nat53 (n := 1) (by norm_num))
    rw [← e0]
    refine Fmt.rnd_mono ?_
    rw [div_le_one hsq]; exact_mod_cast hle
  have hBup : (b.len:ℚ) < dst * l / src + 1 := by rw [hlen]; exact Nat.ceil_lt_add_one (by positivity)
  have hBq : (b.len:ℚ) + 1 ≤ binary64.rnd ((dst:ℚ) / src) * 2 ^ 52 := by
    have e1 : (dst * l / src + 2 : ℚ) ≤ dst / src * 2 ^ 51 := by
      rw [div_add' _ _ _ hsq.ne', div_mul_eq_mul_div]
      refine div_le_div_of_nonneg_right ?_ hsq.le
      exact_mod_cast hb
    linarith
  have hq : (ratioOf rate st.rate).Is (binary64.rnd ((dst:ℚ) / src)) := by rw [hsr]; exact hratio
  obtain ⟨s, it, e1, e2⟩ := with_slots h hq hr0 hl
  exact ⟨hq, hr0, hr1, hBq, s, it, e1, fun x hx =>
    e2 x (by omega) (by rw [hsr]; exact before_last hd hs h0 hd0 hs' (hle.trans hs') hN (by rwa [← hlen]))⟩

/-- C149 for `with_stream`: the level of a tone when the rate is divided by a whole number, for all slots but the first and the last. -/
theorem C149_withStream {rate sr : F64} {b : Audio k c} {st : Src k' c'} {dst N l : Nat} (h : Audio.withStream rate st = .ok b)
    (hl : st.len = some l) (hd : rate.Is (dst:ℚ)) (hsr : st.rate = some sr) (hs : sr.Is ((N * dst : Nat):ℚ)) (hd0 : 0 < dst)
    (hN0 : 0 < N) (hs' : N * dst ≤ 2 ^ 51) (hN : dst * l < 2 ^ 51) (hb : dst * l + 2 * (N * dst) ≤ dst * 2 ^ 51)
    (i : Nat) (hi : i < k.chans) (w : Nat → ℚ)
    (hw : ∀ j f, st.nth j = .ok (some f) → ∀ x : Frame k c, f.convert c = .ok x → SampleVal c x[i] (w j))
    (hw1 : ∀ j, |w j| ≤ 1) (x : Nat) (hx0 : 1 ≤ x) (hx : x + 1 < b.len) (A δ θ e : ℝ) (hδ : Real.sin (δ / 2) ≠ 0)
    (ht : ∀ j : Nat, N * (x - 1) < j → j ≤ N * x → |(w j : ℝ) - A * Real.cos (δ * j + θ)| ≤ e) :
    ∃ (y : Frame k c) (v : ℚ), b.get x = some y ∧ SampleVal c y[i] v ∧
      |(v:ℝ) - A * (Real.sin (N * δ / 2) / (N * Real.sin (δ / 2))) * Real.cos (δ * (N * x - (N - 1) / 2) + θ)| ≤
        e + (((mixErr c + 5 * 2 ^ (-53 : ℤ) + 7 * ((b.len + 1) * 2 ^ (-53 : ℤ))) * (1 / binary64.rnd (1 / N) + 3) : ℚ) : ℝ) := by
  have hdq : (dst:ℚ) ≠ 0 := by exact_mod_cast hd0.ne'
  have e1 : (dst:ℚ) / ((N * dst : Nat):ℚ) = 1 / N := by push_cast; field_simp
  obtain ⟨hq, hr0, hr1, hBq, s, it, h1, h2⟩ := with_down h hl hd hsr hs hd0 (Nat.le_mul_of_pos_left _ hN0) hs' hN hb
  rw [e1] at hq hr0 hr1 hBq
  have len : (List.replicate b.len (Frame.dflt : Frame k c)).length = b.len := List.length_replicate
  have := C149_whole (l + 1) _ s st it h1 rfl N hN0 (le_trans (Nat.le_mul_of_pos_right _ hd0) hs') _ rfl hq (by rw [len]; exact hBq) i hi
    w hw hw1 x hx0 (by rw [len]; exact (h2 x hx).1) A δ θ e hδ ht
  rw [len, ← (h2 x hx).2] at this
  exact this

/-- C150 for `with_stream`: the sum over any stretch of slots before the last one. -/
theorem C150_withStream {rate sr : F64} {b : Audio k c} {st : Src k' c'} {dst src l : Nat} (h : Audio.withStream rate st = .ok b)
    (hl : st.len = some l) (hd : rate.Is (dst:ℚ)) (hsr : st.rate = some sr) (hs : sr.Is (src:ℚ)) (hd0 : 0 < dst) (hle : dst ≤ src)
    (hs' : src ≤ 2 ^ 51) (hN : dst * l < 2 ^ 51) (hb : dst * l + 2 * src ≤ dst * 2 ^ 51)
    (i : Nat) (hi : i < k.chans) (w : Nat → ℚ) (M : ℚ) (hM1 : M ≤ 1)
    (hw : ∀ j f, st.nth j = .ok (some f) → ∀ x : Frame k c, f.convert c = .ok x → SampleVal c x[i] (w j)) (hM : ∀ j, |w j| ≤ M)
    (x₁ x₂ : Nat) (h12 : x₁ ≤ x₂) (hx : x₂ < b.len) :
    let r := binary64.rnd ((dst:ℚ) / src)
    ∃ (n : Nat) (y : Nat → ℚ), Takes (ratioOf rate st.rate) (lit 0) (some l) b.len n ∧
      (∀ x, x₁ ≤ x → x < x₂ → ∃ f, b.get x = some f ∧ SampleVal c f[i] (y x)) ∧
      |∑ x ∈ Finset.Ico x₁ x₂, y x - r * ∑ j ∈ (Finset.range n).filter (fun j : Nat => (x₁:ℚ) ≤ r * j ∧ r * j < x₂), w j| ≤
        2 * M + (x₂ - x₁) * ((mixErr c + 5 * 2 ^ (-53 : ℤ) + 2 * ((b.len + 1) * 2 ^ (-53 : ℤ))) * (1 / r + 3)) := by
  intro r
  obtain ⟨hq, hr0, hr1, hBq, s, it, h1, h2⟩ := with_down h hl hd hsr hs hd0 hle hs' hN hb
  have len : (List.replicate b.len (Frame.dflt : Frame k c)).length = b.len := List.length_replicate
  obtain ⟨n, y, y1, y2, y3⟩ := C150_down (l + 1) _ s st it h1 rfl _ hq hr0 hr1 (by rw [len]; exact hBq) i hi w M hM1 hw hM x₁ x₂ h12
    (fun x _ hx2 => by rw [len]; exact (h2 x (by omega)).1)
  rw [len] at y1 y3
  rw [hl] at y1
  refine ⟨n, y, y1, fun x a1 a2 => ?_, y3⟩
  rw [(h2 x (by omega)).2]
  exact y2 x a1 a2

/-- C150 for `with_stream` to a higher whole rate, in the float formats. -/
theorem C150_withStream_up (hc : c = .ch32 ∨ c = .ch64) {rate sr : F64} {b : Audio k c} {st : Src k' c'} {dst src l : Nat}
    (h : Audio.withStream rate st = .ok b) (hl : st.len = some l) (hd : rate.Is (dst:ℚ)) (hsr : st.rate = some sr)
    (hs : sr.Is (src:ℚ)) (h0 : 0 < src) (hle : src ≤ dst) (hd' : dst ≤ 2 ^ 51) (h20 : dst ≤ 2 ^ 20 * src) (hN : dst * l < 2 ^ 51)
    (i : Nat) (hi : i < k.chans) (w : Nat → ℚ) (M : ℚ) (hM1 : M * (binary64.rnd ((dst:ℚ) / src) + 1) ≤ 1)
    (hw : ∀ j f, st.nth j = .ok (some f) → ∀ x : Frame k c, f.convert c = .ok x → SampleVal c x[i] (w j)) (hM : ∀ j, |w j| ≤ M)
    (x₁ x₂ : Nat) (h12 : x₁ ≤ x₂) (hx : x₂ < b.len) :
    let r := binary64.rnd ((dst:ℚ) / src)
    ∃ (n : Nat) (y : Nat → ℚ), Takes (ratioOf rate st.rate) (lit 0) (some l) b.len n ∧
      (∀ x, x₁ ≤ x → x < x₂ → ∃ f, b.get x = some f ∧ SampleVal c f[i] (y x)) ∧
      |∑ x ∈ Finset.Ico x₁ x₂, y x -
        r * ∑ j ∈ (Finset.range n).filter (fun j : Nat => (x₁:ℚ) ≤ binary64.rnd (r * j) ∧ binary64.rnd (r * j) < x₂), w j| ≤
          2 * M + (x₂ - x₁) * (mixErr c * (r + 5)) := by
  intro r
  have hd0 : 0 < dst := by omega
  have hs' : src ≤ 2 ^ 51 := hle.trans hd'
  have hsq : (0:ℚ) < src := by exact_mod_cast h0
  have hl51 : l ≤ 2 ^ 51 := le_trans (Nat.le_mul_of_pos_left _ hd0) hN.le
  have hlen := C49_partial rate sr dst src l hd hs h0 (by omega) (by omega) hs' st hl hsr b h
  obtain ⟨hratio, -⟩ := pos_int hd hs h0 hd0 hs' hd'
  have hq : (ratioOf rate st.rate).Is r := by rw [hsr]; exact hratio
  have e0 : binary64.rnd 1 = 1 := by decide +kernel
  have hr1 : 1 ≤ r := by
    rw [← e0]
    refine rnd_mono ?_
    rw [one_le_div hsq]; exact_mod_cast hle
  have hr20 : r ≤ 2 ^ 20 := by
    refine (rnd_mono ((div_le_iff₀ hsq).mpr (show (dst:ℚ) ≤ 2 ^ 20 * src by exact_mod_cast h20))).trans_eq ?_
    decide +kernel
  have hb51 : b.len ≤ 2 ^ 51 := by
    rw [hlen]
    refine Nat.ceil_le.mpr ?_
    have h1 : (1:ℚ) ≤ src := by exact_mod_cast h0
    have h2 : (dst * l : ℚ) ≤ 2 ^ 51 := by exact_mod_cast hN.le
    rw [div_le_iff₀ hsq]
    push_cast
    nlinarith
  obtain ⟨s, it, e1, e2⟩ := with_slots h hq (by linarith) hl
  have hin : ∀ x, x + 1 < b.len → InDst (ratioOf rate st.rate) st.len b.len x ∧ b.get x = s.buf[x]? := fun x hx =>
    e2 x (by omega) (by rw [hsr]; exact before_last hd hs h0 hd0 hs' hd' hN (by rwa [← hlen]))
  have len : (List.replicate b.len (Frame.dflt : Frame k c)).length = b.len := List.length_replicate
  obtain ⟨n, y, y1, y2, y3⟩ := C150_up_float hc (l + 1) _ s st it e1 rfl _ hq hr1 hr20 (by rw [len]; exact hb51) i hi w M hM1 hw hM x₁ x₂
    h12 (fun x _ hx2 => by rw [len]; exact (hin x (by omega)).1)
  rw [len] at y1
  rw [hl] at y1
  refine ⟨n, y, y1, fun x a1 a2 => ?_, y3⟩
  rw [(hin x (by omega)).2]
  exact y2 x a1 a2

/-- C157 for `with_stream`: what is heard. -/
theorem C157_heard {rate sr : F64} {b : Audio k c} {st : Src k' c'} {dst src l : Nat} (h : Audio.withStream rate st = .ok b)
    (hl : st.len = some l) (hd : rate.Is (dst:ℚ)) (hsr : st.rate = some sr) (hs : sr.Is (src:ℚ)) (hd0 : 0 < dst) (hle : dst ≤ src)
    (hs' : src ≤ 2 ^ 51) (hN : dst * l < 2 ^ 51) (hb : dst * l + 2 * src ≤ dst * 2 ^ 51)
    (i : Nat) (hi : i < k.chans) (w : Nat → ℚ)
    (hw : ∀ j f, st.nth j = .ok (some f) → ∀ x : Frame k c, f.convert c = .ok x → SampleVal c x[i] (w j) ∧ |w j| ≤ 1) :
    let r := binary64.rnd ((dst:ℚ) / src)
    ∃ n, Takes (ratioOf rate st.rate) (lit 0) (some l) b.len n ∧ ∀ x, x + 1 < b.len →
      (mixErr c + 5 * 2 ^ (-53 : ℤ) + 2 * ((b.len + 1) * 2 ^ (-53 : ℤ))) * (1 / r + 3) <
          |∑ j ∈ Finset.range n, w j * overlap (r * j - r) (r * j) ((x:ℚ) - 1) x| →
        ∃ f, b.get x = some f ∧ ¬ SampleVal c f[i] 0 := by
  intro r
  obtain ⟨hq, hr0, hr1, hBq, s, it, h1, h2⟩ := with_down h hl hd hsr hs hd0 hle hs' hN hb
  have len : (List.replicate b.len (Frame.dflt : Frame k c)).length = b.len := List.length_replicate
  obtain ⟨n, n1, n2⟩ := C157_partial (l + 1) _ s st it h1 rfl _ hq hr0 hr1 (by rw [len]; exact hBq) i hi w hw
  rw [len] at n1 n2
  rw [hl] at n1
  refine ⟨n, n1, fun x hx hlt => ?_⟩
  rw [(h2 x hx).2]
  exact n2 x (h2 x hx).1 hlt

/-! ## Examples -/

example := C149_withStream (k := .mono) (c := .ch8) (dst := 6) (N := 2) (l := 6) (rate := lit 6) (sr := lit 12)
  (st := .audio exZigzag) (R.returns (x := (Audio.withStream (lit 6) (.audio exZigzag) : R (Audio .mono .ch8))) (by decide +kernel)) rfl
  (by decide +kernel) rfl (by decide +kernel) (by decide) (by decide) (by decide) (by decide) (by decide) 0 (by decide)
  (fun j => (-1) ^ j * (100 / 127)) exZigzag_val exZigzag_le 1 le_rfl (by decide +kernel)
  (100 / 127) Real.pi 0 0 (by rw [Real.sin_pi_div_two]; exact one_ne_zero) exZigzag_tone

example := C150_withStream_up (k := .mono) (c := .ch64) (.inr rfl) (dst := 12) (src := 8) (l := 2) (rate := lit 12) (sr := lit 8)
  (st := .audio exUpU) (R.returns (x := (Audio.withStream (lit 12) (.audio exUpU) : R (Audio .mono .ch64))) (by decide +kernel)) rfl
  (by decide +kernel) rfl (by decide +kernel) (by decide) (by decide) (by decide) (by decide) (by decide) 0 (by decide)
  (fun j => if j = 0 then 1 / 4 else if j = 1 then -1 / 8 else 0) (1 / 4) (by decide +kernel) exUpU_val exUpU_le 1 2 (by decide)
  (by decide +kernel)

example := C150_withStream (k := .mono) (c := .ch64) (dst := 1) (src := 2) (l := 8) (rate := lit 1) (sr := lit 2)
  (b := ⟨lit 1, [#v[lit 0.25], #v[lit 0.5], #v[lit (-0.5)], #v[lit 0.5]]⟩) (st := .audio exCross) (by decide +kernel) rfl
  (by decide +kernel) rfl (by decide +kernel) (by decide) (by decide) (by decide) (by decide) (by decide) 0 (by decide) exCrossW 1 le_rfl
  (fun j f hf x hx => (exCross_val j f hf x hx).1) (fun j => by unfold exCrossW; split <;> norm_num [abs_of_nonneg, abs_div]) 1 3 (by decide) (by decide)

example := C157_heard (k := .mono) (c := .ch64) (dst := 1) (src := 2) (l := 8) (rate := lit 1) (sr := lit 2)
  (b := ⟨lit 1, [#v[lit 0.25], #v[lit 0.5], #v[lit (-0.5)], #v[lit 0.5]]⟩) (st := .audio exCross) (by decide +kernel) rfl
  (by decide +kernel) rfl (by decide +kernel) (by decide) (by decide) (by decide) (by decide) (by decide) 0 (by decide) exCrossW exCross_val

end Fon
