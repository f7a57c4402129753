import Verif.Props.TwoStepUp
import Verif.Props.Trips

/-!
# C117 for `Audio::with_stream` at higher rates
-/

namespace Fon
open Fon.Fl hiding min max
open Fon.Fmt Fon.Sink
variable {k k' : Kind} {c c' : ChTy}

/-- The ratio to a multiple of the rate. -/
theorem ratio_multiple {rate sr : F64} {src N : Nat} (hd : rate.Is ((N * src : Nat):ℚ)) (hs : sr.Is (src:ℚ)) (h0 : 0 < src)
    (hN : N ≤ 2 ^ 24) : (ratioOf rate (some sr)).Is (N:ℚ) := by
  have hsq : (src:ℚ) ≠ 0 := by exact_mod_cast h0.ne'
  have e1 : ((N * src : Nat):ℚ) / src = N := by push_cast; field_simp
  have e2 := hd.div hs hsq
  rw [e1, Fmt.rnd_of_rep (by simpa using rep_nat53 (n := N) (by omega))] at e2
  refine e2 (le_trans ?_ (show (2:ℚ) ^ 24 ≤ binary64.maxF by decide +kernel))
  rw [Nat.abs_cast]
  exact_mod_cast hN

/-- C117 for `with_stream`: multiplying the rate by `N` and then by `M`, or by `N * M` at once, in every slot. -/
theorem C117_withStream {r₁ r₂ sr : F64} {b₁ b₂ b₃ : Audio k c} {st : Src k' c'} {src N M l : Nat} (hk : k.builtin = true)
    (h₁ : Audio.withStream r₁ st = .ok b₁) (h₂ : Audio.withStream r₂ (.audio b₁) = .ok b₂) (h₃ : Audio.withStream r₂ st = .ok b₃)
    (hl : st.len = some l) (hsr : st.rate = some sr) (hs : sr.Is (src:ℚ)) (hr₁ : r₁.Is ((N * src : Nat):ℚ))
    (hr₂ : r₂.Is ((N * M * src : Nat):ℚ)) (h0 : 0 < src) (hN : 1 ≤ N) (hM : 1 ≤ M) (hNM : N * M ≤ 2 ^ 24)
    (hs' : N * src ≤ 2 ^ 51) (hb : N * N * M * src * l < 2 ^ 52)
    (hv : ∀ j f, st.nth j = .ok (some f) → ∀ x : Frame k c, f.convert c = .ok x → x.InRange) :
    b₂.len = N * M * l ∧ b₃.len = N * M * l ∧ ∀ x < N * M * l,
      ∃ y z : Frame k c, b₂.get x = some y ∧ b₃.get x = some z ∧ ∀ i (hi : i < k.chans),
        ∃ a d : ℚ, SampleVal c y[i] a ∧ SampleVal c z[i] d ∧ |a - d| ≤ 2 * mixErr c ∧
          (c = .ch8 ∨ c = .ch16 ∨ (∃ e, N = 2 ^ e) → a = d) := by
  have hN24 : N ≤ 2 ^ 24 := le_trans (Nat.le_mul_of_pos_right _ (by omega)) hNM
  have hM24 : M ≤ 2 ^ 24 := le_trans (Nat.le_mul_of_pos_left _ (by omega)) hNM
  have hsrc : src ≤ 2 ^ 51 := le_trans (Nat.le_mul_of_pos_left _ hN) hs'
  have hb3 : N * M * src * l < 2 ^ 52 := lt_of_le_of_lt (by
    calc N * M * src * l ≤ N * (N * M * src * l) := Nat.le_mul_of_pos_left _ hN
      _ = _ := by ring) hb
  have hb1 : N * src * l < 2 ^ 52 := lt_of_le_of_lt (by
    calc N * src * l ≤ M * (N * src * l) := Nat.le_mul_of_pos_left _ hM
      _ = _ := by ring) hb3
  have hD3 : N * M * l ≤ 2 ^ 52 := le_trans (by
    calc N * M * l ≤ src * (N * M * l) := Nat.le_mul_of_pos_left _ h0
      _ = N * M * src * l := by ring) hb3.le
  have hD1 : N * l ≤ 2 ^ 52 := le_trans (by
    calc N * l ≤ M * (N * l) := Nat.le_mul_of_pos_left _ hM
      _ = _ := by ring) hD3
  have hl52 : l ≤ 2 ^ 52 := le_trans (Nat.le_mul_of_pos_left _ hN) hD1
  have q₁ := ratio_multiple hr₁ hs h0 hN24
  have q₃ := ratio_multiple hr₂ hs h0 hNM
  have hr₂' : r₂.Is ((M * (N * src) : Nat):ℚ) := by rw [show M * (N * src) = N * M * src by ring]; exact hr₂
  have q₂ := ratio_multiple hr₂' hr₁ (Nat.mul_pos hN h0) hM24
  obtain ⟨e1, l1, s₁, it₁, g1, g2, g3⟩ := with_whole hr₁ hs h0 hsrc hb1 (by omega) (D := N * l) (by ring) q₁ (by exact_mod_cast hN)
    (by push_cast; ring) (by omega) hl hsr h₁
  obtain ⟨-, l3, s₃, it₃, u1, u2, u3⟩ := with_whole hr₂ hs h0 hsrc hb3 (by omega) (D := N * M * l) (by ring) q₃
    (by exact_mod_cast Nat.mul_pos hN hM) (by push_cast; ring) (by omega) hl hsr h₃
  obtain ⟨-, l2, s₂, it₂, t1, t2, t3⟩ := with_whole hr₂' hr₁ (Nat.mul_pos hN h0) hs' (l := N * l)
    (lt_of_eq_of_lt (by ring) hb) (by omega) (D := N * M * l) (by ring) q₂
    (by exact_mod_cast hM) (by push_cast; ring) (by omega) (st := .audio b₁) (by rw [← l1]; rfl)
    (by rw [← e1]; rfl) h₂
  refine ⟨l2, l3, fun x hx => ?_⟩
  have len : ∀ n, (List.replicate n (Frame.dflt : Frame k c)).length = n := fun n => List.length_replicate
  have hb₁ : (⟨r₁, s₁.buf⟩ : Audio k c) = b₁ := by rw [g2, ← e1]
  have ht3 := t3 x hx
  have := C117_up _ _ _ N M _ s₁ _ s₂ _ s₃ st it₁ it₃ it₂ hk g1 (by rw [hb₁]; exact t1) u1 rfl rfl rfl (by rw [hsr]; exact q₁) q₂
    (by rw [hsr]; exact q₃) hN hM hNM (by rw [len]; exact hD1) (by rw [len]; exact hD3) (by rw [len]; exact hD3)
    (fun y hy => by rw [len] at hy ⊢; exact g3 y hy) hv x
    (by
      rw [len, len]
      have e : (Src.audio b₁ : Src k c).len = some (N * l) := by rw [← l1]; rfl
      have e' : (Src.audio b₁ : Src k c).rate = some r₁ := by rw [← e1]; rfl
      rw [e, e'] at ht3
      exact ht3)
    (by rw [len]; exact u3 x hx)
  rw [t2, u2] at this
  exact this

/-- In the integer formats the two ways give the same audio. -/
theorem C117_withStream_int {r₁ r₂ sr : F64} {b₁ b₂ b₃ : Audio k c} {st : Src k' c'} {src N M l : Nat} (hk : k.builtin = true)
    (hc : c = .ch8 ∨ c = .ch16)
    (h₁ : Audio.withStream r₁ st = .ok b₁) (h₂ : Audio.withStream r₂ (.audio b₁) = .ok b₂) (h₃ : Audio.withStream r₂ st = .ok b₃)
    (hl : st.len = some l) (hsr : st.rate = some sr) (hs : sr.Is (src:ℚ)) (hr₁ : r₁.Is ((N * src : Nat):ℚ))
    (hr₂ : r₂.Is ((N * M * src : Nat):ℚ)) (h0 : 0 < src) (hN : 1 ≤ N) (hM : 1 ≤ M) (hNM : N * M ≤ 2 ^ 24)
    (hs' : N * src ≤ 2 ^ 51) (hb : N * N * M * src * l < 2 ^ 52) : b₂ = b₃ := by
  obtain ⟨l2, l3, hx⟩ := C117_withStream hk h₁ h₂ h₃ hl hsr hs hr₁ hr₂ h0 hN hM hNM hs' hb
    (fun _ _ _ _ _ => by rcases hc with rfl | rfl <;> exact trivial)
  have e2 := (C48_withStream r₂ b₂ _ h₂).1
  have e3 := (C48_withStream r₂ b₃ _ h₃).1
  have hf : b₂.frames = b₃.frames := by
    refine List.ext_getElem? fun x => ?_
    by_cases hlt : x < N * M * l
    · obtain ⟨y, z, y1, z1, h⟩ := hx x hlt
      show b₂.get x = b₃.get x
      rw [y1, z1]
      congr 1
      refine Vector.ext fun i hi => ?_
      obtain ⟨a, d, a1, d1, -, e⟩ := h i hi
      have : a = d := e (by tauto)
      subst this
      rcases hc with rfl | rfl
      · have a1 : a = _ := a1
        rw [a1] at d1
        exact BitVec.eq_of_toInt_eq (by
          have d1 : ((y[i] : BitVec 8).toInt : ℚ) / 127 = (z[i] : BitVec 8).toInt / 127 := d1
          have := (div_left_inj' (by norm_num)).mp d1
          exact_mod_cast this)
      · have a1 : a = _ := a1
        rw [a1] at d1
        exact BitVec.eq_of_toInt_eq (by
          have d1 : ((y[i] : BitVec 16).toInt : ℚ) / 32767 = (z[i] : BitVec 16).toInt / 32767 := d1
          have := (div_left_inj' (by norm_num)).mp d1
          exact_mod_cast this)
    · rw [List.getElem?_eq_none (by have : b₂.frames.length = _ := l2; omega),
        List.getElem?_eq_none (by have : b₃.frames.length = _ := l3; omega)]
  cases b₂; cases b₃
  simp_all

/-! ## Examples -/

/-- Three frames in 8 bits. -/
def exThriceOver : Audio .mono .ch8 := ⟨lit 8, [#v[10#8], #v[-20#8], #v[30#8]]⟩

example := C117_withStream_int (k := .mono) (c := .ch8) (src := 8) (N := 3) (M := 2) (l := 3) rfl (.inl rfl)
  (r₁ := lit 24) (r₂ := lit 48) (sr := lit 8) (st := .audio exThriceOver)
  (R.returns (x := (Audio.withStream (lit 24) (.audio exThriceOver) : R (Audio .mono .ch8))) (by decide +kernel))
  (R.returns (x := (Audio.withStream (lit 48) (.audio (R.out (Audio.withStream (lit 24) (.audio exThriceOver) : R (Audio .mono .ch8))
    (by decide +kernel))) : R (Audio .mono .ch8))) (by decide +kernel))
  (R.returns (x := (Audio.withStream (lit 48) (.audio exThriceOver) : R (Audio .mono .ch8))) (by decide +kernel)) rfl rfl
  (by decide +kernel) (by decide +kernel) (by decide +kernel) (by decide) (by decide) (by decide) (by decide) (by decide) (by decide)

example := C117_withStream (k := .mono) (c := .ch64) (src := 8) (N := 3) (M := 2) (l := 3) rfl
  (r₁ := lit 24) (r₂ := lit 48) (sr := lit 8) (st := .audio exSlow)
  (R.returns (x := (Audio.withStream (lit 24) (.audio exSlow) : R (Audio .mono .ch64))) (by decide +kernel))
  (R.returns (x := (Audio.withStream (lit 48) (.audio (R.out (Audio.withStream (lit 24) (.audio exSlow) : R (Audio .mono .ch64))
    (by decide +kernel))) : R (Audio .mono .ch64))) (by decide +kernel))
  (R.returns (x := (Audio.withStream (lit 48) (.audio exSlow) : R (Audio .mono .ch64))) (by decide +kernel)) rfl rfl
  (by decide +kernel) (by decide +kernel) (by decide +kernel) (by decide) (by decide) (by decide) (by decide) (by decide) (by decide)
  (by
    intro j f hf x hx
    match j with
    | 0 | 1 | 2 => cases hf; cases hx; decide +kernel
    | j + 3 => cases hf)

end Fon
