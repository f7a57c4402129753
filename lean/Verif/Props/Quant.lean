import Verif.Spec.Quant
import Verif.Props.Endless

/-! C12, exactly: when the conversions from the floats to the integers keep the order -/

namespace Fon
open Fl Fmt

theorem floorI_inf {f : Fmt} (n : Nat) (hn : 0 < n) :
    (Math.floorI n (inf true : Fl f)).toInt = 0 ∧ (Math.floorI n (inf false : Fl f)).toInt = iMax n := by
  have e1 : Math.floorI n (inf true : Fl f) = BitVec.ofInt n 0 := by
    have h1 : (inf true : Fl f).lt (lit 0) = true := by rw [lit_zero_eq]; rfl
    have h2 : Fl.rem (inf false) (lit 1 : Fl f) = nan := by cases (lit 1 : Fl f) <;> rfl
    have h3 : ∀ x : Fl f, Fl.lt x nan = false := fun x => by cases x <;> rfl
    have h4 : Math.ceil (inf false : Fl f) = nan := by
      unfold Math.ceil
      simp only [h2, h3]
      rfl
    unfold Math.floorI
    rw [if_pos h1]
    change (Fl.neg (Math.ceil (inf false : Fl f))).toI n = _
    rw [h4]
    rfl
  have e2 : Math.floorI n (inf false : Fl f) = BitVec.ofInt n (iMax n) := by
    unfold Math.floorI
    simp [Fl.lt, lit_zero_eq, Fl.toI, Fl.toIntSat]
  have h1 : (0:ℤ) < 2 ^ (n - 1) := by positivity
  rw [e1, e2]
  exact ⟨by simp, toInt_ofInt_range hn ⟨by unfold iMin iMax; omega, le_rfl⟩⟩

theorem scale_cases {f : Fmt} {s : ℚ} (hs : f.Rep s) (h0 : 0 < s) {x : Fl f} (hx : x ≠ nan) :
    (x.Low s ∧ x.mul (lit s) = inf true) ∨ (¬ x.Low s ∧ x.mul (lit s) = inf false) ∨
      ∃ p, ¬ x.Low s ∧ x.Is p ∧ |f.rnd (p * s)| ≤ f.maxF := by
  obtain ⟨b, hb, e⟩ := is_lit hs
  have hb' : b = false := by
    cases b
    · rfl
    · exact absurd (hb.2 rfl) h0.ne'
  subst hb'
  rcases x with _ | a | ⟨p, a, h⟩
  · exact absurd rfl hx
  · cases a
    · right; left
      refine ⟨?_, ?_⟩
      · rintro (h | ⟨p, hp, _⟩)
        · cases h
        · exact not_inf_is hp
      · rw [e]; simp [Fl.mul, h0.ne', h0.le]
    · left
      refine ⟨.inl rfl, ?_⟩
      rw [e]; simp [Fl.mul, h0.ne', h0.le]
  · have low : (Fl.fin p a h).Low s ↔ f.rnd (p * s) < -f.maxF := by
      constructor
      · rintro (h | ⟨p', hp, h'⟩)
        · cases h
        · rwa [hp.unique is_fin] at h'
      · exact fun h' => .inr ⟨p, is_fin, h'⟩
    rw [low]
    by_cases hm : |f.rnd (p * s)| ≤ f.maxF
    · exact .inr (.inr ⟨p, by linarith [(abs_le.mp hm).1], is_fin, hm⟩)
    · have e2 : (Fl.fin p a h).mul (lit s) = inf (decide (p * s < 0)) := by
        rw [e]
        simp only [Fl.mul]
        unfold ofQ; rw [dif_neg hm]
      rw [e2]
      rcases lt_or_ge (p * s) 0 with hn | hn
      · left
        refine ⟨?_, by simp [hn]⟩
        have := rnd_nonpos (f := f) hn.le
        rw [abs_of_nonpos this] at hm
        linarith
      · right; left
        refine ⟨?_, by simp [not_lt.mpr hn]⟩
        have := rnd_nonneg (f := f) hn
        have := maxF_pos (f := f)
        linarith

theorem le_not_nan {f : Fmt} {x y : Fl f} (h : x.le y = true) : x ≠ nan ∧ y ≠ nan := by
  constructor
  · rintro rfl; simp [Fl.le, Fl.lt, Fl.eq] at h
  · rintro rfl; cases x <;> simp [Fl.le, Fl.lt, Fl.eq] at h

theorem quant_iff {f : Fmt} {n : Nat} (hn : 1 < n) {s : ℚ} (hs : f.Rep s) (h0 : 0 < s) {x y : Fl f} (h : x.le y = true) :
    ((Math.floorI n (x.mul (lit s))).toInt ≤ (Math.floorI n (y.mul (lit s))).toInt ↔
      (x.Low s → 0 ≤ (Math.floorI n (y.mul (lit s))).toInt)) ∧
    (x.Low s → (Math.floorI n (x.mul (lit s))).toInt = 0) := by
  obtain ⟨hx, hy⟩ := le_not_nan h
  have top : ∀ z : BitVec n, z.toInt ≤ iMax n := by
    intro z
    have := BitVec.toInt_lt (x := z)
    have : ((2:ℤ) ^ (n - 1)) = ((2 ^ (n - 1) : ℕ) : ℤ) := by push_cast; rfl
    unfold iMax
    omega
  have low : x.Low s → (Math.floorI n (x.mul (lit s))).toInt = 0 := by
    intro hl
    rcases scale_cases hs h0 hx with ⟨_, e⟩ | ⟨h', _⟩ | ⟨_, h', _⟩
    · rw [e]; exact (floorI_inf n (by omega)).1
    · exact absurd hl h'
    · exact absurd hl h'
  refine ⟨?_, low⟩
  by_cases hl : x.Low s
  · rw [low hl]; simp [hl]
  · simp only [hl, false_imp_iff, iff_true]
    rcases scale_cases hs h0 hy with ⟨h1, e1⟩ | ⟨_, e1⟩ | ⟨q, h1, hq, hm⟩
    · exfalso
      apply hl
      rcases x with _ | a | ⟨p, a, h2⟩
      · exact absurd rfl hx
      · cases a
        · exfalso
          rcases h1 with rfl | ⟨p, hp, _⟩
          · simp [Fl.le, Fl.lt, Fl.eq] at h
          · obtain ⟨b, hb, rfl⟩ := hp
            simp [Fl.le, Fl.lt, Fl.eq] at h
        · exact .inl rfl
      · rcases h1 with rfl | ⟨q, hq, h3⟩
        · simp [Fl.le, Fl.lt, Fl.eq] at h
        · refine .inr ⟨p, is_fin, lt_of_le_of_lt (rnd_mono (mul_le_mul_of_nonneg_right ?_ h0.le)) h3⟩
          rw [is_fin.le hq] at h; simpa using h
    · rw [e1, (floorI_inf n (by omega)).2]; exact top _
    · rcases scale_cases hs h0 hx with ⟨h', _⟩ | ⟨_, e⟩ | ⟨p, _, hp, hm'⟩
      · exact absurd h' hl
      · exfalso
        rcases x with _ | a | ⟨p, a, h2⟩
        · exact absurd rfl hx
        · cases a
          · obtain ⟨b, hb, rfl⟩ := hq
            simp [Fl.le, Fl.lt, Fl.eq] at h
          · exact hl (.inl rfl)
        · have hpq : p ≤ q := by
            rw [is_fin.le hq] at h; simpa using h
          have h4 := rnd_mono (f := f) (mul_le_mul_of_nonneg_right hpq h0.le)
          have h5 : -f.maxF ≤ f.rnd (p * s) := by
            by_contra h6
            exact hl (.inr ⟨p, is_fin, not_le.mp h6⟩)
          have h7 : |f.rnd (p * s)| ≤ f.maxF := abs_le.mpr ⟨h5, by linarith [(abs_le.mp hm).2]⟩
          obtain ⟨b, hb, e3⟩ := (is_fin (h := h2)).mul (is_lit hs) h7
          rw [e3] at e
          cases e
      · rw [quant_is (by omega) hs hp hm', quant_is (by omega) hs hq hm]
        refine quantV_mono h0.le ?_
        rw [hp.le hq] at h; simpa using h

/-- C12, exactly: `From<Ch64>` keeps the order of two samples unless the lower one, scaled, is below all floats and the
higher one becomes a negative sample. -/
theorem C12_ch64_iff (x y : Ch64) (h : x.le y = true) :
    ((ChTy.conv .ch8 .ch64 x).toInt ≤ (ChTy.conv .ch8 .ch64 y).toInt ↔
      (x.Low 127.5 → 0 ≤ (ChTy.conv .ch8 .ch64 y).toInt)) ∧
    ((ChTy.conv .ch16 .ch64 x).toInt ≤ (ChTy.conv .ch16 .ch64 y).toInt ↔
      (x.Low 32767.5 → 0 ≤ (ChTy.conv .ch16 .ch64 y).toInt)) :=
  ⟨(quant_iff (by decide) rep_s8 (by norm_num) h).1, (quant_iff (by decide) rep_s16 (by norm_num) h).1⟩

example := C12_ch64_iff (inf true) (lit (-0.3)) (by decide +kernel)
example := C12_ch64_iff (lit (-2)) (inf false) (by decide +kernel)

/-- C12, exactly: the same for `From<Ch32>`. -/
theorem C12_ch32_iff (x y : Ch32) (h : x.le y = true) :
    ((ChTy.conv .ch8 .ch32 x).toInt ≤ (ChTy.conv .ch8 .ch32 y).toInt ↔
      (x.Low 127.5 → 0 ≤ (ChTy.conv .ch8 .ch32 y).toInt)) ∧
    ((ChTy.conv .ch16 .ch32 x).toInt ≤ (ChTy.conv .ch16 .ch32 y).toInt ↔
      (x.Low 32767.5 → 0 ≤ (ChTy.conv .ch16 .ch32 y).toInt)) :=
  ⟨(quant_iff (by decide) rep_s8 (by norm_num) h).1, (quant_iff (by decide) rep_s16 (by norm_num) h).1⟩

example := C12_ch32_iff (lit (-3e38)) (lit (-0.3)) (by decide +kernel)

/-- C12: the samples below all floats, once scaled, become silence. -/
theorem C12_low :
    (∀ x : Ch64, (x.Low 127.5 → ChTy.conv .ch8 .ch64 x = 0#8) ∧ (x.Low 32767.5 → ChTy.conv .ch16 .ch64 x = 0#16)) ∧
    (∀ x : Ch32, (x.Low 127.5 → ChTy.conv .ch8 .ch32 x = 0#8) ∧ (x.Low 32767.5 → ChTy.conv .ch16 .ch32 x = 0#16)) := by
  have key : ∀ {f : Fmt} [Std f] {n : Nat} (_ : 1 < n) {s : ℚ} (_ : f.Rep s) (_ : 0 < s) (x : Fl f), x.Low s →
      Math.floorI n (x.mul (lit s)) = 0#n := by
    intro f _ n hn s hs h0 x hl
    have h : x.le x = true := by
      rcases hl with rfl | ⟨p, hp, _⟩
      · rfl
      · rw [hp.le hp]; simp
    exact BitVec.eq_of_toInt_eq (by rw [(quant_iff hn hs h0 h).2 hl]; simp)
  exact ⟨fun x => ⟨key (by decide) rep_s8 (by norm_num) x, key (by decide) rep_s16 (by norm_num) x⟩,
    fun x => ⟨key (by decide) rep_s8 (by norm_num) x, key (by decide) rep_s16 (by norm_num) x⟩⟩

example := (C12_low.1 (inf true)).1 (.inl rfl)
example := (C12_low.2 (lit (-2 ^ 126))).1 (.inr ⟨-2 ^ 126, by decide +kernel, by decide +kernel⟩)

end Fon
