import Verif.Spec.Steps
import Verif.Props.Mean
import Verif.Props.Downmix

/-!
# C135: changing the layout in two steps
-/

namespace Fon
open Fmt Fl

variable {c d e : ChTy}

/-- An intermediate format that loses nothing. -/
theorem exact_mid (hd : d = c ∨ d = .ch64) (x : c.T) : d.toF64 (Frame.chanConv d x) = c.toF64 x := by
  obtain rfl | rfl := hd
  · rw [chanConv_self]
  · rfl

theorem conv_conv (hd : d = c ∨ d = .ch64) (x : c.T) :
    Frame.chanConv e (Frame.chanConv d x) = Frame.chanConv e x :=
  congrArg e.ofF64 (exact_mid hd x)

theorem avg_conv (hd : d = c ∨ d = .ch64) (x y : c.T) :
    Frame.chanAvg e (Frame.chanConv d x) (Frame.chanConv d y) = Frame.chanAvg e x y := by
  unfold Frame.chanAvg; rw [exact_mid hd, exact_mid hd]

theorem conv_avg (hd : d = c ∨ d = .ch64) (x : c.T) (hx : Valid c x) :
    Frame.chanAvg e (Frame.chanConv d x) (Frame.chanConv d x) = Frame.chanConv e x := by
  rw [avg_conv hd]
  refine chanAvg_self x fun q hq => ?_
  by_cases hc : c = .ch64
  · subst hc
    obtain ⟨p, hp, h1, h2⟩ := hx
    rw [Fl.Is.unique hq hp]
    have : |2 * p| ≤ 2 := by rw [abs_le]; constructor <;> linarith
    exact this.trans (by decide +kernel)
  · exact small_toF64 x hc q hq

theorem mean_conv (h : d = .ch64 ∨ d = e) (x y : c.T) :
    Frame.chanConv e (Frame.chanAvg d x y) = Frame.chanAvg e x y := by
  obtain rfl | rfl := h
  · rfl
  · rw [chanConv_self]

theorem ok_then {α β : Type} (x : α) (f : α → R β) : ((Except.ok x : R α) >>= f) = f x := rfl

theorem ok1 {a a' : c.T} (h : a = a') : (Except.ok #v[a] : R (Frame .mono c)) = .ok #v[a'] := by subst h; rfl

theorem ok2 {a b a' b' : c.T} (h : a = a') (h' : b = b') :
    (Except.ok #v[a, b] : R (Frame .stereo c)) = .ok #v[a', b'] := by subst h h'; rfl

theorem ok6 {a₀ a₁ a₂ a₃ a₄ a₅ b₀ b₁ b₂ b₃ b₄ b₅ : c.T} (h₀ : a₀ = b₀) (h₁ : a₁ = b₁) (h₂ : a₂ = b₂) (h₃ : a₃ = b₃)
    (h₄ : a₄ = b₄) (h₅ : a₅ = b₅) :
    (Except.ok #v[a₀, a₁, a₂, a₃, a₄, a₅] : R (Frame .surround c)) = .ok #v[b₀, b₁, b₂, b₃, b₄, b₅] := by
  subst h₀ h₁ h₂ h₃ h₄ h₅; rfl

theorem convert_mm (m : Frame .mono c) : (m.convert d : R (Frame .mono d)) = .ok #v[Frame.chanConv d m[0]] := by
  rw [C21_inplace rfl]
  congr 1
  ext i hi
  obtain rfl : i = 0 := by change i < 1 at hi; omega
  simp [Frame.chanConv]

theorem convert_tt (s : Frame .stereo c) :
    (s.convert d : R (Frame .stereo d)) = .ok #v[Frame.chanConv d s[0], Frame.chanConv d s[1]] := by
  rw [C21_inplace rfl]
  congr 1
  ext i hi
  obtain rfl | rfl : i = 0 ∨ i = 1 := by change i < 2 at hi; omega
  all_goals simp [Frame.chanConv]

theorem convert_ss (u : Frame .surround c) :
    (u.convert d : R (Frame .surround d)) = .ok #v[Frame.chanConv d u[0], Frame.chanConv d u[1], Frame.chanConv d u[2],
      Frame.chanConv d u[3], Frame.chanConv d u[4], Frame.chanConv d u[5]] := by
  rw [C21_inplace rfl]
  congr 1
  ext i hi
  obtain rfl | rfl | rfl | rfl | rfl | rfl : i = 0 ∨ i = 1 ∨ i = 2 ∨ i = 3 ∨ i = 4 ∨ i = 5 := by
    change i < 6 at hi; omega
  all_goals simp [Frame.chanConv]

theorem convert_mt (m : Frame .mono c) :
    (m.convert d : R (Frame .stereo d)) = .ok #v[Frame.chanConv d m[0], Frame.chanConv d m[0]] :=
  (C24_upmix m Frame.dflt).1

theorem convert_ms (m : Frame .mono c) : (m.convert d : R (Frame .surround d)) =
    .ok #v[d.MID, Frame.chanConv d m[0], d.MID, Frame.chanConv d m[0], d.MID, d.MID] :=
  (C24_upmix m Frame.dflt).2.1

theorem convert_ts (s : Frame .stereo c) : (s.convert d : R (Frame .surround d)) =
    .ok #v[d.MID, Frame.chanConv d s[0], d.MID, Frame.chanConv d s[1], d.MID, d.MID] :=
  (C24_upmix Frame.dflt s).2.2

/-- C135: a change of layout and format in two steps gives what one step gives. -/
theorem C135_steps {k₁ k₂ k₃ : Kind} (h₁ : k₁.builtin = true) (h₂ : k₂.builtin = true) (h₃ : k₃.builtin = true)
    (hd : d = c ∨ d = .ch64) (ht : ViaOk k₁ k₂ k₃ d e) (fr : Frame k₁ c) (hv : fr.AllValid) :
    ((fr.convert d : R (Frame k₂ d)) >>= fun g => (g.convert e : R (Frame k₃ e))) = fr.convert e := by
  match k₁, k₂, k₃, fr, h₁, h₂, h₃, ht with
  | .mono, .mono, .mono, fr, _, _, _, ht =>
    rw [convert_mm, convert_mm]
    refine (ok_then _ _).trans ((convert_mm (c := d) (d := e) _).trans ?_)
    exact ok1 (conv_conv hd _)
  | .mono, .mono, .stereo, fr, _, _, _, ht =>
    rw [convert_mm, convert_mt]
    refine (ok_then _ _).trans ((convert_mt (c := d) (d := e) _).trans ?_)
    exact ok2 (conv_conv hd _) (conv_conv hd _)
  | .mono, .mono, .surround, fr, _, _, _, ht =>
    rw [convert_mm, convert_ms]
    refine (ok_then _ _).trans ((convert_ms (c := d) (d := e) _).trans ?_)
    exact ok6 rfl (conv_conv hd _) rfl (conv_conv hd _) rfl rfl
  | .mono, .stereo, .mono, fr, _, _, _, ht =>
    rw [convert_mt, convert_mm]
    refine (ok_then _ _).trans ((convert_stereo_mono (c := d) (d := e) _).trans ?_)
    exact ok1 (conv_avg hd _ (hv 0 (by decide)))
  | .mono, .stereo, .stereo, fr, _, _, _, ht =>
    rw [convert_mt, convert_mt]
    refine (ok_then _ _).trans ((convert_tt (c := d) (d := e) _).trans ?_)
    exact ok2 (conv_conv hd _) (conv_conv hd _)
  | .mono, .stereo, .surround, fr, _, _, _, ht =>
    rw [convert_mt, convert_ms]
    refine (ok_then _ _).trans ((convert_ts (c := d) (d := e) _).trans ?_)
    exact ok6 rfl (conv_conv hd _) rfl (conv_conv hd _) rfl rfl
  | .mono, .surround, .mono, fr, _, _, _, ht =>
    rw [convert_ms, convert_mm]
    refine (ok_then _ _).trans ((convert_surround_mono (c := d) (d := e) _).trans ?_)
    exact ok1 (conv_avg hd _ (hv 0 (by decide)))
  | .mono, .surround, .stereo, fr, _, _, _, ht =>
    rw [convert_ms, convert_mt]
    refine (ok_then _ _).trans ((convert_surround_stereo (c := d) (d := e) _).trans ?_)
    exact ok2 (conv_conv hd _) (conv_conv hd _)
  | .mono, .surround, .surround, fr, _, _, _, ht =>
    have sil : Frame.chanConv e d.MID = e.MID := (C15_via e d).mpr (ht.2.1 (by decide) rfl rfl)
    rw [convert_ms, convert_ms]
    refine (ok_then _ _).trans ((convert_ss (c := d) (d := e) _).trans ?_)
    exact ok6 sil (conv_conv hd _) sil (conv_conv hd _) sil sil
  | .stereo, .mono, .mono, fr, _, _, _, ht =>
    rw [convert_stereo_mono, convert_stereo_mono]
    refine (ok_then _ _).trans ((convert_mm (c := d) (d := e) _).trans ?_)
    exact ok1 (mean_conv (ht.2.2 (by decide) rfl rfl) _ _)
  | .stereo, .mono, .stereo, _, _, _, _, ht => exact absurd ht.1 (by decide)
  | .stereo, .mono, .surround, _, _, _, _, ht => exact absurd ht.1 (by decide)
  | .stereo, .stereo, .mono, fr, _, _, _, ht =>
    rw [convert_tt, convert_stereo_mono]
    refine (ok_then _ _).trans ((convert_stereo_mono (c := d) (d := e) _).trans ?_)
    exact ok1 (avg_conv hd _ _)
  | .stereo, .stereo, .stereo, fr, _, _, _, ht =>
    rw [convert_tt, convert_tt]
    refine (ok_then _ _).trans ((convert_tt (c := d) (d := e) _).trans ?_)
    exact ok2 (conv_conv hd _) (conv_conv hd _)
  | .stereo, .stereo, .surround, fr, _, _, _, ht =>
    rw [convert_tt, convert_ts]
    refine (ok_then _ _).trans ((convert_ts (c := d) (d := e) _).trans ?_)
    exact ok6 rfl (conv_conv hd _) rfl (conv_conv hd _) rfl rfl
  | .stereo, .surround, .mono, fr, _, _, _, ht =>
    rw [convert_ts, convert_stereo_mono]
    refine (ok_then _ _).trans ((convert_surround_mono (c := d) (d := e) _).trans ?_)
    exact ok1 (avg_conv hd _ _)
  | .stereo, .surround, .stereo, fr, _, _, _, ht =>
    rw [convert_ts, convert_tt]
    refine (ok_then _ _).trans ((convert_surround_stereo (c := d) (d := e) _).trans ?_)
    exact ok2 (conv_conv hd _) (conv_conv hd _)
  | .stereo, .surround, .surround, fr, _, _, _, ht =>
    have sil : Frame.chanConv e d.MID = e.MID := (C15_via e d).mpr (ht.2.1 (by decide) rfl rfl)
    rw [convert_ts, convert_ts]
    refine (ok_then _ _).trans ((convert_ss (c := d) (d := e) _).trans ?_)
    exact ok6 sil (conv_conv hd _) sil (conv_conv hd _) sil sil
  | .surround, .mono, .mono, fr, _, _, _, ht =>
    rw [convert_surround_mono, convert_surround_mono]
    refine (ok_then _ _).trans ((convert_mm (c := d) (d := e) _).trans ?_)
    exact ok1 (mean_conv (ht.2.2 (by decide) rfl rfl) _ _)
  | .surround, .mono, .stereo, _, _, _, _, ht => exact absurd ht.1 (by decide)
  | .surround, .mono, .surround, _, _, _, _, ht => exact absurd ht.1 (by decide)
  | .surround, .stereo, .mono, fr, _, _, _, ht =>
    rw [convert_surround_stereo, convert_surround_mono]
    refine (ok_then _ _).trans ((convert_stereo_mono (c := d) (d := e) _).trans ?_)
    exact ok1 (avg_conv hd _ _)
  | .surround, .stereo, .stereo, fr, _, _, _, ht =>
    rw [convert_surround_stereo, convert_surround_stereo]
    refine (ok_then _ _).trans ((convert_tt (c := d) (d := e) _).trans ?_)
    exact ok2 (conv_conv hd _) (conv_conv hd _)
  | .surround, .stereo, .surround, _, _, _, _, ht => exact absurd ht.1 (by decide)
  | .surround, .surround, .mono, fr, _, _, _, ht =>
    rw [convert_ss, convert_surround_mono]
    refine (ok_then _ _).trans ((convert_surround_mono (c := d) (d := e) _).trans ?_)
    exact ok1 (avg_conv hd _ _)
  | .surround, .surround, .stereo, fr, _, _, _, ht =>
    rw [convert_ss, convert_surround_stereo]
    refine (ok_then _ _).trans ((convert_surround_stereo (c := d) (d := e) _).trans ?_)
    exact ok2 (conv_conv hd _) (conv_conv hd _)
  | .surround, .surround, .surround, fr, _, _, _, ht =>
    rw [convert_ss, convert_ss]
    refine (ok_then _ _).trans ((convert_ss (c := d) (d := e) _).trans ?_)
    exact ok6 (conv_conv hd _) (conv_conv hd _) (conv_conv hd _) (conv_conv hd _) (conv_conv hd _) (conv_conv hd _)

example := C135_steps (c := .ch16) (d := .ch16) (e := .ch8) (k₁ := .surround) (k₂ := .stereo) (k₃ := .mono) rfl rfl rfl
  (.inl rfl) (by unfold ViaOk; decide) #v[1#16, 2#16, 3#16, 30000#16, 5#16, 6#16] (fun i hi => trivial)
example := C135_steps (c := .ch8) (d := .ch64) (e := .ch16) (k₁ := .mono) (k₂ := .surround) (k₃ := .surround) rfl rfl rfl
  (.inr rfl) (by unfold ViaOk; decide) #v[-20#8] (fun i hi => trivial)

/-- A frame whose left and right differ, and whose other channels are not silent. -/
def telling : (k : Kind) → (c : ChTy) → Frame k c
  | .mono, c => #v[c.MAX]
  | .stereo, c => #v[c.MAX, c.MIN]
  | .surround, c => #v[c.MAX, c.MAX, c.MAX, c.MIN, c.MAX, c.MAX]
  | .custom _ _, _ => Frame.dflt

/-- C135, exactly: without a change of format the detour changes nothing if and only if the layout on the way has as many
channels as the smaller of the two others. -/
theorem C135_iff {k₁ k₂ k₃ : Kind} (h₁ : k₁.builtin = true) (h₂ : k₂.builtin = true) (h₃ : k₃.builtin = true) :
    (∀ fr : Frame k₁ c, fr.AllValid →
      ((fr.convert c : R (Frame k₂ c)) >>= fun g => (g.convert c : R (Frame k₃ c))) = fr.convert c) ↔
    min k₁.chans k₃.chans ≤ k₂.chans := by
  refine ⟨fun h => ?_, fun h fr hv => C135_steps h₁ h₂ h₃ (.inl rfl)
    ⟨h, fun _ _ _ => .inr (.inr (.inl rfl)), fun _ _ _ => .inr rfl⟩ fr hv⟩
  have hv : (telling k₁ c).AllValid := by
    match k₁, h₁ with
    | .mono, _ | .stereo, _ | .surround, _ => cases c <;> decide +kernel
  by_contra hn
  have key := h _ hv
  clear h hv
  revert key
  match k₁, k₂, k₃, h₁, h₂, h₃, hn with
  | .mono, .mono, _, _, _, _, hn => exact absurd (Nat.min_le_left _ _) hn
  | .mono, .stereo, _, _, _, _, hn => exact absurd ((Nat.min_le_left _ _).trans (by decide)) hn
  | .mono, .surround, _, _, _, _, hn => exact absurd ((Nat.min_le_left _ _).trans (by decide)) hn
  | .stereo, .stereo, _, _, _, _, hn => exact absurd (Nat.min_le_left _ _) hn
  | .stereo, .surround, _, _, _, _, hn => exact absurd ((Nat.min_le_left _ _).trans (by decide)) hn
  | .surround, .surround, _, _, _, _, hn => exact absurd (Nat.min_le_left _ _) hn
  | .stereo, .mono, .mono, _, _, _, hn => exact absurd (by decide) hn
  | .surround, .mono, .mono, _, _, _, hn => exact absurd (by decide) hn
  | .surround, .stereo, .mono, _, _, _, hn => exact absurd (by decide) hn
  | .surround, .stereo, .stereo, _, _, _, hn => exact absurd (by decide) hn
  | .stereo, .mono, .stereo, _, _, _, _ | .stereo, .mono, .surround, _, _, _, _
  | .surround, .mono, .stereo, _, _, _, _ | .surround, .mono, .surround, _, _, _, _
  | .surround, .stereo, .surround, _, _, _, _ => cases c <;> decide +kernel

example := C135_iff (c := .ch32) (k₁ := .surround) (k₂ := .stereo) (k₃ := .mono) rfl rfl rfl

theorem valid_avg (x y : c.T) (hx : Valid c x) (hy : Valid c y) : Valid d (Frame.chanAvg d x y) := by
  obtain ⟨p, hp, hp1⟩ := Valid.toF64 hx
  obtain ⟨q, hq, hq1⟩ := Valid.toF64 hy
  obtain ⟨a, a1, a2, _⟩ := mean_is hp hq (abs_le.mpr hp1) (abs_le.mpr hq1)
  exact Valid.ofF64 ⟨a, a1, abs_le.mp a2⟩

/-- C135: fewer channels and back is the same when done twice. -/
theorem C135_twice {k₁ k₂ : Kind} (h₁ : k₁.builtin = true) (h₂ : k₂.builtin = true) (fr fr' : Frame k₁ c)
    (hv : fr.AllValid) (h : ((fr.convert c : R (Frame k₂ c)) >>= fun g => (g.convert c : R (Frame k₁ c))) = .ok fr') :
    ((fr'.convert c : R (Frame k₂ c)) >>= fun g => (g.convert c : R (Frame k₁ c))) = .ok fr' := by
  by_cases hk : k₁.chans ≤ k₂.chans
  · have e := (C135_iff (c := c) h₁ h₂ h₁).mpr (by rw [min_self]; exact hk) fr hv
    rw [h, C21_id h₁] at e
    cases e
    exact h
  · obtain ⟨g, hg⟩ := C25_builtin (d := c) h₁ h₂ fr
    rw [hg] at h
    have h := (ok_then _ _).symm.trans h
    have vg : g.AllValid := by
      match k₁, k₂, h₁, h₂, fr, g, hg, hk, hv with
      | .stereo, .mono, _, _, fr, g, hg, _, hv =>
        cases (convert_stereo_mono fr).symm.trans hg
        intro i hi
        obtain rfl : i = 0 := by change i < 1 at hi; omega
        exact valid_avg _ _ (hv 0 (by decide)) (hv 1 (by decide))
      | .surround, .mono, _, _, fr, g, hg, _, hv =>
        cases (convert_surround_mono fr).symm.trans hg
        intro i hi
        obtain rfl : i = 0 := by change i < 1 at hi; omega
        exact valid_avg _ _ (hv 1 (by decide)) (hv 3 (by decide))
      | .surround, .stereo, _, _, fr, g, hg, _, hv =>
        cases (convert_surround_stereo fr).symm.trans hg
        intro i hi
        obtain rfl | rfl : i = 0 ∨ i = 1 := by change i < 2 at hi; omega
        · exact Valid.ofF64 (Valid.toF64 (hv 1 (by decide)))
        · exact Valid.ofF64 (Valid.toF64 (hv 3 (by decide)))
      | .mono, .mono, _, _, _, _, _, hk, _ | .mono, .stereo, _, _, _, _, _, hk, _
      | .mono, .surround, _, _, _, _, _, hk, _ | .stereo, .stereo, _, _, _, _, _, hk, _
      | .stereo, .surround, _, _, _, _, _, hk, _ | .surround, .surround, _, _, _, _, _, hk, _ =>
        exact absurd (by decide) hk
    have e := (C135_iff (c := c) h₂ h₁ h₂).mpr (by rw [min_self]; omega) g vg
    rw [h, C21_id h₂] at e
    have e := (ok_then _ _).symm.trans e
    rw [e]
    exact h

example := C135_twice (c := .ch8) (k₁ := .surround) (k₂ := .mono) rfl rfl #v[1#8, 100#8, 2#8, -20#8, 3#8, 4#8]
  #v[0#8, 40#8, 0#8, 40#8, 0#8, 0#8] (fun _ _ => trivial) (by decide +kernel)

/-- C135 is false if the format changes as well: the channels that are added on the way hum (Ch8 silence is not silence in
other formats), and a mean may be rounded twice. -/
theorem C135_false :
    ((Frame.convert .ch8 (k := .mono) (k' := .surround) (c := .ch8) #v[50#8]) >>=
      fun g => (g.convert .ch16 : R (Frame .surround .ch16))) ≠ Frame.convert .ch16 (k := .mono) (c := .ch8) #v[50#8] ∧
    ((Frame.convert .ch8 (k := .stereo) (k' := .mono) (c := .ch8) #v[50#8, 51#8]) >>=
      fun g => (g.convert .ch16 : R (Frame .mono .ch16))) ≠
        Frame.convert .ch16 (k := .stereo) (c := .ch8) #v[50#8, 51#8] ∧
    ((Frame.convert .ch32 (k := .mono) (k' := .mono) (c := .ch16) #v[5#16]) >>=
      fun g => (g.convert .ch64 : R (Frame .mono .ch64))) ≠ Frame.convert .ch64 (k := .mono) (c := .ch16) #v[5#16] := by
  decide +kernel

end Fon
