import Verif.Model.Frame
import Verif.Props.ChanMisc

/-!
# C18 - C25: frames
-/

namespace Fon
open Fmt Fl

variable {k k' : Kind} {c d : ChTy}

/-! ## C18 for frames -/

/-- C18: `+` commutes on frames. -/
theorem C18_frame_add (a b : Frame k c) : a.add b = b.add a := by
  ext i h; simp [Frame.add, C18_add c a[i]]

/-- C18: `*` commutes on frames. -/
theorem C18_frame_mul (a b : Frame k c) : a.mul b = b.mul a := by
  ext i h; simp [Frame.mul, C18_mul c a[i]]

/-! ## C19 -/

/-- C19: the operators that cannot panic act on each channel alone. -/
theorem C19_chan (a b t : Frame k c) (i : Nat) (h : i < k.chans) :
    (a.add b)[i] = c.add a[i] b[i] ∧ (a.sub b)[i] = c.sub a[i] b[i] ∧ (a.mul b)[i] = c.mul a[i] b[i] ∧
    a.neg[i] = c.neg a[i] ∧ (a.lerp b t)[i] = c.lerp a[i] b[i] t[i] := by
  simp [Frame.add, Frame.sub, Frame.mul, Frame.neg, Frame.lerp]

example := C19_chan (k := .stereo) (c := .ch8) #v[100#8, 3#8] #v[100#8, -4#8] #v[0#8, 127#8] 1 (by decide)

/-- C19: a division that returns divided each channel. -/
theorem C19_div (a b r : Frame k c) :
    a.div b = .ok r ↔ ∀ i (h : i < k.chans), c.div a[i] b[i] = .ok r[i] := by
  simp [Frame.div, vmapM_ok_iff]

/-- C19: a division panics exactly when the division of one channel does. -/
theorem C19_div_panics (a b : Frame k c) :
    (∃ e, a.div b = .error e) ↔ ∃ i, ∃ h : i < k.chans, ∃ e, c.div a[i] b[i] = .error e := by
  simp [Frame.div, vmapM_err_iff]

example : ∃ e, Frame.div (k := .stereo) (c := .ch16) #v[5#16, -32768#16] #v[3#16, -1#16] = .error e :=
  ⟨.overflow, by decide +kernel⟩
example : Frame.div (k := .stereo) (c := .ch8) #v[5#8, -20#8] #v[100#8, 0#8] = .ok #v[12#8, 127#8] := by
  decide +kernel

/-! ## C20 -/

/-- C20: the constructors set every channel. -/
theorem C20_fill (x : c.T) (y : F64) (i : Nat) (h : i < k.chans) :
    (Frame.fromChannel x : Frame k c)[i] = x ∧ (Frame.fromMono #v[x] : Frame k c)[i] = x ∧
    (Frame.ofF64 y : Frame k c)[i] = c.ofF64 y ∧ (Frame.dflt : Frame k c)[i] = c.dflt := by
  simp [Frame.fromChannel, Frame.fromMono, Frame.ofF64, Frame.dflt]

example := C20_fill (k := .surround) (c := .ch16) (5#16) (lit 0.5) 4 (by decide)

/-- C20: `from_channels` takes the first channels of the slice and ignores the rest. -/
theorem C20_roundtrip (fr : Frame k c) (extra : List c.T) :
    Frame.fromChannels (fr.toList ++ extra) = .ok fr := by
  unfold Frame.fromChannels
  rw [dif_pos (by simp)]
  congr 1
  ext i h
  rw [Vector.getElem_ofFn, List.getElem_append_left (by simpa using h), Vector.getElem_toList]

/-- C20: `from_channels` panics exactly on a slice that is too short; otherwise it yields channel `i`
of the slice. -/
theorem C20_fromChannels (l : List c.T) :
    (l.length < k.chans → (Frame.fromChannels l : R (Frame k c)) = .error .bounds) ∧
    (∀ h : k.chans ≤ l.length, ∃ fr : Frame k c, Frame.fromChannels l = .ok fr ∧
      ∀ i (hi : i < k.chans), fr[i] = l[i]) := by
  unfold Frame.fromChannels
  constructor
  · intro h; rw [dif_neg (by omega)]
  · intro h; rw [dif_pos h]; exact ⟨_, rfl, fun i hi => by simp⟩

example : (Frame.fromChannels [1#8, 2#8, 3#8] : R (Frame .stereo .ch8)) = .ok #v[1#8, 2#8] := by decide
example : (Frame.fromChannels [1#8] : R (Frame .stereo .ch8)) = .error .bounds := by decide

/-! ## C21 -/

/-- Conversion to the same format is the identity on all values. -/
theorem chanConv_self (x : c.T) : Frame.chanConv c x = x := by
  cases c
  · exact C06_f64 x
  · exact C07_f64 x
  · exact C14_all x
  · rfl

theorem cast32_near {y : F64} {p v : ℚ} (hy : y.Is p) (hp : |p| ≤ 1) (h : |p - v| ≤ 3 * binary64.u) :
    ∃ r, ((y.cast binary32).cast binary64).Is r ∧ |r| ≤ 1 ∧ |r - v| ≤ 2 ^ (-20:ℤ) := by
  have h1 := abs_rnd_le_of_rep (f := binary32) rep_one hp
  have h2 := err_lt_u (f := binary32) 1 (lt_of_le_of_lt hp (by norm_num)) (by norm_num)
  have e32 : binary32.u = 2 ^ (-24:ℤ) := by unfold Fmt.u binary32; norm_num
  have e64 : binary64.u ≤ 2 ^ (-24:ℤ) := by
    have := Fmt.u_le (f := binary64); norm_num; linarith
  refine ⟨_, widen_is (hy.cast binary32 (h1.trans one_le_maxF)), h1, ?_⟩
  rw [e32] at h2
  have : |binary32.rnd p - v| ≤ |binary32.rnd p - p| + |p - v| := abs_sub_le _ _ _
  have h3 : (2:ℚ) ^ (1 - 1 : ℤ) * 2 ^ (-24:ℤ) = 1 / 16777216 := by norm_num
  have h4 : (2:ℚ) ^ (-24:ℤ) = 1 / 16777216 := by norm_num
  have h5 : (2:ℚ) ^ (-20:ℤ) = 1 / 1048576 := by norm_num
  rw [h3] at h2; rw [h4] at e64; rw [h5]
  linarith

/-- A detour through a wider format loses nothing, for all values. -/
theorem chanConv_wider (h : c.rank ≤ d.rank) (x : c.T) : Frame.chanConv c (Frame.chanConv d x) = x := by
  cases c <;> cases d <;> simp only [ChTy.rank] at h <;> try omega
  · rw [chanConv_self]; exact chanConv_self (c := .ch8) x
  · -- Ch8 via Ch16
    have e : Frame.chanConv .ch16 (c := .ch8) x = Ch16.ofCh8 x :=
      (C16_partial .ch16 .ch8 rfl x trivial).symm
    rw [e]
    show Ch8.ofCh64 (ChF.new (ChF.ofCh16 (Ch16.ofCh8 x))) = x
    rw [new_of_inRange (C08_range_ch16 _)]
    refine quant8_back _ (ofCh16_is _) ?_
    have h1 := ofCh16_err (f := binary64) (Ch16.ofCh8 x)
    have h3 : (2 * ((Ch16.ofCh8 x).toInt : ℚ) + 1) / 65535 = (2 * x.toInt + 1) / 255 := by
      have := C05_value x
      change (Ch16.ofCh8 x).toInt = _ at this
      rw [this]; push_cast; ring
    rw [h3] at h1
    exact h1.trans three_u_le
  · obtain ⟨r, h1, h2, h3⟩ := cast32_near (ofCh8_is (f := binary64) x) (abs_le.mpr (ofCh8_range x))
      (ofCh8_err x)
    show Ch8.ofCh64 (ChF.new (Fl.cast binary64 (Fl.cast binary32 (ChF.ofCh8 x)))) = x
    rw [new_of_inRange ⟨r, h1, abs_le.mp h2⟩]
    exact quant8_back _ h1 h3
  · exact C06_f64 x
  · rw [chanConv_self]; exact chanConv_self (c := .ch16) x
  · obtain ⟨r, h1, h2, h3⟩ := cast32_near (ofCh16_is (f := binary64) x) (abs_le.mpr (ofCh16_range x))
      (ofCh16_err x)
    show Ch16.ofCh64 (ChF.new (Fl.cast binary64 (Fl.cast binary32 (ChF.ofCh16 x)))) = x
    rw [new_of_inRange ⟨r, h1, abs_le.mp h2⟩]
    exact quant16_back _ h1 h3
  · exact C07_f64 x
  · rw [chanConv_self]; exact chanConv_self (c := .ch32) x
  · exact C14_all x
  · rfl

theorem zipWith_left {α β γ : Type} (f : α → γ) (l : List α) (r : List β) (h : l.length ≤ r.length) :
    List.zipWith (fun a _ => f a) l r = l.map f := by
  induction l generalizing r with
  | nil => simp
  | cons x l ih =>
    cases r with
    | nil => simp at h
    | cons y r => simp at h; simp [ih r h]

/-- C21: converting to the same layout converts each channel in place through f64. -/
theorem C21_inplace (hk : k.builtin = true) (fr : Frame k c) :
    (fr.convert d : R (Frame k d)) = .ok (fr.map (fun x => d.ofF64 (c.toF64 x))) := by
  have key : ∀ (hc : k.chans ≤ 6) (e : List d.T), (Frame.fromChannels (List.zipWith
      (fun src _ => Frame.chanConv d src) fr.toList (List.replicate 6 d.MID) ++ e) : R (Frame k d)) =
      .ok (fr.map (fun x => d.ofF64 (c.toF64 x))) := by
    intro hc e
    rw [zipWith_left (Frame.chanConv d) _ _ (by simpa using hc)]
    have := C20_roundtrip (k := k) (c := d) (fr.map (fun x => d.ofF64 (c.toF64 x))) e
    rwa [Vector.toList_map] at this
  cases k with
  | custom => simp [Kind.builtin] at hk
  | _ => exact key (by decide) _

example := C21_inplace (k := .surround) (c := .ch8) (d := .ch32) rfl #v[1#8, 2#8, 30#8, -5#8, 6#8, -128#8]

/-- C21: converting to the same type is the identity. -/
theorem C21_id (hk : k.builtin = true) (fr : Frame k c) : fr.convert c = .ok fr := by
  rw [C21_inplace hk]
  congr 1
  ext i h
  simpa [Frame.chanConv] using chanConv_self fr[i]

example : Frame.convert .ch8 (k := .stereo) (k' := .stereo) (c := .ch8) #v[1#8, -2#8] = .ok #v[1#8, -2#8] := C21_id rfl _

/-- C21: a detour through a wider format gives the frame back. -/
theorem C21_detour (hk : k.builtin = true) (h : c.rank ≤ d.rank) (fr : Frame k c) :
    ((fr.convert d : R (Frame k d)) >>= fun g => g.convert c) = .ok fr := by
  rw [C21_inplace hk]
  show Frame.convert c _ = _
  rw [C21_inplace hk]
  congr 1
  ext i hi
  simpa [Frame.chanConv] using chanConv_wider h fr[i]

example := C21_detour (k := .stereo) (c := .ch8) (d := .ch32) rfl (by decide) #v[1#8, -2#8]

example : ((Frame.convert .ch32 (k := .surround) (k' := .surround) (c := .ch16)
    #v[1#16, 2#16, 30000#16, -5#16, 6#16, -32768#16]) >>= fun g => g.convert (k' := .surround) .ch16) =
    .ok #v[1#16, 2#16, 30000#16, -5#16, 6#16, -32768#16] := by decide +kernel

/-! ## C24 -/

/-- C24: up-mixing layout. -/
theorem C24_upmix (m : Frame .mono c) (s : Frame .stereo c) :
    (m.convert d : R (Frame .stereo d)) = .ok #v[d.ofF64 (c.toF64 m[0]), d.ofF64 (c.toF64 m[0])] ∧
    (m.convert d : R (Frame .surround d)) =
      .ok #v[d.MID, d.ofF64 (c.toF64 m[0]), d.MID, d.ofF64 (c.toF64 m[0]), d.MID, d.MID] ∧
    (s.convert d : R (Frame .surround d)) =
      .ok #v[d.MID, d.ofF64 (c.toF64 s[0]), d.MID, d.ofF64 (c.toF64 s[1]), d.MID, d.MID] :=
  ⟨C20_roundtrip (k := .stereo) #v[d.ofF64 (c.toF64 m[0]), d.ofF64 (c.toF64 m[0])] [],
   C20_roundtrip (k := .surround)
    #v[d.MID, d.ofF64 (c.toF64 m[0]), d.MID, d.ofF64 (c.toF64 m[0]), d.MID, d.MID] [],
   C20_roundtrip (k := .surround)
    #v[d.MID, d.ofF64 (c.toF64 s[0]), d.MID, d.ofF64 (c.toF64 s[1]), d.MID, d.MID] []⟩

/-- C24 for equal formats: the samples themselves. -/
theorem C24_same_format (m : Frame .mono c) (s : Frame .stereo c) :
    (m.convert c : R (Frame .stereo c)) = .ok #v[m[0], m[0]] ∧
    (m.convert c : R (Frame .surround c)) = .ok #v[c.MID, m[0], c.MID, m[0], c.MID, c.MID] ∧
    (s.convert c : R (Frame .surround c)) = .ok #v[c.MID, s[0], c.MID, s[1], c.MID, c.MID] := by
  have h := C24_upmix (d := c) m s
  have e : ∀ x : c.T, c.ofF64 (c.toF64 x) = x := chanConv_self
  simpa only [e] using h

/-! ## Down-mixing -/

theorem convert_stereo_mono (s : Frame .stereo c) :
    (s.convert d : R (Frame .mono d)) = .ok #v[Frame.chanAvg d s[0] s[1]] := by
  unfold Frame.convert
  exact C20_roundtrip (k := .mono) #v[Frame.chanAvg d s[0] s[1]] []

theorem convert_surround_mono (u : Frame .surround c) :
    (u.convert d : R (Frame .mono d)) = .ok #v[Frame.chanAvg d u[1] u[3]] := by
  unfold Frame.convert
  exact C20_roundtrip (k := .mono) #v[Frame.chanAvg d u[1] u[3]] []

theorem convert_surround_stereo (u : Frame .surround c) :
    (u.convert d : R (Frame .stereo d)) = .ok #v[Frame.chanConv d u[1], Frame.chanConv d u[3]] := by
  unfold Frame.convert
  exact C20_roundtrip (k := .stereo) #v[Frame.chanConv d u[1], Frame.chanConv d u[3]] []

/-! ## C25 -/

/-- C25: conversion between built-in layouts returns. -/
theorem C25_builtin (hk : k.builtin = true) (hk' : k'.builtin = true) (fr : Frame k c) :
    ∃ g : Frame k' d, fr.convert d = .ok g := by
  cases k with
  | custom => simp [Kind.builtin] at hk
  | mono => cases k' with
    | custom => simp [Kind.builtin] at hk'
    | mono => exact ⟨_, C21_inplace rfl fr⟩
    | stereo => exact ⟨_, (C24_upmix fr Frame.dflt).1⟩
    | surround => exact ⟨_, (C24_upmix fr Frame.dflt).2.1⟩
  | stereo => cases k' with
    | custom => simp [Kind.builtin] at hk'
    | mono => exact ⟨_, convert_stereo_mono fr⟩
    | stereo => exact ⟨_, C21_inplace rfl fr⟩
    | surround => exact ⟨_, (C24_upmix Frame.dflt fr).2.2⟩
  | surround => cases k' with
    | custom => simp [Kind.builtin] at hk'
    | mono => exact ⟨_, convert_surround_mono fr⟩
    | stereo => exact ⟨_, convert_surround_stereo fr⟩
    | surround => exact ⟨_, C21_inplace rfl fr⟩

example : ∃ g : Frame .mono .ch16, Frame.convert .ch16 (k := .surround) (c := .ch64)
    #v[.nan, lit 2, lit 0, .inf true, lit 1, lit 0] = .ok g := C25_builtin rfl rfl _

/-- C25: conversion from or to a custom layout panics. -/
theorem C25_custom (h : k.builtin = false ∨ k'.builtin = false) (fr : Frame k c) :
    (fr.convert d : R (Frame k' d)) = .error .customConvert := by
  cases k <;> cases k' <;> first
    | rfl
    | (simp [Kind.builtin] at h; done)

example : (Frame.convert .ch8 (k := .custom 1 [lit 0]) (k' := .custom 1 [lit 0]) (c := .ch8) #v[1#8]) =
    .error .customConvert := C25_custom (.inl rfl) _

/-! ## C22 -/

theorem ofQ_sgn {g : Fmt} {q : ℚ} {nz : Bool} (hr : g.Rep q) (h : nz = true → q = 0) :
    Fl.ofQ g (decide (q < 0) || nz) q = .fin q nz ⟨hr, h⟩ := by
  have e := rnd_of_rep hr
  unfold Fl.ofQ
  simp only [e]
  rw [dif_pos hr.le_maxF]
  congr 1
  cases nz with
  | false => simp; intro h1; exact h1.symm ▸ (by simp)
  | true => simp [h rfl]

/-- Doubling and halving a float that does not overflow gives it back, sign of zero included. -/
theorem double_half {f : Fmt} (y : Fl f) (hf : f.emin ≤ -1)
    (h : ∀ q, y.Is q → |2 * q| ≤ f.maxF) : (y.add y).mul (lit 0.5) = y := by
  have h5 : f.Rep 0.5 := rep_dyadic 1 (-1) (by norm_num)
    (by rw [abs_one]; exact one_lt_pow₀ (by norm_num) (by have := f.hprec; omega)) hf
    (by have := f.htop; omega)
  have e5 : ∃ hh, (lit 0.5 : Fl f) = .fin 0.5 false hh := by
    refine ⟨⟨h5, by simp⟩, ?_⟩
    unfold lit
    have := ofQ_nz (g := f) (nz := false) h5 (by simp)
    exact this
  obtain ⟨h5', e5⟩ := e5
  rw [e5]
  cases y with
  | nan => rfl
  | inf s => simp [Fl.add, Fl.mul]; norm_num
  | fin q nz hh =>
    have h2 := h q ⟨_, _, rfl⟩
    have hr : f.Rep (2 * q) := by
      rw [rep_iff_gen]
      refine ⟨?_, h2⟩
      obtain ⟨m, e, e1, e2, e3⟩ := hh.1.gen
      exact ⟨m, e + 1, e1, by omega, by rw [e3, zpow_add₀ (by norm_num)]; ring⟩
    have a1 : (Fl.fin q nz hh : Fl f).add (.fin q nz hh) = .fin (2 * q) nz ⟨hr, by
        intro h; rw [hh.2 h]; ring⟩ := by
      simp only [Fl.add, Bool.and_self]
      rw [← two_mul]
      exact ofQ_nz hr (fun h => by rw [hh.2 h]; ring)
    rw [a1]
    simp only [Fl.mul]
    have e : (2 * q * 0.5 : ℚ) = q := by ring
    have e' : ((decide (2 * q < 0) || nz) ^^ (decide ((0.5:ℚ) < 0) || false)) = (decide (q < 0) || nz) := by
      have h1 : decide ((0.5:ℚ) < 0) = false := by norm_num
      have h2 : (2 * q < 0) ↔ q < 0 := by constructor <;> intro h <;> linarith
      rw [h1]; simp [h2]
    rw [e, e']
    exact ofQ_sgn hh.1 hh.2

theorem small_toF64 (x : c.T) (hc : c ≠ .ch64) (q : ℚ) (h : (c.toF64 x).Is q) :
    |2 * q| ≤ binary64.maxF := by
  have big : (2:ℚ) * 2 ^ (128:ℤ) ≤ binary64.maxF := by decide +kernel
  have h1 : |q| ≤ 2 ^ (128:ℤ) := by
    cases c with
    | ch8 =>
      obtain ⟨r, h1, h2⟩ := C08_range_ch8 (f := binary64) x
      rw [h.unique h1, abs_le]; constructor <;> norm_num <;> linarith
    | ch16 =>
      obtain ⟨r, h1, h2⟩ := C08_range_ch16 (f := binary64) x
      rw [h.unique h1, abs_le]; constructor <;> norm_num <;> linarith
    | ch32 =>
      cases x with
      | nan => obtain ⟨_, _, h⟩ := h; cases h
      | inf s => obtain ⟨_, _, h⟩ := h; cases h
      | fin r nz hh =>
        have h2 := widen_is (x := .fin r nz hh) ⟨_, _, rfl⟩
        rw [show q = r from Fl.Is.unique h h2]
        exact hh.1.le_maxF.trans (by decide +kernel)
    | ch64 => exact absurd rfl hc
  rw [abs_mul, abs_two]; linarith

/-- Averaging a sample with itself is conversion. -/
theorem chanAvg_self (y : c.T) (h : ∀ q, (c.toF64 y).Is q → |2 * q| ≤ binary64.maxF) :
    Frame.chanAvg d y y = Frame.chanConv d y := by
  unfold Frame.chanAvg Frame.chanConv
  rw [double_half _ (by decide) h]

theorem chanAvg_back (hr : c.rank ≤ d.rank) (x : c.T)
    (hx : c = .ch64 → ∀ q, (c.toF64 x).Is q → |2 * q| ≤ binary64.maxF) :
    Frame.chanAvg c (Frame.chanConv d x) (Frame.chanConv d x) = x := by
  rw [chanAvg_self, chanConv_wider hr]
  by_cases hd : d = .ch64
  · subst hd
    by_cases hc : c = .ch64
    · exact hx hc
    · exact small_toF64 x hc
  · exact small_toF64 _ hd

/-- C22, what is true: up-mixing and then down-mixing gives the frame back, also through a wider
format, unless the sum of two Ch64 samples overflows (samples made by `new` are in [-1,1]).
Missing: Ch64 samples above half the largest f64 (only `from_f64` makes them), see `C22_false`. -/
theorem C22_mono_partial (hr : c.rank ≤ d.rank) (m : Frame .mono c)
    (hx : c = .ch64 → ∀ q, (c.toF64 m[0]).Is q → |2 * q| ≤ binary64.maxF) :
    ((m.convert d : R (Frame .stereo d)) >>= fun g => (g.convert c : R (Frame .mono c))) = .ok m ∧
    ((m.convert d : R (Frame .surround d)) >>= fun g => (g.convert c : R (Frame .mono c))) = .ok m := by
  have hm : (#v[m[0]] : Frame .mono c) = m := by
    ext i hi
    obtain rfl : i = 0 := by simp at hi; exact hi
    rfl
  rw [(C24_upmix m Frame.dflt).1, (C24_upmix m Frame.dflt).2.1]
  constructor
  · refine (convert_stereo_mono _).trans ?_
    rw [← hm]
    exact congrArg (fun z => Except.ok #v[z]) (chanAvg_back hr m[0] hx)
  · refine (convert_surround_mono _).trans ?_
    rw [← hm]
    exact congrArg (fun z => Except.ok #v[z]) (chanAvg_back hr m[0] hx)

/-- C22: Stereo to Surround and back, for all values. -/
theorem C22_stereo (hr : c.rank ≤ d.rank) (s : Frame .stereo c) :
    ((s.convert d : R (Frame .surround d)) >>= fun g => (g.convert c : R (Frame .stereo c))) = .ok s := by
  have hs : (#v[s[0], s[1]] : Frame .stereo c) = s := by
    ext i hi
    obtain rfl | rfl : i = 0 ∨ i = 1 := by change i < 2 at hi; omega
    · rfl
    · rfl
  rw [(C24_upmix Frame.dflt s).2.2]
  refine (convert_surround_stereo _).trans ?_
  conv_rhs => rw [← hs]
  have h0 := chanConv_wider hr s[0]
  have h1 := chanConv_wider hr s[1]
  have : ∀ a b a' b' : c.T, a = a' → b = b' →
      (Except.ok #v[a, b] : R (Vector c.T 2)) = .ok #v[a', b'] := by rintro a b _ _ rfl rfl; rfl
  exact this _ _ _ _ h0 h1

example := C22_stereo (c := .ch16) (d := .ch64) (by decide) #v[-7#16, 32767#16]

/-- C22 as stated is false: `Mono64::from_f64(1.7e308)` comes back as infinity. -/
theorem C22_false : ¬ ∀ m : Frame .mono .ch64,
    ((m.convert .ch64 : R (Frame .stereo .ch64)) >>= fun g => (g.convert .ch64 : R (Frame .mono .ch64)))
      = .ok m := by
  intro h
  exact absurd (h (Frame.ofF64 (lit 1.7e308))) (by decide +kernel)

example : (Frame.convert .ch16 (k := .mono) (k' := .stereo) (c := .ch8) #v[-77#8] >>=
    fun g => g.convert (k' := .mono) .ch8) = .ok #v[-77#8] :=
  (C22_mono_partial (c := .ch8) (d := .ch16) (by decide) #v[-77#8] (by intro h; cases h)).1

/-! ## C23 -/

instance (c : ChTy) (a b : c.T) : Decidable (c.Le a b) := by
  cases c <;> unfold ChTy.Le <;> infer_instance

theorem ofF64_mono {x y : F64} (hx : x.InRange) (hy : y.InRange) (h : x.le y = true) :
    d.Le (d.ofF64 x) (d.ofF64 y) := by
  cases d with
  | ch8 => exact (C12_ofF64_mono x y h).1
  | ch16 => exact (C12_ofF64_mono x y h).2
  | ch64 => exact h
  | ch32 =>
    obtain ⟨p, hp, hp1⟩ := inRange_abs.mp hx
    obtain ⟨q, hq, hq1⟩ := inRange_abs.mp hy
    rw [hp.le hq, decide_eq_true_eq] at h
    have a1 := abs_rnd_le_of_rep (f := binary32) rep_one hp1
    have a2 := abs_rnd_le_of_rep (f := binary32) rep_one hq1
    have := (hp.cast binary32 (a1.trans one_le_maxF)).le (hq.cast binary32 (a2.trans one_le_maxF))
    show Fl.le (Fl.cast binary32 x) (Fl.cast binary32 y) = true
    rw [this, decide_eq_true_eq]
    exact rnd_mono h

theorem toF64_mono {a b : c.T} (ha : Valid c a) (hb : Valid c b) (h : c.Le a b) :
    (c.toF64 a).le (c.toF64 b) = true := by
  cases c with
  | ch8 =>
    have h1 := ofCh8_is (f := binary64) a
    have h2 := ofCh8_is (f := binary64) b
    show Fl.le (ChF.ofCh8 a) (ChF.ofCh8 b) = true
    rw [h1.le h2, decide_eq_true_eq]
    exact conv_mono (by norm_num) h
  | ch16 =>
    have h1 := ofCh16_is (f := binary64) a
    have h2 := ofCh16_is (f := binary64) b
    show Fl.le (ChF.ofCh16 a) (ChF.ofCh16 b) = true
    rw [h1.le h2, decide_eq_true_eq]
    exact conv_mono (by norm_num) h
  | ch32 =>
    obtain ⟨p, hp, hp1⟩ := ha
    obtain ⟨q, hq, hq1⟩ := hb
    have h' : Fl.le a b = true := h
    rw [hp.le hq, decide_eq_true_eq] at h'
    show Fl.le (Fl.cast binary64 a) (Fl.cast binary64 b) = true
    rw [(widen_is hp).le (widen_is hq), decide_eq_true_eq]
    exact h'
  | ch64 => exact h

theorem avg_between {f : Fmt} (hf : f.emin ≤ -1) {x y : Fl f} {p q : ℚ} (hx : x.Is p) (hy : y.Is q)
    (h : p ≤ q) (h1 : |2 * p| ≤ f.maxF) (h2 : |2 * q| ≤ f.maxF) :
    ∃ r, ((x.add y).mul (lit 0.5)).Is r ∧ p ≤ r ∧ r ≤ q := by
  have dbl : ∀ {q : ℚ}, f.Rep q → |2 * q| ≤ f.maxF → f.Rep (2 * q) := by
    intro q hq h
    rw [rep_iff_gen]
    obtain ⟨m, e, e1, e2, e3⟩ := hq.gen
    exact ⟨⟨m, e + 1, e1, by omega, by rw [e3, zpow_add₀ (by norm_num)]; ring⟩, h⟩
  have r1 := dbl hx.rep h1
  have r2 := dbl hy.rep h2
  have l : 2 * p ≤ f.rnd (p + q) := le_rnd_of_gen r1.gen (by linarith)
  have u : f.rnd (p + q) ≤ 2 * q := rnd_le_of_gen r2.gen (by linarith)
  have hb : |f.rnd (p + q)| ≤ f.maxF := by
    rw [abs_le] at *; constructor <;> linarith
  have h5 : f.Rep 0.5 := rep_dyadic 1 (-1) (by norm_num)
    (by rw [abs_one]; exact one_lt_pow₀ (by norm_num) (by have := f.hprec; omega)) hf
    (by have := f.htop; omega)
  have l' : p ≤ f.rnd (f.rnd (p + q) * 0.5) := le_rnd_of_gen hx.rep.gen (by norm_num; linarith)
  have u' : f.rnd (f.rnd (p + q) * 0.5) ≤ q := rnd_le_of_gen hy.rep.gen (by norm_num; linarith)
  refine ⟨_, (hx.add hy hb).mul (is_lit h5) ?_, l', u'⟩
  have := hx.rep.le_maxF
  have := hy.rep.le_maxF
  rw [abs_le] at *; constructor <;> linarith

/-- The average of two valid samples is between their conversions. -/
theorem chanAvg_between (l r : c.T) (hl : Valid c l) (hr : Valid c r) (h : c.Le l r) :
    d.Le (Frame.chanConv d l) (Frame.chanAvg d l r) ∧ d.Le (Frame.chanAvg d l r) (Frame.chanConv d r) := by
  have h0 := toF64_mono hl hr h
  have il := Valid.toF64 hl
  have ir := Valid.toF64 hr
  obtain ⟨p, hp, hp1, hp2⟩ := id il
  obtain ⟨q, hq, hq1, hq2⟩ := id ir
  rw [hp.le hq, decide_eq_true_eq] at h0
  have two : (2:ℚ) ≤ binary64.maxF := by decide +kernel
  have b1 : |2 * p| ≤ binary64.maxF := by
    refine le_trans ?_ two; rw [abs_le]; constructor <;> linarith
  have b2 : |2 * q| ≤ binary64.maxF := by
    refine le_trans ?_ two; rw [abs_le]; constructor <;> linarith
  obtain ⟨a, ha, h1, h2⟩ := avg_between (by decide) hp hq h0 b1 b2
  have ia : (((c.toF64 l).add (c.toF64 r)).mul (lit 0.5)).InRange := ⟨a, ha, by linarith, by linarith⟩
  exact ⟨ofF64_mono il ia (by rw [hp.le ha, decide_eq_true_eq]; exact h1),
    ofF64_mono ia ir (by rw [ha.le hq, decide_eq_true_eq]; exact h2)⟩

theorem chanAvg_comm (l r : c.T) : Frame.chanAvg d l r = Frame.chanAvg d r l := by
  unfold Frame.chanAvg; rw [Fl.add_comm']

/-- C23: down-mixing does not change when (front) left and right are exchanged, for all values; the
other channels of a Surround frame are ignored. -/
theorem C23_symmetric (l r a b e f a' b' e' f' : c.T) :
    (Frame.convert d (k := .stereo) #v[l, r] : R (Frame .mono d)) = Frame.convert d (k := .stereo) #v[r, l] ∧
    (Frame.convert d (k := .surround) #v[a, l, b, r, e, f] : R (Frame .mono d)) =
      Frame.convert d (k := .surround) #v[a', r, b', l, e', f'] ∧
    (Frame.convert d (k := .surround) #v[a, l, b, r, e, f] : R (Frame .stereo d)) =
      Frame.convert d (k := .surround) #v[a', l, b', r, e', f'] := by
  refine ⟨?_, ?_, ?_⟩
  · refine (convert_stereo_mono _).trans (Eq.trans ?_ (convert_stereo_mono _).symm)
    exact congrArg (fun z => Except.ok #v[z]) (chanAvg_comm l r)
  · refine (convert_surround_mono _).trans (Eq.trans ?_ (convert_surround_mono _).symm)
    exact congrArg (fun z => Except.ok #v[z]) (chanAvg_comm l r)
  · exact (convert_surround_stereo _).trans (convert_surround_stereo _).symm

/-- C23: the down-mix of in-range samples lies between the conversions of (front) left and right (the
samples themselves if the format is the same, see `chanConv_self`).
Missing: samples outside [-1,1], which only `from_f64` makes; there it is false, see `C23_false`. -/
theorem C23_between_partial (l r a b e f : c.T) (hl : Valid c l) (hr : Valid c r) (h : c.Le l r) :
    ∃ m : d.T, (Frame.convert d (k := .stereo) #v[l, r] : R (Frame .mono d)) = .ok #v[m] ∧
    (Frame.convert d (k := .surround) #v[a, l, b, r, e, f] : R (Frame .mono d)) = .ok #v[m] ∧
    d.Le (d.ofF64 (c.toF64 l)) m ∧ d.Le m (d.ofF64 (c.toF64 r)) :=
  ⟨_, convert_stereo_mono _, convert_surround_mono _, chanAvg_between l r hl hr h⟩

example := C23_between_partial (c := .ch8) (d := .ch16) (-50#8) (101#8) (1#8) (2#8) (3#8) (4#8) trivial trivial
  (by decide)

/-- C23 as stated is false for huge Ch64 samples: the mean of `1.7e308` with itself is infinite. -/
theorem C23_false : ¬ ∀ l r : F64, ∀ m, ChTy.ch64.Le l r →
    (Frame.convert .ch64 (k := .stereo) (c := .ch64) #v[l, r] : R (Frame .mono .ch64)) = .ok #v[m] →
    ChTy.ch64.Le l m ∧ ChTy.ch64.Le m r := by
  intro h
  have := (h (lit 1.7e308) (lit 1.7e308) (.inf false) (by decide +kernel) (by decide +kernel)).2
  exact absurd this (by decide +kernel)

example : (Frame.convert .ch8 (k := .stereo) (c := .ch8) #v[-50#8, 101#8] : R (Frame .mono .ch8)) =
    .ok #v[25#8] := by decide +kernel

end Fon
