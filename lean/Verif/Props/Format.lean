import Verif.Props.Layout

/-!
# Changing the format of audio and back
-/

namespace Fon
open Fon.Fl hiding min max
open Fon.Fmt Fon.Sink
variable {k k2 : Kind} {c d : ChTy}

/-- A value from which the sample `x` is found again. -/
def Near : (c : ChTy) → c.T → ℚ → Prop
  | .ch8, x, p => |p - (2 * (x : BitVec 8).toInt + 1) / 255| ≤ 2 ^ (-20:ℤ)
  | .ch16, x, p => |p - (2 * (x : BitVec 16).toInt + 1) / 65535| ≤ 2 ^ (-20:ℤ)
  | .ch32, x, p => (∀ q, x.Is q → p = clampQ q) ∧ ((∀ q, ¬ x.Is q) → p = 1)
  | .ch64, x, p => (∀ q, x.Is q → p = clampQ q) ∧ ((∀ q, ¬ x.Is q) → p = 1)

theorem cast32_is {y : F64} {p : ℚ} (hy : y.Is p) (hp : |p| ≤ 1) : (y.cast binary32).Is (binary32.rnd p) :=
  hy.cast binary32 ((abs_rnd_le_of_rep (f := binary32) rep_one hp).trans one_le_maxF)

theorem arrives_is {f : Fmt} {x y : Fl f} (h : (∀ p, x.Is p → y.Is (clampQ p)) ∧ ((∀ p, ¬ x.Is p) → y.Is 1)) :
    ∃ p, y.Is p ∧ |p| ≤ 1 ∧ (∀ q, x.Is q → p = clampQ q) ∧ ((∀ q, ¬ x.Is q) → p = 1) := by
  by_cases hx : ∃ q, x.Is q
  · obtain ⟨q, hq⟩ := hx
    exact ⟨_, h.1 q hq, abs_le.mpr (clampQ_range q), fun q' h' => by rw [h'.unique hq], fun hn => absurd hq (hn q)⟩
  · push Not at hx
    exact ⟨1, h.2 hx, by norm_num, fun q' h' => absurd h' (hx q'), fun _ => rfl⟩

theorem is_of_widen {x : F32} {q : ℚ} (h : (x.cast binary64).Is q) : x.Is q := by
  cases x with
  | nan => obtain ⟨_, _, h⟩ := h; cases h
  | inf s => obtain ⟨_, _, h⟩ := h; cases h
  | fin r nz hh =>
    have h2 := widen_is (x := .fin r nz hh) ⟨_, _, rfl⟩
    rw [h.unique h2]
    exact ⟨_, _, rfl⟩

/-- What is left of a sample of format `c` after it went through a sink of a format `d` that is at least as wide. -/
theorem arrive_near (hr : c.rank ≤ d.rank) {x : c.T} {y : d.T} (h : Arrives d (Frame.chanConv d x) y) :
    ∃ p, (d.toF64 y).Is p ∧ |p| ≤ 1 ∧ Near c x p := by
  have i8 : ∀ x : BitVec 8, Near .ch8 x (convV binary64 255 x.toInt) := fun x => (ofCh8_err x).trans three_u_le
  have i16 : ∀ x : BitVec 16, Near .ch16 x (convV binary64 65535 x.toInt) := fun x => (ofCh16_err x).trans three_u_le
  cases c <;> cases d <;> simp only [ChTy.rank] at hr <;> try omega
  · rw [chanConv_self] at h
    cases h
    exact ⟨_, ofCh8_is _, abs_le.mpr (ofCh8_range _), i8 x⟩
  · have e : Frame.chanConv .ch16 (c := .ch8) x = Ch16.ofCh8 x := (C16_partial .ch16 .ch8 rfl x trivial).symm
    rw [e] at h
    change y = _ at h
    subst h
    refine ⟨_, ofCh16_is _, abs_le.mpr (ofCh16_range _), ?_⟩
    have h1 := ofCh16_err (f := binary64) (Ch16.ofCh8 x)
    have h3 : (2 * ((Ch16.ofCh8 x).toInt : ℚ) + 1) / 65535 = (2 * (x : BitVec 8).toInt + 1) / 255 := by
      have := C05_value x
      change (Ch16.ofCh8 x).toInt = _ at this
      rw [this]; push_cast; ring
    rw [h3] at h1
    exact h1.trans three_u_le
  · obtain ⟨r, h1, h2, h3⟩ := cast32_near (ofCh8_is (f := binary64) x) (abs_le.mpr (ofCh8_range x)) (ofCh8_err x)
    have h4 := h.1 r (is_of_widen h1)
    rw [clampQ_of_range (abs_le.mp h2).1 (abs_le.mp h2).2] at h4
    exact ⟨r, widen_is h4, h2, h3⟩
  · have h4 := h.1 _ (ofCh8_is (f := binary64) x)
    rw [clampQ_of_range (ofCh8_range x).1 (ofCh8_range x).2] at h4
    exact ⟨_, h4, abs_le.mpr (ofCh8_range x), i8 x⟩
  · rw [chanConv_self] at h
    cases h
    exact ⟨_, ofCh16_is _, abs_le.mpr (ofCh16_range _), i16 x⟩
  · obtain ⟨r, h1, h2, h3⟩ := cast32_near (ofCh16_is (f := binary64) x) (abs_le.mpr (ofCh16_range x)) (ofCh16_err x)
    have h4 := h.1 r (is_of_widen h1)
    rw [clampQ_of_range (abs_le.mp h2).1 (abs_le.mp h2).2] at h4
    exact ⟨r, widen_is h4, h2, h3⟩
  · have h4 := h.1 _ (ofCh16_is (f := binary64) x)
    rw [clampQ_of_range (ofCh16_range x).1 (ofCh16_range x).2] at h4
    exact ⟨_, h4, abs_le.mpr (ofCh16_range x), i16 x⟩
  · rw [chanConv_self] at h
    obtain ⟨p, h1, h2, h3⟩ := arrives_is h
    exact ⟨p, widen_is h1, h2, h3⟩
  · obtain ⟨p, h1, h2, h3, h4⟩ := arrives_is h
    exact ⟨p, h1, h2, fun q hq => h3 q (widen_is hq), fun hn => h4 (fun q hq => hn q (is_of_widen hq))⟩
  · obtain ⟨p, h1, h2, h3⟩ := arrives_is h
    exact ⟨p, h1, h2, h3⟩

/-- And back. -/
theorem near_back {x z : c.T} {u : F64} {p : ℚ} (hu : u.Is p) (hp : |p| ≤ 1) (hn : Near c x p)
    (h : Arrives c (c.ofF64 u) z) : Arrives c x z := by
  have hu' : ChF.new u = u := new_of_inRange ⟨p, hu, abs_le.mp hp⟩
  cases c with
  | ch8 =>
    have : ChTy.ch8.ofF64 u = x := by
      show Ch8.ofCh64 (ChF.new u) = x
      rw [hu']; exact quant8_back x hu hn
    rwa [this] at h
  | ch16 =>
    have : ChTy.ch16.ofF64 u = x := by
      show Ch16.ofCh64 (ChF.new u) = x
      rw [hu']; exact quant16_back x hu hn
    rwa [this] at h
  | ch32 =>
    have h1 := h.1 _ (cast32_is hu hp)
    constructor
    · intro q hq
      have e := hn.1 q hq
      have hrep : binary32.Rep p := by
        rw [e]; unfold clampQ
        rcases max_choice (-1) (min 1 q) with h | h <;> rw [h]
        · exact rep_one.neg
        · rcases min_choice 1 q with h | h <;> rw [h]
          · exact rep_one
          · exact hq.rep
      rw [rnd_of_rep hrep, clampQ_of_range (abs_le.mp hp).1 (abs_le.mp hp).2] at h1
      rw [← e]; exact h1
    · intro hq
      have e := hn.2 hq
      subst e
      rwa [rnd_of_rep rep_one, clampQ_of_range (by norm_num) le_rfl] at h1
  | ch64 =>
    have h1 := h.1 _ hu
    rw [clampQ_of_range (abs_le.mp hp).1 (abs_le.mp hp).2] at h1
    exact ⟨fun q hq => by rw [← hn.1 q hq]; exact h1, fun hq => by rw [hn.2 hq] at h1; exact h1⟩

theorem avg_is {u v : F64} {p : ℚ} (hu : u.Is p) (hv : v.Is p) (hp : |p| ≤ 1) : ((u.add v).mul (lit 0.5)).Is p := by
  have hr : binary64.Rep (p + p) := by
    rw [← two_mul, rep_iff_gen]
    refine ⟨?_, ?_⟩
    · obtain ⟨m, e, e1, e2, e3⟩ := hu.rep.gen
      exact ⟨m, e + 1, e1, by omega, by rw [e3, zpow_add₀ (by norm_num)]; ring⟩
    · rw [abs_mul, abs_two]
      have : (2:ℚ) ≤ binary64.maxF := by decide +kernel
      linarith
  have h1 := hu.add hv (by rw [rnd_of_rep hr]; exact hr.le_maxF)
  rw [rnd_of_rep hr] at h1
  have h5 : (lit 0.5 : F64).Is 0.5 := is_lit (rep_dyadic 1 (-1) (by norm_num) (by decide) (by decide) (by decide))
  have e : (p + p) * 0.5 = p := by ring
  have h2 := h1.mul h5 (by rw [e, rnd_of_rep hu.rep]; exact hu.rep.le_maxF)
  rwa [e, rnd_of_rep hu.rep] at h2

theorem arrives_same {X e e' : d.T} (h : Arrives d X e) (h' : Arrives d X e') {p : ℚ} (hp : (d.toF64 e).Is p) :
    (d.toF64 e').Is p := by
  have fl : ∀ {f : Fmt} {X e e' : Fl f}, ((∀ p, X.Is p → e.Is (clampQ p)) ∧ ((∀ p, ¬ X.Is p) → e.Is 1)) →
      ((∀ p, X.Is p → e'.Is (clampQ p)) ∧ ((∀ p, ¬ X.Is p) → e'.Is 1)) → ∃ q, e.Is q ∧ e'.Is q := by
    intro f X e e' h h'
    by_cases hx : ∃ q, X.Is q
    · obtain ⟨q, hq⟩ := hx
      exact ⟨_, h.1 q hq, h'.1 q hq⟩
    · push Not at hx
      exact ⟨1, h.2 hx, h'.2 hx⟩
  cases d with
  | ch8 =>
    change e = X at h
    change e' = X at h'
    rw [h', ← h]; exact hp
  | ch16 =>
    change e = X at h
    change e' = X at h'
    rw [h', ← h]; exact hp
  | ch32 =>
    obtain ⟨q, h1, h2⟩ := fl h h'
    rw [hp.unique (widen_is h1)]; exact widen_is h2
  | ch64 =>
    obtain ⟨q, h1, h2⟩ := fl h h'
    rw [Fl.Is.unique hp h1]; exact h2

/-- A frame that went to a layout with at least as many channels and a format at least as wide, and back. -/
theorem frame_back (hk : k.builtin = true) (hk2 : k2.builtin = true) (hch : k.chans ≤ k2.chans) (hr : c.rank ≤ d.rank)
    {x z g : Frame k c} {f y : Frame k2 d} (h1 : x.convert d = .ok f) (h2 : FrameArrives f y) (h3 : y.convert c = .ok g)
    (h4 : FrameArrives g z) : FrameArrives x z := by
  have key : ∀ {a b : c.T} {e : d.T}, Arrives d (d.ofF64 (c.toF64 a)) e → Arrives c (c.ofF64 (d.toF64 e)) b →
      Arrives c a b := by
    intro a b e h h'
    obtain ⟨p, p1, p2, p3⟩ := arrive_near hr h
    exact near_back p1 p2 p3 h'
  have keyA : ∀ {a b : c.T} {e e' : d.T}, Arrives d (d.ofF64 (c.toF64 a)) e → Arrives d (d.ofF64 (c.toF64 a)) e' →
      Arrives c (Frame.chanAvg c e e') b → Arrives c a b := by
    intro a b e e' h h' h''
    obtain ⟨p, p1, p2, p3⟩ := arrive_near hr h
    exact near_back (avg_is p1 (arrives_same h h' p1) p2) p2 p3 h''
  by_cases hkk : k = k2
  · subst hkk
    rw [C21_inplace hk] at h1 h3
    cases h1; cases h3
    intro i hi
    have a1 := h2 i hi
    have a2 := h4 i hi
    simp only [Vector.getElem_map] at a1 a2
    exact key a1 a2
  · cases k <;> cases k2 <;> first
      | (exfalso; simp_all [Kind.builtin]; done)
      | exact absurd hch (by decide)
      | skip
    · rw [(C24_upmix x Frame.dflt).1] at h1
      rw [convert_stereo_mono] at h3
      cases h1; cases h3
      intro i hi
      interval_cases i
      exact keyA (h2 0 (by decide)) (h2 1 (by decide)) (h4 0 (by decide))
    · rw [(C24_upmix x Frame.dflt).2.1] at h1
      rw [convert_surround_mono] at h3
      cases h1; cases h3
      intro i hi
      interval_cases i
      exact keyA (h2 1 (by decide)) (h2 3 (by decide)) (h4 0 (by decide))
    · rw [(C24_upmix Frame.dflt x).2.2] at h1
      rw [convert_surround_stereo] at h3
      cases h1; cases h3
      intro i hi
      interval_cases i
      · exact key (h2 1 (by decide)) (h4 0 (by decide))
      · exact key (h2 3 (by decide)) (h4 1 (by decide))

/-! ## C107 -/

/-- C107: audio that is converted to a format at least as wide and a layout with at least as many channels, and back, is
the same: `a'` has the same length and rate, and every sample has the same value if it is in [-1, 1], which integer
samples always are. -/
theorem C107_back (hk : k.builtin = true) (hk2 : k2.builtin = true) (hch : k.chans ≤ k2.chans) (hr : c.rank ≤ d.rank)
    (a : Audio k c) (ρ : ℚ) (hρ : a.rate.Is ρ) (h0 : ρ ≠ 0) (hrep : binary64.Rep (ρ * a.len)) (hl : a.len < 2 ^ 51) :
    ∃ (b : Audio k2 d) (a' : Audio k c), Audio.withStream a.rate (.audio a) = .ok b ∧
      Audio.withStream b.rate (.audio b) = .ok a' ∧ a'.rate = a.rate ∧ a'.len = a.len ∧
      ∀ i f z, a.get i = some f → a'.get i = some z → FrameArrives f z := by
  have fits : ∀ (k : Kind) (c : ChTy) (rate : F64) (n : Nat), k.builtin = true → n < 2 ^ 51 →
      (Audio.withFrames rate [] : Audio k c).Fits n := by
    intro k c rate n hk hn
    have hs : k.size c ≤ 48 := by
      cases k with
      | custom => cases hk
      | mono => cases c <;> decide
      | stereo => cases c <;> decide
      | surround => cases c <;> decide
    refine ⟨?_, ?_⟩
    · have : usizeMax = 2 ^ 64 - 1 := rfl
      simp only [Audio.withFrames, List.length_nil]; omega
    · have : Audio.isizeMax = 2 ^ 63 - 1 := rfl
      simp only [Audio.withFrames, List.length_nil]
      have : (0 + n) * k.size c ≤ 2 ^ 51 * 48 := Nat.mul_le_mul (by omega) hs
      omega
  obtain ⟨b, it, e1, e2, e3, _, e5⟩ := C50_partial (Audio.withFrames a.rate [] : Audio k2 d) (.audio a) a.len rfl hl hk2 hk
    rfl (.inl (by simp [Src.rate])) (fun x hx => ⟨ρ, hρ, by cases hx; exact hρ, h0, hrep⟩) (fits _ _ _ _ hk2 hl)
  have hbr : b.rate = a.rate := e2
  have hbl : b.len = a.len := by rw [e3]; simp [Audio.len, Audio.withFrames]
  obtain ⟨a', it', g1, g2, g3, _, g5⟩ := C50_partial (Audio.withFrames b.rate [] : Audio k c) (.audio b) b.len rfl
    (by omega) hk hk2 rfl (.inl (by simp [Src.rate]))
    (fun x hx => ⟨ρ, by simpa only [Audio.withFrames, hbr] using hρ, by cases hx; rw [hbr]; exact hρ, h0, by rw [hbl]; exact hrep⟩)
    (fits _ _ _ _ hk (by omega))
  refine ⟨b, a', by unfold Audio.withStream; rw [e1], by unfold Audio.withStream; rw [g1], by rw [g2]; exact hbr,
    by rw [g3]; simp [Audio.withFrames, Audio.len]; exact hbl, ?_⟩
  intro i f z hf hz
  have hi : i < a.len := (List.getElem?_eq_some_iff.mp hf).1
  obtain ⟨src, x, y, n1, n2, n3, n4⟩ := e5 i hi
  obtain ⟨src', x', z', m1, m2, m3, m4⟩ := g5 i (by omega)
  have s1 : src = f := by
    have : a.get i = some src := Except.ok.inj n1
    rw [hf] at this; exact (Option.some.inj this).symm
  have s2 : src' = y := by
    have h1 : b.get i = some src' := Except.ok.inj m1
    have h2 : b.get i = some y := by simpa [Audio.len, Audio.withFrames] using n3
    rw [h2] at h1; exact (Option.some.inj h1).symm
  have s3 : z' = z := by
    have h2 : a'.get i = some z' := by simpa [Audio.len, Audio.withFrames] using m3
    rw [hz] at h2; exact (Option.some.inj h2).symm
  subst s1 s2 s3
  exact frame_back hk hk2 hch hr n2 n4 m2 m4

example := C107_back (k2 := .surround) (d := .ch64) rfl rfl (by decide) (by decide) exWave 16 (by decide +kernel)
  (by norm_num) (by exact_mod_cast rep_nat53 (n := 16 * 4) (by norm_num)) (by decide)

/-- C107: integer audio comes back exactly. -/
theorem C107_int (hk : k.builtin = true) (hk2 : k2.builtin = true) (hch : k.chans ≤ k2.chans) (hr : c.rank ≤ d.rank)
    (hc : c = .ch8 ∨ c = .ch16)
    (a : Audio k c) (ρ : ℚ) (hρ : a.rate.Is ρ) (h0 : ρ ≠ 0) (hrep : binary64.Rep (ρ * a.len)) (hl : a.len < 2 ^ 51) :
    ∃ b : Audio k2 d, Audio.withStream a.rate (.audio a) = .ok b ∧ Audio.withStream b.rate (.audio b) = .ok a := by
  obtain ⟨b, a', h1, h2, h3, h4, h5⟩ := C107_back hk hk2 hch hr a ρ hρ h0 hrep hl
  refine ⟨b, h1, ?_⟩
  rw [h2]
  obtain ⟨rate, fs⟩ := a
  obtain ⟨rate', fs'⟩ := a'
  simp only [Audio.len] at h4
  simp only [Audio.get] at h5
  simp only at h3
  subst h3
  congr 2
  refine List.ext_getElem? (fun i => ?_)
  rcases Nat.lt_or_ge i fs.length with hi | hi
  · rw [List.getElem?_eq_getElem hi, List.getElem?_eq_getElem (by omega)]
    congr 1
    have := h5 i _ _ (List.getElem?_eq_getElem hi) (List.getElem?_eq_getElem (by omega))
    ext j hj
    have hj' := this j hj
    rcases hc with rfl | rfl <;> exact hj'
  · rw [List.getElem?_eq_none hi, List.getElem?_eq_none (by omega)]

example := C107_int (k2 := .surround) (d := .ch64) rfl rfl (by decide) (by decide) (.inl rfl) (exAudio 48000) 48000
  (by decide +kernel) (by norm_num) (by exact_mod_cast rep_nat53 (n := 48000 * 5) (by norm_num)) (by decide)

/-- To a narrower format and back is another matter. -/
example : ((Audio.withStream (lit 8) (.audio (k := .mono) (c := .ch16) ⟨lit 8, [#v[1000#16]]⟩) : R (Audio .mono .ch8)) >>=
    fun b => (Audio.withStream (lit 8) (.audio b) : R (Audio .mono .ch16))).map (·.frames) = .ok [#v[899#16]] := by
  decide +kernel
/-- 16 bit stereo through 64 bit surround. -/
example : ((Audio.withStream (lit 48000) (.audio (k := .stereo) (c := .ch16) ⟨lit 48000, [#v[1#16, 2#16], #v[-7#16, -32768#16]]⟩) :
    R (Audio .surround .ch64)) >>= fun b => (Audio.withStream (lit 48000) (.audio b) : R (Audio .stereo .ch16))).map
      (·.frames) = .ok [#v[1#16, 2#16], #v[-7#16, -32768#16]] := by decide +kernel
example : (lit 48000 : F64).Is ((48000:ℕ):ℚ) ∧ binary64.Rep (((48000:ℕ):ℚ) * (2:ℕ)) :=
  ⟨is_lit (rep_nat53 (by norm_num)), by exact_mod_cast rep_nat53 (n := 96000) (by norm_num)⟩

end Fon
