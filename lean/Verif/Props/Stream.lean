import Verif.Proofs.Stream

/-!
# C29 - C34: streams
-/

namespace Fon
open Fmt Fl
variable {k k' : Kind} {c c' : ChTy}

/-- Three frames of mono audio. -/
def exThree : Src .mono .ch8 := .audio ⟨lit 44100, [#v[3#8], #v[5#8], #v[6#8]]⟩
/-- Two frames of stereo audio. -/
def exTwo : Src .stereo .ch16 := .audio ⟨lit 44100, [#v[3#16, 4#16], #v[500#16, 600#16]]⟩
/-- The first with the second added to it. -/
def exBlend : Src .mono .ch8 := .blend exThree exTwo .plus

/-! ## C29 -/

/-- C29: a frame yields itself forever. -/
theorem C29_forever (f : Frame k c) (n : Nat) :
    ∃ it, (Src.frame f).iter.run n = .ok (List.replicate n f, it) := by
  induction n with
  | zero => exact ⟨_, rfl⟩
  | succ n ih =>
    obtain ⟨it, h⟩ := ih
    refine ⟨it, ?_⟩
    show (do let (fs, it) ← (Src.frame f).iter.run n; return (f :: fs, it)) = _
    rw [h]; rfl

/-- C29: no length, no rate, never empty, and setting the rate changes nothing. -/
theorem C29_meta (f : Frame k c) (sr : F64) :
    (Src.frame f).len = none ∧ (Src.frame f).rate = none ∧ (Src.frame f).isEmpty = false ∧
    (Src.frame f).setRate sr = .ok (.frame f) := ⟨rfl, rfl, rfl, rfl⟩

/-! ## C30 -/

theorem panStart_lt {cfg : List F64} {s : F64} (h : cfg ≠ []) :
    ∃ i, Blend.panStart cfg s = .ok i ∧ i < cfg.length := by
  unfold Blend.panStart
  have h0 : cfg.length ≠ 0 := by simpa using h
  rw [if_neg h0]
  refine ⟨_, rfl, ?_⟩
  cases hf : cfg.findIdx? (fun loc => Fl.le loc s) with
  | none => simp; omega
  | some i =>
    rw [List.findIdx?_eq_some_iff_getElem] at hf
    exact hf.1

/-- `Pan` does not panic if there is a speaker, and a channel for each. -/
theorem panStep_ok (t : Trig) (hc : k.config ≠ []) (hl : k.config.length ≤ k.chans) (out : Frame k c)
    (d s : c.T) : ∃ r, Blend.panStep t out d s = .ok r := by
  obtain ⟨i, h1, h2⟩ := panStart_lt (s := c.toF64 s) hc
  have h3 : (i + 1) % k.config.length < k.config.length := Nat.mod_lt _ (by omega)
  unfold Blend.panStep
  simp only [h1, bind, Except.bind, Blend.idx, List.getElem?_eq_getElem h2, List.getElem?_eq_getElem h3,
    Blend.modChan]
  rw [dif_pos (by omega)]
  simp only []
  rw [dif_pos (by omega)]
  exact ⟨_, rfl⟩

theorem foldlM_ok {α β : Type} (g : α → β → R α) (h : ∀ a b, ∃ r, g a b = .ok r) (l : List β) (a : α) :
    ∃ r, l.foldlM g a = .ok r := by
  induction l generalizing a with
  | nil => exact ⟨a, rfl⟩
  | cons x l ih =>
    obtain ⟨r, hr⟩ := h a x
    obtain ⟨r', hr'⟩ := ih r
    exact ⟨r', by rw [List.foldlM_cons, hr]; exact hr'⟩

/-- Every operation but `Compress` and the user's that may panic returns on built-in frames. -/
theorem mixFrames_builtin (op : Blend) (hop : op ≠ .compress) (hop' : ∀ m f, op ≠ .custom m f) (hk : k.builtin = true)
    (x y : Frame k c) : ∃ r, op.mixFrames x y = .ok r := by
  have h := C26_meaning x y
  cases op with
  | src => exact ⟨_, h.1⟩
  | dest => exact ⟨_, h.2.1⟩
  | clear => exact ⟨_, h.2.2.1⟩
  | plus => exact ⟨_, h.2.2.2.1⟩
  | amplify => exact ⟨_, h.2.2.2.2⟩
  | compress => exact absurd rfl hop
  | custom m f => exact absurd rfl (hop' m f)
  | user m =>
    refine ⟨Vector.ofFn fun i => m c x[i] y[i], (mixFrames_ok (by simp) (by simp)).mpr fun i h => ?_⟩
    simp [Blend.mix]
  | pan t =>
    refine foldlM_ok _ (fun a (b : c.T × c.T) => panStep_ok t ?_ ?_ a b.1 b.2) _ _
    · cases k <;> simp [Kind.config]; simp [Kind.builtin] at hk
    · cases k <;> simp [Kind.config, Kind.chans]; simp [Kind.builtin] at hk

/-- The frames of a safe stream do not panic. -/
theorem Src.safe_nth (s : Src k c) (hs : s.safe = true) (i : Nat) : ∃ o, s.nth i = .ok o := by
  cases h : s.nth i with
  | ok o => exact ⟨o, rfl⟩
  | error e =>
    exfalso
    induction s generalizing i with
    | frame g => cases h
    | audio a => cases h
    | drain a => cases h
    | user r fx l g => cases l <;> cases h
    | take s n ih =>
      unfold nth at h
      split at h
      · exact ih (by simpa [safe] using hs) i h
      · cases h
    | @blend k k' c c' a b op iha ihb =>
      simp only [safe, Bool.and_eq_true] at hs
      obtain ⟨⟨⟨⟨ha, hb⟩, hk⟩, hk'⟩, hop⟩ := hs
      rcases nth_blend_err h with hx | ⟨x, hx, hy | ⟨y, hy, hz | ⟨z, hz, hm⟩⟩⟩
      · exact iha ha i hx
      · exact ihb hb i hy
      · obtain ⟨g, hg⟩ := C25_builtin (d := c) hk' hk y
        rw [hg] at hz; cases hz
      · obtain ⟨g, hg⟩ := mixFrames_builtin op (by rintro rfl; cases hop) (by rintro m f rfl; cases hop) hk x z
        rw [hg] at hm; cases hm

/-- C30: a stream of reported length `n` yields exactly `n` frames; one that reports no length yields
as many as asked for.  (`run m` calls `next` up to `m` times; a blend may panic.) -/
theorem C30_exact (s : Src k c) (m : Nat) (fs : List (Frame k c)) (it : It k c)
    (h : s.iter.run m = .ok (fs, it)) :
    (∀ n, s.len = some n → fs.length = min m n) ∧ (s.len = none → fs.length = m) := by
  rw [← Src.iterAt_zero] at h
  obtain ⟨h1, h2⟩ := s.run_iff m 0 fs it h
  have last : ∀ n, s.len = some n → fs.length ≤ n := by
    intro n hn
    by_contra hlt
    push Not at hlt
    have := (s.nth_len (0 + n) _ (h1 n hlt))
    simp only [reduceCtorEq, false_iff] at this
    exact this ⟨n, hn, by omega⟩
  constructor
  · intro n hn
    have := last n hn
    rcases h2 with h2 | ⟨h2, h3⟩
    · omega
    · obtain ⟨n', hn', hle⟩ := (s.nth_len _ _ h3).mp rfl
      rw [hn] at hn'; cases hn'; omega
  · intro hn
    rcases h2 with h2 | ⟨h2, h3⟩
    · exact h2
    · obtain ⟨n', hn', hle⟩ := (s.nth_len _ _ h3).mp rfl
      rw [hn] at hn'; cases hn'

example := C30_exact exBlend 5 _ _ (R.returns₂ (x := exBlend.iter.run 5) (by decide +kernel))

/-- C30: a stream that blends built-in frames with anything but `Compress` never panics. -/
theorem C30_no_panic (s : Src k c) (hs : s.safe = true) (m : Nat) :
    ∃ fs it, s.iter.run m = .ok (fs, it) := by
  rw [← Src.iterAt_zero]
  exact s.run_ok m 0 (fun j _ => s.safe_nth hs _)

example := C30_no_panic (.blend exThree exTwo .amplify) rfl

/-- C30: `is_empty` is true exactly when nothing is yielded. -/
theorem C30_isEmpty (s : Src k c) (m : Nat) (fs : List (Frame k c)) (it : It k c)
    (h : s.iter.run (m + 1) = .ok (fs, it)) : s.isEmpty = true ↔ fs = [] := by
  obtain ⟨h1, h2⟩ := C30_exact s _ fs it h
  unfold Src.isEmpty
  rw [← List.length_eq_zero_iff]
  cases hl : s.len with
  | none => rw [h2 hl]; simp
  | some n => rw [h1 n hl]; simp

example := C30_isEmpty exBlend 5 _ _ (R.returns₂ (x := exBlend.iter.run 6) (by decide +kernel))
example := C30_isEmpty (exThree.mkTake 0) 5 _ _ (R.returns₂ (by decide +kernel))

example : ((Src.blend (k := .mono) (c := .ch8) (.frame #v[1#8])
    (.take (.audio (k := .stereo) (c := .ch16) ⟨lit 44100, [#v[3#16, 4#16], #v[500#16, 600#16]]⟩) 7)
    .plus).len) = some 2 := by decide
example : (Src.blend (k := .mono) (c := .ch8) (.frame #v[1#8])
    (.take (.audio (k := .stereo) (c := .ch16) ⟨lit 44100, [#v[3#16, 4#16], #v[500#16, 600#16]]⟩) 7)
    .plus).safe = true := by decide

/-! ## C31 -/

theorem yields_ext {k : Kind} {c : ChTy} (s t : Src k c) (h : ∀ i, s.nth i = t.nth i) (n : Nat) :
    s.iter.yields n = t.iter.yields n := by
  rw [← Src.iterAt_zero, ← Src.iterAt_zero]
  generalize 0 = i
  induction n generalizing i with
  | zero => rfl
  | succ n ih =>
    unfold It.yields It.run
    cases ho : s.nth i with
    | error e =>
      rw [s.next_err i e ho, t.next_err i e (by rw [← h, ho])]
    | ok o => cases o with
      | none =>
        obtain ⟨i1, h1⟩ := s.next_none i ho
        obtain ⟨i2, h2⟩ := t.next_none i (by rw [← h, ho])
        rw [h1, h2]; rfl
      | some f =>
        rw [s.next_some i f ho, t.next_some i f (by rw [← h, ho])]
        have := ih (i + 1)
        unfold It.yields at this
        simp only [bind, Except.bind]
        cases h1 : (s.iterAt (i + 1)).run n <;> cases h2 : (t.iterAt (i + 1)).run n <;>
          rw [h1, h2] at this <;> simp [Functor.map, Except.map] at this
        · simp [Functor.map, Except.map, this]
        · simp [Functor.map, Except.map, pure, Except.pure, this]

/-- C31: `take(n)` yields the first `n` frames of the stream. -/
theorem C31_prefix (s : Src k c) (n m : Nat) :
    (s.mkTake n).iter.yields m = s.iter.yields (min m n) := by
  rw [← Src.iterAt_zero, ← Src.iterAt_zero]
  suffices H : ∀ i, i ≤ n → ((s.mkTake n).iterAt i).yields m = (s.iterAt i).yields (min m (n - i)) from
    H 0 (by omega)
  induction m with
  | zero => intro i hi; simp only [Nat.zero_min]; rfl
  | succ m ih =>
    intro i hi
    rcases Nat.lt_or_ge i n with hlt | hge
    · have e1 : (s.mkTake n).nth i = s.nth i := by simp [Src.mkTake, Src.nth, hlt]
      have e2 : min (m + 1) (n - i) = min m (n - (i + 1)) + 1 := by omega
      rw [e2]
      unfold It.yields It.run
      cases ho : s.nth i with
      | error e => rw [s.next_err i e ho, Src.next_err _ i e (e1.trans ho)]; rfl
      | ok o => cases o with
        | none =>
          obtain ⟨i1, h1⟩ := s.next_none i ho
          obtain ⟨i2, h2⟩ := Src.next_none _ i (e1.trans ho)
          rw [h1, h2]; rfl
        | some f =>
          rw [s.next_some i f ho, Src.next_some _ i f (e1.trans ho)]
          have := ih (i + 1) hlt
          unfold It.yields at this
          simp only [bind, Except.bind]
          cases h1 : ((s.mkTake n).iterAt (i + 1)).run m <;>
            cases h2 : (s.iterAt (i + 1)).run (min m (n - (i + 1))) <;>
            rw [h1, h2] at this <;> simp [Functor.map, Except.map] at this
          · simp [Functor.map, Except.map, this]
          · simp [Functor.map, Except.map, pure, Except.pure, this]
    · have : (s.mkTake n).nth i = .ok none := by simp [Src.mkTake, Src.nth]; omega
      obtain ⟨it, h1⟩ := Src.next_none _ i this
      have e2 : min (m + 1) (n - i) = 0 := by omega
      rw [e2]
      unfold It.yields It.run
      rw [h1]; rfl

/-- C31: `take` keeps the rate. -/
theorem C31_rate (s : Src k c) (n : Nat) : (s.mkTake n).rate = s.rate := rfl

/-- C31: taking twice is taking the smaller number. -/
theorem C31_take_take (s : Src k c) (n m : Nat) :
    ((s.mkTake n).mkTake m).len = (s.mkTake (min n m)).len ∧
    ((s.mkTake n).mkTake m).rate = (s.mkTake (min n m)).rate ∧
    ∀ j, ((s.mkTake n).mkTake m).iter.yields j = (s.mkTake (min n m)).iter.yields j := by
  refine ⟨?_, rfl, ?_⟩
  · cases h : s.len <;> simp [Src.mkTake, Src.len, h, Nat.min_assoc]
  · intro j
    rw [C31_prefix, C31_prefix, C31_prefix]
    congr 1; omega

example : (Src.mkTake (.audio (k := .mono) (c := .ch8) ⟨lit 1, [#v[3#8], #v[5#8], #v[6#8]]⟩) 2).iter.yields 9
    = .ok [#v[3#8], #v[5#8]] := by decide

/-! ## C32 -/

/-- C32: the frames of a blend, one by one.  `fs`, `gs`, `hs` are what the three streams yield when
asked for `m` frames. -/
theorem C32_frames (a : Src k c) (b : Src k' c') (op : Blend) (m : Nat) (fs : List (Frame k c))
    (gs : List (Frame k' c')) (hs : List (Frame k c)) (it1 : It k c) (it2 : It k' c') (it3 : It k c)
    (h1 : a.iter.run m = .ok (fs, it1)) (h2 : b.iter.run m = .ok (gs, it2))
    (h3 : (Src.blend a b op).iter.run m = .ok (hs, it3)) :
    hs.length = min fs.length gs.length ∧
    ∀ i (hh : i < hs.length) (hf : i < fs.length) (hg : i < gs.length), ∃ y : Frame k c,
      gs[i].convert c = .ok y ∧ op.mixFrames fs[i] y = .ok hs[i] := by
  rw [← Src.iterAt_zero] at h1 h2 h3
  obtain ⟨a1, a2⟩ := a.run_iff m 0 _ _ h1
  obtain ⟨b1, b2⟩ := b.run_iff m 0 _ _ h2
  obtain ⟨c1, c2⟩ := Src.run_iff _ m 0 _ _ h3
  simp only [Nat.zero_add] at *
  have frame : ∀ i (hh : i < hs.length), i < fs.length ∧ i < gs.length := by
    intro i
    induction i using Nat.strong_induction_on with
    | _ i ih =>
      intro hh
      obtain ⟨x, y, z, hx, hy, -, -⟩ := Src.nth_blend_some (c1 i hh)
      constructor
      · by_contra hn
        rcases a2 with a2 | ⟨a2, a3⟩
        · rcases c2 with c2 | ⟨c2, -⟩ <;> omega
        · rcases Nat.lt_or_ge fs.length i with hlt | hge
          · exact absurd (ih fs.length hlt (by omega)).1 (by omega)
          · obtain rfl : i = fs.length := by omega
            rw [hx] at a3; cases a3
      · by_contra hn
        rcases b2 with b2 | ⟨b2, b3⟩
        · rcases c2 with c2 | ⟨c2, -⟩ <;> omega
        · rcases Nat.lt_or_ge gs.length i with hlt | hge
          · exact absurd (ih gs.length hlt (by omega)).2 (by omega)
          · obtain rfl : i = gs.length := by omega
            rw [hy] at b3; cases b3
  refine ⟨?_, ?_⟩
  · apply le_antisymm
    · rcases Nat.eq_zero_or_pos hs.length with h0 | h0
      · omega
      · have := frame (hs.length - 1) (by omega); omega
    · rcases c2 with c2 | ⟨c2, c3⟩
      · rcases a2 with a2 | ⟨a2, -⟩ <;> omega
      · rcases Src.nth_blend_none c3 with hx | ⟨_, hy⟩
        · by_contra hn
          have := a1 hs.length (by omega)
          rw [hx] at this; cases this
        · by_contra hn
          have := b1 hs.length (by omega)
          rw [hy] at this; cases this
  · intro i hh hf hg
    obtain ⟨x, y, z, hx, hy, hz, hm⟩ := Src.nth_blend_some (c1 i hh)
    have e1 := a1 i hf
    have e2 := b1 i hg
    rw [hx] at e1
    rw [hy] at e2
    cases e1
    cases e2
    exact ⟨z, hz, hm⟩

example := C32_frames exThree exTwo .plus 5 _ _ _ _ _ _
  (R.returns₂ (by decide +kernel)) (R.returns₂ (by decide +kernel))
  (R.returns₂ (x := (Src.blend exThree exTwo .plus).iter.run 5) (by decide +kernel))

/-- C32: `blend`, when it returns, makes a blend of streams with the same frames and lengths as the
given ones (it only may have set a rate). -/
theorem setRate_same (s t : Src k c) (sr : F64) (h : s.setRate sr = .ok t) :
    (∀ i, t.nth i = s.nth i) ∧ t.len = s.len ∧ t.configurable = s.configurable ∧ t.safe = s.safe ∧
    t.iter = s.iter := by
  induction s with
  | frame f => cases h; simp
  | audio a => cases h
  | drain a => cases h
  | user r fx l g =>
    unfold Src.setRate at h
    split at h
    · cases h
    · cases h; simp [Src.nth, Src.len, Src.configurable, Src.safe, Src.iter]
  | take s n ih =>
    unfold Src.setRate at h
    cases hs : s.setRate sr with
    | error e => rw [hs] at h; cases h
    | ok s' =>
      rw [hs] at h; cases h
      obtain ⟨h1, h2, h3, h4, h5⟩ := ih s' hs
      simp [Src.nth, Src.len, Src.configurable, Src.safe, Src.iter, h1, h2, h3, h4, h5]
  | blend a b op iha ihb =>
    unfold Src.setRate at h
    cases hs : a.setRate sr with
    | error e => rw [hs] at h; cases h
    | ok a' =>
      rw [hs] at h
      cases hs' : b.setRate sr with
      | error e => rw [hs'] at h; cases h
      | ok b' =>
        rw [hs'] at h; cases h
        obtain ⟨h1, h2, h3, h4, h5⟩ := iha a' hs
        obtain ⟨g1, g2, g3, g4, g5⟩ := ihb b' hs'
        simp [Src.nth, Src.len, Src.configurable, Src.safe, Src.iter, h1, h2, h3, h4, h5, g1, g2, g3, g4,
          g5]

/-- C32: the stream that `blend` returns iterates like the plain blend of its arguments. -/
theorem C32_mkBlend (a : Src k c) (b : Src k' c') (op : Blend) (s : Src k c)
    (h : a.mkBlend b op = .ok s) :
    s.iter = (Src.blend a b op).iter ∧ s.len = (Src.blend a b op).len := by
  unfold Src.mkBlend at h
  split at h
  · cases h; exact ⟨rfl, rfl⟩
  · split at h
    · cases h; exact ⟨rfl, rfl⟩
    · rename_i sr _ _
      cases ha : a.setRate sr with
      | error e => rw [ha] at h; cases h
      | ok a' =>
        rw [ha] at h; cases h
        obtain ⟨_, h2, _, _, h5⟩ := setRate_same a a' sr ha
        simp [Src.iter, Src.len, h2, h5]
    · rename_i sr _ _
      cases hb : b.setRate sr with
      | error e => rw [hb] at h; cases h
      | ok b' =>
        rw [hb] at h; cases h
        obtain ⟨_, h2, _, _, h5⟩ := setRate_same b b' sr hb
        simp [Src.iter, Src.len, h2, h5]
    · cases h

example := C32_mkBlend exThree (.frame (k := .stereo) (c := .ch16) #v[3#16, 4#16]) .plus _ (R.returns (by decide +kernel))

/-- C32: a blend reports the length of the shorter stream (endless is longer than any length). -/
theorem C32_len (a : Src k c) (b : Src k' c') (op : Blend) (s : Src k c) (h : a.mkBlend b op = .ok s) (n : Nat) :
    (∀ l, s.len = some l → n < l) ↔ (∀ l, a.len = some l → n < l) ∧ (∀ l, b.len = some l → n < l) := by
  rw [(C32_mkBlend a b op s h).2]
  cases ha : a.len <;> cases hb : b.len <;> simp [Src.len, ha, hb]

example := C32_len exThree exTwo .plus _ (R.returns (x := exThree.mkBlend exTwo .plus) (by decide +kernel))

example : (Src.blend (k := .stereo) (c := .ch8) (.frame #v[1#8, 2#8])
    (.audio (k := .mono) (c := .ch8) ⟨lit 1, [#v[3#8], #v[5#8], #v[6#8]]⟩) .plus).iter.yields 9
    = .ok [#v[4#8, 5#8], #v[6#8, 7#8], #v[7#8, 8#8]] := by decide +kernel

/-! ## C33 -/

/-- `set_sample_rate` returns exactly on configurable streams. -/
theorem setRate_ok_iff (s : Src k c) (sr : F64) : (∃ t, s.setRate sr = .ok t) ↔ s.configurable = true := by
  induction s with
  | frame f => simp [Src.setRate, Src.configurable]
  | audio a => simp [Src.setRate, Src.configurable]
  | drain a => simp [Src.setRate, Src.configurable]
  | user r fx l g => cases fx <;> simp [Src.setRate, Src.configurable]
  | take s n ih =>
    simp only [Src.configurable, ← ih, Src.setRate]
    cases s.setRate sr <;> simp
  | blend a b op iha ihb =>
    simp only [Src.configurable, Bool.and_eq_true, ← iha, ← ihb, Src.setRate]
    cases a.setRate sr <;> cases b.setRate sr <;> simp

/-- C33: `blend` panics exactly if both rates are given and differ (NaN differs from everything), or
one is given and the other stream cannot be configured. -/
theorem C33_panics_iff (a : Src k c) (b : Src k' c') (op : Blend) :
    (∃ e, a.mkBlend b op = .error e) ↔
      (∃ x y, a.rate = some x ∧ b.rate = some y ∧ x.eq y = false) ∨
      (a.rate = none ∧ b.rate ≠ none ∧ a.configurable = false) ∨
      (a.rate ≠ none ∧ b.rate = none ∧ b.configurable = false) := by
  have ha := setRate_ok_iff a
  have hb := setRate_ok_iff b
  unfold Src.mkBlend
  cases h1 : a.rate with
  | none => cases h2 : b.rate with
    | none => simp [Src.optEq]
    | some y =>
      have := ha y
      simp only [Src.optEq, Bool.false_eq_true, if_false]
      cases hs : a.setRate y <;> rw [hs] at this <;> simp at this <;> simp [this]
  | some x => cases h2 : b.rate with
    | none =>
      have := hb x
      simp only [Src.optEq, Bool.false_eq_true, if_false]
      cases hs : b.setRate x <;> rw [hs] at this <;> simp at this <;> simp [this]
    | some y =>
      by_cases he : x.eq y = true
      · have he' : Src.optEq (some x) (some y) = true := he
        rw [if_pos he']; simp [he]
      · have he' : ¬ Src.optEq (some x) (some y) = true := he
        rw [if_neg he']; simp [he]

example : ∃ e, (Src.audio (k := .mono) (c := .ch8) ⟨.nan, []⟩).mkBlend
    (Src.audio (k := .mono) (c := .ch8) ⟨.nan, []⟩) .plus = .error e := by
  rw [C33_panics_iff]; exact .inl ⟨_, _, rfl, rfl, rfl⟩

/-- C33: a stream that accepted a rate reports that rate, or none if frames lead it. -/
theorem C33_stored (s t : Src k c) (sr : F64) (h : s.setRate sr = .ok t) :
    t.rate = if s.stores then some sr else none := by
  induction s with
  | frame f => cases h; rfl
  | audio a => cases h
  | drain a => cases h
  | user r fx l g => cases fx <;> cases h; rfl
  | take s n ih =>
    unfold Src.setRate at h
    cases hs : s.setRate sr with
    | error e => rw [hs] at h; cases h
    | ok s' => rw [hs] at h; cases h; exact ih s' hs
  | blend a b op iha ihb =>
    unfold Src.setRate at h
    cases hs : a.setRate sr with
    | error e => rw [hs] at h; cases h
    | ok a' =>
      rw [hs] at h
      cases hs' : b.setRate sr with
      | error e => rw [hs'] at h; cases h
      | ok b' => rw [hs'] at h; cases h; exact iha a' hs

example := C33_stored (.user (k := .mono) (c := .ch8) none false none (fun _ => #v[1#8])) _ (lit 44100)
  (R.returns (by decide +kernel))

/-- C33: the rate of an accepted blend is the rate of its first stream, or else the rate of the second
if the first one stores it. -/
theorem C33_rate (a : Src k c) (b : Src k' c') (op : Blend) (s : Src k c) (h : a.mkBlend b op = .ok s) :
    s.rate = match a.rate with
      | some x => some x
      | none => if a.stores then b.rate else none := by
  unfold Src.mkBlend at h
  cases h1 : a.rate with
  | some x =>
    rw [h1] at h
    split at h
    · cases h; exact h1
    · cases h2 : b.rate with
      | some y => rw [h2] at h; cases h
      | none =>
        rw [h2] at h
        cases hs : b.setRate x with
        | error e => simp [hs] at h
        | ok b' => simp only [hs] at h; cases h; exact h1
  | none =>
    cases h2 : b.rate with
    | none =>
      rw [h1, h2] at h
      simp only [Src.optEq, if_true] at h
      cases h
      simpa [Src.rate] using h1
    | some y =>
      rw [h1, h2] at h
      simp only [Src.optEq, Bool.false_eq_true, if_false] at h
      cases hs : a.setRate y with
      | error e => simp [hs] at h
      | ok a' =>
        simp only [hs] at h
        cases h
        exact C33_stored a a' y hs

example := C33_rate (.user (k := .mono) (c := .ch8) none false none (fun _ => #v[1#8])) exTwo .plus _
  (R.returns (by decide +kernel))

example : ∃ s, (Src.user (k := .mono) (c := .ch8) none false none (fun _ => #v[1#8])).mkBlend
    (Src.audio (k := .mono) (c := .ch8) ⟨lit 48000, []⟩) .plus = .ok s ∧ s.rate = some (lit 48000) :=
  ⟨_, rfl, rfl⟩

/-! ## C34 -/

/-- C34, what is true: an accepted blend can be streamed if its first stream reported a rate, or
stores one when told, or neither stream has a rate and both can be configured.
Missing: a first stream that accepts a rate without storing it (a frame) blended with a stream of fixed
rate, see `C34_false`. -/
theorem C34_partial {kk : Kind} {cc : ChTy} (snk : Sink kk cc) (a : Src k c) (b : Src k' c') (op : Blend)
    (s : Src k c) (h : a.mkBlend b op = .ok s)
    (h' : s.rate ≠ none ∨ a.configurable = true ∧ b.configurable = true) :
    ∃ r, snk.ratio s = .ok r := by
  unfold Sink.ratio
  cases hr : s.rate with
  | some x => exact ⟨_, rfl⟩
  | none =>
    rcases h' with h' | ⟨ha, hb⟩
    · exact absurd hr h'
    · have hc : s.configurable = true := by
        unfold Src.mkBlend at h
        split at h
        · cases h; simp [Src.configurable, ha, hb]
        · split at h
          · cases h; simp [Src.configurable, ha, hb]
          · rename_i sr _ _
            cases hs : a.setRate sr with
            | error e => rw [hs] at h; cases h
            | ok a' =>
              rw [hs] at h; cases h
              simp [Src.configurable, (setRate_same a a' sr hs).2.2.1, ha, hb]
          · rename_i sr _ _
            cases hs : b.setRate sr with
            | error e => rw [hs] at h; cases h
            | ok b' =>
              rw [hs] at h; cases h
              simp [Src.configurable, (setRate_same b b' sr hs).2.2.1, ha, hb]
          · cases h
      obtain ⟨t, ht⟩ := (setRate_ok_iff s snk.rate).mpr hc
      simp only [ht]
      exact ⟨_, rfl⟩

example := C34_partial (⟨lit 48000, Resampler.dflt, []⟩ : Sink .mono .ch16)
  (.user (k := .mono) (c := .ch8) none false none (fun _ => #v[1#8])) exTwo .plus _
  (R.returns (by decide +kernel)) (.inl (by decide +kernel))

/-- C34: if the first stream reports a rate, an accepted blend can be streamed into any sink. -/
theorem C34_rated_partial {kk : Kind} {cc : ChTy} (snk : Sink kk cc) (a : Src k c) (b : Src k' c')
    (op : Blend) (s : Src k c) (h : a.mkBlend b op = .ok s) (x : F64) (hx : a.rate = some x) :
    snk.ratio s = .ok (snk.rate.div x, s) := by
  have : s.rate = some x := by
    unfold Src.mkBlend at h
    split at h
    · cases h; exact hx
    · rw [hx] at h
      split at h
      · rename_i h0 _; cases h0
      · rename_i h0 _; cases h0
      · rename_i sr _ _
        cases hs : b.setRate sr with
        | error e => rw [hs] at h; cases h
        | ok b' => rw [hs] at h; cases h; exact hx
      · cases h
  unfold Sink.ratio
  rw [this]

example := C34_rated_partial (⟨lit 48000, Resampler.dflt, []⟩ : Sink .mono .ch16) exThree
  (.frame (k := .stereo) (c := .ch16) #v[3#16, 4#16]) .plus _ (R.returns (by decide +kernel)) (lit 44100) rfl

/-- C34, exactly: streaming an accepted blend panics over the rate if and only if the blend still has
no rate and one of the two streams cannot be told one. -/
theorem C34_iff {kk : Kind} {cc : ChTy} (snk : Sink kk cc) (a : Src k c) (b : Src k' c') (op : Blend)
    (s : Src k c) (h : a.mkBlend b op = .ok s) :
    (∃ e, snk.ratio s = .error e) ↔
      a.rate = none ∧ (a.stores = false ∨ b.rate = none) ∧ ¬ (a.configurable = true ∧ b.configurable = true) := by
  have hr := C33_rate a b op s h
  constructor
  · rintro ⟨e, he⟩
    have hn : ¬ (s.rate ≠ none ∨ a.configurable = true ∧ b.configurable = true) := by
      intro hh
      obtain ⟨r, hr⟩ := C34_partial snk a b op s h hh
      rw [hr] at he; cases he
    push Not at hn
    rw [hn.1] at hr
    cases h1 : a.rate with
    | some x => rw [h1] at hr; cases hr
    | none =>
      rw [h1] at hr
      refine ⟨rfl, ?_, fun h => hn.2 h.1 h.2⟩
      cases hs : a.stores
      · exact .inl rfl
      · right; simpa [hs] using hr.symm
  · rintro ⟨h1, h2, h3⟩
    have hn : s.rate = none := by
      rw [hr, h1]
      rcases h2 with h2 | h2 <;> simp [h2]
    have hc : ¬ s.configurable = true := by
      intro hc
      apply h3
      unfold Src.mkBlend at h
      split at h
      · cases h; simpa [Src.configurable] using hc
      · split at h
        · cases h; simpa [Src.configurable] using hc
        · rename_i sr _ _
          cases hs : a.setRate sr with
          | error e => rw [hs] at h; cases h
          | ok a' =>
            rw [hs] at h; cases h
            simpa [Src.configurable, (setRate_same a a' sr hs).2.2.1] using hc
        · rename_i sr _ _
          cases hs : b.setRate sr with
          | error e => rw [hs] at h; cases h
          | ok b' =>
            rw [hs] at h; cases h
            simpa [Src.configurable, (setRate_same b b' sr hs).2.2.1] using hc
        · cases h
    unfold Sink.ratio
    rw [hn]
    cases ht : s.setRate snk.rate with
    | error e => exact ⟨e, rfl⟩
    | ok t => exact absurd ((setRate_ok_iff s snk.rate).mp ⟨t, ht⟩) hc

example : ∀ s, (Src.frame (k := .mono) (c := .ch8) #v[1#8]).mkBlend
    (Src.audio (k := .mono) (c := .ch8) ⟨lit 48000, []⟩) .plus = .ok s →
    ∀ snk : Sink .mono .ch8, ∃ e, snk.ratio s = .error e :=
  fun s h snk => (C34_iff snk _ _ _ s h).mpr ⟨rfl, .inl rfl, by simp [Src.configurable]⟩

/-- C34 as stated is false: `frame.blend(&audio, op)` is accepted, and streaming it panics in
`set_sample_rate`, whatever the frames, the audio, the operation and the sink are.  The other order,
`(&audio).blend(frame, op)`, is fine by `C34_rated_partial`. -/
theorem C34_false {kk : Kind} {cc : ChTy} (snk : Sink kk cc) (f : Frame k c) (a : Audio k' c') (op : Blend)
    (fuel : Nat) :
    ∃ s, (Src.frame f).mkBlend (.audio a) op = .ok s ∧ snk.stream fuel s = .error .setSampleRate :=
  ⟨_, rfl, rfl⟩

end Fon
