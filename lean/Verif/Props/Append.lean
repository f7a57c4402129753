import Verif.Props.Grow
import Verif.Props.MixOrder

/-!
# C130: what is appended does not depend on what was there

And the note of `extend` (audio.rs:270-272): "Do not call repeatedly on a stream with a differnt sample rate.  It will
create extra "partial" samples."
-/

namespace Fon
open Fmt Fl
variable {k k' : Kind} {c c' : ChTy}

/-- A buffer without frames needs the least memory. -/
theorem fits_empty {a : Audio k c} {d : Nat} (rate : F64) (h : a.Fits d) : (Audio.withFrames rate [] : Audio k c).Fits d := by
  refine ⟨?_, le_trans (Nat.mul_le_mul_right _ ?_) h.2⟩
  · have := h.1
    simp only [Audio.withFrames, List.length_nil]; omega
  · simp [Audio.withFrames]

example := fits_empty (a := exAudio 8) (d := 7) (lit 3) (by decide +kernel)

/-- C130: `extend` appends what `with_stream` makes of the stream. -/
theorem C130_append {a b : Audio k c} {st : Src k' c'} {it} (h : a.extend st = (b, .ok it)) :
    ∃ x, Audio.withStream a.rate st = .ok x ∧ b = ⟨a.rate, a.frames ++ x.frames⟩ := by
  obtain ⟨l, s, t, h1, h2, h3, h4, h5⟩ := extend_run a b st it (extend_int h)
  have hr : t.rate = a.rate := by
    rw [(flush_keeps s t h4).2]; exact (C36_stream _ _ _ _ _ h3).2.1
  refine ⟨⟨a.rate, t.buf⟩, ?_, by rw [h5, hr]⟩
  have he := extend_eq (Audio.withFrames a.rate [] : Audio k c) st l h1 (fits_empty a.rate h2)
  change _ = (match (⟨a.rate, Resampler.dflt, List.replicate (Audio.dstLen a.rate l st.rate) Frame.dflt⟩ : Sink k c).stream
    (l + 1) st with | .error e => _ | .ok (s, it) => _) at he
  rw [h3] at he
  simp only [h4] at he
  unfold Audio.withStream Audio.extend
  rw [he]
  simp [Audio.withFrames, hr]

example := C130_append (R.returnsSnd (x := (exAudio 8).extend (.audio (exAudio 12))) (by decide +kernel))

/-- C130, the other direction. -/
theorem C130_back {a x : Audio k c} {st : Src k' c'} (h : Audio.withStream a.rate st = .ok x) (hf : a.Fits x.len) :
    ∃ it, a.extend st = (⟨a.rate, a.frames ++ x.frames⟩, .ok it) := by
  unfold Audio.withStream at h
  cases he : (Audio.withFrames a.rate [] : Audio k c).extend st with
  | mk y r =>
    cases r with
    | error e => rw [he] at h; cases h
    | ok it =>
      rw [he] at h
      cases h
      obtain ⟨l, s, t, h1, h2, h3, h4, h5⟩ := extend_run _ x st it (extend_int he)
      change (⟨a.rate, Resampler.dflt, List.replicate (Audio.dstLen a.rate l st.rate) Frame.dflt⟩ : Sink k c).stream _ _ = _ at h3
      have hx : x.frames = t.buf := by rw [h5]; rfl
      have hd : x.len = Audio.dstLen a.rate l st.rate := by
        unfold Audio.len
        rw [hx, (flush_keeps s t h4).1, (C36_stream _ _ _ _ _ h3).1, List.length_replicate]
      have hr : t.rate = a.rate := by
        rw [(flush_keeps s t h4).2]; exact (C36_stream _ _ _ _ _ h3).2.1
      refine ⟨it, ?_⟩
      unfold Audio.extend
      rw [extend_eq a st l h1 (hd ▸ hf), h3]
      simp only [h4, hr, hx]

example := C130_back (a := exAudio 8) (st := .audio (exAudio 12))
  (R.returns (x := (Audio.withStream (exAudio 8).rate (.audio (exAudio 12)) : R (Audio .mono .ch8))) (by decide +kernel))
  (by decide +kernel)

/-- C130: the same panics as well, but for those about memory. -/
theorem C130_panics {a : Audio k c} {st : Src k' c'} {e : Panic} (h : (a.extend st).2 = .error e) :
    (Audio.withStream a.rate st : R (Audio k c)) = .error e ∨ ∃ l, st.len = some l ∧ ¬ a.Fits (Audio.dstLen a.rate l st.rate) := by
  cases hl : st.len with
  | none =>
    left
    unfold Audio.extend Audio.extendInternal at h
    unfold Audio.withStream Audio.extend Audio.extendInternal
    rw [hl] at h ⊢
    simp only [Except.error.injEq] at h ⊢
    exact h
  | some l =>
    by_cases hf : a.Fits (Audio.dstLen a.rate l st.rate)
    · left
      have he := extend_eq (Audio.withFrames a.rate [] : Audio k c) st l hl (fits_empty a.rate hf)
      change _ = (match (⟨a.rate, Resampler.dflt, List.replicate (Audio.dstLen a.rate l st.rate) Frame.dflt⟩ : Sink k c).stream
        (l + 1) st with | .error e => _ | .ok (s, it) => _) at he
      unfold Audio.extend at h
      rw [extend_eq a st l hl hf] at h
      unfold Audio.withStream Audio.extend
      rw [he]
      cases h3 : (⟨a.rate, Resampler.dflt, List.replicate (Audio.dstLen a.rate l st.rate) Frame.dflt⟩ : Sink k c).stream
          (l + 1) st with
      | error e' => rw [h3] at h; cases (show (Except.error e' : R (It k' c')) = .error e from h); rfl
      | ok p =>
        rw [h3] at h
        simp only at h ⊢
        cases h4 : p.1.flush with
        | error e' => rw [h4] at h; cases (show (Except.error e' : R (It k' c')) = .error e from h); rfl
        | ok t => rw [h4] at h; cases h
    · exact .inr ⟨l, rfl, hf⟩

example : ∃ e, (Audio.withStream (exAudio 48000).rate (.audio (k := .mono) (c := .ch8) ⟨lit 44100, List.replicate 147 #v[1#8]⟩) :
    R (Audio .mono .ch8)) = .error e := by
  obtain ⟨e, he⟩ := C51_false (exAudio 48000) (⟨lit 44100, List.replicate 147 #v[1#8]⟩ : Audio .mono .ch8) rfl rfl
    (by decide +kernel) (by decide +kernel) rfl (by decide +kernel)
  refine ⟨e, (C130_panics he).resolve_right ?_⟩
  rintro ⟨l, hl, hf⟩
  cases hl
  exact hf (by decide +kernel)

/-- C130: several calls append one piece each, as `with_stream` makes it. -/
theorem C130_all {a b : Audio k c} {sts : List (Src k' c')} (h : a.extendAll sts = .ok b) :
    ∃ xs : List (Audio k c), List.Forall₂ (fun st x => Audio.withStream a.rate st = .ok x) sts xs ∧
      b = ⟨a.rate, a.frames ++ xs.flatMap (·.frames)⟩ := by
  induction sts generalizing a with
  | nil => cases h; exact ⟨[], .nil, by simp⟩
  | cons st sts ih =>
    unfold Audio.extendAll at h
    cases he : a.extend st with
    | mk y r =>
      cases r with
      | error e => rw [he] at h; cases h
      | ok it =>
        rw [he] at h
        obtain ⟨x, e1, rfl⟩ := C130_append he
        obtain ⟨xs, g1, rfl⟩ := ih h
        exact ⟨x :: xs, .cons e1 g1, by simp⟩

example := C130_all (R.returns (x := (exAudio 8).extendAll [.audio (exAudio 12), (Src.drain (exAudio 12)).mkTake 2])
  (by decide +kernel))

/-- The sum of the ceilings. -/
theorem sum_ceil (q : ℚ) (hq : 0 ≤ q) (ls : List Nat) :
    ⌈q * ls.sum⌉₊ ≤ (ls.map fun l : ℕ => ⌈q * l⌉₊).sum ∧ (ls.map fun l : ℕ => ⌈q * l⌉₊).sum ≤ ⌈q * ls.sum⌉₊ + (ls.length - 1) := by
  constructor
  · induction ls with
    | nil => simp
    | cons l ls ih =>
      simp only [List.sum_cons, List.map_cons, Nat.cast_add, mul_add]
      exact (Nat.ceil_add_le _ _).trans (by omega)
  · cases ls with
    | nil => simp
    | cons l ls =>
      have key : ∀ (ms : List Nat), ((ms.map fun l : ℕ => ⌈q * l⌉₊).sum : ℚ) ≤ q * ms.sum + ms.length := by
        intro ms
        induction ms with
        | nil => simp
        | cons m ms ih =>
          simp only [List.sum_cons, List.map_cons, Nat.cast_add, List.length_cons, Nat.cast_one]
          have := (Nat.ceil_lt_add_one (a := q * m) (by positivity)).le
          linarith
      have h1 : ((((l :: ls).map fun l : ℕ => ⌈q * l⌉₊).sum : ℕ) : ℚ) < ⌈q * (l :: ls).sum⌉₊ + (l :: ls).length := by
        simp only [List.sum_cons, List.map_cons, Nat.cast_add, List.length_cons, Nat.cast_one]
        have a1 := Nat.ceil_lt_add_one (a := q * l) (by positivity)
        have a2 := key ls
        have a3 := Nat.le_ceil (q * ((l:ℚ) + ls.sum))
        linarith
      have h2 : ((l :: ls).map fun l : ℕ => ⌈q * l⌉₊).sum < ⌈q * (l :: ls).sum⌉₊ + (l :: ls).length := by exact_mod_cast h1
      simp only [List.length_cons] at h2 ⊢
      omega

example := sum_ceil (8 / 12) (by norm_num) [5, 2, 4]

/-- C130: the length after several calls with streams of one rate, and the number of extra frames: at most one for each call
but the first. -/
theorem C130_extra {a b : Audio k c} {sts : List (Src k' c')} {ls : List Nat} {sr : F64} {dst src : Nat}
    (h : a.extendAll sts = .ok b) (hl : sts.map Src.len = ls.map some) (hsr : ∀ st ∈ sts, st.rate = some sr)
    (hr : a.rate.Is (dst:ℚ)) (hs : sr.Is (src:ℚ)) (h0 : 0 < src) (hs' : src ≤ 2 ^ 51)
    (hN : ∀ l ∈ ls, dst * l < 2 ^ 52 ∧ l ≤ 2 ^ 53) :
    b.len = a.len + (ls.map fun l : ℕ => ⌈(dst:ℚ) / src * l⌉₊).sum ∧
      a.len + ⌈(dst:ℚ) / src * ls.sum⌉₊ ≤ b.len ∧ b.len ≤ a.len + ⌈(dst:ℚ) / src * ls.sum⌉₊ + (ls.length - 1) := by
  have hlen : b.len = a.len + (ls.map fun l : ℕ => ⌈(dst:ℚ) / src * l⌉₊).sum := by
    obtain ⟨xs, g1, rfl⟩ := C130_all h
    unfold Audio.len
    rw [List.length_append]
    congr 1
    clear h
    induction g1 generalizing ls with
    | nil =>
      cases ls with
      | nil => rfl
      | cons _ _ => cases hl
    | @cons st x sts xs e _ ih =>
      cases ls with
      | nil => cases hl
      | cons l ls =>
        simp only [List.map_cons, List.cons.injEq] at hl
        have := C49_partial a.rate sr dst src l hr hs h0 (hN l (by simp)).1 (hN l (by simp)).2 hs' st hl.1 (hsr st (by simp)) x e
        unfold Audio.len at this
        rw [List.flatMap_cons, List.length_append, this, List.map_cons, List.sum_cons,
          ih hl.2 (fun st h => hsr st (by simp [h])) (fun l h => hN l (by simp [h])), mul_div_right_comm]
  have := sum_ceil ((dst:ℚ) / src) (by positivity) ls
  exact ⟨hlen, by omega, by omega⟩

example := C130_extra (sr := lit 12) (dst := 8) (src := 12) (ls := [5, 2])
  (R.returns (x := (exAudio 8).extendAll [.audio (exAudio 12), (Src.drain (exAudio 12)).mkTake 2]) (by decide +kernel))
  rfl (by simp [Src.rate, exAudio, Src.mkTake]) (by decide +kernel) (by decide +kernel) (by norm_num) (by norm_num) (by decide)

/-- C130: every call but the first may add an extra frame: three single frames from 3 Hz to 1 Hz become three frames, all in one
piece become one. -/
example : ((exAudio 1).extendAll (List.replicate 3 (.audio (k := .mono) (c := .ch8) ⟨lit 3, [#v[1#8]]⟩))).map (·.len) = .ok 8 ∧
    ((exAudio 1).extendAll [.audio (k := .mono) (c := .ch8) ⟨lit 3, List.replicate 3 #v[1#8]⟩]).map (·.len) = .ok 6 := by
  decide +kernel

end Fon
