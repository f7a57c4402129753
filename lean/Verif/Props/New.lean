import Verif.Spec.New
import Verif.Model.New
import Verif.Proofs.Range
import Verif.Props.CrossArith

/-!
# C99, C100: constructors of frames, the private stream over an audio buffer
-/

namespace Fon
open Fmt Fl

/-! ## C99 -/

theorem Arg.into_level {c : ChTy} (a : Arg c) (q : ℚ) (h : a.Lvl q) :
    Valid c a.into ∧ ∃ r, Level c a.into r ∧ |r - clampQ q| ≤ 3 * ulp c := by
  have u := ulp_pos c
  match c, a with
  | c, .chan s x =>
    obtain ⟨r, hr, e⟩ := C88_conv c s x h.1 q h.2
    have := h.2.range h.1
    rw [clampQ_of_range this.1 this.2]
    exact ⟨Valid.conv h.1, r, hr, e⟩
  | _, .i8 x =>
    have v : Valid .ch8 x := trivial
    have l : Level .ch8 x q := h
    have := l.range v
    rw [clampQ_of_range this.1 this.2]
    exact ⟨v, q, l, by rw [sub_self, abs_zero]; linarith⟩
  | _, .i16 x =>
    have v : Valid .ch16 x := trivial
    have l : Level .ch16 x q := h
    have := l.range v
    rw [clampQ_of_range this.1 this.2]
    exact ⟨v, q, l, by rw [sub_self, abs_zero]; linarith⟩
  | _, .f32 x =>
    have := clamp1_is h
    have r := clampQ_range q
    exact ⟨⟨_, this, r⟩, _, this, by rw [sub_self, abs_zero]; linarith⟩

/-- C99: the constructors put every argument into the channel of its position, at its own level (at most full scale). -/
theorem C99_new {c : ChTy} :
    (∀ (a : Arg c) p, a.Lvl p → ∃ r, Level c (Frame.mono a)[0] r ∧ |r - clampQ p| ≤ 3 * ulp c) ∧
    (∀ (a b : Arg c), ∀ i (h : i < 2), ∀ p, [a, b][i].Lvl p →
      ∃ r, Level c (Frame.stereo a b)[i] r ∧ |r - clampQ p| ≤ 3 * ulp c) ∧
    (∀ (a₁ a₂ a₃ a₄ a₅ a₆ : Arg c), ∀ i (h : i < 6), ∀ p, [a₁, a₂, a₃, a₄, a₅, a₆][i].Lvl p →
      ∃ r, Level c (Frame.surround a₁ a₂ a₃ a₄ a₅ a₆)[i] r ∧ |r - clampQ p| ≤ 3 * ulp c) := by
  refine ⟨fun a p h => (a.into_level p h).2, fun a b i hi p h => ?_, fun a₁ a₂ a₃ a₄ a₅ a₆ i hi p h => ?_⟩
  · match i, hi with
    | 0, _ => exact (Arg.into_level _ p h).2
    | 1, _ => exact (Arg.into_level _ p h).2
  · match i, hi with
    | 0, _ => exact (Arg.into_level _ p h).2
    | 1, _ => exact (Arg.into_level _ p h).2
    | 2, _ => exact (Arg.into_level _ p h).2
    | 3, _ => exact (Arg.into_level _ p h).2
    | 4, _ => exact (Arg.into_level _ p h).2
    | 5, _ => exact (Arg.into_level _ p h).2

/-- C99: samples of the frame's own format arrive unchanged, so `new` agrees with `from_channels`. -/
theorem C99_own {c : ChTy} (x₁ x₂ x₃ x₄ x₅ x₆ : c.T) (l : List c.T) :
    Frame.fromChannels (k := .mono) (x₁ :: l) = .ok (Frame.mono (.chan c x₁)) ∧
    Frame.fromChannels (k := .stereo) (x₁ :: x₂ :: l) = .ok (Frame.stereo (.chan c x₁) (.chan c x₂)) ∧
    Frame.fromChannels (k := .surround) (x₁ :: x₂ :: x₃ :: x₄ :: x₅ :: x₆ :: l) =
      .ok (Frame.surround (.chan c x₁) (.chan c x₂) (.chan c x₃) (.chan c x₄) (.chan c x₅) (.chan c x₆)) ∧
    (Frame.mono (.chan c x₁)).toList = [x₁] ∧ (Frame.stereo (.chan c x₁) (.chan c x₂)).toList = [x₁, x₂] ∧
    (Frame.surround (.chan c x₁) (.chan c x₂) (.chan c x₃) (.chan c x₄) (.chan c x₅) (.chan c x₆)).toList =
      [x₁, x₂, x₃, x₄, x₅, x₆] := by
  have e : ∀ x : c.T, (Arg.chan c x : Arg c).into = x := by cases c <;> exact fun _ => rfl
  have f : ∀ k : Kind, ∀ ch : List c.T, (h : k.chans ≤ ch.length) → Frame.fromChannels (k := k) ch =
      .ok (Vector.ofFn fun i => ch[i.val]'(by omega)) := fun k ch h => dif_pos h
  refine ⟨?_, ?_, ?_, ?_, ?_, ?_⟩
  · rw [f .mono _ (by change 1 ≤ _; simp)]
    congr 1
    rw [Frame.mono, e]; rfl
  · rw [f .stereo _ (by change 2 ≤ _; simp)]
    congr 1
    rw [Frame.stereo, e, e]; rfl
  · rw [f .surround _ (by change 6 ≤ _; simp)]
    congr 1
    rw [Frame.surround, e, e, e, e, e, e]; rfl
  · rw [Frame.mono, e]; rfl
  · rw [Frame.stereo, e, e]; rfl
  · rw [Frame.surround, e, e, e, e, e, e]; rfl

/-- C99: a raw number given to a frame and read back is the number itself; a float is clamped first, and NaN becomes 1. -/
theorem C99_raw : (∀ x, Ch8.toRaw (Arg.i8 x).into = x) ∧ (∀ x, Ch16.toRaw (Arg.i16 x).into = x) ∧
    (∀ (x : F32) q, x.Is q → (Ch32.toRaw (Arg.f32 x).into).Is (clampQ q)) ∧
    (∀ x : F32, x.InRange → Ch32.toRaw (Arg.f32 x).into = x) ∧
    Ch32.toRaw (Arg.f32 .nan).into = lit 1 ∧
    (∀ s, Ch32.toRaw (Arg.f32 (.inf s)).into = lit (if s then -1 else 1)) := by
  refine ⟨fun _ => rfl, fun _ => rfl, fun x q h => clamp1_is h, fun x h => clamp1_of_inRange h, ?_, ?_⟩
  · decide +kernel
  · intro s; cases s <;> decide +kernel

/-- C99: the raw number of a sample is the number it holds, also if that is out of range or NaN; and the `f64` of a sample
made into `Ch64` is what `to_f64` gives. -/
theorem C99_toRaw : (∀ x : Ch8, (Ch8.toRaw x).toInt = BitVec.toInt x) ∧ (∀ x : Ch16, (Ch16.toRaw x).toInt = BitVec.toInt x) ∧
    (∀ (x : Ch32) q, Fl.Is x q → (Ch32.toRaw x).Is q) ∧ (∀ (x : Ch64) q, Fl.Is x q → (Ch64.toRaw x).Is q) ∧
    Ch32.toRaw (.nan : F32) = .nan ∧ Ch64.toRaw (.nan : F64) = .nan ∧
    (∀ (s : ChTy) (x : s.T), s ≠ .ch32 → Ch64.toRaw (ChTy.conv .ch64 s x) = s.toF64 x) ∧
    (∀ (x : Ch32) q, Fl.Is x q → -1 ≤ q → q ≤ 1 → (Ch64.toRaw (ChTy.conv .ch64 .ch32 x)).Is q) := by
  refine ⟨fun _ => rfl, fun _ => rfl, fun _ _ h => h, fun _ _ h => h, rfl, rfl, fun s x h => ?_, fun x q h h1 h2 => ?_⟩
  · cases s
    · rfl
    · rfl
    · exact absurd rfl h
    · rfl
  · have := clamp1_is (widen_is h)
    rwa [clampQ_of_range h1 h2] at this

example : (lit 3 : F64).Is 3 := is_lit (rep_dyadic 3 0 (by norm_num) (by decide) (by decide) (by decide))

example : Frame.stereo (c := .ch16) (.chan .ch8 5#8) (.i16 7#16) = #v[1413#16, 7#16] ∧
    (Arg.chan .ch8 5#8 : Arg .ch16).Lvl (11 / 255) ∧ (Arg.i16 7#16).Lvl (15 / 65535) := by
  refine ⟨by decide +kernel, ⟨trivial, ?_⟩, ?_⟩
  · change (_ : ℚ) = _; decide +kernel
  · change (_ : ℚ) = _; decide +kernel

example : (lit 3 : F32).Is 3 ∧ (lit (1 / 4) : F32).InRange :=
  ⟨is_lit (rep_dyadic 3 0 (by norm_num) (by decide) (by decide) (by decide)),
    _, is_lit (rep_dyadic 1 (-2) (by norm_num) (by decide) (by decide) (by decide)), by norm_num, by norm_num⟩

/-! ## C100: `AudioStream` -/

theorem Rng.contains_iff {r : Rng} {n a b i : ℕ} (hr : r.resolve n = .ok (a, b)) :
    a ≤ b ∧ b ≤ n ∧ (i < n → (r.contains i = true ↔ a ≤ i ∧ i < b)) := by
  obtain ⟨rfl, rfl, h1, h2⟩ := Rng.resolve_ok hr
  refine ⟨h1, h2, fun hi => ?_⟩
  cases r <;> simp only [Rng.bounds, Rng.contains] at h1 h2 ⊢
  case pair s e => cases s <;> cases e <;> simp [Bnd.below, Bnd.above, Bnd.lower, Bnd.upper] at h1 h2 ⊢ <;> omega
  all_goals simp <;> omega

theorem AudioStream.next_of {k : Kind} {c : ChTy} (s : AudioStream k c) (a b : ℕ)
    (hl : (s.audio.frames.length : ℤ) ≤ usizeMax) (hr : s.range.resolve s.audio.frames.length = .ok (a, b)) :
    s.next = .ok (if a ≤ s.cursor ∧ s.cursor < b then
      (s.audio.frames[s.cursor]?, { s with cursor := s.cursor + 1 }) else (none, s)) := by
  obtain ⟨h1, h2, h3⟩ := Rng.contains_iff (i := s.cursor) hr
  by_cases hi : s.cursor < s.audio.frames.length
  · have h3 := h3 hi
    have g : s.audio.get s.cursor = some s.audio.frames[s.cursor] := List.getElem?_eq_getElem hi
    unfold next
    by_cases hc : a ≤ s.cursor ∧ s.cursor < b
    · rw [if_pos hc, h3.mpr hc, g, List.getElem?_eq_getElem hi]
      simp only [Bool.not_true, Bool.false_eq_true, if_false]
      rw [if_pos (by omega)]
    · rw [if_neg hc, if_pos (by simpa using fun h => hc (h3.mp h))]
  · have g : s.audio.get s.cursor = none := List.getElem?_eq_none (by omega)
    rw [if_neg (by omega)]
    unfold next
    rw [g]
    split <;> rfl

/-- C100: called again and again, with the cursor in the range, `next` gives the frames of the range from there one by
one, then `None` for good; it never panics.  `Rng.resolve` is how `Audio::sink` reads the same range. -/
theorem C100_range {k : Kind} {c : ChTy} (s : AudioStream k c) (a b : ℕ) (hl : (s.audio.frames.length : ℤ) ≤ usizeMax)
    (hr : s.range.resolve s.audio.frames.length = .ok (a, b)) (hc : a ≤ s.cursor) (n : ℕ) :
    s.nexts n = .ok ((List.range n).map fun i => if s.cursor + i < b then s.audio.frames[s.cursor + i]? else none) := by
  induction n generalizing s with
  | zero => rfl
  | succ n ih =>
    rw [AudioStream.nexts, s.next_of a b hl hr, List.range_succ_eq_map]
    by_cases h : s.cursor < b
    · have := ih { s with cursor := s.cursor + 1 } hl hr (Nat.le_succ_of_le hc)
      rw [if_pos ⟨hc, h⟩]
      simp only [bind, Except.bind, this, pure, Except.pure, List.map_cons, List.map_map, Nat.add_zero, h, if_true]
      congr 2
      apply List.map_congr_left
      intro i _
      simp only [Function.comp, Nat.succ_eq_add_one, Nat.add_assoc, Nat.add_comm 1 i]
    · have := ih s hl hr hc
      rw [if_neg (fun x => h x.2)]
      simp only [bind, Except.bind, this, pure, Except.pure, List.map_cons, List.map_map, Nat.add_zero, h, if_false]
      congr 2
      apply List.map_congr_left
      intro i _
      simp only [Function.comp]
      rw [if_neg (by omega), if_neg (by omega)]

/-- C100: with the cursor before the range it gives nothing, ever: it does not go to the start of the range. -/
theorem C100_before {k : Kind} {c : ChTy} (s : AudioStream k c) (a b : ℕ) (hl : (s.audio.frames.length : ℤ) ≤ usizeMax)
    (hr : s.range.resolve s.audio.frames.length = .ok (a, b)) (hc : s.cursor < a) (n : ℕ) :
    s.nexts n = .ok (List.replicate n none) := by
  induction n with
  | zero => rfl
  | succ n ih =>
    rw [AudioStream.nexts, s.next_of a b hl hr, if_neg (by omega)]
    simp only [bind, Except.bind, ih, pure, Except.pure, List.replicate_succ]

/-- C100: the rate is that of the audio, and neither rate nor length change with the calls.  When the stream was made for
its range (cursor at the start of it, `size` frames), the length says how many frames come. -/
theorem C100_meta {k : Kind} {c : ChTy} (s : AudioStream k c) :
    s.rate = some s.audio.rate ∧ (∀ f t, s.next = .ok (f, t) → t.rate = s.rate ∧ t.len = s.len) ∧
    (∀ a b : ℕ, (s.audio.frames.length : ℤ) ≤ usizeMax → s.range.resolve s.audio.frames.length = .ok (a, b) →
      s.cursor = a → s.size = b - a → ∀ l, s.len = some l →
      ∃ xs : List (Frame k c), xs.length = l ∧ ∀ m, s.nexts (l + m) = .ok (xs.map some ++ List.replicate m none)) := by
  refine ⟨rfl, fun f t h => ?_, fun a b hl hr hc hs l hlen => ?_⟩
  · unfold AudioStream.next at h
    split at h
    · cases h; exact ⟨rfl, rfl⟩
    · split at h
      · cases h; exact ⟨rfl, rfl⟩
      · split at h
        · cases h; exact ⟨rfl, rfl⟩
        · cases h
  · obtain ⟨h1, h2, -⟩ := Rng.contains_iff (i := 0) hr
    have hl' : s.size = l := by injection hlen
    refine ⟨(s.audio.frames.drop a).take l, by simp; omega, fun m => ?_⟩
    rw [C100_range s a b hl hr (by omega) (l + m)]
    congr 1
    apply List.ext_getElem?
    intro i
    rw [List.getElem?_map, List.getElem?_append]
    by_cases hi : i < l
    · rw [if_pos (by simp; omega), List.getElem?_range (by omega)]
      simp only [Option.map_some, List.getElem?_map, List.getElem?_take, List.getElem?_drop]
      rw [if_pos (by omega), if_pos hi, hc, List.getElem?_eq_getElem (by omega)]
      rfl
    · rw [if_neg (by simp; omega)]
      have e : (List.map some (List.take l (List.drop a s.audio.frames))).length = l := by simp; omega
      rw [e, List.getElem?_replicate]
      by_cases hm : i < l + m
      · rw [List.getElem?_range hm, Option.map_some, if_neg (by omega), if_pos (by omega)]
      · rw [List.getElem?_eq_none (by simp; omega), if_neg (by omega)]; rfl

/-- A stream over the frames 1 and 2 of four. -/
def exStream (cursor : ℕ) : AudioStream .mono .ch16 :=
  ⟨⟨lit 48000, [#v[1#16], #v[2#16], #v[3#16], #v[4#16]]⟩, cursor, .range 1 3, 2⟩

example := C100_range (exStream 1) 1 3 (by decide +kernel) rfl (by decide) 4
example := C100_before (exStream 0) 1 3 (by decide +kernel) rfl (by decide) 4
example := (C100_meta (exStream 1)).2.2 1 3 (by decide +kernel) rfl rfl rfl 2 rfl
example := C100_range { exStream 2 with range := .pair (.exc 0) (.inc 2) } 1 3 (by decide +kernel) rfl (by decide) 4

example : let s : AudioStream .mono .ch16 := ⟨⟨lit 48000, [#v[1#16], #v[2#16], #v[3#16], #v[4#16]]⟩, 1, .range 1 3, 2⟩
    s.range.resolve s.audio.frames.length = .ok (1, 3) ∧ (s.audio.frames.length : ℤ) ≤ usizeMax ∧
    s.nexts 4 = .ok [some #v[2#16], some #v[3#16], none, none] ∧ s.len = some 2 ∧ s.rate = some (lit 48000) ∧
    { s with cursor := 0 }.nexts 4 = .ok [none, none, none, none] := by decide +kernel

end Fon
