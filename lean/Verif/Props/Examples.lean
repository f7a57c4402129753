import Verif.Spec.Examples
import Verif.Model.Examples
import Verif.Props.Chunk
import Verif.Props.Extend

/-!
# C94: the resampler example

The claim: for every file of 16 bit stereo frames, both programs of `/repo/examples/resampler.rs` finish and write the
same samples.
-/

namespace Fon
open Fmt Fl Sink Example
variable {k k' : Kind} {c c' : ChTy}

/-! ## Reading the file -/

theorem read_even (file : List (BitVec 8)) (h : 2 ∣ file.length) : ∃ xs, readSamples file = .ok xs ∧
    2 * xs.length = file.length ∧ ∀ i (hi : i < xs.length) (lo hi' : BitVec 8), file[2 * i]? = some lo →
      file[2 * i + 1]? = some hi' → xs[i].toNat = lo.toNat + 256 * hi'.toNat := by
  induction file using readSamples.induct with
  | case1 => exact ⟨[], rfl, rfl, fun i hi => absurd hi (Nat.not_lt_zero _)⟩
  | case2 x => simp at h
  | case3 lo hi rest ih =>
    obtain ⟨xs, e, l, g⟩ := ih (by simp only [List.length_cons] at h; omega)
    refine ⟨(hi ++ lo) :: xs, by simp only [readSamples, e]; rfl, by simp only [List.length_cons]; omega, ?_⟩
    intro i hi1 a b ha hb
    cases i with
    | zero =>
      simp only [Nat.mul_zero, List.getElem?_cons_zero, Option.some.injEq] at ha
      simp only [Nat.mul_zero, Nat.zero_add, List.getElem?_cons_succ, List.getElem?_cons_zero, Option.some.injEq] at hb
      subst ha; subst hb
      simp only [List.getElem_cons_zero, BitVec.toNat_append]
      have := lo.isLt
      rw [← Nat.shiftLeft_add_eq_or_of_lt this]
      omega
    | succ i =>
      rw [show 2 * (i + 1) = 2 * i + 1 + 1 by ring, List.getElem?_cons_succ, List.getElem?_cons_succ] at ha
      rw [show 2 * (i + 1) + 1 = 2 * i + 1 + 1 + 1 by ring, List.getElem?_cons_succ, List.getElem?_cons_succ] at hb
      rw [List.getElem_cons_succ]
      exact g i (by simpa using hi1) a b ha hb

theorem read_odd (file : List (BitVec 8)) (h : ¬ 2 ∣ file.length) : readSamples file = .error .bounds := by
  induction file using readSamples.induct with
  | case1 => simp at h
  | case2 x => rfl
  | case3 lo hi rest ih =>
    simp only [readSamples, ih (by simp only [List.length_cons] at h; omega)]
    rfl

/-- The file as an audio: four bytes per frame. -/
theorem read_audio (file : List (BitVec 8)) (h : 4 ∣ file.length) : ∃ xs a, readSamples file = .ok xs ∧
    Audio.withBuffer .stereo .ch16 (lit 44100) xs = .ok a ∧ a.rate = lit 44100 ∧ a.len = file.length / 4 := by
  obtain ⟨xs, e, l, _⟩ := read_even file (by omega)
  have hc : Kind.stereo.chans = 2 := rfl
  cases hw : Audio.withBuffer .stereo .ch16 (lit 44100) xs with
  | error er =>
    have := (C53_panics_iff (k := .stereo) (c := .ch16) (lit 44100) xs (by decide)).mp ⟨er, hw⟩
    rw [hc] at this
    omega
  | ok a =>
    obtain ⟨h1, h2, _⟩ := C53_frames (k := .stereo) (c := .ch16) (lit 44100) xs (by decide) a hw
    rw [hc] at h2
    exact ⟨xs, a, e, hw, h1, by omega⟩

theorem read_ragged (file : List (BitVec 8)) (h : ¬ 4 ∣ file.length) :
    ∃ e, (do let xs ← readSamples file; Audio.withBuffer .stereo .ch16 (lit 44100) xs) = .error e := by
  by_cases h2 : 2 ∣ file.length
  · obtain ⟨xs, e, l, _⟩ := read_even file h2
    obtain ⟨er, her⟩ := (C53_panics_iff (k := .stereo) (c := .ch16) (lit 44100) xs (by decide)).mpr
      (by change ¬ 2 ∣ _; omega)
    exact ⟨er, by rw [e]; exact her⟩
  · exact ⟨_, by rw [read_odd file h2]; rfl⟩

/-! ## The loop -/

theorem frameLoop_eq (a : Audio k' c') (n i : Nat) (s : AudioSink k c) (h : n + i = a.len) :
    frameLoop a n i s = (s.sink.frameByFrame (a.frames.drop i)).map (fun t => { s with sink := t }) := by
  induction n generalizing i s with
  | zero =>
    rw [List.drop_eq_nil_of_le (by unfold Audio.len at h; omega)]
    rfl
  | succ n ih =>
    have hi : i < a.frames.length := by unfold Audio.len at h; omega
    rw [List.drop_eq_getElem_cons hi]
    simp only [frameLoop, Audio.get, List.getElem?_eq_getElem hi, C61_setRate, bind, Except.bind, Sink.frameByFrame,
      AudioSink.stream]
    cases hs : s.sink.stream 2 ((Src.frame a.frames[i]).mkTake 1) with
    | error e => rfl
    | ok p => exact ih (i + 1) _ (by omega)

/-! ## The programs -/

theorem withStream_panics_iff (a : Audio .stereo .ch16) (ha : a.rate = lit 44100) (hl : a.len < 2 ^ 35) :
    (∃ e, (Audio.withStream (lit 48000) (.audio a) : R (Audio .stereo .ch32)) = .error e) ↔ Overshoots a.len := by
  have i1 : (lit 48000 : F64).Is ((48000:ℕ):ℚ) := is_lit (rep_nat53 (by norm_num))
  have i2 : (lit 44100 : F64).Is ((44100:ℕ):ℚ) := is_lit (rep_nat53 (by norm_num))
  have hc : ⌈((48000:ℕ) * (a.len:ℕ) : ℚ) / (44100:ℕ)⌉₊ ≤ 2 * a.len := by
    rw [Nat.ceil_le]
    push_cast
    rw [div_le_iff₀ (by norm_num)]
    have : (0:ℚ) ≤ a.len := Nat.cast_nonneg _
    linarith
  have key := C51_int (Audio.withFrames (k := .stereo) (c := .ch32) (lit 48000) []) (.audio a) (lit 44100) 48000 44100 a.len
    rfl i1 i2 (by simp [Src.rate, ha]) (by norm_num) (by norm_num) (by norm_num) (by norm_num) (by omega) rfl rfl rfl
    ⟨by
      simp only [Audio.withFrames, List.length_nil]
      have : usizeMax = 2 ^ 64 - 1 := rfl
      omega, by
      simp only [Audio.withFrames, List.length_nil]
      rw [show Kind.stereo.size .ch32 = 8 from rfl]
      have : Audio.isizeMax = 2 ^ 63 - 1 := rfl
      omega⟩
  have e1 : 44100 ∣ 48000 * a.len ↔ 147 ∣ a.len := by omega
  have e2 : ((48000:ℕ) * (a.len:ℕ) : ℚ) / (44100:ℕ) = 160 * a.len / 147 := by push_cast; ring
  have e3 : (((48000:ℕ):ℚ) / (44100:ℕ)) = 160 / 147 := by norm_num
  rw [e1, e2, e3] at key
  rw [Overshoots, ← key]
  unfold Audio.withStream
  cases hx : (Audio.withFrames (k := .stereo) (c := .ch32) (lit 48000) []).extend (.audio a) with
  | mk b r => cases r <;> simp

/-- C94: when the first program panics. -/
theorem C94_panics_iff (file : List (BitVec 8)) (hl : file.length < 2 ^ 37) :
    (∃ e, whole file = .error e) ↔ ¬ 4 ∣ file.length ∨ Overshoots (file.length / 4) := by
  by_cases h4 : 4 ∣ file.length
  · obtain ⟨xs, a, e1, e2, e3, e4⟩ := read_audio file h4
    have := withStream_panics_iff a e3 (by omega)
    rw [e4] at this
    rw [← this]
    simp only [h4, not_true_eq_false, false_or]
    unfold whole
    rw [e1]
    simp only [bind, Except.bind, e2]
    cases (Audio.withStream (lit 48000) (.audio a) : R (Audio .stereo .ch32)) with
    | error e => simp
    | ok b => simp [pure, Except.pure]
  · simp only [h4, not_false_eq_true, true_or, iff_true]
    obtain ⟨e, he⟩ := read_ragged file h4
    refine ⟨e, ?_⟩
    unfold whole
    cases hr : readSamples file with
    | error e' => rw [hr] at he; cases he; rfl
    | ok xs =>
      rw [hr] at he
      change Audio.withBuffer .stereo .ch16 (lit 44100) xs = .error e at he
      simp only [bind, Except.bind, he]

example := C94_panics_iff (List.replicate 4000 7#8) (by rw [List.length_replicate]; norm_num)

/-- C94: what the second program does, for every file of at least two frames.  It panics when the first does; otherwise
it writes what the first writes, with the first frame silenced. -/
theorem C94_actual (file : List (BitVec 8)) (hl : file.length < 2 ^ 37) (h2 : 8 ≤ file.length) :
    match whole file with
    | .error e => byFrame file = .error e
    | .ok out => byFrame file = .ok (lit 0 :: lit 0 :: out.drop 2) := by
  by_cases h4 : 4 ∣ file.length
  · obtain ⟨xs, a, e1, e2, e3, e4⟩ := read_audio file h4
    unfold whole byFrame
    rw [e1]
    simp only [bind, Except.bind, e2]
    cases hw : (Audio.withStream (lit 48000) (.audio a) : R (Audio .stereo .ch32)) with
    | error e => rfl
    | ok b =>
      have i1 : (lit 48000 : F64).Is ((48000:ℕ):ℚ) := is_lit (rep_nat53 (by norm_num))
      have i2 : (lit 44100 : F64).Is ((44100:ℕ):ℚ) := is_lit (rep_nat53 (by norm_num))
      have hlen := C49_partial (lit 48000) (lit 44100) 48000 44100 a.len i1 i2 (by norm_num) (by omega) (by omega)
        (by norm_num) (.audio a) rfl (by simp [Src.rate, e3]) b hw
      have hc : b.len ≤ 2 * a.len := by
        rw [hlen, Nat.ceil_le]
        push_cast
        rw [div_le_iff₀ (by norm_num)]
        have : (0:ℚ) ≤ a.len := Nat.cast_nonneg _
        linarith
      have hc0 : 0 < b.len := by
        rw [hlen, Nat.ceil_pos]
        have : (0:ℚ) < (a.len : ℚ) := by
          have : 0 < a.len := by omega
          exact_mod_cast this
        push_cast
        positivity
      simp only [Audio.sink, Rng.resolve, pure, Except.pure]
      rw [frameLoop_eq _ _ _ _ (by omega)]
      simp only [List.drop_zero, Nat.sub_zero, List.take_length, List.drop_length, List.take_zero]
      unfold Audio.len at hc hc0 e4
      obtain ⟨s', r1, r2, _, _⟩ := C61_actual (⟨b.rate, Resampler.dflt, b.frames⟩ : Sink .stereo .ch32) a.frames rfl rfl rfl
        (by dsimp only; omega) hc0 (by omega)
      rw [r1]
      simp only [Except.map, AudioSink.release, Audio.asSamples, List.nil_append, List.append_nil, r2]
      obtain ⟨f, fs, hb⟩ : ∃ f fs, b.frames = f :: fs := by
        cases hb : b.frames with
        | nil => rw [hb] at hc0; simp at hc0
        | cons f fs => exact ⟨f, fs, rfl⟩
      rw [hb]
      simp only [List.tail_cons, List.flatMap_cons]
      rw [List.drop_append_of_le_length (by simp), List.drop_eq_nil_of_le (by simp)]
      rfl
  · obtain ⟨e, he⟩ := read_ragged file h4
    unfold whole byFrame
    cases hr : readSamples file with
    | error e' => rfl
    | ok xs =>
      rw [hr] at he
      change Audio.withBuffer .stereo .ch16 (lit 44100) xs = .error e at he
      simp only [bind, Except.bind, he]

example (n : ℕ) (h : n < 2 ^ 36) (h8 : 8 ≤ n) := C94_actual (List.replicate n 7#8) (by rw [List.length_replicate]; omega)
  (by rw [List.length_replicate]; exact h8)
example : ∃ file : List (BitVec 8), file.length < 2 ^ 37 ∧ 8 ≤ file.length :=
  ⟨List.replicate 4000 7#8, by rw [List.length_replicate]; norm_num, by rw [List.length_replicate]; norm_num⟩

/-- C94 is false: both programs panic on every file that is one second long. -/
theorem C94_false (file : List (BitVec 8)) (h : file.length = 4 * 44100) :
    (∃ e, whole file = .error e) ∧ ∃ e, byFrame file = .error e := by
  have h1 : ∃ e, whole file = .error e := by
    rw [C94_panics_iff file (by omega), h]
    right
    exact ⟨by decide, by decide +kernel⟩
  refine ⟨h1, ?_⟩
  obtain ⟨e, he⟩ := h1
  have := C94_actual file (by omega) (by omega)
  rw [he] at this
  exact ⟨e, this⟩

example := C94_false (List.replicate (4 * 44100) 7#8) List.length_replicate

/-- C94 is false also where neither panics: a file of two frames. -/
theorem C94_false_differ : ∃ a b, whole [0, 64, 0, 32, 0, 0, 0, 0] = .ok a ∧ byFrame [0, 64, 0, 32, 0, 0, 0, 0] = .ok b ∧
    a ≠ b := by
  have e1 : (whole [0, 64, 0, 32, 0, 0, 0, 0]).map (fun l => decide (l.take 1 = [lit 0])) = .ok false := by decide +kernel
  have e2 := C94_actual [0, 64, 0, 32, 0, 0, 0, 0] (by decide) (by decide)
  cases h : whole [0, 64, 0, 32, 0, 0, 0, 0] with
  | error e => rw [h] at e1; cases e1
  | ok a =>
    rw [h] at e1 e2
    refine ⟨a, _, rfl, e2, fun hab => ?_⟩
    have e1 := Except.ok.inj e1
    rw [decide_eq_false_iff_not] at e1
    apply e1
    rw [hab]
    rfl

/-- C94 for files whose number of frames is not a multiple of 147: no panic, and the same samples but for the first
frame.  Missing: lengths that are a multiple of 147 (see `C94_panics_iff`), and the first frame. -/
theorem C94_partial (file : List (BitVec 8)) (hl : file.length < 2 ^ 37) (h4 : 4 ∣ file.length) (h2 : 8 ≤ file.length)
    (h : ¬ 147 ∣ file.length / 4) :
    ∃ a b, whole file = .ok a ∧ byFrame file = .ok b ∧ a.length = 2 * ⌈(160 * (file.length / 4 : ℕ) : ℚ) / 147⌉₊ ∧
      b.length = a.length ∧ a.drop 2 = b.drop 2 := by
  cases hw : whole file with
  | error e =>
    rcases (C94_panics_iff file hl).mp ⟨e, hw⟩ with h' | h'
    · exact absurd h4 h'
    · exact absurd h'.1 h
  | ok out =>
    have := C94_actual file hl h2
    rw [hw] at this
    have hlen : out.length = 2 * ⌈(160 * (file.length / 4 : ℕ) : ℚ) / 147⌉₊ := by
      obtain ⟨xs, a, e1, e2, e3, e4⟩ := read_audio file h4
      unfold whole at hw
      rw [e1] at hw
      simp only [bind, Except.bind, e2] at hw
      cases hws : (Audio.withStream (lit 48000) (.audio a) : R (Audio .stereo .ch32)) with
      | error e => rw [hws] at hw; cases hw
      | ok b =>
        rw [hws] at hw
        cases hw
        have i1 : (lit 48000 : F64).Is ((48000:ℕ):ℚ) := is_lit (rep_nat53 (by norm_num))
        have i2 : (lit 44100 : F64).Is ((44100:ℕ):ℚ) := is_lit (rep_nat53 (by norm_num))
        have hlen := C49_partial (lit 48000) (lit 44100) 48000 44100 a.len i1 i2 (by norm_num) (by omega) (by omega)
          (by norm_num) (.audio a) rfl (by simp [Src.rate, e3]) b hws
        rw [(C53_samples b 0 0 (by decide)).2, hlen, e4]
        rw [show Kind.stereo.chans = 2 from rfl, mul_comm]
        congr 2
        push_cast
        ring
    have h1 : 1 ≤ ⌈(160 * (file.length / 4 : ℕ) : ℚ) / 147⌉₊ := by
      rw [Nat.one_le_iff_ne_zero, ← Nat.pos_iff_ne_zero, Nat.ceil_pos]
      have : (0:ℚ) < ((file.length / 4 : ℕ) : ℚ) := by
        have : 0 < file.length / 4 := by omega
        exact_mod_cast this
      positivity
    refine ⟨out, _, rfl, this, hlen, ?_, rfl⟩
    simp only [List.length_cons, List.length_drop]
    omega

example := C94_partial (List.replicate 4000 7#8) (by rw [List.length_replicate]; norm_num)
  (by rw [List.length_replicate]; norm_num) (by rw [List.length_replicate]; norm_num) (by rw [List.length_replicate]; norm_num)

/-- Files as in the theorems. -/
example : (List.replicate (4 * 44100) (7 : BitVec 8)).length = 4 * 44100 ∧ ¬ 147 ∣ (List.replicate 4000 (7 : BitVec 8)).length / 4 ∧
    readSamples [0x34, 0x12, 0xff, 0xff] = .ok [0x1234, 0xffff] := by
  refine ⟨List.length_replicate, ?_, by decide +kernel⟩
  rw [List.length_replicate]
  decide

end Fon
