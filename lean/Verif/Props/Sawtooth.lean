import Verif.Model.Examples
import Verif.Props.Causal
import Verif.Props.Extend

/-!
# C152: the sawtooth example

The claim: `/repo/examples/sawtooth.rs` finishes and prints a sawtooth, that is 279 pairs of equal numbers that rise
along a straight line.

It finishes and prints 279 pairs of equal numbers. They do not rise: between 44100 and 48000 Hz there is a slot without a
frame of its own about every twelve slots, and what such a slot gets is not on the line. This is one program without
input, so the numbers can be computed; the first 69 of them follow from the first 64 frames (C136).
-/

namespace Fon
open Fl Example

/-- The wave that the program converts. -/
def sawSource : Audio .mono .ch8 :=
  (⟨lit 44100, List.replicate 256 Frame.dflt⟩ : Audio .mono .ch8).iterMut
    (fun i _ => #v[BitVec.ofInt 8 ((i : Int) - 128)])

/-- Its first 64 frames. -/
def sawHead : Audio .mono .ch8 := ⟨lit 44100, sawSource.frames.take 64⟩

theorem sawWave_eq : sawWave = .ok sawSource := by
  unfold sawWave Audio.withSilence Audio.withFrame
  rw [if_neg (by decide)]
  rfl

theorem sawtooth_of {a : Audio .mono .ch8} (h : sawWave = .ok a) : sawtooth =
    (Audio.withStream (lit 48000) (.audio a) : R (Audio .stereo .ch16)).map (·.asSamples) := by
  unfold sawtooth
  rw [h]
  simp only [bind, Except.bind, pure, Except.pure]
  cases (Audio.withStream (lit 48000) (.audio a) : R (Audio .stereo .ch16)) <;> rfl

theorem sawtooth_eq : sawtooth =
    (Audio.withStream (lit 48000) (.audio sawSource) : R (Audio .stereo .ch16)).map (·.asSamples) :=
  sawtooth_of sawWave_eq

/-- Number `x` and the following are near the line, those with a frame of their own very near. -/
def nearLine : Nat → List (Frame .stereo .ch16) → Bool
  | _, [] => true
  | x, f :: l =>
    let e := (160 * (BitVec.toInt f[0] + 32768) - 37779 * x).natAbs
    Nat.ble e (160 * 1964) && (Nat.ble 147 (13 * x % 160) || Nat.ble e (160 * 23)) && nearLine (x + 1) l

/-- All that is computed about the first numbers. -/
def sawCheck : R (Audio .stereo .ch16) → Bool
  | .error _ => false
  | .ok b => b.len == 70 && nearLine 0 (b.frames.take 69) &&
    ((b.get 12).map (fun f => BitVec.toInt f[0]) == some (-29125)) &&
    ((b.get 13).map (fun f => BitVec.toInt f[0]) == some (-29684))

theorem saw_checked : sawCheck (Audio.withStream (lit 48000) (.audio sawHead)) = true := by decide +kernel

theorem nearLine_get {x : Nat} {l : List (Frame .stereo .ch16)} (h : nearLine x l = true) (i : Nat) (f : Frame .stereo .ch16)
    (hf : l[i]? = some f) : (160 * (BitVec.toInt f[0] + 32768) - 37779 * ((x + i : Nat) : Int)).natAbs ≤ 160 * 1964 ∧
      (147 ≤ 13 * (x + i) % 160 ∨ (160 * (BitVec.toInt f[0] + 32768) - 37779 * ((x + i : Nat) : Int)).natAbs ≤ 160 * 23) := by
  induction l generalizing x i with
  | nil => simp at hf
  | cons g l ih =>
    simp only [nearLine, Bool.and_eq_true, Bool.or_eq_true, Nat.ble_eq] at h
    cases i with
    | zero => cases hf; exact h.1
    | succ i =>
      have := ih h.2 i hf
      rwa [show x + 1 + i = x + (i + 1) by omega] at this

theorem saw_line {x n : Nat} {v : Int} (h : (160 * (v + 32768) - 37779 * (x : Int)).natAbs ≤ 160 * n) :
    |(v : ℚ) - (-32768 + 257 * (147 * x / 160))| ≤ n := by
  have h1 : |160 * (v + 32768) - 37779 * (x : Int)| ≤ 160 * (n : Int) := by
    rw [Int.abs_eq_natAbs]; exact_mod_cast h
  have h2 : |(((160 * (v + 32768) - 37779 * (x : Int) : Int)) : ℚ)| ≤ 160 * n := by exact_mod_cast h1
  have h3 : (((160 * (v + 32768) - 37779 * (x : Int) : Int)) : ℚ) = 160 * ((v : ℚ) - (-32768 + 257 * (147 * x / 160))) := by
    push_cast; ring
  rw [h3, abs_mul, abs_of_pos (by norm_num : (0:ℚ) < 160)] at h2
  exact le_of_mul_le_mul_left h2 (by norm_num)

theorem sawHead_frames : sawHead.frames = sawSource.frames.take 64 := by
  unfold sawHead
  with_reducible rfl

theorem saw_prefix {a a2 : Audio .mono .ch8} {b b2 : Audio .stereo .ch16} (ha : a.rate = lit 44100)
    (ha2 : a2.rate = lit 44100) (hl : 64 ≤ a.frames.length) (h : a2.frames = a.frames.take 64)
    (h1 : Audio.withStream (lit 48000) (.audio a) = .ok b) (h2 : Audio.withStream (lit 48000) (.audio a2) = .ok b2)
    (x : Nat) (hx : x < 69) (hb : x < b.len) (hb2 : x < b2.len) : b2.get x = b.get x := by
  have e : ratioOf (lit 48000) (Src.audio a).rate = ratioOf (lit 48000) (some (lit 44100)) := by
    simp only [Src.rate, ha]
  refine C136_withStream h1 h2 (by simp only [Src.rate, ha, ha2]) (r := binary64.rnd (160 / 147))
    (by rw [e]; decide +kernel) (by decide +kernel) (m := 64) ?_
    (lt_of_lt_of_le hx (by rw [e]; decide +kernel)) hb hb2
  intro j hj
  have e1 : a2.frames[j]? = a.frames[j]? := by rw [h, List.getElem?_take, if_pos hj]
  obtain ⟨f, hf⟩ : ∃ f, a.frames[j]? = some f := ⟨_, List.getElem?_eq_getElem (by omega)⟩
  exact ⟨f, by simp only [Src.nth, hf], by simp only [Src.nth, e1, hf]⟩

/-- The whole and the head give the same first numbers. -/
theorem saw_head : ∃ b b2 : Audio .stereo .ch16, Audio.withStream (lit 48000) (.audio sawSource) = .ok b ∧
    Audio.withStream (lit 48000) (.audio sawHead) = .ok b2 ∧ b.len = 279 ∧ b2.len = 70 ∧
    (∀ (x : Nat) (y : Frame .stereo .ch16), b.get x = some y → y[0] = y[1]) ∧ ∀ x < 69, b2.get x = b.get x := by
  have hl : sawSource.frames.length = 256 := by
    unfold sawSource Audio.iterMut
    rw [List.length_mapIdx, List.length_replicate]
  obtain ⟨b, h1, -, h2, h3⟩ := C87_sawtooth sawSource rfl hl
  have h := saw_checked
  cases hs : (Audio.withStream (lit 48000) (.audio sawHead) : R (Audio .stereo .ch16)) with
  | error e => rw [hs] at h; cases h
  | ok b2 =>
    rw [hs] at h
    simp only [sawCheck, Bool.and_eq_true, beq_iff_eq] at h
    refine ⟨b, b2, h1, rfl, h2, h.1.1.1, h3, fun x hx => ?_⟩
    exact saw_prefix rfl rfl (by rw [hl]; decide) sawHead_frames h1 hs x hx (by rw [show b.len = 279 from h2]; omega)
      (by rw [h.1.1.1]; omega)

/-- The program prints 279 pairs of equal numbers. Number `x` (for the first 69) is within 1964 steps of the straight
line, and within 23 steps if a frame of the source falls into slot `x`. -/
theorem C152_partial : ∃ l, sawtooth = .ok l ∧ l.length = 558 ∧ (∀ x < 279, l[2 * x]? = l[2 * x + 1]?) ∧
    ∀ x : Nat, x < 69 → ∃ v, l[2 * x]? = some v ∧
      |(v.toInt : ℚ) - (-32768 + 257 * (147 * x / 160))| ≤ 1964 ∧
      ((∃ j : Nat, (x : ℚ) ≤ 48000 / 44100 * j ∧ 48000 / 44100 * j < (x + 1 : ℚ)) →
        |(v.toInt : ℚ) - (-32768 + 257 * (147 * x / 160))| ≤ 23) := by
  obtain ⟨b, b2, h1, h2, h3, h4, h5, h6⟩ := saw_head
  have hS := fun x j hj => (C53_samples b x j (by exact hj)).1
  have h := saw_checked
  rw [h2] at h
  simp only [sawCheck, Bool.and_eq_true, beq_iff_eq] at h
  refine ⟨b.asSamples, by rw [sawtooth_eq, h1]; rfl, by rw [(C53_samples b 0 0 (by decide)).2, h3]; rfl, ?_, ?_⟩
  · intro x hx
    have e0 := hS x 0 (by decide)
    have e1 := hS x 1 (by decide)
    rw [show x * Kind.stereo.chans = 2 * x from mul_comm _ _] at e0 e1
    rw [show 2 * x = 2 * x + 0 from rfl, e0, show 2 * x + 0 + 1 = 2 * x + 1 from rfl, e1]
    cases hg : b.get x with
    | none => rfl
    | some y => simp only [Option.map_some]; rw [h5 x y hg]
  · intro x hx
    have e0 := hS x 0 (by decide)
    rw [show x * Kind.stereo.chans = 2 * x from mul_comm _ _] at e0
    rw [← h6 x hx] at e0
    obtain ⟨f, hf⟩ : ∃ f, b2.frames[x]? = some f := ⟨_, List.getElem?_eq_getElem (by
      have : b2.frames.length = 70 := h4
      omega)⟩
    have g := nearLine_get h.1.1.2 x f (by rw [List.getElem?_take, if_pos hx, hf])
    rw [Nat.zero_add] at g
    refine ⟨f[0], by rw [show 2 * x = 2 * x + 0 from rfl, e0]; simp only [Audio.get, hf]; rfl, ?_, ?_⟩
    · exact_mod_cast saw_line g.1
    · rintro ⟨j, j1, j2⟩
      have k1 : 147 * x ≤ 160 * j := by
        have : (147 * x : ℚ) ≤ 160 * j := by linarith
        exact_mod_cast this
      have k2 : 160 * j < 147 * (x + 1) := by
        have : (160 * j : ℚ) < 147 * (x + 1) := by linarith
        exact_mod_cast this
      have k3 : 13 * x = 160 * (x - j) + (160 * j - 147 * x) := by omega
      have k4 : 13 * x % 160 = 160 * j - 147 * x := by
        rw [k3, Nat.mul_add_mod, Nat.mod_eq_of_lt (by omega)]
      exact_mod_cast saw_line (g.2.resolve_left (by omega))

/-- Frame 1 of the source falls into slot 1, and none into slot 12. -/
example : (∃ j : Nat, ((1:Nat):ℚ) ≤ 48000 / 44100 * j ∧ 48000 / 44100 * j < ((1:Nat) + 1 : ℚ)) ∧
    ¬ ∃ j : Nat, ((12:Nat):ℚ) ≤ 48000 / 44100 * j ∧ 48000 / 44100 * j < ((12:Nat) + 1 : ℚ) := by
  refine ⟨⟨1, by norm_num, by norm_num⟩, ?_⟩
  rintro ⟨j, j1, j2⟩
  have k1 : 147 * 12 ≤ 160 * j := by
    have : (147 * 12 : ℚ) ≤ 160 * j := by push_cast at j1; linarith
    exact_mod_cast this
  have k2 : 160 * j < 147 * 13 := by
    have : (160 * j : ℚ) < 147 * 13 := by push_cast at j2; linarith
    exact_mod_cast this
  omega

/-- The numbers do not rise: number 13 is less than number 12, by 559 steps. -/
theorem C152_false : ¬ ∀ l, sawtooth = .ok l → ∀ (x : Nat) (v w : BitVec 16), l[2 * x]? = some v →
    l[2 * (x + 1)]? = some w → v.toInt ≤ w.toInt := by
  intro hall
  obtain ⟨b, b2, h1, h2, h3, h4, h5, h6⟩ := saw_head
  have h := saw_checked
  rw [h2] at h
  simp only [sawCheck, Bool.and_eq_true, beq_iff_eq, Option.map_eq_some_iff] at h
  obtain ⟨⟨-, ⟨v, v1, v2⟩⟩, ⟨w, w1, w2⟩⟩ := h
  have e12 := (C53_samples b 12 0 (by decide)).1
  have e13 := (C53_samples b 13 0 (by decide)).1
  rw [← h6 12 (by norm_num), v1] at e12
  rw [← h6 13 (by norm_num), w1] at e13
  have := hall _ (by rw [sawtooth_eq, h1]; rfl) 12 v[0] w[0] e12 e13
  omega

end Fon
