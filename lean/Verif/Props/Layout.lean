import Verif.Spec.Layout
import Verif.Props.Structure
import Verif.Props.Audio
import Mathlib.Tactic.IntervalCases

/-!
# Changing the layout before or after resampling
-/

namespace Fon
open Fon.Fl hiding min max
open Fon.Fmt Fon.Sink
variable {k k1 k2 k3 k' : Kind} {c c1 c2 c3 c' : ChTy}

/-! ## Two runs of `extend` -/

theorem dflt_add_self : (Frame.dflt : Frame k c).add Frame.dflt = Frame.dflt := by
  ext i hi
  simp only [Frame.add, Frame.dflt, Vector.getElem_zipWith, Vector.getElem_replicate]
  cases c <;> decide +kernel

/-- Two runs of `extend` with streams of the same rate and length.  A relation of the frames that every addition keeps
holds of the appended frames. -/
theorem extend_rel {a x : Audio k c} {b y : Audio k2 c2} {st : Src k1 c1} {st2 : Src k3 c3} {it it2}
    (h : a.extendInternal st = .ok (x, it)) (h2 : b.extendInternal st2 = .ok (y, it2)) (hr : b.rate = a.rate)
    (hr2 : st2.rate = st.rate) (hl2 : st2.len = st.len) (Rl : Frame k c → Frame k2 c2 → Prop)
    (h0 : Rl Frame.dflt Frame.dflt)
    (hs : ∀ j f f2 x y, st.nth j = .ok (some f) → st2.nth j = .ok (some f2) → f.convert c = .ok x →
      f2.convert c2 = .ok y → ∀ a' b', Rl a' b' →
      Rl (a'.add (x.mul (Frame.ofF64 (loWeight (ratioOf a.rate st.rate) (lit 0) j))))
        (b'.add (y.mul (Frame.ofF64 (loWeight (ratioOf a.rate st.rate) (lit 0) j)))) ∧
      Rl (a'.add (x.mul (Frame.ofF64 (hiWeight (ratioOf a.rate st.rate) (lit 0) j))))
        (b'.add (y.mul (Frame.ofF64 (hiWeight (ratioOf a.rate st.rate) (lit 0) j))))) :
    x.rate = a.rate ∧ y.rate = a.rate ∧ ∃ d, x.len = a.len + d ∧ y.len = b.len + d ∧
      ∀ i f g, x.get (a.len + i) = some f → y.get (b.len + i) = some g → Rl f g := by
  obtain ⟨l, s, t, e1, e2, e3, e4, rfl⟩ := extend_run a x st it h
  obtain ⟨l', s2, t2, g1, g2, g3, g4, rfl⟩ := extend_run b y st2 it2 h2
  obtain rfl : l' = l := by rw [hl2, e1] at g1; injection g1 with g1; exact g1.symm
  rw [hr2, hr] at g3
  set D := Audio.dstLen a.rate l' st.rate with hD
  obtain ⟨n, _, ho, hrel⟩ := stream_rel e3 g3 rfl rfl (by simp) hr2 hl2 (fun _ => Rl)
  obtain ⟨q1, q2, q3⟩ := hrel (by
    intro j _ f f2 x y n1 n2 c1 c2
    exact ⟨fun a' b' hab => (hs j f f2 x y n1 n2 c1 c2 a' b' hab).1,
      fun o _ a' b' hab => (hs j f f2 x y n1 n2 c1 c2 a' b' hab).2⟩)
    (prepare_rel (dstEnd_le _ _ _) (by simp) h0 (fun _ _ => h0) (by
      intro _ a' b' ha hb
      simp only [List.getElem?_replicate] at ha hb
      split at ha
      · rename_i h0'
        rw [if_pos h0'] at hb
        injection ha with ha; injection hb with hb
        subst ha hb
        simpa only [Resampler.dflt, dflt_add_self] using h0
      · cases ha) (by
      intro x _ _ a' b' ha hb
      simp only [List.getElem?_replicate] at ha hb
      split at ha
      · rename_i h0'
        rw [if_pos h0'] at hb
        injection ha with ha; injection hb with hb
        subst ha hb
        exact h0
      · cases ha))
  obtain ⟨f1, f2⟩ := flush_keeps s t e4
  obtain ⟨f3, f4⟩ := flush_keeps s2 t2 g4
  have w1 : s.buf.length = D := by rw [(C36_stream _ _ _ _ _ e3).1]; simp
  have w2 : s2.buf.length = D := by rw [(C36_stream _ _ _ _ _ g3).1]; simp
  have w3 : s.rate = a.rate := by obtain ⟨_, _, _, _, _, _, _, _, e, _⟩ := stream_takes _ _ _ _ _ e3; exact e
  have w4 : s2.rate = a.rate := by obtain ⟨_, _, _, _, _, _, _, _, e, _⟩ := stream_takes _ _ _ _ _ g3; exact e
  refine ⟨f2.trans w3, f4.trans w4, D, by simp [Audio.len, f1, w1], by simp [Audio.len, f3, w2], ?_⟩
  intro i f g hf hg
  simp only [Audio.get, Audio.len, List.getElem?_append_right (Nat.le_add_right _ _), Nat.add_sub_cancel_left] at hf hg
  by_cases hfr : HasFract s.res.offseti
  · have hfr2 : HasFract s2.res.offseti := by rw [ho]; exact hfr
    have hi : s.res.offseti.toUsize < s.buf.length := by
      by_contra hn
      obtain ⟨e, he⟩ := (C42_panics_iff s).mpr ⟨hfr, by omega⟩
      rw [e4] at he; cases he
    rw [C42_write s hfr hi] at e4
    rw [C42_write s2 hfr2 (by rw [ho]; omega)] at g4
    cases e4; cases g4
    simp only [List.getElem?_set] at hf hg
    rw [ho] at hg
    by_cases hx : s.res.offseti.toUsize = i
    · rw [if_pos hx] at hf hg
      rw [if_pos (by omega)] at hf hg
      cases hf; cases hg
      exact q3
    · rw [if_neg hx] at hf hg
      exact q2 i f g hf hg
  · have hfr2 : ¬ HasFract s2.res.offseti := by rw [ho]; exact hfr
    rw [C42_nothing s hfr] at e4
    rw [C42_nothing s2 hfr2] at g4
    cases e4; cases g4
    exact q2 i f g hf hg

/-! ## C106 -/

theorem conv_self (x : c.T) : c.ofF64 (c.toF64 x) = x := chanConv_self x

/-- Converting in two steps. -/
theorem through_conv (h : Through k1 k k3) (f : Frame k1 c1) (x : Frame k c) (y : Frame k3 c) (hx : f.convert c = .ok x)
    (hy : f.convert c = .ok y) : x.convert c = .ok y := by
  obtain ⟨h1, h2, h3, h4⟩ := h
  by_cases hk : k = k3
  · subst hk
    rw [hx] at hy
    cases hy
    exact C21_id h2 x
  · have h5 := h4.resolve_left hk
    cases k1 <;> cases k <;> cases k3 <;> first
      | (exfalso; simp_all [Kind.builtin]; done)
      | exact absurd h5.2 (by decide)
      | skip
    all_goals
      first
        | rw [C21_inplace rfl] at hx
        | rw [(C24_upmix f Frame.dflt).1] at hx
        | rw [(C24_upmix f Frame.dflt).2.1] at hx
        | rw [(C24_upmix Frame.dflt f).2.2] at hx
      first
        | rw [C21_inplace rfl] at hy
        | rw [(C24_upmix f Frame.dflt).1] at hy
        | rw [(C24_upmix f Frame.dflt).2.1] at hy
        | rw [(C24_upmix Frame.dflt f).2.2] at hy
        | rw [convert_surround_stereo] at hy
      cases hx; cases hy
      first
        | rw [(C24_same_format _ Frame.dflt).1]
        | rw [(C24_same_format _ Frame.dflt).2.1]
        | rw [(C24_same_format Frame.dflt _).2.2]
        | rw [convert_surround_stereo]
    all_goals
      congr 1 <;> ext i hi <;> simp [Frame.chanConv, conv_self] <;> interval_cases i <;> simp

/-- Adding a weighted frame before or after converting. -/
theorem conv_step (hk : k.builtin = true) (hk3 : k3.builtin = true) (h : k = k3 ∨ k3 ≠ .mono) {w : F64} {r : ℚ}
    (hw : w.Is r) (hr : |r| ≤ 2 ^ (100:ℤ)) {a x : Frame k c} {b y : Frame k3 c} (ha : a.convert c = .ok b)
    (hx : x.convert c = .ok y) :
    (a.add (x.mul (Frame.ofF64 w))).convert c = .ok (b.add (y.mul (Frame.ofF64 w))) := by
  by_cases hkk : k = k3
  · subst hkk
    rw [C21_id hk] at ha hx ⊢
    cases ha; cases hx; rfl
  · have h5 := h.resolve_left hkk
    have hmid : c.MID = c.dflt := by cases c <;> decide +kernel
    have hs := silent_chan (c := c) hw hr
    cases k <;> cases k3 <;> first
      | (exfalso; simp_all [Kind.builtin]; done)
      | skip
    all_goals
      first
        | rw [(C24_same_format _ Frame.dflt).1] at ha hx ⊢
        | rw [(C24_same_format _ Frame.dflt).2.1] at ha hx ⊢
        | rw [(C24_same_format Frame.dflt _).2.2] at ha hx ⊢
        | rw [convert_surround_stereo] at ha hx ⊢
      cases ha; cases hx
      congr 1
      ext i hi
      try simp only [hmid]
      interval_cases i <;> simp [Frame.add, Frame.mul, Frame.ofF64, Frame.chanConv, conv_self, hs]

/-- C106: extending audio of layout `k3` appends the frames that extending audio of layout `k` appends, converted to
`k3`.  So mono streams are resampled to stereo or surround as to mono and then up-mixed, stereo streams to surround as to
stereo and then up-mixed, and surround streams to stereo as to surround and then down-mixed. -/
theorem C106_layout (h : Through k1 k k3) (a x : Audio k c) (b y : Audio k3 c) (st : Src k1 c1) (it it2 : It k1 c1)
    (r : ℚ) (hq : (ratioOf a.rate st.rate).Is r) (hr : |r| ≤ 2 ^ (99:ℤ)) (hab : b.rate = a.rate)
    (hx : a.extend st = (x, .ok it)) (hy : b.extend st = (y, .ok it2)) :
    x.rate = a.rate ∧ y.rate = a.rate ∧ ∃ d, x.len = a.len + d ∧ y.len = b.len + d ∧
      ∀ i f, x.get (a.len + i) = some f → ∃ g, f.convert c = .ok g ∧ y.get (b.len + i) = some g := by
  have e1 : a.extendInternal st = .ok (x, it) := by
    unfold Audio.extend at hx
    cases he : a.extendInternal st with
    | error e => rw [he] at hx; cases hx
    | ok p => rw [he] at hx; cases hx; rfl
  have e2 : b.extendInternal st = .ok (y, it2) := by
    unfold Audio.extend at hy
    cases he : b.extendInternal st with
    | error e => rw [he] at hy; cases hy
    | ok p => rw [he] at hy; cases hy; rfl
  obtain ⟨r1, r2, d, l1, l2, hrel⟩ := extend_rel e1 e2 hab rfl rfl (fun f g => f.convert c = .ok g)
    (convert_dflt h.2.2.1 h.2.1) (by
      intro j f f2 x y n1 n2 c1 c2 a' b' hab'
      rw [n1] at n2
      cases n2
      have hxy := through_conv h f x y c1 c2
      have hk : k = k3 ∨ k3 ≠ .mono := h.2.2.2.imp id (fun h => h.1)
      obtain ⟨⟨u, h1, h2⟩, ⟨v, h3, h4⟩⟩ := weights_bound hq hr (lit 0) j
      exact ⟨conv_step h.2.1 h.2.2.1 hk h3 h4 hab' hxy, conv_step h.2.1 h.2.2.1 hk h1 h2 hab' hxy⟩)
  refine ⟨r1, r2, d, l1, l2, fun i f hf => ?_⟩
  have hi : a.len + i < x.len := (List.getElem?_eq_some_iff.mp hf).1
  have hg : y.get (b.len + i) = some (y.frames[b.len + i]'(show b.len + i < y.len by omega)) := List.getElem?_eq_getElem _
  exact ⟨_, hrel i f _ hf hg, hg⟩

/-- Nothing, in stereo. -/
def exNonePair : Audio .stereo .ch8 := ⟨lit 8, []⟩
/-- One frame, in surround. -/
def exOneRound : Audio .surround .ch8 := ⟨lit 8, [#v[1#8, 2#8, 3#8, 4#8, 5#8, 6#8]]⟩

example := C106_layout (k1 := .mono) ⟨rfl, rfl, rfl, .inr ⟨by decide, by decide⟩⟩ exNonePair _ exOneRound _
  (.audio (exAudio 12)) _ _ (Fmt.rnd binary64 (2 / 3)) (by decide +kernel) (by decide +kernel) rfl
  (R.returnsSnd (x := exNonePair.extend (.audio (exAudio 12))) (by decide +kernel))
  (R.returnsSnd (x := exOneRound.extend (.audio (exAudio 12))) (by decide +kernel))

/-- C106: both return or both panic. -/
theorem C106_panics (a : Audio k c) (b : Audio k3 c) (st : Src k1 c1) (l : Nat) (hl : st.len = some l)
    (h1 : k1.builtin = true) (h2 : k.builtin = true) (h3 : k3.builtin = true) (hs : st.safe = true) (hp : st.playable)
    (hab : b.rate = a.rate) (hfa : a.Fits (Audio.dstLen a.rate l st.rate)) (hfb : b.Fits (Audio.dstLen a.rate l st.rate)) :
    (∃ e, (a.extend st).2 = .error e) ↔ ∃ e, (b.extend st).2 = .error e := by
  rw [C51_iff a st l hl h2 h1 hs hp hfa, C51_iff b st l hl h3 h1 hs hp (by rw [hab]; exact hfb), hab]

example := C106_panics exNonePair exOneRound (.audio (exAudio 12)) 5 rfl rfl rfl rfl rfl (.inl (by decide)) rfl
  (by decide +kernel) (by decide +kernel)

/-- Where channels are averaged, it makes a difference: the left channel is too loud for the doubled rate. -/
theorem C106_average : let a : Audio .stereo .ch32 := ⟨lit 1, [#v[lit 1, lit 0]]⟩
    (Audio.withStream (lit 2) (.audio a) : R (Audio .mono .ch32)).map (·.frames) = .ok [#v[lit 1], #v[lit 0]] ∧
    (Audio.withStream (lit 2) (.audio a) : R (Audio .stereo .ch32)).map (·.frames) =
      .ok [#v[lit 1, lit 0], #v[lit 0, lit 0]] ∧
    (Frame.convert .ch32 (k := .stereo) (c := .ch32) #v[lit 1, lit 0] : R (Frame .mono .ch32)) = .ok #v[lit 0.5] := by
  decide +kernel

/-- Mono from 3 to 2 Hz: into mono and into surround. -/
example : let a : Audio .mono .ch16 := ⟨lit 3, [#v[100#16], #v[200#16], #v[300#16]]⟩
    (Audio.withStream (lit 2) (.audio a) : R (Audio .mono .ch16)).map (·.frames) = .ok [#v[66#16], #v[232#16]] ∧
    (Audio.withStream (lit 2) (.audio a) : R (Audio .surround .ch16)).map (·.frames) =
      .ok [#v[0#16, 66#16, 0#16, 66#16, 0#16, 0#16], #v[0#16, 232#16, 0#16, 232#16, 0#16, 0#16]] := by
  decide +kernel
example : Through .mono .mono .surround ∧ Through .mono .stereo .surround ∧ Through .surround .surround .stereo ∧
    ¬ Through .surround .stereo .surround ∧ ¬ Through .stereo .stereo .mono := by
  refine ⟨⟨rfl, rfl, rfl, .inr ⟨by decide, by decide⟩⟩, ⟨rfl, rfl, rfl, .inr ⟨by decide, by decide⟩⟩,
    ⟨rfl, rfl, rfl, .inr ⟨by decide, by decide⟩⟩, ?_, ?_⟩
  · rintro ⟨_, _, _, h | h⟩
    · cases h
    · exact absurd h.2 (by decide)
  · rintro ⟨_, _, _, h | h⟩
    · cases h
    · exact h.1 rfl

end Fon
