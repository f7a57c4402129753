import Verif.Spec.Ring
import Verif.Props.Extend

/-!
# C111: the frames of an `Audio` are always in one piece
-/

namespace Fon
open Fl (lit)
variable {k k' : Kind} {c c' : ChTy}

theorem Ring.phys_lt {α : Type} {r : Ring α} {i : Nat} (h : r.head + i < r.cap) : r.phys i = r.head + i := by
  unfold Ring.phys
  rw [if_neg (by omega)]

/-- The memory of a ring buffer in one piece. -/
theorem holds_iff {r : RingAudio k c} {a : Audio k c} : Holds r a ↔ r.rate = a.rate ∧ ∃ pre post,
    r.frames = ⟨pre ++ a.frames.map some ++ post, pre.length, a.frames.length⟩ := by
  constructor
  · rintro ⟨h1, h2, h3, h4⟩
    refine ⟨h1, r.frames.mem.take r.frames.head, r.frames.mem.drop (r.frames.head + r.frames.len), ?_⟩
    obtain ⟨rate, mem, head, len⟩ := r
    simp only [RingAudio.len, Audio.len, RingAudio.get, Audio.get, Ring.get, Ring.cap] at h1 h2 h3 h4 ⊢
    subst h2
    congr 1
    · apply List.ext_getElem?
      intro i
      rw [List.append_assoc]
      by_cases hi : i < head
      · rw [List.getElem?_append_left (by rw [List.length_take]; omega), List.getElem?_take_of_lt hi]
      · rw [List.getElem?_append_right (by rw [List.length_take]; omega), List.length_take, min_eq_left (by omega)]
        by_cases hj : i < head + a.frames.length
        · rw [List.getElem?_append_left (by rw [List.length_map]; omega), List.getElem?_map]
          have := h3 (i - head)
          rw [if_pos (by omega), Ring.phys_lt (by show head + _ < mem.length; omega)] at this
          simp only at this
          rw [← this, show head + (i - head) = i by omega]
        · rw [List.getElem?_append_right (by rw [List.length_map]; omega), List.length_map, List.getElem?_drop]
          congr 1
          omega
    · rw [List.length_take]; omega
  · rintro ⟨h1, pre, post, h2⟩
    refine ⟨h1, ?_, fun i => ?_, ?_⟩
    · simp only [RingAudio.len, Audio.len, h2]
    · simp only [RingAudio.get, Audio.get, Ring.get, Ring.phys, Ring.cap, h2, List.length_append, List.length_map]
      by_cases hi : i < a.frames.length
      · rw [if_pos hi, if_neg (by omega), List.append_assoc, List.getElem?_append_right (by omega),
          List.getElem?_append_left (by rw [List.length_map]; omega), List.getElem?_map]
        congr 2
        omega
      · rw [if_neg hi, List.getElem?_eq_none (by omega)]; rfl
    · simp only [Ring.cap, h2, List.length_append, List.length_map]; omega

theorem Holds.new (rate : F64) (xs : List (Frame k c)) : Holds (RingAudio.withFrames rate xs) (Audio.withFrames rate xs) :=
  holds_iff.mpr ⟨rfl, [], [], by simp [RingAudio.withFrames, Ring.ofVec, Audio.withFrames]⟩

theorem mapM_id_some {α : Type} (xs : List α) : (xs.map some).mapM id = some xs := by
  induction xs with
  | nil => rfl
  | cons x xs ih => simp [ih]

theorem Holds.slice {r : RingAudio k c} {a : Audio k c} (h : Holds r a) :
    r.asSlice = (r, a.asSlice.map some, 0) := by
  obtain ⟨h1, pre, post, h2⟩ := holds_iff.mp h
  have hc : r.frames.isContiguous = true := by
    simp only [Ring.isContiguous, Ring.cap, h2, List.length_append, List.length_map, decide_eq_true_eq]; omega
  unfold RingAudio.asSlice Ring.makeContiguous
  rw [if_pos hc]
  refine Prod.ext rfl (Prod.ext ?_ rfl)
  simp only [Ring.slice, h2, Audio.asSlice, List.append_assoc]
  rw [List.drop_append_of_le_length le_rfl, List.drop_length, List.nil_append, List.take_append_of_le_length (by simp),
    List.take_of_length_le (by simp)]

theorem Holds.write {r : RingAudio k c} {a : Audio k c} (h : Holds r a) (xs : List (Frame k c))
    (hx : xs.length = a.frames.length) : Holds { r with frames := r.frames.write xs } { a with frames := xs } := by
  obtain ⟨h1, pre, post, h2⟩ := holds_iff.mp h
  refine holds_iff.mpr ⟨h1, pre, post, ?_⟩
  simp only [Ring.write, h2, hx, List.append_assoc]
  rw [List.take_append_of_le_length le_rfl, List.take_length, ← List.append_assoc pre (a.frames.map some) post,
    List.drop_append_of_le_length (by simp), List.drop_of_length_le (by simp), List.nil_append]

theorem Holds.vec {r : RingAudio k c} {a : Audio k c} (h : Holds r a) :
    r.frames.toVec = (a.toFrames.map some, if r.frames.head = 0 then 0 else a.len) := by
  have hs := h.slice
  have hl : r.frames.len = a.len := h.2.1
  unfold RingAudio.asSlice at hs
  unfold Ring.toVec
  rcases hm : r.frames.makeContiguous with ⟨s, m⟩
  rw [hm] at hs
  simp only [Prod.mk.injEq] at hs
  obtain ⟨e1, e2, e3⟩ := hs
  have : s = r.frames := by rw [← e1]
  subst this
  simp only [e2, e3, hl, Nat.zero_add]
  rfl

theorem Holds.set {r : RingAudio k c} {a : Audio k c} (h : Holds r a) (i : Nat) (f : Frame k c) :
    (∀ r' a', r.setMut i f = some r' → a.setMut i f = some a' → Holds r' a') ∧
    ((r.setMut i f).isSome ↔ (a.setMut i f).isSome) := by
  obtain ⟨h1, pre, post, h2⟩ := holds_iff.mp h
  unfold RingAudio.setMut Ring.setMut Audio.setMut
  have hl : r.frames.len = a.frames.length := by rw [h2]
  by_cases hi : i < a.frames.length
  · rw [if_pos (by omega), if_pos hi]
    refine ⟨?_, by simp⟩
    rintro _ _ ⟨⟩ ⟨⟩
    refine holds_iff.mpr ⟨h1, pre, post, ?_⟩
    have hp : r.frames.phys i = pre.length + i := by
      simp only [Ring.phys, Ring.cap, h2, List.length_append, List.length_map]
      rw [if_neg (by omega)]
    simp only [hp, List.length_set, List.map_set]
    simp only [h2, List.append_assoc]
    rw [List.set_append_right _ _ (by omega), List.set_append_left _ _ (by rw [List.length_map]; omega)]
    rw [show pre.length + i - pre.length = i by omega]
  · rw [if_neg (by omega), if_neg hi]
    exact ⟨by rintro _ _ ⟨⟩, by simp⟩

theorem modify_append_mid {α : Type} (pre xs post : List α) (i : Nat) (hi : i < xs.length) (g : α → α) :
    (pre ++ xs ++ post).modify (pre.length + i) g = pre ++ xs.modify i g ++ post := by
  apply List.ext_getElem?
  intro j
  simp only [List.getElem?_modify, List.append_assoc, List.getElem?_append, List.length_modify]
  split_ifs <;> first | rfl | omega | (simp; try omega) 

theorem Holds.each {r : RingAudio k c} {a : Audio k c} (h : Holds r a) (g : Nat → Frame k c → Frame k c) :
    Holds (r.iterMut g) (a.iterMut g) := by
  obtain ⟨h1, pre, post, h2⟩ := holds_iff.mp h
  have hl : r.frames.len = a.frames.length := by rw [h2]
  have hp : ∀ i, i < a.frames.length → r.frames.phys i = pre.length + i := by
    intro i hi
    simp only [Ring.phys, Ring.cap, h2, List.length_append, List.length_map]
    rw [if_neg (by omega)]
  have key : ∀ m, m ≤ a.frames.length →
      (List.range m).foldl (fun (s : Ring (Frame k c)) i => { s with mem := s.mem.modify (r.frames.phys i) (Option.map (g i)) })
        r.frames = ⟨pre ++ (a.frames.mapIdx fun i f => if i < m then g i f else f).map some ++ post, pre.length,
          a.frames.length⟩ := by
    intro m
    induction m with
    | zero =>
      intro _
      simp only [List.range_zero, List.foldl_nil, Nat.not_lt_zero, if_false, h2]
      congr 4
      exact (List.ext_getElem (by simp) (by simp)).symm
    | succ m ih =>
      intro hm
      rw [List.range_succ, List.foldl_append, ih (by omega), List.foldl_cons, List.foldl_nil]
      simp only [hp m (by omega)]
      congr 1
      rw [modify_append_mid _ _ _ _ (by simp; omega)]
      congr 2
      apply List.ext_getElem?
      intro j
      simp only [List.getElem?_modify, List.getElem?_map, List.getElem?_mapIdx, Option.map_map]
      cases a.frames[j]? with
      | none => simp
      | some f =>
        simp only [Option.map_some, Function.comp_apply]
        by_cases hjm : m = j
        · subst hjm; simp
        · simp only [if_neg hjm, Option.map_eq_map, Option.map_some]
          by_cases hj : j < m
          · rw [if_pos hj, if_pos (by omega)]
          · rw [if_neg hj, if_neg (by omega)]
  refine holds_iff.mpr ⟨h1, pre, post, ?_⟩
  show r.frames.iterMut g = _
  unfold Ring.iterMut
  rw [hl, key _ le_rfl]
  simp only [Audio.iterMut, List.length_mapIdx]
  congr 4
  refine List.ext_getElem (by simp) fun j h1 h2 => ?_
  simp only [List.length_mapIdx] at h1
  simp [h1]

theorem Holds.drain {r : RingAudio k c} {a : Audio k c} (h : Holds r a) (n : Nat) :
    (n ≤ a.len → ∃ r', r.dropDrain n = .ok r' ∧ Holds r' { a with frames := a.frames.drop n }) ∧
    (a.len < n → r.dropDrain n = .error .bounds) := by
  obtain ⟨h1, pre, post, h2⟩ := holds_iff.mp h
  have hl : r.frames.len = a.frames.length := by rw [h2]
  unfold RingAudio.dropDrain Ring.drainFront Audio.len
  refine ⟨fun hn => ?_, fun hn => by rw [if_pos (by omega)]; rfl⟩
  rw [if_neg (by omega)]
  by_cases h0 : r.frames.len - n = 0
  · rw [if_pos h0]
    refine ⟨_, rfl, holds_iff.mpr ⟨h1, [], r.frames.mem, ?_⟩⟩
    simp only [List.drop_of_length_le (show a.frames.length ≤ n by omega), List.map_nil, List.append_nil, List.nil_append,
      List.length_nil]
  · rw [if_neg h0]
    refine ⟨_, rfl, holds_iff.mpr ⟨h1, pre ++ (a.frames.take n).map some, post, ?_⟩⟩
    have hp : r.frames.phys n = pre.length + n := by
      simp only [Ring.phys, Ring.cap, h2, List.length_append, List.length_map]
      rw [if_neg (by omega)]
    simp only [hp, hl, List.length_append, List.length_map, List.length_take, List.length_drop]
    simp only [h2]
    congr 1
    · rw [List.append_assoc pre (List.map some (List.take n a.frames)), ← List.map_append, List.take_append_drop]
    · omega

theorem release_keeps {fuel : Nat} {s t u : AudioSink k c} {st : Src k' c'} {it} (h : s.stream fuel st = .ok (t, it))
    (h' : t.flush = .ok u) : u.release.rate = s.release.rate ∧ u.release.frames.length = s.release.frames.length := by
  unfold AudioSink.stream at h
  split at h
  · cases h
  · rename_i t' it' hs
    cases h
    obtain ⟨e1, e2, _⟩ := C36_stream fuel _ _ _ _ hs
    unfold AudioSink.flush at h'
    split at h'
    · cases h'
    · rename_i u' hu
      cases h'
      have e3 : u'.rate = t'.rate ∧ u'.buf.length = t'.buf.length := by
        unfold Sink.flush at hu
        dsimp only at hu
        split_ifs at hu
        · unfold Sink.modAt at hu
          split_ifs at hu
          · cases hu
            exact ⟨rfl, by simp⟩
          · cases hu
        · cases hu; exact ⟨rfl, rfl⟩
      unfold AudioSink.release
      simp only [List.length_append]
      exact ⟨e3.1.trans e2, by rw [e3.2, e1]⟩

theorem sink_release {a : Audio k c} {reg : Rng} {s : AudioSink k c} (h : a.sink reg = .ok s) : s.release = a := by
  unfold Audio.sink at h
  split at h
  · cases h
  · rename_i x y hxy
    cases h
    have : x ≤ y ∧ y ≤ a.frames.length := (Rng.resolve_ok hxy).2.2
    unfold AudioSink.release
    refine congrArg (Audio.mk a.rate) ?_
    simp only
    rw [List.append_assoc]
    conv_rhs => rw [← List.take_append_drop x a.frames, ← List.take_append_drop (y - x) (a.frames.drop x), List.drop_drop]
    rw [show x + (y - x) = y by omega]

theorem Holds.extend {r : RingAudio k c} {a : Audio k c} (h : Holds r a) (st : Src k' c') :
    ∃ r', r.extend st = some (r', (a.extend st).2) ∧ Holds r' (a.extend st).1 := by
  have hr : r.rate = a.rate := h.1
  have hv : RingAudio.init r.frames.toVec.1 = some a.frames := by rw [h.vec]; exact mapM_id_some _
  have hs : ∀ (xs : List (Frame k c)) reg, (RingAudio.withFrames a.rate xs).sink reg =
      some (RingAudio.withFrames a.rate xs, (Audio.withFrames a.rate xs).sink reg) := by
    intro xs reg
    unfold RingAudio.sink
    rw [(Holds.new a.rate xs).slice]
    show Option.map _ (RingAudio.init (List.map some xs)) = _
    rw [show RingAudio.init (List.map some xs) = some xs from mapM_id_some xs]
    rfl
  have hnil : ∀ (e : Panic), ∃ r', some (RingAudio.withFrames (k := k) (c := c) (Fl.lit 0) [], (.error e : R (It k' c'))) =
      some (r', .error e) ∧ Holds r' (Audio.withFrames (Fl.lit 0) []) := fun e => ⟨_, rfl, Holds.new _ _⟩
  unfold RingAudio.extend Audio.extend RingAudio.extendInternal Audio.extendInternal
  cases hl : st.len with
  | none => exact hnil _
  | some l =>
    simp only [hv, hr, hs]
    split_ifs
    · exact hnil _
    · exact hnil _
    · set big := a.frames ++ List.replicate (Audio.dstLen a.rate l st.rate) Frame.dflt
      cases h1 : (Audio.withFrames a.rate big).sink (.from_ a.frames.length) with
      | error e => exact hnil _
      | ok s =>
        dsimp only
        cases h2 : s.stream (l + 1) st with
        | error e => exact hnil _
        | ok p =>
          obtain ⟨t, it⟩ := p
          dsimp only
          cases h3 : t.flush with
          | error e => exact hnil _
          | ok u =>
            refine ⟨_, rfl, ?_⟩
            obtain ⟨k1, k2⟩ := release_keeps h2 h3
            rw [sink_release h1] at k1 k2
            have := (Holds.new a.rate big).write u.release.frames k2
            have e : u.release = ⟨a.rate, u.release.frames⟩ := by
              rw [show a.rate = u.release.rate from k1.symm]
            show Holds _ u.release
            rw [e]
            exact this

/-! ## C111 -/

/-- C111: a new buffer. -/
theorem C111_new (rate : F64) (frames : List (Frame k c)) :
    Holds (RingAudio.withFrames rate frames) (Audio.withFrames rate frames) := Holds.new rate frames

/-- C111: whatever is done with a buffer, its ring is in one piece and has the same contents as the list; nothing
panics, and no uninitialised memory is used. -/
theorem C111_history (r : RingAudio k c) (a : Audio k c) (h : Holds r a) (ops : List (Op k c)) :
    ∃ r', ops.foldlM Op.onRing r = some r' ∧ Holds r' (ops.foldl Op.onList a) := by
  induction ops generalizing r a with
  | nil => exact ⟨r, rfl, h⟩
  | cons op ops ih =>
    have step : ∃ r', op.onRing r = some r' ∧ Holds r' (op.onList a) := by
      cases op with
      | set i f =>
        refine ⟨(r.setMut i f).getD r, rfl, ?_⟩
        obtain ⟨s1, s2⟩ := h.set i f
        show Holds _ ((a.setMut i f).getD a)
        cases hr : r.setMut i f with
        | none =>
          cases ha : a.setMut i f with
          | none => exact h
          | some _ => rw [hr, ha] at s2; simp at s2
        | some _ =>
          cases ha : a.setMut i f with
          | none => rw [hr, ha] at s2; simp at s2
          | some _ => exact s1 _ _ hr ha
      | each g => exact ⟨_, rfl, h.each g⟩
      | slice g hg =>
        refine ⟨{ r with frames := r.frames.write (g a.asSlice) }, ?_, h.write _ (hg _)⟩
        show (RingAudio.init r.asSlice.2.1).map (fun xs => { r with frames := r.asSlice.1.frames.write (g xs) }) = _
        rw [h.slice, show RingAudio.init (List.map some a.asSlice) = some a.asSlice from mapM_id_some _]
        rfl
      | drain n =>
        have hl : r.len = a.len := h.2.1
        obtain ⟨r', e1, e2⟩ := (h.drain (min n r.len)).1 (by omega)
        refine ⟨r', ?_, ?_⟩
        · simp only [Op.onRing, e1]
        · have : a.frames.drop (min n r.len) = a.frames.drop n := by
            rcases le_total n r.len with h' | h'
            · rw [min_eq_left h']
            · rw [min_eq_right h', hl, List.drop_of_length_le (by exact le_rfl),
                List.drop_of_length_le (by rw [hl] at h'; exact h')]
          rw [this] at e2
          exact e2
      | extend st =>
        obtain ⟨r', e1, e2⟩ := h.extend st
        exact ⟨r', by simp only [Op.onRing, e1, Option.map_some], e2⟩
    obtain ⟨r1, e1, e2⟩ := step
    obtain ⟨r2, e3, e4⟩ := ih r1 _ e2
    exact ⟨r2, by rw [List.foldlM_cons, e1]; exact e3, e4⟩

/-- Five frames, three of which are drained; then the rest is changed, extended, drained again. -/
def exOps : List (Op .mono .ch8) := [.drain 3, .set 1 #v[9#8], .extend (.audio (exAudio 12)), .drain 1, .each fun _ f => f.neg]

example := C111_history _ _ (C111_new (lit 8) (exAudio 8).frames) exOps

/-- The ring starts in slot 1 of its memory, as_slice moves nothing, and the frames are those of the list. -/
example : (exOps.foldlM Op.onRing (RingAudio.withFrames (lit 8) (exAudio 8).frames)).map
      (fun r => (r.frames.head, r.frames.cap, r.asSlice.2.2, r.asSlice.2.1.map (Option.map fun f => f[0].toInt))) =
    some (1, 6, 0, [some (-10), some (-1), some (-2), some (-3), some (-4)]) := by decide +kernel
example : (exOps.foldl Op.onList (exAudio 8)).frames.map (fun f => f[0].toInt) = [-10, -1, -2, -3, -4] := by
  decide +kernel

/-- Without that invariant it would be wrong: the model of the ring does wrap around. -/
example : let r : Ring Nat := ⟨[some 3, none, some 1, some 2], 2, 3⟩
    r.get 2 = some (some 3) ∧ r.iter = [some 1, some 2, some 3] ∧ r.isContiguous = false ∧ r.makeContiguous.2 = 3 ∧
    r.toVec = ([some 1, some 2, some 3], 3) := by decide

/-- C111: what such a buffer looks like.  `as_slice` gives all frames and never moves one. -/
theorem C111_slice (r : RingAudio k c) (a : Audio k c) (h : Holds r a) :
    r.asSlice = (r, a.asSlice.map some, 0) ∧ r.iter = a.iter.map some ∧ (∀ i, r.get i = (a.get i).map some) ∧
    r.len = a.len := by
  refine ⟨h.slice, ?_, h.2.2.1, h.2.1⟩
  have hs := h.slice
  unfold RingAudio.asSlice Ring.makeContiguous at hs
  rw [if_pos (by
    have := h.2.2.2
    simp only [Ring.isContiguous, decide_eq_true_eq]; omega)] at hs
  simp only [Prod.mk.injEq] at hs
  unfold RingAudio.iter Ring.iter Ring.slices
  rw [if_pos h.2.2.2, List.append_nil]
  exact hs.2.1

/-- C111: `extend` on the ring buffer is `extend` on the list, panics included. -/
theorem C111_extend (r : RingAudio k c) (a : Audio k c) (h : Holds r a) (st : Src k' c') :
    ∃ r', r.extend st = some (r', (a.extend st).2) ∧ Holds r' (a.extend st).1 := h.extend st

/-- C111: turning the buffer into a `Vec` moves the frames only if `drain` has been used (the ring does not start in
slot 0). -/
theorem C111_vec (r : RingAudio k c) (a : Audio k c) (h : Holds r a) :
    r.frames.toVec = (a.toFrames.map some, if r.frames.head = 0 then 0 else a.len) := h.vec

/-- C111: dropping a drain removes the frames that were taken, without moving the others.  It would panic only if more
frames had been taken than there are. -/
theorem C111_drain (r : RingAudio k c) (a : Audio k c) (h : Holds r a) (n : Nat) :
    (n ≤ a.len → ∃ r', r.dropDrain n = .ok r' ∧ Holds r' { a with frames := a.frames.drop n } ∧
      r'.frames.mem = r.frames.mem) ∧ ((∃ e, r.dropDrain n = .error e) ↔ a.len < n) := by
  obtain ⟨d1, d2⟩ := h.drain n
  refine ⟨fun hn => ?_, ?_⟩
  · obtain ⟨r', e1, e2⟩ := d1 hn
    refine ⟨r', e1, e2, ?_⟩
    unfold RingAudio.dropDrain Ring.drainFront at e1
    split_ifs at e1 <;> cases e1 <;> rfl
  · constructor
    · rintro ⟨e, he⟩
      by_contra hn
      obtain ⟨r', e1, _⟩ := d1 (by omega)
      rw [e1] at he
      cases he
    · exact fun hn => ⟨_, d2 hn⟩

example := C111_slice _ _ (C111_new (lit 8) (exAudio 8).frames)
example := C111_extend _ _ (C111_new (lit 8) (exAudio 8).frames) (.audio (exAudio 12))
example := C111_vec _ _ (C111_new (lit 8) (exAudio 8).frames)
example := C111_drain _ _ (C111_new (lit 8) (exAudio 8).frames) 3

end Fon
