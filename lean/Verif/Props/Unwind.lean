import Verif.Spec.Unwind
import Verif.Model.Unwind
import Verif.Props.Mix

/-!
# C92: what a panic leaves behind

The claim: a call that panics loses no audio.  Every frame of a drained `Audio` is then either still there or in the
destination, and the destination still has what it had.
-/

namespace Fon
open Fl
variable {k k' : Kind} {c c' : ChTy}

/-! ## The two models agree -/

theorem nextU_eq (it : It k c) : it.next = (match it.nextU with
    | (.error e, _) => .error e
    | (.ok o, it) => .ok (o, it)) := by
  induction it with
  | frame f => rfl
  | audio l => cases l <;> rfl
  | drain a cur =>
    unfold It.next It.nextU
    cases a.frames[cur]? <;> rfl
  | user l g p =>
    unfold It.next It.nextU
    cases l with
    | none => rfl
    | some n => dsimp only; split_ifs <;> rfl
  | take it n ih =>
    cases n with
    | zero => rfl
    | succ n =>
      unfold It.next It.nextU
      dsimp only
      rw [ih]
      rcases it.nextU with ⟨_ | _, _⟩ <;> rfl
  | blend a b op iha ihb =>
    unfold It.next It.nextU
    rw [iha, ihb]
    rcases a.nextU with ⟨_ | _ | x, a'⟩
    · rfl
    · rfl
    · rcases b.nextU with ⟨_ | _ | y, b'⟩
      · rfl
      · rfl
      · dsimp only
        cases (y.convert _ : R (Frame _ _)) with
        | error e => rfl
        | ok y =>
          dsimp only
          cases op.mixFrames x y <;> rfl

theorem loopU_eq (q : F64) (d : Nat) (l : Option Nat) (fuel i : Nat) (s : Sink k c) (it : It k' c') :
    Sink.loop q d l fuel i s it = (match Sink.loopU q d l fuel i s it with
    | (.error e, _) => .error e
    | (.ok o, s, it) => .ok (s, it, o)) := by
  induction fuel generalizing i s it with
  | zero => rfl
  | succ fuel ih =>
    unfold Sink.loop Sink.loopU
    dsimp only
    rw [nextU_eq]
    rw [ceilUsize_ok]
    dsimp only
    split_ifs with h1 h2
    · rcases it.nextU with ⟨_ | _ | x, it'⟩
      · rfl
      · rfl
      · dsimp only
        cases (x.convert c : R (Frame k c)) with
        | error e => rfl
        | ok x =>
          dsimp only
          cases Sink.modAt s.buf _ _ with
          | error e => rfl
          | ok buf =>
            dsimp only
            cases Sink.modAt buf _ _ with
            | error e => rfl
            | ok buf => exact ih _ _ _
    · rcases it.nextU with ⟨_ | _ | x, it'⟩
      · rfl
      · rfl
      · dsimp only
        cases (x.convert c : R (Frame k c)) with
        | error e => rfl
        | ok x =>
          dsimp only
          cases Sink.modAt s.buf _ _ with
          | error e => rfl
          | ok buf => exact ih _ _ _
    · rfl

/-- `Sink::stream`: same panics, and the same sink and iterator if there is none. -/
theorem C92_stream (fuel : Nat) (s : Sink k c) (st : Src k' c') :
    s.stream fuel st = (match s.streamU fuel st with
    | (.error e, _) => .error e
    | (.ok (), s, it) => .ok (s, it)) := by
  unfold Sink.stream Sink.streamU
  cases s.ratio st with
  | error e => rfl
  | ok x =>
    obtain ⟨q, st'⟩ := x
    dsimp only
    rw [loopU_eq]
    rcases Sink.loopU q _ _ fuel 0 _ _ with ⟨_ | _ | n, s', it'⟩ <;> rfl

/-- `Audio::extend`. -/
theorem C92_extend (a : Audio k c) (st : Src k' c') :
    a.extend st = (match a.extendU st with
    | (.error e, b, _) => (b, .error e)
    | (.ok (), b, it) => (b, .ok it)) := by
  unfold Audio.extend Audio.extendInternal Audio.extendU
  cases st.len with
  | none => rfl
  | some n =>
    dsimp only
    split_ifs
    · rfl
    · rfl
    · cases (Audio.withFrames a.rate (a.frames ++ List.replicate (Audio.dstLen a.rate n st.rate) Frame.dflt)).sink
        (.from_ a.frames.length) with
      | error e => rfl
      | ok s =>
        dsimp only [AudioSink.stream]
        rw [C92_stream]
        rcases s.sink.streamU (n + 1) st with ⟨_ | _, t, it'⟩
        · rfl
        · dsimp only
          cases AudioSink.flush { s with sink := t } <;> rfl

/-! ## The drained buffers -/

theorem Keeps.rfl' (x) : Keeps x x := ⟨x.1, x.2.1, x.2.2, 0, rfl, rfl⟩

theorem Keeps.trans {x y z} (h : Keeps x y) (g : Keeps y z) : Keeps x z := by
  obtain ⟨k, c, a, n, rfl, rfl⟩ := h
  obtain ⟨k2, c2, a2, n2, h1, rfl⟩ := g
  cases h1
  exact ⟨k, c, a, n + n2, rfl, by simp only [List.drop_drop]⟩

theorem keeps_refl (l) : List.Forall₂ Keeps l l := List.forall₂_same.mpr fun x _ => Keeps.rfl' x

theorem keeps_trans {l l' l''} (h : List.Forall₂ Keeps l l') (g : List.Forall₂ Keeps l' l'') :
    List.Forall₂ Keeps l l'' := by
  induction h generalizing l'' with
  | nil => cases g; exact .nil
  | cons h _ ih => cases g with | cons g gs => exact .cons (h.trans g) (ih gs)

theorem keeps_append {l l' m m'} (h : List.Forall₂ Keeps l l') (g : List.Forall₂ Keeps m m') :
    List.Forall₂ Keeps (l ++ m) (l' ++ m') := by
  induction h with
  | nil => exact g
  | cons h _ ih => exact .cons h ih

theorem nextU_keeps (it : It k c) : List.Forall₂ Keeps it.dropped it.nextU.2.dropped := by
  induction it with
  | frame f => exact keeps_refl _
  | audio l => cases l <;> exact keeps_refl _
  | drain a cur =>
    unfold It.nextU
    cases a.frames[cur]? with
    | none => exact keeps_refl _
    | some f =>
      exact .cons ⟨_, _, _, 1, rfl, by simp only [List.drop_drop]⟩ .nil
  | user l g p =>
    unfold It.nextU
    cases l with
    | none => exact keeps_refl _
    | some n => dsimp only; split_ifs <;> exact keeps_refl _
  | take it n ih =>
    cases n with
    | zero => exact keeps_refl _
    | succ n => exact ih
  | blend a b op iha ihb =>
    unfold It.nextU
    rcases h : a.nextU with ⟨_ | _ | x, a'⟩ <;> rw [h] at iha
    · exact keeps_append iha (keeps_refl _)
    · exact keeps_append iha (keeps_refl _)
    · rcases h : b.nextU with ⟨_ | _ | y, b'⟩ <;> rw [h] at ihb
      · exact keeps_append iha ihb
      · exact keeps_append iha ihb
      · dsimp only
        cases (y.convert _ : R (Frame _ _)) with
        | error e => exact keeps_append iha ihb
        | ok y =>
          dsimp only
          cases op.mixFrames x y <;> exact keeps_append iha ihb

/-- What the loop leaves alone: rate, offset and length of the sink, slots from `d` on. -/
def Stays (d : Nat) (s t : Sink k c) : Prop :=
  t.rate = s.rate ∧ t.res.offseti = s.res.offseti ∧ t.buf.length = s.buf.length ∧
    ∀ i, d ≤ i → t.buf[i]? = s.buf[i]?

theorem Stays.trans {d : Nat} {s t u : Sink k c} (h : Stays d s t) (g : Stays d t u) : Stays d s u :=
  ⟨g.1.trans h.1, g.2.1.trans h.2.1, g.2.2.1.trans h.2.2.1, fun i hi => (g.2.2.2 i hi).trans (h.2.2.2 i hi)⟩

theorem Stays.refl (d : Nat) (s : Sink k c) : Stays d s s := ⟨rfl, rfl, rfl, fun _ _ => rfl⟩

theorem modAt_stays {d i : Nat} {s : Sink k c} {buf} {g} {r} (h : Sink.modAt s.buf i g = .ok buf) (hi : i < d)
    (hr : r.offseti = s.res.offseti) : Stays d s { s with buf := buf, res := r } := by
  unfold Sink.modAt at h
  split_ifs at h
  cases h
  refine ⟨rfl, hr, by simp only [List.length_modify], fun j hj => ?_⟩
  dsimp only
  exact modify_ne (by omega)

theorem loopU_keeps (q : F64) (d : Nat) (l : Option Nat) (fuel i : Nat) (s : Sink k c) (it : It k' c') :
    List.Forall₂ Keeps it.dropped (Sink.loopU q d l fuel i s it).2.2.dropped ∧
      Stays d s (Sink.loopU q d l fuel i s it).2.1 := by
  induction fuel generalizing i s it with
  | zero => exact ⟨keeps_refl _, .refl _ _⟩
  | succ fuel ih =>
    have hk := nextU_keeps it
    unfold Sink.loopU
    dsimp only
    rw [ceilUsize_ok]
    dsimp only
    split_ifs with h1 h2
    · rcases h : it.nextU with ⟨_ | _ | x, it'⟩ <;> rw [h] at hk
      · exact ⟨hk, .refl _ _⟩
      · exact ⟨hk, .refl _ _⟩
      · dsimp only at hk ⊢
        cases (x.convert c : R (Frame k c)) with
        | error e => exact ⟨hk, .refl _ _⟩
        | ok x =>
          dsimp only
          split
          · exact ⟨hk, .refl _ _⟩
          · rename_i buf hb
            have hs := modAt_stays hb (by assumption) rfl
            split
            · exact ⟨hk, hs⟩
            · rename_i buf' hb'
              have hs' := modAt_stays (s := { s with buf := buf }) hb' h2 rfl
              have := ih (i + 1) { s with buf := buf' } it'
              exact ⟨keeps_trans hk this.1, hs.trans (hs'.trans this.2)⟩
    · rcases h : it.nextU with ⟨_ | _ | x, it'⟩ <;> rw [h] at hk
      · exact ⟨hk, .refl _ _⟩
      · exact ⟨hk, .refl _ _⟩
      · dsimp only at hk ⊢
        cases (x.convert c : R (Frame k c)) with
        | error e => exact ⟨hk, .refl _ _⟩
        | ok x =>
          dsimp only
          split
          · exact ⟨hk, .refl _ _⟩
          · rename_i buf hb
            have hs := modAt_stays (r := { s.res with partial_ := s.res.partial_.add (x.mul
              (Frame.ofF64 ((((q.mul (f64OfUsize i)).add s.res.offseti).rem (lit 1)).min q))) }) hb
              (by assumption) rfl
            have := ih (i + 1) { s with buf := buf, res := { s.res with partial_ := s.res.partial_.add (x.mul
              (Frame.ofF64 ((((q.mul (f64OfUsize i)).add s.res.offseti).rem (lit 1)).min q))) } } it'
            exact ⟨keeps_trans hk this.1, hs.trans this.2⟩
    · exact ⟨keeps_refl _, .refl _ _⟩

theorem after_succ (it : It k c) (n : Nat) : it.after (n + 1) = it.nextU.2.after n := rfl

/-- The state at a panic of the loop: `m` frames are placed, the next one is taken and is the reason for the panic. -/
theorem loopU_panic (q : F64) (d : Nat) (l : Option Nat) (fuel i : Nat) (s s' : Sink k c) (it it' : It k' c') (e : Panic)
    (hd : d ≤ s.buf.length) (he : e ≠ .outOfFuel) (h : Sink.loopU q d l fuel i s it = (.error e, s', it')) :
    ∃ (m : Nat) (g : Nat → Frame k c),
      (∀ j, j < m → ∃ f, (it.after j).nextU.1 = .ok (some f) ∧ f.convert c = .ok (g (i + j))) ∧
      ((it.after m).nextU.1 = .error e ∨ ∃ f, (it.after m).nextU.1 = .ok (some f) ∧
        (f.convert c : R (Frame k c)) = .error e) ∧
      it' = it.after (m + 1) ∧
      (s'.buf, s'.res.partial_) = Sink.placeN q s.res.offseti d g i m (s.buf, s.res.partial_) := by
  induction fuel generalizing i s it with
  | zero => cases h; exact absurd rfl he
  | succ fuel ih =>
    unfold Sink.loopU at h
    dsimp only at h
    rw [ceilUsize_ok] at h
    dsimp only at h
    split_ifs at h with h1 h2
    pick_goal 3
    · cases h
    all_goals rcases hn : it.nextU with ⟨_ | _ | x, it2⟩ <;> rw [hn] at h <;> dsimp only at h
    any_goals cases h
    any_goals exact ⟨0, fun _ => Frame.dflt, fun j hj => absurd hj (by omega), .inl (by
      show it.nextU.1 = _
      rw [hn]), by rw [after_succ, hn]; rfl, rfl⟩
    all_goals rcases hc : (x.convert c : R (Frame k c)) with e' | y <;> rw [hc] at h
    any_goals
      cases h
      exact ⟨0, fun _ => Frame.dflt, fun j hj => absurd hj (by omega), .inr ⟨x, by
        show it.nextU.1 = _
        rw [hn], hc⟩, by rw [after_succ, hn]; rfl, rfl⟩
    all_goals
      dsimp only at h
      rw [Sink.modAt, if_pos (by omega)] at h
      dsimp only at h
      have key : ∀ t : Sink k c, t.res.offseti = s.res.offseti → t.buf.length = s.buf.length →
          (t.buf, t.res.partial_) = Sink.place q s.res.offseti d i y (s.buf, s.res.partial_) →
          Sink.loopU q d l fuel (i + 1) t it2 = (.error e, s', it') →
          ∃ (m : Nat) (g : Nat → Frame k c),
            (∀ j, j < m → ∃ f, (it.after j).nextU.1 = .ok (some f) ∧ f.convert c = .ok (g (i + j))) ∧
            ((it.after m).nextU.1 = .error e ∨ ∃ f, (it.after m).nextU.1 = .ok (some f) ∧
              (f.convert c : R (Frame k c)) = .error e) ∧
            it' = it.after (m + 1) ∧
            (s'.buf, s'.res.partial_) = Sink.placeN q s.res.offseti d g i m (s.buf, s.res.partial_) := by
        intro t t1 t2 t3 t4
        obtain ⟨m, g, b1, b2, b3, b4⟩ := ih (i + 1) t it2 (by omega) t4
        refine ⟨m + 1, fun j => if j = i then y else g j, ?_, ?_, ?_, ?_⟩
        · intro j hj
          cases j with
          | zero => exact ⟨x, by show it.nextU.1 = _; rw [hn], by simp [hc]⟩
          | succ j =>
            obtain ⟨f, f1, f2⟩ := b1 j (by omega)
            refine ⟨f, by rw [after_succ, hn]; exact f1, ?_⟩
            dsimp only
            rw [if_neg (by omega), f2, show i + 1 + j = i + (j + 1) by omega]
        · rw [after_succ, hn]; exact b2
        · rw [after_succ, hn]; exact b3
        · rw [b4, Sink.placeN, if_pos rfl, t1, t3]
          exact placeN_congr _ _ _ _ _ _ _ _ (fun j _ _ => by rw [if_neg (by omega)])
    · rw [Sink.modAt, if_pos (by rw [List.length_modify]; omega)] at h
      dsimp only at h
      refine key _ ?_ ?_ ?_ h
      · rfl
      · simp only [List.length_modify]
      · unfold Sink.place
        dsimp only
        exact (if_pos (c := ceilU (Sink.pos q s.res.offseti i) < d) h2).symm
    · refine key _ ?_ ?_ ?_ h
      · rfl
      · simp only [List.length_modify]
      · unfold Sink.place
        dsimp only
        exact (if_neg (c := ceilU (Sink.pos q s.res.offseti i) < d) h2).symm

theorem loopU_none {q : F64} {d : Nat} {l : Option Nat} {fuel i : Nat} {s s' : Sink k c} {it it' : It k' c'}
    (h : Sink.loopU q d l fuel i s it = (.ok none, s', it')) : l = none := by
  induction fuel generalizing i s it with
  | zero => cases h
  | succ fuel ih =>
    unfold Sink.loopU at h
    dsimp only at h
    rw [ceilUsize_ok] at h
    dsimp only at h
    split_ifs at h with h1 h2
    pick_goal 3
    · cases h
    all_goals rcases hn : it.nextU with ⟨_ | _ | x, it2⟩ <;> rw [hn] at h <;> dsimp only at h
    any_goals cases h
    any_goals rfl
    all_goals rcases hc : (x.convert c : R (Frame k c)) with e' | y <;> rw [hc] at h
    any_goals cases h
    all_goals
      dsimp only at h
      split at h
      · cases h
    · split at h
      · cases h
      · exact ih h
    · exact ih h

theorem setRate_error {st : Src k c} {x : F64} {e : Panic} (h : st.setRate x = .error e) : e = .setSampleRate := by
  induction st with
  | frame f => cases h
  | audio a => cases h; rfl
  | drain a => cases h; rfl
  | user r fx l g => unfold Src.setRate at h; split_ifs at h; cases h; rfl
  | take s n ih =>
    unfold Src.setRate at h
    cases hs : s.setRate x with
    | error e' => rw [hs] at h; cases h; exact ih hs
    | ok s' => rw [hs] at h; cases h
  | blend a b op iha ihb =>
    unfold Src.setRate at h
    cases hs : a.setRate x with
    | error e' => rw [hs] at h; cases h; exact iha hs
    | ok a' =>
      rw [hs] at h
      dsimp only at h
      cases hs : b.setRate x with
      | error e' => rw [hs] at h; cases h; exact ihb hs
      | ok b' => rw [hs] at h; cases h

/-! ## C92 -/

/-- C92 for `Sink::stream`, panicking or not.  Every drained buffer keeps all frames but some at the front; the sink
keeps its rate and length and all slots outside the destination range (slot 0 gets the left over frame); after a panic
the position of the sink is the old one.

Missing: frames that were taken but did not arrive (`C92_lost` says which), and `Audio::extend`, where the claim is
false (`C92_false`). -/
theorem C92_partial (fuel : Nat) (s t : Sink k c) (st : Src k' c') (it : It k' c') (r : R Unit)
    (h : s.streamU fuel st = (r, t, it)) :
    List.Forall₂ Keeps st.iter.dropped it.dropped ∧ t.rate = s.rate ∧ t.buf.length = s.buf.length ∧
    (∀ i, i ≠ 0 → ¬ InDst (ratioOf s.rate st.rate) st.len s.buf.length i → t.buf[i]? = s.buf[i]?) ∧
    (∀ e, r = .error e → t.res.offseti = s.res.offseti) := by
  unfold Sink.streamU at h
  cases hr : s.ratio st with
  | error e =>
    rw [hr] at h; cases h
    exact ⟨keeps_refl _, rfl, rfl, fun _ _ _ => rfl, fun _ _ => rfl⟩
  | ok x =>
    obtain ⟨q, st'⟩ := x
    rw [hr] at h
    dsimp only at h
    obtain ⟨_, h2, h3⟩ := Sink.ratio_same hr
    have hq := ratio_eq hr
    subst hq
    rw [h2, h3] at h
    obtain ⟨k1, k2, k3, k4, k5⟩ := loopU_keeps (ratioOf s.rate st.rate)
      (Sink.dstEnd (ratioOf s.rate st.rate) st.len s.buf.length) st.len fuel 0
      (s.prepare (Sink.dstEnd (ratioOf s.rate st.rate) st.len s.buf.length)) st.iter
    have k6 : ∀ i, i ≠ 0 → ¬ InDst (ratioOf s.rate st.rate) st.len s.buf.length i →
        (Sink.loopU (ratioOf s.rate st.rate) (Sink.dstEnd (ratioOf s.rate st.rate) st.len s.buf.length) st.len fuel 0
          (s.prepare (Sink.dstEnd (ratioOf s.rate st.rate) st.len s.buf.length)) st.iter).2.1.buf[i]? = s.buf[i]? := by
      intro i hi hd
      rw [inDst_iff, not_lt] at hd
      rw [k5 i hd, prepare_other _ _ _ hd, if_neg hi]
    rw [Sink.prepare_length] at k4
    rcases hl : Sink.loopU (ratioOf s.rate st.rate) (Sink.dstEnd (ratioOf s.rate st.rate) st.len s.buf.length) st.len
      fuel 0 (s.prepare (Sink.dstEnd (ratioOf s.rate st.rate) st.len s.buf.length)) st.iter with ⟨_ | _ | n, t', it'⟩
    all_goals
      rw [hl] at h k1 k2 k3 k4 k6
      cases h
    · exact ⟨k1, k2, k4, k6, fun _ _ => k3⟩
    · exact ⟨k1, k2, k4, k6, fun _ _ => k3⟩
    · exact ⟨k1, k2, k4, k6, fun _ h => by cases h⟩

/-- Frames of a user type, which are not convertible. -/
def exUser : Audio (.custom 1 [lit 0]) .ch8 := ⟨lit 8, [#v[3#8], #v[4#8]]⟩

/-- A sink of three slots. -/
def exThreeSlots : Sink .mono .ch8 := ⟨lit 8, Resampler.dflt, [#v[1#8], #v[2#8], #v[3#8]]⟩

/-- One frame of `exUser` is taken out and lost. -/
theorem exLoses : exThreeSlots.streamU 9 (.drain exUser) = (.error .customConvert,
    (exThreeSlots.streamU 9 (.drain exUser)).2.1, (exThreeSlots.streamU 9 (.drain exUser)).2.2) :=
  Prod.ext (by decide +kernel) rfl

example := C92_partial 9 exThreeSlots _ (.drain exUser) _ _ exLoses

/-- C92, what gets lost when `Sink::stream` panics: nothing at all if the stream does not accept the rate; otherwise
exactly one frame, the one whose conversion or blending is the reason for the panic.  The `m` frames before it are in
the sink, mixed as always.  (A stream that ends although it claims to be endless makes `stream` panic at its end.) -/
theorem C92_lost (fuel : Nat) (s t : Sink k c) (st : Src k' c') (it : It k' c') (e : Panic) (he : e ≠ .outOfFuel)
    (h : s.streamU fuel st = (.error e, t, it)) :
    (e = .setSampleRate ∧ st.rate = none ∧ t = s ∧ it = st.iter) ∨ (e = .unwrapNone ∧ st.len = none) ∨
    ∃ (m : Nat) (g : Nat → Frame k c),
      (∀ j, j < m → ∃ f, (st.iter.after j).nextU.1 = .ok (some f) ∧ f.convert c = .ok (g j)) ∧
      ((st.iter.after m).nextU.1 = .error e ∨ ∃ f, (st.iter.after m).nextU.1 = .ok (some f) ∧
        (f.convert c : R (Frame k c)) = .error e) ∧
      it = st.iter.after (m + 1) ∧
      (∀ i, InDst (ratioOf s.rate st.rate) st.len s.buf.length i →
        t.buf[i]? = some (mixed (ratioOf s.rate st.rate) s.res.offseti g i m Frame.dflt)) ∧
      t.res.partial_ = leftOver (ratioOf s.rate st.rate) s.res.offseti st.len s.buf.length g m s.res.partial_ := by
  unfold Sink.streamU at h
  cases hr : s.ratio st with
  | error e' =>
    rw [hr] at h; cases h
    left
    unfold Sink.ratio at hr
    split at hr
    · cases hr
    · rename_i hrate
      refine ⟨?_, hrate, rfl, rfl⟩
      cases hs : st.setRate s.rate with
      | error e'' => rw [hs] at hr; cases hr; exact setRate_error hs
      | ok _ => rw [hs] at hr; cases hr
  | ok x =>
    right
    obtain ⟨q, st'⟩ := x
    rw [hr] at h
    dsimp only at h
    obtain ⟨_, h2, h3⟩ := Sink.ratio_same hr
    have hq := ratio_eq hr
    subst hq
    rw [h2, h3] at h
    rcases hl : Sink.loopU (ratioOf s.rate st.rate) (Sink.dstEnd (ratioOf s.rate st.rate) st.len s.buf.length) st.len
      fuel 0 (s.prepare (Sink.dstEnd (ratioOf s.rate st.rate) st.len s.buf.length)) st.iter with ⟨_ | _ | n, t', it'⟩
    all_goals
      rw [hl] at h
      cases h
    · right
      obtain ⟨m, g, b1, b2, b3, b4⟩ := loopU_panic _ _ _ _ _ _ _ _ _ _
        (by rw [Sink.prepare_length]; exact Sink.dstEnd_le _ _ _) he hl
      refine ⟨m, g, fun j hj => by have := b1 j hj; rwa [Nat.zero_add] at this, b2, b3, fun i hi => ?_, ?_⟩
      · have := congrArg (fun x => x.1[i]?) b4
        simp only at this
        rw [this, placeN_mixed _ _ _ _ _ _ _ _ (inDst_iff.mp hi),
          prepare_in _ _ _ (inDst_iff.mp hi) (Sink.dstEnd_le _ _ _)]
        rfl
      · have := congrArg Prod.snd b4
        simp only at this
        rw [this, placeN_leftOver]
        rfl
    · exact .inl ⟨rfl, loopU_none hl⟩

example := C92_lost 9 exThreeSlots _ (.drain exUser) _ _ (by decide) exLoses

/-- After any panic of `Audio::extend` the buffer is empty and has rate 0, whatever was in it; drained buffers lose
frames at the front only. -/
theorem C92_extend_lost (a b : Audio k c) (st : Src k' c') (it : It k' c') (r : R Unit)
    (h : a.extendU st = (r, b, it)) :
    List.Forall₂ Keeps st.iter.dropped it.dropped ∧ ∀ e, r = .error e → b = ⟨lit 0, []⟩ := by
  unfold Audio.extendU at h
  cases hl : st.len with
  | none => rw [hl] at h; cases h; exact ⟨keeps_refl _, fun _ _ => rfl⟩
  | some n =>
    rw [hl] at h
    dsimp only at h
    split_ifs at h
    · cases h; exact ⟨keeps_refl _, fun _ _ => rfl⟩
    · cases h; exact ⟨keeps_refl _, fun _ _ => rfl⟩
    · split at h
      · cases h; exact ⟨keeps_refl _, fun _ _ => rfl⟩
      · rename_i s hs
        rcases hu : s.sink.streamU (n + 1) st with ⟨_ | _, t, it'⟩ <;> rw [hu] at h <;>
          have key := C92_partial (n + 1) s.sink _ st _ _ hu
        · cases h; exact ⟨key.1, fun _ _ => rfl⟩
        · dsimp only at h
          split at h
          · cases h; exact ⟨key.1, fun _ _ => rfl⟩
          · cases h; exact ⟨key.1, fun _ h => by cases h⟩

theorem after_drain (a : Audio k c) (n : Nat) (h : n ≤ a.frames.length) : (It.drain a 0).after n = .drain a n := by
  induction n with
  | zero => rfl
  | succ n ih =>
    unfold It.after at *
    rw [Function.iterate_succ_apply', ih (by omega)]
    show (It.drain a n).nextU.2 = _
    unfold It.nextU
    rw [List.getElem?_eq_getElem (by omega)]

/-- C92 for a drain: if `stream` panics after `m` frames have been mixed into the sink, `m + 1` frames are missing from
the drained buffer. -/
theorem C92_drain (fuel : Nat) (s t : Sink k c) (a : Audio k' c') (it : It k' c') (e : Panic) (he : e ≠ .outOfFuel)
    (h : s.streamU fuel a.drain = (.error e, t, it)) :
    ∃ (m : Nat) (g : Nat → Frame k c), m < a.frames.length ∧
      (∀ j, j < m → ∃ f, a.frames[j]? = some f ∧ f.convert c = .ok (g j)) ∧
      it.dropped = [⟨k', c', ⟨a.rate, a.frames.drop (m + 1)⟩⟩] ∧
      ∀ i, InDst (ratioOf s.rate (some a.rate)) (some a.frames.length) s.buf.length i →
        t.buf[i]? = some (mixed (ratioOf s.rate (some a.rate)) s.res.offseti g i m Frame.dflt) := by
  have hn : ∀ n, n ≤ a.frames.length → ((It.drain a 0).after n).nextU.1 = .ok a.frames[n]? := by
    intro n hn
    rw [after_drain a n hn]
    unfold It.nextU
    cases a.frames[n]? <;> rfl
  rcases C92_lost fuel s t _ it e he h with ⟨_, h1, _⟩ | ⟨_, h2⟩ | ⟨m, g, b1, b2, b3, b4, _⟩
  · cases h1
  · cases h2
  · have hm : m ≤ a.frames.length := by
      by_contra hm
      obtain ⟨f, f1, _⟩ := b1 a.frames.length (by omega)
      rw [show (Audio.drain a).iter = It.drain a 0 from rfl, hn _ le_rfl, List.getElem?_eq_none le_rfl] at f1
      cases f1
    rw [show (Audio.drain a).iter = It.drain a 0 from rfl, hn m hm] at b2
    have hm' : m < a.frames.length := by
      rcases b2 with b2 | ⟨f, f1, _⟩
      · cases b2
      · by_contra hm'
        rw [List.getElem?_eq_none (by omega)] at f1
        cases f1
    refine ⟨m, g, hm', fun j hj => ?_, ?_, b4⟩
    · obtain ⟨f, f1, f2⟩ := b1 j hj
      rw [show (Audio.drain a).iter = It.drain a 0 from rfl, hn j (by omega)] at f1
      exact ⟨f, by cases h : a.frames[j]? <;> rw [h] at f1 <;> cases f1; rfl, f2⟩
    · rw [b3, show (Audio.drain a).iter = It.drain a 0 from rfl, after_drain a _ (by omega)]
      rfl

example := C92_drain 9 exThreeSlots _ exUser _ _ (by decide) exLoses

/-- C92 is false: 7 frames at 7 Hz are drained into a buffer of 2 frames at 29 Hz.  `extend` panics, and afterwards both
buffers are empty. -/
theorem C92_false : (fun r => (r.1, r.2.1, r.2.2.dropped)) (Audio.extendU (⟨lit 29, [#v[1#8], #v[2#8]]⟩ : Audio .mono .ch8)
      (.drain (⟨lit 7, List.replicate 7 #v[3#8]⟩ : Audio .mono .ch8))) =
    (.error .bounds, ⟨lit 0, []⟩, [⟨.mono, .ch8, ⟨lit 7, []⟩⟩]) := by
  decide +kernel

example := C92_extend_lost (⟨lit 29, [#v[1#8], #v[2#8]]⟩ : Audio .mono .ch8) _
  (.drain (⟨lit 7, List.replicate 7 #v[3#8]⟩ : Audio .mono .ch8)) _ _ rfl

/-- The frame in work is lost as well: streaming a frame of a user type panics, and one frame is missing from the
drained buffer. -/
example : (fun r => (r.1, r.2.1.buf, r.2.2.dropped)) ((⟨lit 8, Resampler.dflt, [#v[1#8], #v[2#8], #v[3#8]]⟩ :
      Sink .mono .ch8).streamU 9 (.drain (⟨lit 8, List.replicate 2 (#v[3#8])⟩ :
        Audio (.custom 1 [lit 0]) .ch8))) =
    (.error .customConvert, [#v[0#8], #v[0#8], #v[3#8]], [⟨.custom 1 [lit 0], .ch8, ⟨lit 8, [#v[3#8]]⟩⟩]) := by
  decide +kernel

end Fon
