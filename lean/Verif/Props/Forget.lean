import Verif.Spec.Forget
import Verif.Props.Sink

/-!
# C125: drains that are never dropped
-/

namespace Fon
open Sink
variable {k k' : Kind} {c c' : ChTy}

theorem next_forgotten (it it' : It k c) (o : Option (Frame k c)) (h : it.next = .ok (o, it')) :
    it'.forgotten = it.forgotten := by
  induction it with
  | frame f => cases h; rfl
  | audio fs => cases fs <;> cases h <;> rfl
  | drain a cur =>
    unfold It.next at h
    split at h <;> cases h <;> rfl
  | user l g p =>
    unfold It.next at h
    split at h
    · cases h; rfl
    · split at h <;> cases h <;> rfl
  | take it n ih =>
    unfold It.next at h
    cases n with
    | zero => cases h; rfl
    | succ n =>
      dsimp only at h
      cases hx : it.next with
      | error e => rw [hx] at h; cases h
      | ok x =>
        obtain ⟨o', it''⟩ := x
        rw [hx] at h
        cases h
        exact ih it'' o hx
  | blend a b op iha ihb =>
    unfold It.next at h
    cases hx : a.next with
    | error e => rw [hx] at h; cases h
    | ok x =>
      obtain ⟨o', a'⟩ := x
      rw [hx] at h
      have ea := iha _ _ hx
      cases o' with
      | none => cases h; show a'.forgotten ++ _ = _; rw [ea]; rfl
      | some x =>
        dsimp only at h
        cases hy : b.next with
        | error e => rw [hy] at h; cases h
        | ok y =>
          obtain ⟨o', b'⟩ := y
          rw [hy] at h
          have eb := ihb _ _ hy
          cases o' with
          | none => cases h; show a'.forgotten ++ b'.forgotten = _; rw [ea, eb]; rfl
          | some y =>
            dsimp only at h
            split at h
            · cases h
            · split at h
              · cases h
              · cases h; show a'.forgotten ++ b'.forgotten = _; rw [ea, eb]; rfl

theorem iter_forgotten (st : Src k c) : st.iter.forgotten = st.drained := by
  induction st with
  | take s n ih => exact ih
  | blend a b op iha ihb => show a.iter.forgotten ++ b.iter.forgotten = _; rw [iha, ihb]; rfl
  | _ => rfl

theorem iterAt_forgotten (st : Src k c) (n : Nat) : (st.iterAt n).forgotten = st.drained := by
  induction st with
  | take s n ih => exact ih
  | blend a b op iha ihb => show (a.iterAt n).forgotten ++ (b.iterAt n).forgotten = _; rw [iha, ihb]; rfl
  | _ => rfl

theorem setRate_drained (st st' : Src k c) (r : F64) (h : st.setRate r = .ok st') : st'.drained = st.drained := by
  induction st with
  | frame f => cases h; rfl
  | audio a => cases h
  | drain a => cases h
  | user o f l g => 
    unfold Src.setRate at h
    split at h <;> cases h
    rfl
  | take s n ih =>
    unfold Src.setRate at h
    split at h
    · rename_i s' hs
      cases h; exact ih s' hs
    · cases h
  | blend a b op iha ihb =>
    unfold Src.setRate at h
    split at h
    · cases h
    · split at h
      · cases h
        show Src.drained _ ++ Src.drained _ = _
        rw [iha _ ‹_›, ihb _ ‹_›]; rfl
      · cases h

/-- C125: however many frames were taken, if the stream is leaked every drained buffer is as it was. -/
theorem C125_iter (st : Src k c) (m : Nat) (fs : List (Frame k c)) (it : It k c) (h : st.iter.run m = .ok (fs, it)) :
    it.forgotten = st.drained := by
  rw [← iter_forgotten]
  generalize st.iter = it0 at h
  induction m generalizing it0 fs with
  | zero => cases h; rfl
  | succ m ih =>
    unfold It.run at h
    cases hx : it0.next with
    | error e => rw [hx] at h; cases h
    | ok x =>
      obtain ⟨o, it1⟩ := x
      have e := next_forgotten _ _ _ hx
      rw [hx] at h
      cases o with
      | none => cases h; exact e
      | some x =>
        have hb : ((Except.ok (some x, it1) : R (Option (Frame k c) × It k c)) >>= fun y => (match y with
            | (none, it) => pure ([], it)
            | (some f, it) => do let (fs, it) ← it.run m; return (f :: fs, it) : R (List (Frame k c) × It k c))) =
          (do let (fs, it) ← it1.run m; return (x :: fs, it)) := rfl
        replace h := hb.symm.trans h
        cases hy : it1.run m with
        | error e => rw [hy] at h; cases h
        | ok y =>
          obtain ⟨gs, it2⟩ := y
          rw [hy] at h
          cases h
          rw [ih _ _ hy, e]

/-- C125: the same for a stream played into a sink, if a stream of the user wraps it and leaks it. -/
theorem C125_stream (fuel : Nat) (s s' : Sink k c) (st : Src k' c') (it : It k' c') (h : s.stream fuel st = .ok (s', it)) :
    it.forgotten = st.drained := by
  obtain ⟨st', n, g, a1, a2, a3, a4, a5, a6, a7, a8⟩ := stream_takes _ _ _ _ _ h
  have e : st'.drained = st.drained := by
    generalize ratioOf s.rate st.rate = q at a1
    unfold Sink.ratio at a1
    split at a1
    · cases a1; rfl
    · split at a1
      · cases a1
      · rename_i u hu
        cases a1
        exact setRate_drained _ _ _ hu
  rcases a8 with rfl | h'
  · rw [iterAt_forgotten, e]
  · rw [next_forgotten _ _ _ h', iterAt_forgotten, e]

/-- C125: a drain that is dropped instead has taken frames from the front, and nothing else. -/
theorem C125_dropped (it : It k c) : List.Forall₂ TakenFrom it.forgotten it.dropped := by
  induction it with
  | drain a cur => exact .cons ⟨cur, rfl⟩ .nil
  | take it n ih => exact ih
  | blend a b op iha ihb => exact List.rel_append iha ihb
  | _ => exact .nil

/-- C125: so draining again yields the same frames again. -/
theorem C125_again (a : Audio k c) (m n : Nat) : ∃ it it', a.drain.iter.run m = .ok (a.frames.take m, it) ∧
    it.forgotten = [⟨k, c, a⟩] ∧ a.drain.iter.run n = .ok (a.frames.take n, it') ∧
    it'.dropped = [⟨k, c, ⟨a.rate, a.frames.drop n⟩⟩] := by
  obtain ⟨it, h1, _⟩ := C39_drain a m
  obtain ⟨it', h2, h3⟩ := C39_drain a n
  exact ⟨it, it', h1, C125_iter _ _ _ _ h1, h2, h3⟩

/-- A buffer of three frames. -/
def exForget : Audio .mono .ch8 := ⟨Fl.lit 2, [#v[1#8], #v[2#8], #v[3#8]]⟩

/-- A sink at half the rate. -/
def exForgetSink : Sink .stereo .ch16 := ⟨Fl.lit 1, Resampler.dflt, [Frame.dflt, Frame.dflt]⟩

example : (exForget.drain.iter.run 2).toOption.map (·.2.forgotten) = some [⟨.mono, .ch8, exForget⟩] ∧
    (exForget.drain.iter.run 2).toOption.map (·.2.dropped) =
      some [⟨.mono, .ch8, ⟨Fl.lit 2, [#v[3#8]]⟩⟩] := by decide +kernel
example : (Src.blend (exForget.drain.take 1) exForget.drain .plus).drained =
    [⟨.mono, .ch8, exForget⟩, ⟨.mono, .ch8, exForget⟩] := rfl
example := C125_iter _ 2 _ _ (R.returns₂ (x := (Src.blend (exForget.drain.take 1) exForget.drain .plus).iter.run 2) (by decide +kernel))
example := C125_stream _ _ _ _ _ (R.returns₂ (x := Sink.stream 9 exForgetSink exForget.drain) (by decide +kernel))

end Fon
