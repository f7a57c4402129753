import Verif.Spec.Parts
import Verif.Props.Audio

/-!
# Sinks of parts of a buffer
-/

namespace Fon
open Fon.Fl hiding min max
open Fon.Sink
variable {k : Kind} {c : ChTy}

/-- The frames around a region play no part. -/
theorem obey_alone (pre post : List (Frame k c)) (s : Sink k c) (p : List Cmd) :
    (⟨pre, s, post⟩ : AudioSink k c).obey p =
      match (⟨[], s, []⟩ : AudioSink k c).obey p with
      | .error e => .error e
      | .ok t => .ok ⟨pre, t.sink, post⟩ := by
  induction p generalizing s with
  | nil => rfl
  | cons x p ih =>
    cases x with
    | stream k' c' fuel st =>
      simp only [AudioSink.obey, AudioSink.stream]
      cases s.stream fuel st with
      | error e => rfl
      | ok r => exact ih r.1
    | flush =>
      simp only [AudioSink.obey, AudioSink.flush]
      cases s.flush with
      | error e => rfl
      | ok r => exact ih r

example := obey_alone (k := .mono) (c := .ch8) [#v[1#8]] [#v[4#8]] ⟨lit 8, .dflt, [#v[2#8]]⟩ [.flush]

/-- The size and the rate stay. -/
theorem obey_keeps {s t : AudioSink k c} {p : List Cmd} (h : s.obey p = .ok t) :
    t.pre = s.pre ∧ t.post = s.post ∧ t.sink.buf.length = s.sink.buf.length ∧ t.sink.rate = s.sink.rate := by
  induction p generalizing s with
  | nil => cases h; exact ⟨rfl, rfl, rfl, rfl⟩
  | cons x p ih =>
    cases x with
    | stream k' c' fuel st =>
      simp only [AudioSink.obey, AudioSink.stream] at h
      cases hs : s.sink.stream fuel st with
      | error e => rw [hs] at h; cases h
      | ok r =>
        rw [hs] at h
        obtain ⟨h1, h2, h3, h4⟩ := ih h
        obtain ⟨b1, b2, _⟩ := C36_stream _ _ _ _ _ hs
        exact ⟨h1, h2, h3.trans b1, h4.trans b2⟩
    | flush =>
      simp only [AudioSink.obey, AudioSink.flush] at h
      cases hs : s.sink.flush with
      | error e => rw [hs] at h; cases h
      | ok r =>
        rw [hs] at h
        obtain ⟨h1, h2, h3, h4⟩ := ih h
        obtain ⟨b1, b2⟩ := flush_keeps _ _ hs
        exact ⟨h1, h2, h3.trans b1, h4.trans b2⟩

example := obey_keeps (k := .mono) (c := .ch8) (s := ⟨[#v[1#8]], ⟨lit 8, .dflt, [#v[2#8]]⟩, []⟩) (p := [.flush])
  (R.returns (x := (⟨[#v[1#8]], ⟨lit 8, .dflt, [#v[2#8]]⟩, []⟩ : AudioSink .mono .ch8).obey [.flush]) (by decide +kernel))

/-- C134: playing into a region of a buffer is playing into a buffer that consists of the region only, put back in its place;
it panics exactly if that panics. -/
theorem C134_alone (a : Audio k c) (reg : Rng) (p : List Cmd) (x y : Nat) (h : reg.resolve a.len = .ok (x, y)) :
    a.play reg p = match (Audio.withFrames a.rate ((a.frames.drop x).take (y - x))).play .full p with
      | .error e => .error e
      | .ok b => .ok ⟨a.rate, a.frames.take x ++ b.frames ++ a.frames.drop y⟩ := by
  unfold Audio.play Audio.sink
  rw [show reg.resolve a.frames.length = .ok (x, y) from h]
  simp only [Rng.resolve, Audio.withFrames, List.take_zero, List.drop_zero, Nat.sub_zero, List.take_length, List.drop_length]
  rw [obey_alone]
  cases h' : (⟨[], ⟨a.rate, Resampler.dflt, (a.frames.drop x).take (y - x)⟩, []⟩ : AudioSink k c).obey p with
  | error e => rfl
  | ok t =>
    obtain ⟨h1, h2, h3, h4⟩ := obey_keeps h'
    simp only [AudioSink.release, h1, h2, List.nil_append, List.append_nil]
    exact congrArg (fun z => Except.ok (Audio.mk z _)) h4

example := C134_alone (k := .mono) (c := .ch8) ⟨lit 8, List.replicate 5 #v[9#8]⟩ (.incl 1 2)
  [.stream .mono .ch8 4 (.audio ⟨lit 8, [#v[1#8], #v[2#8]]⟩), .flush] 1 3 rfl

/-- The same for a range of frames in the middle. -/
theorem play_mid (z : F64) (A B C : List (Frame k c)) (p : List Cmd) :
    (⟨z, A ++ B ++ C⟩ : Audio k c).play (.range A.length (A.length + B.length)) p =
      match (⟨z, B⟩ : Audio k c).play .full p with
      | .error e => .error e
      | .ok b => .ok ⟨z, A ++ b.frames ++ C⟩ := by
  rw [C134_alone _ _ p A.length (A.length + B.length) (by
    simp only [Rng.resolve, Audio.len, List.length_append]
    rw [if_pos (by omega)])]
  have e1 : ((A ++ B ++ C).drop A.length).take (A.length + B.length - A.length) = B := by simp
  have e2 : (A ++ B ++ C).take A.length = A := by simp
  have e3 : (A ++ B ++ C).drop (A.length + B.length) = C := by
    rw [← List.length_append, List.drop_left]
  simp only [e1, e2, e3, Audio.withFrames]

example := play_mid (k := .mono) (c := .ch8) (lit 8) [#v[1#8]] [#v[2#8], #v[3#8]] [#v[4#8]] [.flush]

theorem play_keeps {a b : Audio k c} {reg : Rng} {p : List Cmd} (h : a.play reg p = .ok b) : b.rate = a.rate ∧ b.len = a.len := by
  unfold Audio.play at h
  cases hs : a.sink reg with
  | error e => rw [hs] at h; cases h
  | ok s =>
    rw [hs] at h
    cases ho : s.obey p with
    | error e => simp only [ho] at h; cases h
    | ok t =>
      simp only [ho] at h
      cases h
      obtain ⟨_, _, h3, h4, _⟩ := C55_slice a reg s hs
      obtain ⟨k1, k2, k3, k4⟩ := obey_keeps ho
      refine ⟨k4.trans h3, ?_⟩
      rw [← h4]
      simp only [AudioSink.release, Audio.len, List.length_append, k1, k2, k3]

example := play_keeps (k := .mono) (c := .ch8) (a := ⟨lit 8, List.replicate 5 #v[9#8]⟩) (reg := .incl 1 2)
  (p := [.stream .mono .ch8 4 (.audio ⟨lit 8, [#v[1#8], #v[2#8]]⟩), .flush])
  (R.returns (x := (⟨lit 8, List.replicate 5 #v[9#8]⟩ : Audio .mono .ch8).play (.incl 1 2)
    [.stream .mono .ch8 4 (.audio ⟨lit 8, [#v[1#8], #v[2#8]]⟩), .flush]) (by decide +kernel))

/-- C134: for regions that do not overlap the order does not matter. -/
theorem C134_commute (a b : Audio k c) (p q : List Cmd) (x y x' y' : Nat) (h1 : x ≤ y) (h2 : y ≤ x')
    (h3 : x' ≤ y') (h4 : y' ≤ a.len) :
    (∃ m, a.play (.range x y) p = .ok m ∧ m.play (.range x' y') q = .ok b) ↔
      ∃ m, a.play (.range x' y') q = .ok m ∧ m.play (.range x y) p = .ok b := by
  obtain ⟨z, l⟩ := a
  obtain ⟨A, l, rfl, rfl⟩ : ∃ A l', l = A ++ l' ∧ x = A.length :=
    ⟨l.take x, l.drop x, by simp, by simp only [Audio.len] at h4; simp; omega⟩
  obtain ⟨n, rfl⟩ := Nat.exists_eq_add_of_le h1
  obtain ⟨B, l, rfl, rfl⟩ : ∃ B l', l = B ++ l' ∧ n = B.length :=
    ⟨l.take n, l.drop n, by simp, by simp only [Audio.len, List.length_append] at h4; simp; omega⟩
  obtain ⟨n, rfl⟩ := Nat.exists_eq_add_of_le h2
  obtain ⟨C, l, rfl, rfl⟩ : ∃ B l', l = B ++ l' ∧ n = B.length :=
    ⟨l.take n, l.drop n, by simp, by simp only [Audio.len, List.length_append] at h4; simp; omega⟩
  obtain ⟨n, rfl⟩ := Nat.exists_eq_add_of_le h3
  obtain ⟨D, E, rfl, rfl⟩ : ∃ B l', l = B ++ l' ∧ n = B.length :=
    ⟨l.take n, l.drop n, by simp, by simp only [Audio.len, List.length_append] at h4; simp; omega⟩
  -- the two regions
  have first : ∀ B D : List (Frame k c), (⟨z, A ++ (B ++ (C ++ (D ++ E)))⟩ : Audio k c).play
      (.range A.length (A.length + B.length)) p =
      match (⟨z, B⟩ : Audio k c).play .full p with
      | .error e => .error e
      | .ok b => .ok ⟨z, A ++ (b.frames ++ (C ++ (D ++ E)))⟩ := by
    intro B D
    have := play_mid z A B (C ++ (D ++ E)) p
    simpa only [List.append_assoc] using this
  have second : ∀ B D : List (Frame k c), (⟨z, A ++ (B ++ (C ++ (D ++ E)))⟩ : Audio k c).play
      (.range (A.length + B.length + C.length) (A.length + B.length + C.length + D.length)) q =
      match (⟨z, D⟩ : Audio k c).play .full q with
      | .error e => .error e
      | .ok b => .ok ⟨z, A ++ (B ++ (C ++ (b.frames ++ E)))⟩ := by
    intro B D
    have := play_mid z (A ++ B ++ C) D E q
    simpa only [List.append_assoc, List.length_append, Nat.add_assoc] using this
  rw [first, second]
  cases hp : (⟨z, B⟩ : Audio k c).play .full p with
  | error e =>
    cases hq : (⟨z, D⟩ : Audio k c).play .full q with
    | error e => simp
    | ok d =>
      simp only [reduceCtorEq, false_and, exists_false, Except.ok.injEq, exists_eq_left', first, hp]
  | ok b' =>
    have hb : b'.frames.length = B.length := (play_keeps hp).2
    cases hq : (⟨z, D⟩ : Audio k c).play .full q with
    | error e =>
      simp only [reduceCtorEq, false_and, exists_false, Except.ok.injEq, exists_eq_left', iff_false]
      rw [← hb, second, hq]
      simp
    | ok d =>
      simp only [Except.ok.injEq, exists_eq_left', first, hp]
      rw [← hb, second, hq]
      simp

/-- A stream of two frames into the second and third slot, and a constant into the last two. -/
example := C134_commute (k := .mono) (c := .ch8) ⟨lit 8, List.replicate 5 #v[9#8]⟩ ⟨lit 8, [#v[9#8], #v[1#8], #v[2#8], #v[7#8], #v[7#8]]⟩
  [.stream .mono .ch8 4 (.audio ⟨lit 8, [#v[1#8], #v[2#8]]⟩), .flush] [.stream .mono .ch8 4 (.frame #v[7#8])] 1 3 3 5
  (by norm_num) (by norm_num) (by norm_num) (by decide)

/-- Those calls return. -/
example : ((⟨lit 8, List.replicate 5 #v[9#8]⟩ : Audio .mono .ch8).play (.range 1 3)
    [.stream .mono .ch8 4 (.audio ⟨lit 8, [#v[1#8], #v[2#8]]⟩), .flush]).map (fun m => (m.play (.range 3 5)
      [.stream .mono .ch8 4 (.take (.frame #v[7#8]) 2)]).map (·.frames)) =
    .ok (.ok [#v[9#8], #v[1#8], #v[2#8], #v[7#8], #v[7#8]]) := by decide +kernel

/-- C134 needs regions that do not overlap: where they do, the last call wins. -/
theorem C134_overlap : ∃ (a : Audio .mono .ch8) (p q : List Cmd),
    ((a.play (.range 0 2) p).bind fun m => m.play (.range 1 3) q).map (·.frames) = .ok [#v[1#8], #v[2#8], #v[2#8]] ∧
    ((a.play (.range 1 3) q).bind fun m => m.play (.range 0 2) p).map (·.frames) = .ok [#v[1#8], #v[1#8], #v[2#8]] :=
  ⟨⟨lit 8, List.replicate 3 #v[0#8]⟩, [.stream .mono .ch8 4 (.audio ⟨lit 8, List.replicate 2 #v[1#8]⟩)],
    [.stream .mono .ch8 4 (.audio ⟨lit 8, List.replicate 2 #v[2#8]⟩)], by decide +kernel, by decide +kernel⟩

end Fon
