import Verif.Spec.GenericAudio
import Verif.Props.Generic
import Verif.Props.Audio

/-!
# C124: extending buffers of user-defined frames
-/

namespace Fon.Gen
variable {F S τ ι : Type}

theorem bind_ok {α β : Type} {x : R α} {f : α → R β} {b : β} (h : (x >>= f) = .ok b) : ∃ a, x = .ok a ∧ f a = .ok b := by
  cases x with
  | error e => cases h
  | ok a => exact ⟨a, rfl, h⟩

/-- A sink of an audio that had the frames `fs`, with `n` slots, all frames of which have the property `Q`. -/
def Within (fs : List F) (n : Nat) (Q : F → Prop) (s : AudSink F) : Prop :=
  s.before = fs ∧ s.buf.length = n ∧ (∀ x ∈ s.buf, Q x) ∧ Q s.res.partial_

variable {A : FrameImpl F} {M : StreamImpl τ ι S} {conv : S → R F} {Q : F → Prop} {V : τ → Prop} {N : ι → Prop}

theorem set_all {b : List F} {i : Nat} {y : F} (h : ∀ x ∈ b, Q x) (hy : Q y) : ∀ x ∈ b.set i y, Q x := by
  intro x hx
  rcases List.mem_or_eq_of_mem_set hx with h' | rfl
  · exact h _ h'
  · exact hy

theorem loop_within (hC : Closed A M conv Q V N) (fs : List F) (n : Nat) (q : F64) (d : Nat) (l : Option Nat) (fuel i : Nat)
    (s : AudSink F) (it : ι) (r : AudSink F × ι × Option Nat) (hs : Within fs n Q s) (hN : N it)
    (h : loop A (audSinkImpl F) M conv q d l fuel i s it = .ok r) : Within fs n Q r.1 := by
  induction fuel generalizing i s it with
  | zero => cases h
  | succ fuel ih =>
    unfold loop at h
    obtain ⟨_, e, h⟩ := bind_ok h
    cases e
    dsimp only at h
    obtain ⟨ceil, e, h⟩ := bind_ok h
    split at h
    · cases h; exact hs
    · obtain ⟨wc, e1, h⟩ := bind_ok h
      obtain ⟨wf, e2, h⟩ := bind_ok h
      obtain ⟨⟨o, it'⟩, e3, h⟩ := bind_ok h
      cases o with
      | none => cases h; exact hs
      | some x =>
        dsimp only at h
        obtain ⟨f, e4, h⟩ := bind_ok h
        have hf : Q f := hC.frame _ _ _ _ hN e3 e4
        have hN' := hC.next _ _ _ hN e3
        obtain ⟨_, e, h⟩ := bind_ok h
        cases e
        obtain ⟨_, _, h⟩ := bind_ok h
        dsimp only at h
        obtain ⟨g1, g2, g3, g4⟩ := hs
        split at h
        · cases h
        · rename_i y hy
          obtain ⟨w, e5, h⟩ := bind_ok h
          obtain ⟨z, e6, h⟩ := bind_ok h
          have hz : Q z := hC.add _ _ _ (g3 _ (List.mem_of_getElem? hy)) (hC.scale _ _ _ _ hf e2 e5) e6
          obtain ⟨_, e, h⟩ := bind_ok h
          cases e
          obtain ⟨_, _, h⟩ := bind_ok h
          dsimp only at h
          have hall := set_all (i := ((q.mul (f64OfUsize i)).add s.res.offseti).toUsize) g3 hz
          split at h
          · rename_i y' hy'
            obtain ⟨w', e7, h⟩ := bind_ok h
            obtain ⟨z', e8, h⟩ := bind_ok h
            have hz' : Q z' := hC.add _ _ _ (hall _ (List.mem_of_mem_take (List.mem_of_getElem? hy')))
              (hC.scale _ _ _ _ hf e1 e7) e8
            refine ih _ _ _ ?_ hN' h
            exact ⟨g1, by simpa using g2, set_all hall hz', g4⟩
          · obtain ⟨_, e, h⟩ := bind_ok h
            cases e
            obtain ⟨w', e7, h⟩ := bind_ok h
            obtain ⟨z', e8, h⟩ := bind_ok h
            have hz' : Q z' := hC.add _ _ _ g4 (hC.scale _ _ _ _ hf e1 e7) e8
            refine ih _ _ _ ?_ hN' h
            exact ⟨g1, by simpa using g2, hall, hz'⟩

theorem stream_within (hC : Closed A M conv Q V N) (fs : List F) (n : Nat) (fuel : Nat) (s : AudSink F) (st : τ) (r : AudSink F × ι)
    (hs : Within fs n Q s) (hV : V st) (h : stream A (audSinkImpl F) M conv fuel s st = .ok r) : Within fs n Q r.1 := by
  unfold stream at h
  obtain ⟨⟨q, st'⟩, e, h⟩ := bind_ok h
  have hV' : V st' := by
    unfold ratio at e
    split at e
    · cases e; exact hV
    · cases hx : M.setRate st ((audSinkImpl F).rate s) with
      | error e' => rw [hx] at e; cases e
      | ok x => rw [hx] at e; cases e; exact hC.set _ _ _ hV hx
  dsimp only at h
  obtain ⟨_, e, h⟩ := bind_ok h
  cases e
  obtain ⟨_, e, h⟩ := bind_ok h
  cases e
  dsimp only at h
  obtain ⟨b, e, h⟩ := bind_ok h
  obtain ⟨g1, g2, g3, g4⟩ := hs
  have hb : b.length = n ∧ ∀ x ∈ b, Q x := by
    subst g2
    revert g3 e
    generalize s.buf = xs
    intro e g3
    cases xs with
    | nil => cases e; exact ⟨rfl, by simp⟩
    | cons x xs =>
      change (A.add x s.res.partial_).map (· :: xs) = _ at e
      cases hx : A.add x s.res.partial_ with
      | error e' => rw [hx] at e; cases e
      | ok y =>
        rw [hx] at e
        cases e
        refine ⟨rfl, ?_⟩
        intro z hz
        rcases List.mem_cons.mp hz with rfl | hz
        · exact hC.add _ _ _ (g3 _ (by simp)) g4 hx
        · exact g3 _ (by simp [hz])
  obtain ⟨_, e, h⟩ := bind_ok h
  cases e
  dsimp only at h
  generalize dstEnd q (M.len st') b.length = d at h
  obtain ⟨_, e, h⟩ := bind_ok h
  cases e
  obtain ⟨_, e, h⟩ := bind_ok h
  dsimp only at h e
  have hd : d ≤ b.length := by
    unfold upTo at e
    split at e
    · cases e
    · exact not_lt.mp ‹_›
  obtain ⟨it, e1, h⟩ := bind_ok h
  obtain ⟨⟨s', it', m⟩, e2, h⟩ := bind_ok h
  have hw := loop_within hC fs n _ _ _ _ _ _ _ _ (by
    refine ⟨g1, ?_, ?_, g4⟩
    · show (List.replicate d A.dflt ++ b.drop d).length = n
      rw [List.length_append, List.length_replicate, List.length_drop]; omega
    · intro x hx
      rcases List.mem_append.mp hx with hx | hx
      · rw [List.eq_of_mem_replicate hx]; exact hC.dflt
      · exact hb.2 _ (List.mem_of_mem_drop hx)) (hC.iter _ _ hV' e1) e2
  cases m with
  | none => cases h
  | some m =>
    dsimp only at h
    obtain ⟨_, e, h⟩ := bind_ok h
    cases e
    cases h
    exact hw

theorem flush_within (fs : List F) (n : Nat) (s s' : AudSink F) (hs : Within fs n Q s)
    (h : flush (audSinkImpl F) s = .ok s') : Within fs n Q s' := by
  unfold flush at h
  obtain ⟨⟨b, t⟩, e, h⟩ := bind_ok h
  have ht : s = t := by
    unfold left at e
    obtain ⟨_, e', e⟩ := bind_ok e
    cases e'
    dsimp only at e
    split at e
    · cases e; rfl
    · obtain ⟨_, e', e⟩ := bind_ok e
      cases e'
      cases e; rfl
  subst ht
  dsimp only at h
  split at h
  · obtain ⟨_, e', h⟩ := bind_ok h
    cases e'
    obtain ⟨_, e', h⟩ := bind_ok h
    cases e'
    obtain ⟨_, e', h⟩ := bind_ok h
    cases e'
    dsimp only at h
    split at h
    · cases h
      obtain ⟨g1, g2, g3, g4⟩ := hs
      exact ⟨g1, by simpa using g2, set_all g3 g4, g4⟩
    · cases h
  · cases h; exact hs

theorem extend_ok {size fuel : Nat} {a b : Aud F} {st : τ} (h : extend A size M conv fuel a st = (b, .ok ())) :
    ∃ l s it s', M.len st = some l ∧ a.Room size (Audio.dstLen a.rate l (M.rate st)) ∧
      stream A (audSinkImpl F) M conv fuel (tailSink A a (Audio.dstLen a.rate l (M.rate st))) st = .ok (s, it) ∧
      flush (audSinkImpl F) s = .ok s' ∧ b = ⟨a.rate, s'.before ++ s'.buf⟩ := by
  unfold extend at h
  cases he : extendInternal A size M conv fuel a st with
  | error e => rw [he] at h; cases h
  | ok b' =>
    rw [he] at h
    cases h
    unfold extendInternal at he
    cases hl : M.len st with
    | none => rw [hl] at he; cases he
    | some l =>
      rw [hl] at he
      dsimp only at he
      split at he
      · cases he
      · split at he
        · cases he
        · rename_i h1 h2
          obtain ⟨⟨s, it⟩, e1, he⟩ := bind_ok he
          obtain ⟨s', e2, he⟩ := bind_ok he
          cases he
          refine ⟨l, s, it, s', rfl, ⟨?_, ?_⟩, e1, e2, rfl⟩
          · unfold usizeMax at h1; omega
          · unfold Audio.isizeMax at h2; omega

/-- C124: whatever the frames and the stream do, if `extend` returns, the rate and the frames that were there are the same,
and as many frames are new as rate and length of the stream say. -/
theorem C124_keeps (A : FrameImpl F) (size : Nat) (M : StreamImpl τ ι S) (conv : S → R F) (fuel : Nat) (a b : Aud F) (st : τ)
    (h : extend A size M conv fuel a st = (b, .ok ())) :
    b.rate = a.rate ∧ ∃ fs, b.frames = a.frames ++ fs ∧
      ∃ l, M.len st = some l ∧ ∀ n, Growth a.rate l (M.rate st) n → fs.length = n := by
  obtain ⟨l, s, it, s', h1, _, h3, h4, rfl⟩ := extend_ok h
  have hC : Closed A M conv (fun _ => True) (fun _ => True) (fun _ => True) := by constructor <;> intros <;> trivial
  have hw := flush_within a.frames (Audio.dstLen a.rate l (M.rate st)) _ _
    (stream_within hC _ _ _ _ _ _ ⟨rfl, List.length_replicate .., fun _ _ => trivial, trivial⟩ trivial h3) h4
  refine ⟨rfl, s'.buf, by rw [hw.1], l, h1, fun n hn => ?_⟩
  rw [hw.2.1, dstLen_growth hn]

/-- C124: the new frames are made by the arithmetic of the frames from silence and the frames of the stream; so what this
arithmetic preserves holds for them. -/
theorem C124_closed (hC : Closed A M conv Q V N) (size fuel : Nat) (a b : Aud F) (st : τ) (hV : V st)
    (h : extend A size M conv fuel a st = (b, .ok ())) : ∃ fs, b.frames = a.frames ++ fs ∧ ∀ x ∈ fs, Q x := by
  obtain ⟨l, s, it, s', h1, _, h3, h4, rfl⟩ := extend_ok h
  have hw := flush_within a.frames (Audio.dstLen a.rate l (M.rate st)) _ _
    (stream_within hC _ _ _ _ _ _ ⟨rfl, List.length_replicate .., fun x hx => by rw [List.eq_of_mem_replicate hx]; exact hC.dflt,
      hC.dflt⟩ hV h3) h4
  exact ⟨s'.buf, by rw [hw.1], hw.2.2.1⟩

/-- C124: after a panic, of the frames, the stream or `extend` itself, the buffer is empty and has rate 0. -/
theorem C124_lost (A : FrameImpl F) (size : Nat) (M : StreamImpl τ ι S) (conv : S → R F) (fuel : Nat) (a b : Aud F) (st : τ)
    (e : Panic) (h : extend A size M conv fuel a st = (b, .error e)) : b = ⟨Fl.lit 0, []⟩ := by
  unfold extend at h
  cases he : extendInternal A size M conv fuel a st with
  | error e => rw [he] at h; cases h; rfl
  | ok b' => rw [he] at h; cases h

section
variable {k k' : Kind} {c c' : ChTy}

/-- What shows of an `AudioSink`. -/
def AudSink.view (s : AudSink (Frame k c)) : Sink k c := ⟨s.rate, ⟨s.res.partial_, s.res.offseti⟩, s.buf⟩

theorem audSink_lawful : Lawful (audSinkImpl (Frame k c)) AudSink.view :=
  fun _ => ⟨rfl, ⟨_, rfl, fun _ => rfl⟩, _, rfl, fun _ _ => rfl⟩

/-- C124: with the frames and streams of the crate this is the model of the other claims. -/
theorem C124_builtin (a : Audio k c) (st : Src k' c') (fuel : Nat) (hl : ∀ l, st.len = some l → fuel = l + 1) :
    extend (frameImpl k c) (k.size c) (streamImpl k' c') (Frame.convert c) fuel ⟨a.rate, a.frames⟩ st =
      (⟨(a.extend st).1.rate, (a.extend st).1.frames⟩, (a.extend st).2.map fun _ => ()) := by
  have key : Both (fun x y => x = ⟨y.1.rate, y.1.frames⟩)
      (extendInternal (frameImpl k c) (k.size c) (streamImpl k' c') (Frame.convert c) fuel ⟨a.rate, a.frames⟩ st)
      (a.extendInternal st) := by
    cases hx : st.len with
    | none =>
      unfold extendInternal Audio.extendInternal
      rw [show (streamImpl k' c').len st = st.len from rfl, hx]
      rfl
    | some l =>
      cases hl l hx
      by_cases hf : a.Fits (Audio.dstLen a.rate l st.rate)
      · rw [extend_eq a st l hx hf]
        unfold extendInternal
        rw [show (streamImpl k' c').len st = st.len from rfl, hx]
        dsimp only
        rw [show (streamImpl k' c').rate st = st.rate from rfl, if_neg (not_lt.mpr hf.1), if_neg (not_lt.mpr hf.2)]
        have h1 := C112_lawful audSink_lawful (l + 1) (tailSink (frameImpl k c) ⟨a.rate, a.frames⟩
          (Audio.dstLen a.rate l st.rate)) st
        have hC : Closed (frameImpl k c) (streamImpl k' c') (Frame.convert c) (fun _ => True) (fun _ => True) (fun _ => True) := by
          constructor <;> intros <;> trivial
        change Both _ _ ((⟨a.rate, Resampler.dflt, List.replicate (Audio.dstLen a.rate l st.rate) Frame.dflt⟩ :
          Sink k c).stream (l + 1) st) at h1
        cases hg : stream (frameImpl k c) (audSinkImpl (Frame k c)) (streamImpl k' c') (Frame.convert c) (l + 1)
            (tailSink (frameImpl k c) ⟨a.rate, a.frames⟩ (Audio.dstLen a.rate l st.rate)) st with
        | error e =>
          rw [hg] at h1
          cases hm : (⟨a.rate, Resampler.dflt, List.replicate (Audio.dstLen a.rate l st.rate) Frame.dflt⟩ :
              Sink k c).stream (l + 1) st with
          | error e' => rw [hm] at h1; exact h1
          | ok b => rw [hm] at h1; exact h1.elim
        | ok x =>
          rw [hg] at h1
          have hw := stream_within hC a.frames _ _ _ _ _ ⟨rfl, rfl, fun _ _ => trivial, trivial⟩ trivial hg
          cases hm : (⟨a.rate, Resampler.dflt, List.replicate (Audio.dstLen a.rate l st.rate) Frame.dflt⟩ :
              Sink k c).stream (l + 1) st with
          | error e' => rw [hm] at h1; exact h1.elim
          | ok b =>
            rw [hm] at h1
            obtain ⟨x1, x2⟩ := x
            obtain ⟨b1, b2⟩ := b
            obtain ⟨h2, h3⟩ := h1
            dsimp only at h2 h3
            subst h2
            have h4 := C112_flush audSink_lawful x1
            have hr := (C36_stream _ _ _ _ _ hm).2.1
            have hb : ∀ (α β : Type) (x : α) (f : α → R β), ((Except.ok x : R α) >>= f) = f x := fun _ _ _ _ => rfl
            rw [hb]
            dsimp only
            cases hg2 : flush (audSinkImpl (Frame k c)) x1 with
            | error e =>
              rw [hg2] at h4
              cases hm2 : x1.view.flush with
              | error e' => rw [hm2] at h4; exact h4
              | ok t => rw [hm2] at h4; exact h4.elim
            | ok y =>
              rw [hg2] at h4
              have hw2 := flush_within a.frames _ _ _ hw hg2
              cases hm2 : x1.view.flush with
              | error e' => rw [hm2] at h4; exact h4.elim
              | ok t =>
                rw [hm2] at h4
                subst h4
                have hr2 := (flush_keeps _ _ hm2).2
                show (⟨a.rate, y.before ++ y.buf⟩ : Aud (Frame k c)) = ⟨y.view.rate, a.frames ++ y.view.buf⟩
                rw [hr2, hr, hw2.1]
                rfl
      · unfold extendInternal Audio.extendInternal
        rw [show (streamImpl k' c').len st = st.len from rfl, hx]
        dsimp only
        rw [show (streamImpl k' c').rate st = st.rate from rfl]
        unfold Audio.Fits at hf
        split
        · rfl
        · rw [if_pos, if_pos]
          · rfl
          · omega
          · omega
  unfold extend Audio.extend
  revert key
  cases extendInternal (frameImpl k c) (k.size c) (streamImpl k' c') (Frame.convert c) fuel ⟨a.rate, a.frames⟩ st <;>
    cases a.extendInternal st
  · rintro ⟨⟩; rfl
  · exact fun h => h.elim
  · exact fun h => h.elim
  · intro h; cases h; rfl

end

theorem audSink_steady (r : F64) (n : Nat) :
    Steady (audSinkImpl F) r n (fun o s => s.rate = r ∧ s.buf.length = n ∧ s.res.offseti = o) :=
  fun _ _ ⟨h1, h2, h3⟩ => ⟨h1, ⟨_, _, rfl, h3, fun _ => ⟨h1, h2, rfl⟩⟩, _, _, rfl, h2, fun _ h => ⟨h1, h, h3⟩⟩

theorem flush_panics_iff (s : AudSink F) : (∃ e, flush (audSinkImpl F) s = .error e) ↔
    HasFract s.res.offseti ∧ s.buf.length ≤ s.res.offseti.toUsize := by
  have h : Both (fun _ _ => True) (flush (audSinkImpl F) s)
      (⟨s.rate, ⟨Frame.dflt, s.res.offseti⟩, List.replicate s.buf.length Frame.dflt⟩ : Sink .mono .ch8).flush := by
    rw [← flush_builtin]
    refine (flush_param (P := fun _ _ => True) (W := fun (s : AudSink F) (t : Sink .mono .ch8) => s.rate = t.rate ∧
      s.buf.length = t.buf.length ∧ s.res.offseti = t.res.offseti) ?_ _ _ ⟨rfl, (List.length_replicate ..).symm, rfl⟩).mono
      fun _ _ _ => trivial
    rintro s t ⟨h1, h2, h3⟩
    refine ⟨h1, ⟨⟨trivial, h3⟩, fun r r' _ h => ⟨h1, h2, h⟩⟩, ?_, fun x y hx hy => ⟨h1, hy.length_eq, h3⟩⟩
    exact List.forall₂_iff_zip.mpr ⟨h2, fun _ => trivial⟩
  have h2 := C42_panics_iff (⟨s.rate, ⟨Frame.dflt, s.res.offseti⟩, List.replicate s.buf.length Frame.dflt⟩ : Sink .mono .ch8)
  simp only [List.length_replicate] at h2
  rw [← h2]
  revert h
  cases flush (audSinkImpl F) s <;>
    cases (⟨s.rate, ⟨Frame.dflt, s.res.offseti⟩, List.replicate s.buf.length Frame.dflt⟩ : Sink .mono .ch8).flush
  · exact fun _ => ⟨fun _ => ⟨_, rfl⟩, fun _ => ⟨_, rfl⟩⟩
  · exact fun h => h.elim
  · exact fun h => h.elim
  · exact fun _ => ⟨nofun, nofun⟩

/-- C124, exactly when `extend` panics with frames and a stream that do not panic themselves, where the stream yields as
many frames as it says: the same condition as for the frames of the crate (`C51_iff`). -/
theorem C124_panics_iff (hA : A.Total) (hc : ∀ x, ∃ y, conv x = .ok y) {rate : F64} {l : Nat} {pos : Nat → ι → Prop} {st : τ}
    (hM : Keeps M st rate (some l) pos) (size : Nat) (a : Aud F) (hf : a.Room size (Audio.dstLen a.rate l (some rate))) :
    (∃ e, (extend A size M conv (l + 1) a st).2 = .error e) ↔
      ∃ n off, Takes (a.rate.div rate) (Fl.lit 0) (some l) (Audio.dstLen a.rate l (some rate)) n ∧
        off = (Fl.lit 0 : F64).add ((a.rate.div rate).mul (f64OfUsize n)) ∧
        HasFract off ∧ Audio.dstLen a.rate l (some rate) ≤ off.toUsize := by
  have hI := audSink_steady (F := F) a.rate (Audio.dstLen a.rate l (some rate))
  have h0 : (tailSink A a (Audio.dstLen a.rate l (some rate))).rate = a.rate ∧
      (tailSink A a (Audio.dstLen a.rate l (some rate))).buf.length = Audio.dstLen a.rate l (some rate) ∧
      (tailSink A a (Audio.dstLen a.rate l (some rate))).res.offseti = Fl.lit 0 := ⟨rfl, List.length_replicate .., rfl⟩
  obtain ⟨s, it, hs⟩ := C112_returns hA hc hI hM (tailSink A a (Audio.dstLen a.rate l (some rate))) h0
  obtain ⟨m, h1, _, h2, h3, h4⟩ := C112_takes hA hc hI hM _ _ h0 _ _ hs
  have he : extendInternal A size M conv (l + 1) a st =
      (flush (audSinkImpl F) s >>= fun s => pure ⟨a.rate, s.before ++ s.buf⟩) := by
    unfold extendInternal
    rw [hM.2.1, hM.1]
    dsimp only
    rw [if_neg (by have := hf.1; unfold usizeMax; omega), if_neg (by have := hf.2; unfold Audio.isizeMax; omega), hs]
    rfl
  have hiff : (∃ e, (extend A size M conv (l + 1) a st).2 = .error e) ↔ ∃ e, flush (audSinkImpl F) s = .error e := by
    unfold extend
    rw [he]
    cases flush (audSinkImpl F) s
    · exact ⟨fun _ => ⟨_, rfl⟩, fun _ => ⟨_, rfl⟩⟩
    · exact ⟨nofun, nofun⟩
  rw [hiff, flush_panics_iff, h3, h4]
  constructor
  · rintro ⟨g1, g2⟩
    exact ⟨m, _, h1, rfl, g1, g2⟩
  · rintro ⟨m', off, g1, rfl, g2, g3⟩
    cases takes_unique g1 h1
    exact ⟨g2, g3⟩

/-! ### Examples -/

/-- A buffer of peak meters. -/
def exPeaks : Aud Nat := ⟨Fl.lit 4, [7, 1]⟩

/-- Five peaks at 8 Hz become three at 4 Hz: the last slot is silent, as the range ends before it. -/
example : ((extend peak 8 numbers Except.ok 6 exPeaks [5, 2, 8, 1, 4]).1.frames,
    (extend peak 8 numbers Except.ok 6 exPeaks [5, 2, 8, 1, 4]).2) = ([7, 1, 5, 8, 0], .ok ()) := by decide +kernel

theorem exPeaks_ok : extend peak 8 numbers Except.ok 6 exPeaks [5, 2, 8, 1, 4] =
    ((extend peak 8 numbers Except.ok 6 exPeaks [5, 2, 8, 1, 4]).1, .ok ()) :=
  Prod.ext rfl (show (extend peak 8 numbers Except.ok 6 exPeaks [5, 2, 8, 1, 4]).2 = _ by decide +kernel)

example := C124_keeps _ _ _ _ _ _ _ _ exPeaks_ok

/-- Peaks of one digit stay of one digit. -/
theorem peak_closed : Closed peak numbers Except.ok (· ≤ 9) (fun st => ∀ x ∈ st, x ≤ 9) (fun it => ∀ x ∈ it, x ≤ 9) where
  dflt := Nat.zero_le _
  add := by rintro a b _ h1 h2 ⟨⟩; exact max_le h1 h2
  scale := by rintro a q _ _ h ⟨⟩ ⟨⟩; simpa using h
  set := by rintro _ _ _ _ ⟨⟩
  iter := by rintro _ _ h ⟨⟩; exact h
  next := by rintro _ _ _ h ⟨⟩; exact fun x hx => h x (List.mem_of_mem_tail hx)
  frame := by
    rintro it _ x _ h e ⟨⟩
    have e : it.head? = some x := congrArg Prod.fst (Except.ok.inj e)
    exact h x (List.mem_of_mem_head? e)

example := C124_closed peak_closed 8 6 exPeaks _ [5, 2, 8, 1, 4] (by decide) exPeaks_ok

/-- A frame type whose `+=` panics. -/
def noAdd : FrameImpl Nat := { peak with add := fun _ _ => .error .assert }

theorem noAdd_panics : extend noAdd 8 numbers Except.ok 6 exPeaks [5, 2, 8, 1, 4] =
    ((extend noAdd 8 numbers Except.ok 6 exPeaks [5, 2, 8, 1, 4]).1, .error .assert) :=
  Prod.ext rfl (show (extend noAdd 8 numbers Except.ok 6 exPeaks [5, 2, 8, 1, 4]).2 = _ by decide +kernel)

example := C124_lost _ _ _ _ _ _ _ _ _ noAdd_panics

example := C124_builtin (exAudio 12) (.audio (exAudio 8)) 6 (by rintro l ⟨⟩; rfl)

example := C124_panics_iff peak_total (conv := Except.ok) (fun _ => ⟨_, rfl⟩) (numbers_keeps [5, 2, 8, 1, 4]) 8 exPeaks
  (by decide +kernel)

end Fon.Gen
