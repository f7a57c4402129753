import Verif.Spec.Fused
import Verif.Props.Drains

/-!
# Calling `next` after the end
-/

namespace Fon
variable {k k' : Kind} {c c' : ChTy}
open Fl

/-- The iterator has ended. -/
def It.ended {k : Kind} {c : ChTy} : It k c → Prop
  | .frame _ => False
  | .audio rest => rest = []
  | .drain a cur => a.frames.length ≤ cur
  | .user l _ p => ∃ n, l = some n ∧ n ≤ p
  | .take it n => n = 0 ∨ it.ended
  | .blend a b _ => a.ended ∨ b.ended

theorem next_none_ended (it it' : It k c) (h : it.next = .ok (none, it')) : it'.ended := by
  induction it with
  | frame f => cases h
  | audio rest =>
    cases rest with
    | nil => cases h; rfl
    | cons f fs => cases h
  | drain a cur =>
    simp only [It.next] at h
    split at h <;> cases h
    rename_i hn
    exact List.getElem?_eq_none_iff.mp hn
  | user l g p =>
    simp only [It.next] at h
    cases l with
    | none => cases h
    | some n =>
      simp only at h
      split at h <;> cases h
      exact ⟨n, rfl, by omega⟩
  | take it n ih =>
    simp only [It.next] at h
    cases n with
    | zero => cases h; exact .inl rfl
    | succ n =>
      simp only at h
      cases hn : it.next with
      | error e => rw [hn] at h; cases h
      | ok p =>
        obtain ⟨o, i⟩ := p
        rw [hn] at h
        cases h
        exact .inr (ih i hn)
  | blend a b op iha ihb =>
    simp only [It.next] at h
    cases ha : a.next with
    | error e => rw [ha] at h; cases h
    | ok p =>
      obtain ⟨x, a'⟩ := p
      rw [ha] at h
      cases x with
      | none => cases h; exact .inl (iha _ ha)
      | some x =>
        simp only at h
        cases hb : b.next with
        | error e => rw [hb] at h; cases h
        | ok p =>
          obtain ⟨y, b'⟩ := p
          rw [hb] at h
          cases y with
          | none => cases h; exact .inr (ihb _ hb)
          | some y =>
            simp only at h
            split at h
            · cases h
            · split at h <;> cases h

theorem next_none_was (it it' : It k c) (h : it.next = .ok (none, it')) : it.ended := by
  induction it with
  | frame f => cases h
  | audio rest =>
    cases rest with
    | nil => cases h; rfl
    | cons f fs => cases h
  | drain a cur =>
    simp only [It.next] at h
    split at h <;> cases h
    rename_i hn
    exact List.getElem?_eq_none_iff.mp hn
  | user l g p =>
    simp only [It.next] at h
    cases l with
    | none => cases h
    | some n =>
      simp only at h
      split at h <;> cases h
      exact ⟨n, rfl, by omega⟩
  | take it n ih =>
    simp only [It.next] at h
    cases n with
    | zero => cases h; exact .inl rfl
    | succ n =>
      simp only at h
      cases hn : it.next with
      | error e => rw [hn] at h; cases h
      | ok p =>
        obtain ⟨o, i⟩ := p
        rw [hn] at h
        cases h
        exact .inr (ih i hn)
  | blend a b op iha ihb =>
    simp only [It.next] at h
    cases ha : a.next with
    | error e => rw [ha] at h; cases h
    | ok p =>
      obtain ⟨x, a'⟩ := p
      rw [ha] at h
      cases x with
      | none => cases h; exact .inl (iha _ ha)
      | some x =>
        simp only at h
        cases hb : b.next with
        | error e => rw [hb] at h; cases h
        | ok p =>
          obtain ⟨y, b'⟩ := p
          rw [hb] at h
          cases y with
          | none => cases h; exact .inr (ihb _ hb)
          | some y =>
            simp only at h
            split at h
            · cases h
            · split at h <;> cases h

theorem ended_next (it it' : It k c) (o : Option (Frame k c)) (he : it.ended) (h : it.next = .ok (o, it')) :
    o = none := by
  induction it with
  | frame f => cases he
  | audio rest => cases he; cases h; rfl
  | drain a cur =>
    simp only [It.next, List.getElem?_eq_none he] at h
    cases h; rfl
  | user l g p =>
    obtain ⟨n, rfl, hn⟩ := he
    simp only [It.next, if_neg (not_lt.mpr hn)] at h
    cases h; rfl
  | take it n ih =>
    simp only [It.next] at h
    cases n with
    | zero => cases h; rfl
    | succ n =>
      rcases he with he | he
      · cases he
      simp only at h
      cases hn : it.next with
      | error e => rw [hn] at h; cases h
      | ok p =>
        obtain ⟨o', i⟩ := p
        rw [hn] at h
        cases h
        exact ih _ _ he hn
  | blend a b op iha ihb =>
    simp only [It.next] at h
    cases ha : a.next with
    | error e => rw [ha] at h; cases h
    | ok p =>
      obtain ⟨x, a'⟩ := p
      rw [ha] at h
      cases x with
      | none => cases h; rfl
      | some x =>
        rcases he with he | he
        · cases iha _ _ he ha
        simp only at h
        cases hb : b.next with
        | error e => rw [hb] at h; cases h
        | ok p =>
          obtain ⟨y, b'⟩ := p
          rw [hb] at h
          cases ihb _ _ he hb
          cases h; rfl

theorem ended_again (m : Nat) (it it' : It k c) (os : List (Option (Frame k c))) (he : it.ended)
    (h : it.again m = .ok (os, it')) : os = List.replicate m none := by
  induction m generalizing it os with
  | zero => cases h; rfl
  | succ m ih =>
    unfold It.again at h
    cases hn : it.next with
    | error e => simp only [bind, Except.bind, hn] at h; cases h
    | ok p =>
      obtain ⟨o, i⟩ := p
      cases ended_next it i o he hn
      cases hr : i.again m with
      | error e => simp only [bind, Except.bind, hn, hr] at h; cases h
      | ok q =>
        obtain ⟨os', i'⟩ := q
        simp only [bind, Except.bind, hn, hr] at h
        cases h
        rw [ih i _ (next_none_ended it i hn) hr]; rfl

/-- C120: after `None`, `next` never yields a frame again, whatever the stream is made of. -/
theorem C120_none (m : Nat) (it it' it'' : It k c) (os : List (Option (Frame k c))) (h : it.next = .ok (none, it'))
    (h' : it'.again m = .ok (os, it'')) : os = List.replicate m none :=
  ended_again m it' it'' os (next_none_ended it it' h) h'

example := C120_none 3 (exDrains .plus |>.iterAt 2) _ _ _
  (show _ = Except.ok (none, It.blend (.drain (exAudio 8) 3) (.drain exShort 2) .plus) by rfl)
  (R.returns₂ (x := (It.blend (.drain (exAudio 8) 3) (.drain exShort 2) .plus).again 3) (by decide +kernel))

/-- No operation inside the iterator panics. -/
def It.safe {k : Kind} {c : ChTy} : It k c → Prop
  | .take it _ => it.safe
  | @It.blend k k' c c' a b op => a.safe ∧ b.safe ∧ ∀ (x : Frame k c) (y : Frame k' c'),
      ∃ (z w : Frame k c), y.convert c = .ok z ∧ op.mixFrames x z = .ok w
  | _ => True

theorem safe_iter (s : Src k c) (h : s.safe = true) : s.iter.safe := by
  induction s with
  | take s n ih => exact ih h
  | @blend k k' c c' a b op iha ihb =>
    simp only [Src.safe, Bool.and_eq_true] at h
    obtain ⟨⟨⟨⟨ha, hb⟩, hk⟩, hk'⟩, hop⟩ := h
    refine ⟨iha ha, ihb hb, fun x y => ?_⟩
    obtain ⟨z, hz⟩ := C25_builtin (d := c) hk' hk y
    obtain ⟨w, hw⟩ := mixFrames_builtin op (by rintro rfl; cases hop) (by rintro m f rfl; cases hop) hk x z
    exact ⟨z, w, hz, hw⟩
  | _ => trivial

theorem safe_next (it : It k c) (h : it.safe) : ∃ o it', it.next = .ok (o, it') ∧ it'.safe := by
  induction it with
  | frame f => exact ⟨_, _, rfl, trivial⟩
  | audio rest => cases rest <;> exact ⟨_, _, rfl, trivial⟩
  | drain a cur =>
    simp only [It.next]
    split <;> exact ⟨_, _, rfl, trivial⟩
  | user l g p =>
    simp only [It.next]
    cases l with
    | none => exact ⟨_, _, rfl, trivial⟩
    | some n => simp only; split <;> exact ⟨_, _, rfl, trivial⟩
  | take it n ih =>
    cases n with
    | zero => exact ⟨_, _, rfl, h⟩
    | succ n =>
      obtain ⟨o, i, h1, h2⟩ := ih h
      simp only [It.next, h1]
      exact ⟨_, _, rfl, h2⟩
  | blend a b op iha ihb =>
    obtain ⟨ha, hb, hop⟩ := h
    obtain ⟨x, a', h1, h2⟩ := iha ha
    simp only [It.next, h1]
    cases x with
    | none => exact ⟨_, _, rfl, h2, hb, hop⟩
    | some x =>
      obtain ⟨y, b', h3, h4⟩ := ihb hb
      simp only [h3]
      cases y with
      | none => exact ⟨_, _, rfl, h2, h4, hop⟩
      | some y =>
        obtain ⟨z, w, hz, hw⟩ := hop x y
        simp only [hz, hw]
        exact ⟨_, _, rfl, h2, h4, hop⟩

theorem safe_again (m : Nat) (it : It k c) (h : it.safe) : ∃ os it', it.again m = .ok (os, it') := by
  induction m generalizing it with
  | zero => exact ⟨_, _, rfl⟩
  | succ m ih =>
    obtain ⟨o, i, h1, h2⟩ := safe_next it h
    obtain ⟨os, i', h3⟩ := ih i h2
    unfold It.again
    simp only [bind, Except.bind, h1, h3]
    exact ⟨_, _, rfl⟩

theorem run_safe (m : Nat) (it it' : It k c) (fs : List (Frame k c)) (hs : it.safe) (h : it.run m = .ok (fs, it')) :
    it'.safe ∧ (fs.length < m → it'.ended) := by
  induction m generalizing it fs with
  | zero => cases h; exact ⟨hs, fun h => by simp at h⟩
  | succ m ih =>
    unfold It.run at h
    obtain ⟨o, i, h1, h2⟩ := safe_next it hs
    cases o with
    | none =>
      simp only [bind, Except.bind, h1] at h
      cases h
      exact ⟨h2, fun _ => next_none_ended it _ h1⟩
    | some f =>
      cases hr : i.run m with
      | error e => simp only [bind, Except.bind, h1, hr] at h; cases h
      | ok p =>
        obtain ⟨gs, i'⟩ := p
        simp only [bind, Except.bind, h1, hr] at h
        cases h
        obtain ⟨h3, h4⟩ := ih i gs h2 hr
        exact ⟨h3, fun h => h4 (by simpa using h)⟩

/-- C120: a stream of built-in layouts and operations that has ended returns `None` as often as it is asked, without
panicking. -/
theorem C120_safe (m n : Nat) (st : Src k c) (fs : List (Frame k c)) (it : It k c) (hs : st.safe = true)
    (h : st.iter.run m = .ok (fs, it)) (hm : fs.length < m) :
    ∃ it', it.again n = .ok (List.replicate n none, it') := by
  obtain ⟨h1, h2⟩ := run_safe m _ it fs (safe_iter st hs) h
  obtain ⟨os, it', h3⟩ := safe_again n it h1
  rw [ended_again n it it' os (h2 hm) h3] at h3
  exact ⟨it', h3⟩

example := C120_safe 9 3 (exDrains .plus) _ _ rfl (R.returns₂ (x := (exDrains .plus).iter.run 9) (by decide +kernel))
  (by decide +kernel)

/-- No buffer is drained in the first part of a blend. -/
def It.dry {k : Kind} {c : ChTy} : It k c → Prop
  | .take it _ => it.dry
  | .blend a b _ => a.dropped = [] ∧ b.dry
  | _ => True

theorem dry_iterAt (s : Src k c) (n : Nat) (h : s.dry = true) : (s.iterAt n).dry := by
  induction s with
  | take s m ih => exact ih h
  | blend a b op iha ihb =>
    simp only [Src.dry, Bool.and_eq_true, List.isEmpty_iff] at h
    exact ⟨by rw [dropped_iterAt, h.1]; rfl, ihb h.2⟩
  | _ => trivial

theorem next_nil (it it' : It k c) (o : Option (Frame k c)) (hd : it.dropped = []) (h : it.next = .ok (o, it')) :
    it'.dropped = [] := by
  induction it with
  | frame f => cases h; rfl
  | audio rest => cases rest <;> cases h <;> rfl
  | drain a cur => cases hd
  | user l g p =>
    simp only [It.next] at h
    cases l with
    | none => cases h; rfl
    | some n => simp only at h; split at h <;> cases h <;> rfl
  | take it n ih =>
    cases n with
    | zero => cases h; exact hd
    | succ n =>
      simp only [It.next] at h
      cases hn : it.next with
      | error e => rw [hn] at h; cases h
      | ok p => obtain ⟨o', i⟩ := p; rw [hn] at h; cases h; exact ih i _ hd hn
  | blend a b op iha ihb =>
    obtain ⟨da, db⟩ := List.append_eq_nil_iff.mp (show a.dropped ++ b.dropped = [] from hd)
    simp only [It.next] at h
    cases ha : a.next with
    | error e => rw [ha] at h; cases h
    | ok p =>
      obtain ⟨x, a'⟩ := p
      have da' := iha _ _ da ha
      rw [ha] at h
      cases x with
      | none => cases h; simp [It.dropped, da', db]
      | some x =>
        simp only at h
        cases hb : b.next with
        | error e => rw [hb] at h; cases h
        | ok p =>
          obtain ⟨y, b'⟩ := p
          have db' := ihb _ _ db hb
          rw [hb] at h
          cases y with
          | none => cases h; simp [It.dropped, da', db']
          | some y =>
            simp only at h
            split at h
            · cases h
            · split at h <;> cases h
              simp [It.dropped, da', db']

theorem dry_next (it it' : It k c) (o : Option (Frame k c)) (hd : it.dry) (he : it.ended) (h : it.next = .ok (o, it')) :
    it'.dropped = it.dropped ∧ it'.dry := by
  induction it with
  | frame f => cases he
  | audio rest => cases he; cases h; exact ⟨rfl, trivial⟩
  | drain a cur =>
    simp only [It.next, List.getElem?_eq_none he] at h
    cases h; exact ⟨rfl, trivial⟩
  | user l g p =>
    obtain ⟨n, rfl, hn⟩ := he
    simp only [It.next, if_neg (not_lt.mpr hn)] at h
    cases h; exact ⟨rfl, trivial⟩
  | take it n ih =>
    cases n with
    | zero => cases h; exact ⟨rfl, hd⟩
    | succ n =>
      rcases he with he | he
      · cases he
      simp only [It.next] at h
      cases hn : it.next with
      | error e => rw [hn] at h; cases h
      | ok p => obtain ⟨o', i⟩ := p; rw [hn] at h; cases h; exact ih i _ hd he hn
  | blend a b op iha ihb =>
    obtain ⟨da, db⟩ := hd
    simp only [It.next] at h
    cases ha : a.next with
    | error e => rw [ha] at h; cases h
    | ok p =>
      obtain ⟨x, a'⟩ := p
      have da' := next_nil _ _ _ da ha
      rw [ha] at h
      cases x with
      | none => cases h; exact ⟨by simp [It.dropped, da', da], da', db⟩
      | some x =>
        rcases he with he | he
        · cases ended_next _ _ _ he ha
        simp only at h
        cases hb : b.next with
        | error e => rw [hb] at h; cases h
        | ok p =>
          obtain ⟨y, b'⟩ := p
          obtain ⟨h1, h2⟩ := ihb _ _ db he hb
          rw [hb] at h
          cases ended_next _ _ _ he hb
          cases h
          exact ⟨by simp [It.dropped, da', da, h1], da', h2⟩

theorem dry_again (m : Nat) (it it' : It k c) (os : List (Option (Frame k c))) (hd : it.dry) (he : it.ended)
    (h : it.again m = .ok (os, it')) : it'.dropped = it.dropped := by
  induction m generalizing it os with
  | zero => cases h; rfl
  | succ m ih =>
    unfold It.again at h
    cases hn : it.next with
    | error e => simp only [bind, Except.bind, hn] at h; cases h
    | ok p =>
      obtain ⟨o, i⟩ := p
      obtain ⟨h1, h2⟩ := dry_next it i o hd he hn
      cases ended_next it i o he hn
      cases hr : i.again m with
      | error e => simp only [bind, Except.bind, hn, hr] at h; cases h
      | ok q =>
        obtain ⟨os', i'⟩ := q
        simp only [bind, Except.bind, hn, hr] at h
        cases h
        rw [ih i _ h2 (next_none_ended it i hn) hr, h1]

theorem run_last (m i : Nat) (st : Src k c) (fs : List (Frame k c)) (it : It k c)
    (h : (st.iterAt i).run m = .ok (fs, it)) (hm : fs.length < m) :
    (st.iterAt (i + fs.length)).next = .ok (none, it) := by
  induction m generalizing i fs with
  | zero => cases hm
  | succ m ih =>
    unfold It.run at h
    cases hn : st.nth i with
    | error e => rw [st.next_err i e hn] at h; cases h
    | ok o =>
      cases o with
      | none =>
        obtain ⟨it', hi⟩ := st.next_none i hn
        rw [hi] at h
        cases h
        exact hi
      | some f =>
        rw [st.next_some i f hn] at h
        cases hr : (st.iterAt (i + 1)).run m with
        | error e => simp only [bind, Except.bind, hr] at h; cases h
        | ok p =>
          obtain ⟨gs, it'⟩ := p
          simp only [bind, Except.bind, hr] at h
          cases h
          have := ih (i + 1) gs hr (by simpa using hm)
          rwa [show i + 1 + gs.length = i + (gs.length + 1) by omega] at this

/-- C120: if no buffer is drained in the first part of a blend, nothing else happens either: the drained buffers lack the
frames that were yielded, no others. -/
theorem C120_partial (m n : Nat) (st : Src k c) (fs : List (Frame k c)) (os : List (Option (Frame k c))) (it it' : It k c)
    (hd : st.dry = true) (h : st.iter.run m = .ok (fs, it)) (hm : fs.length < m) (h' : it.again n = .ok (os, it')) :
    os = List.replicate n none ∧ it'.dropped = st.drains.map (behead fs.length) := by
  rw [← Src.iterAt_zero] at h
  have h1 := run_last m 0 st fs it h hm
  rw [Nat.zero_add] at h1
  have he := next_none_ended _ _ h1
  obtain ⟨h2, h3⟩ := dry_next _ _ _ (dry_iterAt st _ hd) (next_none_was _ _ h1) h1
  rw [dry_again n it it' os h3 he h', h2, dropped_iterAt]
  exact ⟨ended_again n it it' os he h', rfl⟩

/-- A drained buffer in the second part of a blend, taken. -/
def exDry : Src .mono .ch8 := .take (.blend (.audio (exAudio 8)) (.drain exShort) .plus) 1

example := C120_partial 9 3 exDry _ _ _ _ rfl (R.returns₂ (x := exDry.iter.run 9) (by decide +kernel))
  (by decide +kernel) (R.returns₂ (x := ((exDry.iter.run 9).out (by decide +kernel)).2.again 3) (by decide +kernel))

theorem drains_again (a : Audio k c) (b : Audio k' c') (op : Blend) (n i j : Nat) (hj : b.frames.length ≤ j)
    (os : List (Option (Frame k c))) (it' : It k c) (h : (It.blend (.drain a i) (.drain b j) op).again n = .ok (os, it')) :
    it'.dropped = [⟨k, c, ⟨a.rate, a.frames.drop (i + n)⟩⟩, ⟨k', c', ⟨b.rate, []⟩⟩] := by
  induction n generalizing i os with
  | zero => cases h; simp [It.dropped, List.drop_eq_nil_of_le hj]
  | succ n ih =>
    unfold It.again at h
    cases ha : a.frames[i]? with
    | none =>
      have hi : a.frames.length ≤ i := List.getElem?_eq_none_iff.mp ha
      simp only [It.next, ha, bind, Except.bind] at h
      cases hr : (It.blend (.drain a i) (.drain b j) op).again n with
      | error e => rw [hr] at h; cases h
      | ok q =>
        obtain ⟨os', i'⟩ := q
        rw [hr] at h
        cases h
        rw [ih i os' hr, List.drop_eq_nil_of_le (by omega), List.drop_eq_nil_of_le (by omega)]
    | some f =>
      simp only [It.next, ha, List.getElem?_eq_none hj, bind, Except.bind] at h
      cases hr : (It.blend (.drain a (i + 1)) (.drain b j) op).again n with
      | error e => rw [hr] at h; cases h
      | ok q =>
        obtain ⟨os', i'⟩ := q
        rw [hr] at h
        cases h
        rw [ih (i + 1) os' hr, show i + 1 + n = i + (n + 1) by omega]

/-- C120: otherwise every further call takes a frame out of the longer first buffer, though it returns `None`. -/
theorem C120_actual (m n : Nat) (a : Audio k c) (b : Audio k' c') (op : Blend) (fs : List (Frame k c))
    (os : List (Option (Frame k c))) (it it' : It k c)
    (h : (Src.blend (.drain a) (.drain b) op).iter.run m = .ok (fs, it)) (hm : fs.length < m)
    (hl : b.frames.length < a.frames.length) (h' : it.again n = .ok (os, it')) :
    os = List.replicate n none ∧
      it'.dropped = [⟨k, c, ⟨a.rate, a.frames.drop (b.frames.length + 1 + n)⟩⟩, ⟨k', c', ⟨b.rate, []⟩⟩] := by
  have hlen : fs.length = b.frames.length := (C118_actual m a b op fs it h hm hl).1
  rw [← Src.iterAt_zero] at h
  have h1 := run_last m 0 _ fs it h hm
  rw [Nat.zero_add, hlen] at h1
  refine ⟨ended_again n it it' os (next_none_ended _ _ h1) h', ?_⟩
  simp only [Src.iterAt, It.next, List.getElem?_eq_getElem hl, List.getElem?_eq_none (le_refl _)] at h1
  cases h1
  exact drains_again a b op n _ _ (le_refl _) os it' h'

example := C120_actual 9 1 (exAudio 8) exShort .plus _ _ _ _
  (R.returns₂ (x := (Src.blend (.drain (exAudio 8)) (.drain exShort) .plus).iter.run 9) (by decide +kernel))
  (by decide +kernel) (by decide +kernel)
  (R.returns₂ (x := (((Src.blend (.drain (exAudio 8)) (.drain exShort) .plus).iter.run 9).out (by decide +kernel)).2.again 1)
    (by decide +kernel))

/-- C120 is false: two more calls of `next` after `None` lose two more frames. -/
theorem C120_false : ¬ ∀ (m n : Nat) (st : Src .mono .ch8) (fs : List (Frame .mono .ch8))
    (os : List (Option (Frame .mono .ch8))) (it it' : It .mono .ch8), st.iter.run m = .ok (fs, it) → fs.length < m →
    it.again n = .ok (os, it') → it'.dropped = it.dropped := by
  intro hall
  have h1 := R.returns₂ (x := (exDrains .plus).iter.run 9) (by decide +kernel)
  have h2 := R.returns₂ (x := (((exDrains .plus).iter.run 9).out (by decide +kernel)).2.again 2) (by decide +kernel)
  have := hall 9 2 (exDrains .plus) _ _ _ _ h1 (by decide +kernel) h2
  have h3 := congrArg (List.map fun x => x.2.2.frames.length) this
  revert h3
  decide +kernel

end Fon
