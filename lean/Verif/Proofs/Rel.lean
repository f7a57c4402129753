import Verif.Props.Mix

/-!
# Comparing two runs of `Sink::stream`

Two runs with the same rates, lengths and offset take the same number of frames and use the same slots and weights.
A relation between the slots (`some x`) and left-over frames (`none`) of the two runs that each addition keeps holds
at the end.
-/

namespace Fon
open Fon.Sink
variable {k k1 k2 k3 : Kind} {c c1 c2 c3 : ChTy}

/-- The relation holds for all slots and for the left-over frame. -/
def RelSt (Rl : Option Nat → Frame k c → Frame k2 c2 → Prop) (s : List (Frame k c) × Frame k c)
    (t : List (Frame k2 c2) × Frame k2 c2) : Prop :=
  s.1.length = t.1.length ∧ (∀ x a b, s.1[x]? = some a → t.1[x]? = some b → Rl (some x) a b) ∧ Rl none s.2 t.2

theorem modify_rel {α β : Type} {l : List α} {m : List β} {P : Nat → α → β → Prop} (hl : l.length = m.length)
    (h : ∀ x a b, l[x]? = some a → m[x]? = some b → P x a b) (i : Nat) (f : α → α) (g : β → β)
    (hf : ∀ a b, P i a b → P i (f a) (g b)) :
    (l.modify i f).length = (m.modify i g).length ∧
    ∀ x a b, (l.modify i f)[x]? = some a → (m.modify i g)[x]? = some b → P x a b := by
  refine ⟨by simpa using hl, fun x a b ha hb => ?_⟩
  rw [List.getElem?_modify] at ha hb
  by_cases hx : i = x
  · subst hx
    cases h1 : l[i]? with
    | none => rw [h1] at ha; simp at ha
    | some a' =>
      cases h2 : m[i]? with
      | none => rw [h2] at hb; simp at hb
      | some b' =>
        rw [h1] at ha; rw [h2] at hb
        simp at ha hb
        subst ha hb
        exact hf _ _ (h i a' b' h1 h2)
  · simp [hx] at ha hb
    exact h x a b ha hb

/-- Adding one frame keeps the relation. -/
def StepRel (Rl : Option Nat → Frame k c → Frame k2 c2 → Prop) (q off : F64) (d j : Nat) (x : Frame k c)
    (y : Frame k2 c2) : Prop :=
  (∀ a b, Rl (some (posOf q off j).toUsize) a b → Rl (some (posOf q off j).toUsize)
    (a.add (x.mul (Frame.ofF64 (loWeight q off j)))) (b.add (y.mul (Frame.ofF64 (loWeight q off j))))) ∧
  (∀ o, (o = none ∧ ¬ hiSlot (posOf q off j) < d ∨ o = some (hiSlot (posOf q off j)) ∧ hiSlot (posOf q off j) < d) →
    ∀ a b, Rl o a b →
      Rl o (a.add (x.mul (Frame.ofF64 (hiWeight q off j)))) (b.add (y.mul (Frame.ofF64 (hiWeight q off j)))))

theorem place_rel {Rl : Option Nat → Frame k c → Frame k2 c2 → Prop} {q off : F64} {d j : Nat} {x : Frame k c}
    {y : Frame k2 c2} (h : StepRel Rl q off d j x y) {s t} (hst : RelSt Rl s t) :
    RelSt Rl (place q off d j x s) (place q off d j y t) := by
  obtain ⟨h1, h2⟩ := h
  obtain ⟨e, hb, hp⟩ := hst
  have hs : ceilU (Sink.pos q off j) = hiSlot (posOf q off j) := (hiSlot_eq _).symm
  obtain ⟨e1, b1⟩ := modify_rel (P := fun x => Rl (some x)) e hb (posOf q off j).toUsize _ _ h1
  unfold place
  dsimp only
  rw [hs]
  split
  · rename_i hlt
    obtain ⟨e2, b2⟩ := modify_rel (P := fun x => Rl (some x)) e1 b1 (hiSlot (posOf q off j)) _ _
      (h2 _ (.inr ⟨rfl, hlt⟩))
    exact ⟨e2, b2, hp⟩
  · rename_i hlt
    exact ⟨e1, b1, h2 _ (.inl ⟨rfl, hlt⟩) _ _ hp⟩

theorem placeN_rel {Rl : Option Nat → Frame k c → Frame k2 c2 → Prop} {q off : F64} {d : Nat} {g : Nat → Frame k c}
    {g2 : Nat → Frame k2 c2} (i n : Nat) (h : ∀ j, i ≤ j → j < i + n → StepRel Rl q off d j (g j) (g2 j)) {s t}
    (hst : RelSt Rl s t) : RelSt Rl (placeN q off d g i n s) (placeN q off d g2 i n t) := by
  induction n generalizing i s t with
  | zero => exact hst
  | succ n ih =>
    rw [placeN, placeN]
    exact ih _ (fun j a b => h j (by omega) (by omega)) (place_rel (h i (by omega) (by omega)) hst)

/-- Two runs of `Sink::stream`. -/
theorem stream_rel {fuel fuel2 : Nat} {s s' : Sink k c} {t t' : Sink k2 c2} {st : Src k1 c1} {st2 : Src k3 c3} {it it2}
    (h : s.stream fuel st = .ok (s', it)) (h2 : t.stream fuel2 st2 = .ok (t', it2))
    (hr : t.rate = s.rate) (ho : t.res.offseti = s.res.offseti) (hb : t.buf.length = s.buf.length)
    (hr2 : st2.rate = st.rate) (hl2 : st2.len = st.len)
    (Rl : Option Nat → Frame k c → Frame k2 c2 → Prop) :
    let q := ratioOf s.rate st.rate
    let off := s.res.offseti
    let d := dstEnd q st.len s.buf.length
    ∃ n, Takes q off st.len s.buf.length n ∧ t'.res.offseti = s'.res.offseti ∧
      ((∀ j, j < n → ∀ f f2 x y, st.nth j = .ok (some f) → st2.nth j = .ok (some f2) → f.convert c = .ok x →
        f2.convert c2 = .ok y → StepRel Rl q off d j x y) →
      RelSt Rl ((s.prepare d).buf, s.res.partial_) ((t.prepare d).buf, t.res.partial_) →
      RelSt Rl (s'.buf, s'.res.partial_) (t'.buf, t'.res.partial_)) := by
  intro q off d
  obtain ⟨_, n, g, _, _, a3, a4, a5, a6, a7, _⟩ := stream_takes fuel s s' _ it h
  obtain ⟨_, m, g2, _, _, b3, b4, b5, b6, b7, _⟩ := stream_takes fuel2 t t' _ it2 h2
  rw [hr, ho, hb, hr2, hl2] at b3 b5
  rw [hr, ho, hr2] at b7
  cases takes_unique a3 b3
  refine ⟨n, a3, by rw [a7, b7], fun hs hi => ?_⟩
  rw [a5, b5]
  refine placeN_rel 0 n (fun j _ hj => ?_) hi
  obtain ⟨f, f1, f2⟩ := a4 j (by omega)
  obtain ⟨f', f3, f4⟩ := b4 j (by omega)
  exact hs j (by omega) f f' _ _ f1 f3 f2 f4

/-- The state after clearing. -/
theorem prepare_rel {Rl : Option Nat → Frame k c → Frame k2 c2 → Prop} {s : Sink k c} {t : Sink k2 c2} {d : Nat}
    (hd : d ≤ s.buf.length) (hb : t.buf.length = s.buf.length) (hp : Rl none s.res.partial_ t.res.partial_)
    (h0 : ∀ x, x < d → Rl (some x) Frame.dflt Frame.dflt)
    (h1 : d = 0 → ∀ a b, s.buf[0]? = some a → t.buf[0]? = some b →
      Rl (some 0) (a.add s.res.partial_) (b.add t.res.partial_))
    (h2 : ∀ x, d ≤ x → 0 < x → ∀ a b, s.buf[x]? = some a → t.buf[x]? = some b → Rl (some x) a b) :
    RelSt Rl ((s.prepare d).buf, s.res.partial_) ((t.prepare d).buf, t.res.partial_) := by
  refine ⟨by simp only [prepare_length, hb], fun x a b ha hb' => ?_, hp⟩
  simp only at ha hb'
  rcases Nat.lt_or_ge x d with hx | hx
  · rw [prepare_in _ _ _ hx hd] at ha
    rw [prepare_in _ _ _ hx (by omega)] at hb'
    cases ha; cases hb'
    exact h0 x hx
  · rw [prepare_other _ _ _ hx] at ha hb'
    by_cases hz : x = 0
    · subst hz
      rw [if_pos rfl] at ha hb'
      cases e1 : s.buf[0]? with
      | none => rw [e1] at ha; cases ha
      | some a' =>
        cases e2 : t.buf[0]? with
        | none => rw [e2] at hb'; cases hb'
        | some b' =>
          rw [e1] at ha; rw [e2] at hb'
          cases ha; cases hb'
          exact h1 (by omega) a' b' e1 e2
    · rw [if_neg hz] at ha hb'
      exact h2 x hx (by omega) a b ha hb'

end Fon
