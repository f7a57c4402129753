import Verif.Spec.GenericAdapt
import Verif.Props.Generic

/-!
# C126: `take` and `blend` of streams that the user defines
-/

namespace Fon.Gen
variable {F G S S' T T' τ τ' ι ι' υ υ' κ κ' : Type}

/-- C126: `take` of any stream gives the frames that the stream gives to as many calls of `next`, panics included; the
stream is not asked for more. -/
theorem C126_take (M : StreamImpl τ ι S) (n m : Nat) (it : ι) :
    Both (fun a b => a.1 = b.1 ∧ a.2.1 = b.2) (takes (takeImpl M) m (it, n)) (takes M (min m n) it) := by
  induction m generalizing n it with
  | zero => rw [Nat.zero_min]; exact ⟨rfl, rfl⟩
  | succ m ih =>
    cases n with
    | zero => rw [Nat.min_zero]; exact ⟨rfl, rfl⟩
    | succ n =>
      rw [Nat.succ_min_succ]
      unfold takes
      rw [show (takeImpl M).next (it, n + 1) = (M.next it).map fun x => (x.1, x.2, n) from rfl]
      cases M.next it with
      | error e => exact rfl
      | ok x =>
        obtain ⟨o, it'⟩ := x
        cases o with
        | none => exact ⟨rfl, rfl⟩
        | some x => exact (ih n it').map fun a b h => ⟨by rw [h.1], h.2⟩

/-- The shorter of a length and a number. -/
def cap (len : Option Nat) (n : Nat) : Nat :=
  match len with
  | some a => min a n
  | none => n

theorem lt_cap (len : Option Nat) (n p : Nat) : p < cap len n ↔ p < n ∧ Before p len := by
  cases len with
  | none => exact ⟨fun h => ⟨h, fun _ h => nomatch h⟩, And.left⟩
  | some a =>
    exact ⟨fun h => ⟨lt_of_lt_of_le h (min_le_right _ _), fun l hl => by cases hl; exact lt_of_lt_of_le h (min_le_left _ _)⟩,
      fun h => lt_min (h.2 _ rfl) h.1⟩

/-- C126: `take` of a stream that keeps its word keeps its word. -/
theorem C126_take_plays {M : StreamImpl τ ι S} {st : τ} {len : Option Nat} {f : Nat → S} {inv : Nat → ι → Prop}
    (h : Plays M st len f inv) (n : Nat) : ∃ l inv', Plays (takeImpl M) (st, n) (some l) f inv' ∧
      ∀ p, p < l ↔ p < n ∧ Before p len := by
  obtain ⟨h1, ⟨it, h2, h3⟩, h4⟩ := h
  refine ⟨cap len n, fun p it => inv p it.1 ∧ (p + it.2 = n ∨ ¬ Before p len), ⟨?_, ?_, ?_⟩, lt_cap len n⟩
  · rw [← h1]; rfl
  · refine ⟨(it, n), ?_, h3, .inl (Nat.zero_add n)⟩
    show (M.iter st).map _ = _
    rw [h2]; rfl
  · rintro p ⟨it, r⟩ ⟨hi, hr⟩
    dsimp only at hi hr
    have hb : Before p (some (cap len n)) ↔ p < n ∧ Before p len := by
      rw [← lt_cap]; exact ⟨fun h => h _ rfl, fun h l hl => by cases hl; exact h⟩
    rw [hb]
    cases r with
    | zero =>
      refine ⟨fun h => ?_, fun _ => ⟨(it, 0), rfl, hi, hr⟩⟩
      rcases hr with hr | hr
      · exact absurd h.1 (by omega)
      · exact absurd h.2 hr
    | succ r =>
      have hs : (takeImpl M).next (it, r + 1) = (M.next it).map fun x => (x.1, x.2, r) := rfl
      rw [hs]
      constructor
      · intro h
        obtain ⟨it', h5, h6⟩ := (h4 p it hi).1 h.2
        rw [h5]
        exact ⟨(it', r), rfl, h6, hr.elim (fun h => .inl (by omega)) fun h' => absurd h.2 h'⟩
      · intro h
        have hp : ¬ Before p len := hr.elim (fun h' hp => h ⟨by omega, hp⟩) id
        obtain ⟨it', h5, h6⟩ := (h4 p it hi).2 hp
        rw [h5]
        exact ⟨(it', r), rfl, h6, .inr hp⟩

theorem blend_next (M : StreamImpl τ ι S) (L : StreamImpl τ' ι' T) (mix : S → T → R S) (a : ι) (b : ι') :
    (blendImpl M L mix).next (a, b) = match M.next a with
      | .error e => .error e
      | .ok (none, a) => .ok (none, a, b)
      | .ok (some x, a) => match L.next b with
        | .error e => .error e
        | .ok (none, b) => .ok (none, a, b)
        | .ok (some y, b) => match mix x y with
          | .error e => .error e
          | .ok z => .ok (some z, a, b) := by
  show (M.next a >>= _) = _
  cases M.next a with
  | error e => rfl
  | ok x =>
    obtain ⟨o, a'⟩ := x
    cases o with
    | none => rfl
    | some x =>
      show (L.next b >>= _) = _
      dsimp only
      cases L.next b with
      | error e => rfl
      | ok y =>
        obtain ⟨o, b'⟩ := y
        cases o with
        | none => rfl
        | some y =>
          show (mix x y >>= _) = _
          dsimp only
          cases mix x y <;> rfl

/-- C126: the blend of two streams that keep their word yields the mix of their frames, as long as both last. -/
theorem C126_blend_plays {M : StreamImpl τ ι S} {L : StreamImpl τ' ι' T} {st : τ} {st' : τ'} {len len' : Option Nat}
    {f : Nat → S} {g : Nat → T} {inv : Nat → ι → Prop} {inv' : Nat → ι' → Prop} (h : Plays M st len f inv)
    (h' : Plays L st' len' g inv') (mix : S → T → R S) (m : Nat → S)
    (hm : ∀ p, Before p len → Before p len' → mix (f p) (g p) = .ok (m p)) :
    ∃ l inv'', Plays (blendImpl M L mix) (st, st') l m inv'' ∧ ∀ p, Before p l ↔ Before p len ∧ Before p len' := by
  obtain ⟨h1, ⟨it, h2, h3⟩, h4⟩ := h
  obtain ⟨h1', ⟨it', h2', h3'⟩, h4'⟩ := h'
  have hl : ∀ p, Before p ((blendImpl M L mix).len (st, st')) ↔ Before p len ∧ Before p len' := by
    intro p
    subst h1 h1'
    cases ha : M.len st <;> cases hb : L.len st' <;> simp [Before, blendImpl, ha, hb]
  refine ⟨(blendImpl M L mix).len (st, st'),
    fun p it => inv' p it.2 ∧ (inv p it.1 ∨ ¬ Before p len' ∧ ∃ q, inv q it.1), ⟨rfl, ⟨(it, it'), ?_, h3', .inl h3⟩, ?_⟩, hl⟩
  · show (M.iter st >>= fun a => L.iter st' >>= fun b => pure (a, b)) = _
    rw [h2, h2']; rfl
  · rintro p ⟨ia, ib⟩ ⟨hb, ha⟩
    dsimp only at ha hb
    rw [hl]
    have ha' : ∃ q, inv q ia := ha.elim (fun h => ⟨p, h⟩) And.right
    rw [blend_next]
    constructor
    · intro h
      have ha := ha.resolve_right fun h' => h'.1 h.2
      obtain ⟨ia', e1, i1⟩ := (h4 p ia ha).1 h.1
      obtain ⟨ib', e2, i2⟩ := (h4' p ib hb).1 h.2
      refine ⟨(ia', ib'), ?_, i2, .inl i1⟩
      rw [e1]
      dsimp only
      rw [e2]
      dsimp only
      rw [hm p h.1 h.2]
    · intro h
      by_cases hb' : Before p len'
      · have ha := ha.resolve_right fun h' => h'.1 hb'
        obtain ⟨ia', e1, i1⟩ := (h4 p ia ha).2 fun h' => h ⟨h', hb'⟩
        exact ⟨(ia', ib), by rw [e1], hb, .inl i1⟩
      · obtain ⟨q, hq⟩ := ha'
        by_cases hq' : Before q len
        · obtain ⟨ia', e1, i1⟩ := (h4 q ia hq).1 hq'
          obtain ⟨ib', e2, i2⟩ := (h4' p ib hb).2 hb'
          refine ⟨(ia', ib'), ?_, i2, .inr ⟨hb', _, i1⟩⟩
          rw [e1]
          dsimp only
          rw [e2]
        · obtain ⟨ia', e1, i1⟩ := (h4 q ia hq).2 hq'
          exact ⟨(ia', ib), by rw [e1], hb, .inr ⟨hb', _, i1⟩⟩

/-- C126: `blend` panics exactly if both rates are given and differ, or one is given and `set_sample_rate` of the other stream
panics. -/
theorem C126_panics_iff (M : StreamImpl τ ι S) (L : StreamImpl τ' ι' T) (st : τ) (st' : τ') :
    (∃ e, blend M L st st' = .error e) ↔
      (∃ x y, M.rate st = some x ∧ L.rate st' = some y ∧ x.eq y = false) ∨
      (∃ y e, M.rate st = none ∧ L.rate st' = some y ∧ M.setRate st y = .error e) ∨
      (∃ x e, M.rate st = some x ∧ L.rate st' = none ∧ L.setRate st' x = .error e) := by
  unfold blend
  cases M.rate st with
  | none =>
    cases L.rate st' with
    | none => simp [Src.optEq]
    | some y => cases hs : M.setRate st y <;> simp [Src.optEq, hs, Except.map]
  | some x =>
    cases L.rate st' with
    | none => cases hs : L.setRate st' x <;> simp [Src.optEq, hs, Except.map]
    | some y => cases hs : x.eq y <;> simp [Src.optEq, hs]

section
variable {k k' : Kind} {c c' : ChTy}

/-- C126: with the streams of the crate these are the adaptors of the other claims. -/
theorem C126_builtin_take {G : Type} (conv : Frame k c → R G) :
    StreamRel (takeImpl (streamImpl k c)) (streamImpl k c) conv conv (· = ·) (fun a s => s = .take a.1 a.2)
      (fun a it => it = .take a.1 a.2) where
  rate := by rintro ⟨s, n⟩ _ rfl; rfl
  len := by
    rintro ⟨s, n⟩ _ rfl
    show some (cap s.len n) = (Src.take s n).len
    rw [Src.len]
    cases s.len <;> rfl
  setRate := by
    rintro ⟨s, n⟩ _ r rfl _
    show Both _ ((s.setRate r).map _) ((Src.take s n).setRate r)
    rw [Src.setRate]
    cases s.setRate r <;> exact rfl
  iter := by rintro ⟨s, n⟩ _ rfl; exact rfl
  next := by
    rintro ⟨it, n⟩ _ rfl
    cases n with
    | zero => exact ⟨rfl, trivial⟩
    | succ n =>
      show Both _ ((it.next).map _) ((It.take it (n + 1)).next)
      rw [It.next]
      cases it.next with
      | error e => exact rfl
      | ok x =>
        obtain ⟨o, it'⟩ := x
        refine ⟨rfl, ?_⟩
        cases o with
        | none => trivial
        | some x => exact Both.refl (fun _ => rfl) _

/-- What `BlendStream` does with a pair of frames of the crate (streaming.rs:238). -/
def mixOf (op : Blend) (x : Frame k c) (y : Frame k' c') : R (Frame k c) := do
  let y ← y.convert c
  op.mixFrames x y

theorem C126_builtin_blend {G : Type} (op : Blend) (conv : Frame k c → R G) :
    StreamRel (blendImpl (streamImpl k c) (streamImpl k' c') (mixOf op)) (streamImpl k c) conv conv (· = ·)
      (fun a s => s = .blend a.1 a.2 op) (fun a it => it = .blend a.1 a.2 op) where
  rate := by rintro ⟨a, b⟩ _ rfl; rfl
  len := by
    rintro ⟨a, b⟩ _ rfl
    show (match a.len, b.len with
      | none, none => none
      | none, some l => some l
      | some l, none => some l
      | some a, some b => some (min a b)) = (Src.blend a b op).len
    rw [Src.len]
    cases a.len <;> cases b.len <;> rfl
  setRate := by
    rintro ⟨a, b⟩ _ r rfl _
    show Both _ (a.setRate r >>= fun a => b.setRate r >>= fun b => pure (a, b)) ((Src.blend a b op).setRate r)
    rw [Src.setRate]
    cases a.setRate r with
    | error e => exact rfl
    | ok a => cases b.setRate r <;> exact rfl
  iter := by rintro ⟨a, b⟩ _ rfl; exact rfl
  next := by
    rintro ⟨a, b⟩ _ rfl
    rw [blend_next]
    dsimp only [streamImpl]
    rw [It.next]
    cases a.next with
    | error e => exact rfl
    | ok x =>
      obtain ⟨o, a'⟩ := x
      cases o with
      | none => exact ⟨rfl, trivial⟩
      | some x =>
        dsimp only
        cases b.next with
        | error e => exact rfl
        | ok y =>
          obtain ⟨o, b'⟩ := y
          cases o with
          | none => exact ⟨rfl, trivial⟩
          | some y =>
            dsimp only [mixOf]
            cases y.convert c with
            | error e => exact rfl
            | ok y =>
              rw [show ((Except.ok y : R (Frame k c)) >>= fun y => op.mixFrames x y) = op.mixFrames x y from rfl]
              dsimp only
              cases op.mixFrames x y with
              | error e => exact rfl
              | ok z => exact ⟨rfl, Both.refl (fun _ => rfl) _⟩

end

/-- C126: `take` keeps streams in the relation they are in, so every law for pairs of streams carries over. -/
theorem C126_take_param {M : StreamImpl τ ι S} {L : StreamImpl τ' ι' T} {conv : S → R F} {conv' : T → R G} {P : F → G → Prop}
    {V : τ → τ' → Prop} {N : ι → ι' → Prop} (h : StreamRel M L conv conv' P V N) :
    StreamRel (takeImpl M) (takeImpl L) conv conv' P (fun a b => V a.1 b.1 ∧ a.2 = b.2) (fun a b => N a.1 b.1 ∧ a.2 = b.2) where
  rate := by rintro ⟨a, n⟩ ⟨b, _⟩ ⟨h1, rfl⟩; exact h.rate a b h1
  len := by
    rintro ⟨a, n⟩ ⟨b, _⟩ ⟨h1, rfl⟩
    show some (cap (M.len a) n) = some (cap (L.len b) n)
    rw [h.len a b h1]
  setRate := by
    rintro ⟨a, n⟩ ⟨b, _⟩ r ⟨h1, rfl⟩ h2
    exact (h.setRate a b r h1 h2).map fun _ _ h => ⟨h, rfl⟩
  iter := by
    rintro ⟨a, n⟩ ⟨b, _⟩ ⟨h1, rfl⟩
    exact (h.iter a b h1).map fun _ _ h => ⟨h, rfl⟩
  next := by
    rintro ⟨a, n⟩ ⟨b, _⟩ ⟨h1, rfl⟩
    cases n with
    | zero => exact ⟨⟨h1, rfl⟩, trivial⟩
    | succ n => exact (h.next a b h1).map fun _ _ h => ⟨⟨h.1, rfl⟩, h.2⟩

/-- A stream that keeps its word at a rate, as in `C112_returns`. -/
theorem Plays.keeps {M : StreamImpl τ ι S} {st : τ} {len : Option Nat} {f : Nat → S} {inv : Nat → ι → Prop}
    (h : Plays M st len f inv) {r : F64} (hr : M.rate st = some r) : Keeps M st r len inv := by
  obtain ⟨h1, h2, h3⟩ := h
  refine ⟨hr, h1, h2, fun p it hi => ?_⟩
  split
  · obtain ⟨it', h4, h5⟩ := (h3 p it hi).1 ‹_›
    exact ⟨_, it', h4, h5⟩
  · exact (h3 p it hi).2 ‹_›

theorem numbers_plays (st : List Nat) :
    Plays numbers st (some st.length) (fun i => st.getD i 0) (fun p it => it = st.drop p) := by
  refine ⟨rfl, ⟨st, rfl, rfl⟩, ?_⟩
  rintro p _ rfl
  have hn : numbers.next (st.drop p) = .ok (st[p]?, st.drop (p + 1)) := by
    show Except.ok ((st.drop p).head?, (st.drop p).tail) = _
    rw [List.head?_drop, List.tail_drop]
  rw [hn]
  constructor
  · intro h
    have h : p < st.length := h _ rfl
    exact ⟨_, by simp [List.getElem?_eq_getElem h], rfl⟩
  · intro h
    have h : st.length ≤ p := by
      by_contra h'
      exact h (by rintro _ ⟨⟩; omega)
    exact ⟨_, by rw [List.getElem?_eq_none h], by simp [List.drop_eq_nil_of_le h, List.drop_eq_nil_of_le (Nat.le_succ_of_le h)]⟩

/-- C126: so any sink that only keeps its outline plays the blend of two such streams without panic. -/
theorem C126_returns {A : FrameImpl F} {I : SinkImpl υ F} {conv : S → R F} (hA : A.Total) (hc : ∀ x, ∃ y, conv x = .ok y)
    {r o rate : F64} {n : Nat} {invs : F64 → υ → Prop} (hI : Steady I r n invs) {M : StreamImpl τ ι S} {L : StreamImpl τ' ι' T}
    {st : τ} {st' : τ'} {l : Nat} {len' : Option Nat} {f : Nat → S} {g : Nat → T} {inv : Nat → ι → Prop}
    {inv' : Nat → ι' → Prop} (h : Plays M st (some l) f inv) (h' : Plays L st' len' g inv') (hr : M.rate st = some rate)
    (mix : S → T → R S) (hm : ∀ p, p < l → Before p len' → ∃ z, mix (f p) (g p) = .ok z) (s : υ) (hs : invs o s) :
    ∃ fuel s' it, stream A I (blendImpl M L mix) conv fuel s (st, st') = .ok (s', it) := by
  classical
  obtain ⟨l', inv'', h1, h2⟩ := C126_blend_plays h h' mix (fun p => if hp : p < l ∧ Before p len' then
      (hm p hp.1 hp.2).choose else f p) (by
    intro p hp hp'
    rw [dif_pos ⟨hp _ rfl, hp'⟩]
    exact (hm p (hp _ rfl) hp').choose_spec)
  cases l' with
  | none => exact absurd (((h2 l).mp fun _ h => nomatch h).1 l rfl) (lt_irrefl l)
  | some l' =>
    exact ⟨l' + 1, C112_returns hA hc hI (h1.keeps hr) s hs⟩

example := C126_take numbers 2 4 [5, 2, 8]
example : takes (takeImpl numbers) 4 ([5, 2, 8], 2) = .ok ([5, 2], [8], 0) := by decide +kernel
example := C126_take_plays (numbers_plays [5, 2, 8, 1, 4]) 3
example := C126_blend_plays (numbers_plays [5, 2, 8, 1, 4]) (numbers_plays [1, 2]) (fun x y => .ok (x + y))
  (fun p => [5, 2, 8, 1, 4].getD p 0 + [1, 2].getD p 0) fun _ _ _ => rfl
example : takes (blendImpl numbers numbers fun x y => .ok (x + y)) 4 ([5, 2, 8, 1, 4], [1, 2]) = .ok ([6, 4], [1, 4], []) := by
  decide +kernel
example := C126_returns peak_total (conv := Except.ok) (fun _ => ⟨_, rfl⟩) (flipSink_steady 3) (numbers_plays [5, 2, 8, 1, 4])
  (numbers_plays [1, 2]) rfl (fun x y => .ok (x + y)) (fun _ _ _ => ⟨_, rfl⟩) exFlip rfl
example : ((stream peak (flipSink 3) (blendImpl numbers numbers fun x y => .ok (x + y)) Except.ok 6 exFlip ([5, 2, 8, 1, 4], [1, 2])).map
    fun r => (r.1.2.1.1, r.1.2.2.1, r.2)) = .ok ([9, 9, 9], [6, 7, 7], [8, 1, 4], []) := by decide +kernel
example := C126_take_param numbers_le

end Fon.Gen
