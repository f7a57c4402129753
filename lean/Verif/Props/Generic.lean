import Verif.Spec.Generic
import Verif.Props.Sink
import Mathlib.Data.List.Forall2

/-!
# C112: user-defined frames, sinks and streams
-/

namespace Fon.Gen
variable {F G S T σ σ' τ τ' ι ι' : Type}

section
variable {α β α' β' : Type}

theorem Both.bind {Q : α → β → Prop} {Q' : α' → β' → Prop} {x : R α} {y : R β} {f : α → R α'} {g : β → R β'}
    (h : Both Q x y) (hf : ∀ a b, Q a b → Both Q' (f a) (g b)) : Both Q' (x >>= f) (y >>= g) := by
  cases x <;> cases y
  · exact h
  · exact h.elim
  · exact h.elim
  · exact hf _ _ h

theorem Both.map {Q : α → β → Prop} {Q' : α' → β' → Prop} {x : R α} {y : R β} {f : α → α'} {g : β → β'}
    (h : Both Q x y) (hf : ∀ a b, Q a b → Q' (f a) (g b)) : Both Q' (x.map f) (y.map g) := by
  cases x <;> cases y
  · exact h
  · exact h.elim
  · exact h.elim
  · exact hf _ _ h

theorem Both.mono {Q Q' : α → β → Prop} {x : R α} {y : R β} (h : Both Q x y) (hf : ∀ a b, Q a b → Q' a b) : Both Q' x y := by
  cases x <;> cases y
  · exact h
  · exact h
  · exact h
  · exact hf _ _ h

theorem Both.refl {Q : α → α → Prop} (h : ∀ a, Q a a) (x : R α) : Both Q x x := by
  cases x
  · rfl
  · exact h _

theorem Both.eq {x y : R α} (h : Both (fun a b => a = b) x y) : x = y := by
  cases x <;> cases y
  · exact congrArg _ h
  · exact h.elim
  · exact h.elim
  · exact congrArg _ h

end

variable {A : FrameImpl F} {B : FrameImpl G} {I : SinkImpl σ F} {J : SinkImpl σ' G} {M : StreamImpl τ ι S} {L : StreamImpl τ' ι' T}
  {conv : S → R F} {conv' : T → R G} {P : F → G → Prop} {W : σ → σ' → Prop} {V : τ → τ' → Prop} {N : ι → ι' → Prop}

theorem forall₂_get? {x : List F} {y : List G} (h : List.Forall₂ P x y) (i : Nat) :
    (x[i]? = none ∧ y[i]? = none) ∨ ∃ a b, x[i]? = some a ∧ y[i]? = some b ∧ P a b := by
  induction h generalizing i with
  | nil => exact .inl ⟨rfl, rfl⟩
  | cons h _ ih => cases i with
    | zero => exact .inr ⟨_, _, rfl, rfl, h⟩
    | succ i => simpa using ih i

theorem forall₂_set {x : List F} {y : List G} (h : List.Forall₂ P x y) (i : Nat) {a : F} {b : G} (hab : P a b) :
    List.Forall₂ P (x.set i a) (y.set i b) := by
  induction h generalizing i with
  | nil => exact .nil
  | cons h t ih => cases i with
    | zero => exact .cons hab t
    | succ i => exact .cons h (ih i)

theorem forall₂_replicate {a : F} {b : G} (h : P a b) (n : Nat) : List.Forall₂ P (List.replicate n a) (List.replicate n b) := by
  induction n with
  | zero => exact .nil
  | succ n ih => exact .cons h ih

theorem upTo_param {x : List F} {y : List G} (h : List.Forall₂ P x y) (n : Nat) :
    Both (fun _ _ => n ≤ x.length) (upTo x n) (upTo y n) := by
  unfold upTo
  rw [h.length_eq]
  split
  · rfl
  · exact not_lt.mp ‹_›

theorem loop_param (hI : SinkRel I J P W) (hA : FrameRel A B P) (hM : StreamRel M L conv conv' P V N) (ratio : F64)
    (dstEnd : Nat) (srclen : Option Nat) (fuel i : Nat) (s : σ) (t : σ') (hW : W s t) (it : ι) (it' : ι') (hN : N it it') :
    Both (fun a b => W a.1 b.1 ∧ N a.2.1 b.2.1 ∧ a.2.2 = b.2.2)
      (loop A I M conv ratio dstEnd srclen fuel i s it) (loop B J L conv' ratio dstEnd srclen fuel i t it') := by
  induction fuel generalizing i s t it it' with
  | zero => rfl
  | succ fuel ih =>
    unfold loop
    refine (hI s t hW).2.1.bind fun a b ⟨⟨h1, h2⟩, h3⟩ => ?_
    have hW1 : W (a.2 a.1) (b.2 b.1) := h3 _ _ h1 h2
    dsimp only
    rw [h2]
    refine Both.bind (Both.refl (Q := fun a b => a = b) (fun _ => rfl) _) fun c _ e => ?_
    subst e
    split
    · exact ⟨hW1, hN, rfl⟩
    · refine (hA.ofF64 _).bind fun ca cb hc => ?_
      refine (hA.ofF64 _).bind fun fa fb hf => ?_
      refine (hM.next _ _ hN).bind fun n n' hn => ?_
      obtain ⟨n1, n2⟩ := n
      obtain ⟨n1', n2'⟩ := n'
      obtain ⟨hn2, hn1⟩ := hn
      cases n1 <;> cases n1'
      · exact ⟨hW1, hn2, rfl⟩
      · exact hn1.elim
      · exact hn1.elim
      · dsimp only at hn1 ⊢
        refine hn1.bind fun x y hxy => ?_
        refine (hI _ _ hW1).2.2.bind fun u v ⟨h4, h5⟩ => ?_
        refine (upTo_param h4 _).bind fun _ _ hl => ?_
        · rcases forall₂_get? h4 ((ratio.mul (f64OfUsize i)).add b.1.offseti).toUsize with ⟨e1, e2⟩ | ⟨p, q, e1, e2, hpq⟩
          · rw [e1, e2]; rfl
          · rw [e1, e2]
            dsimp only
            refine (hA.mul _ _ _ _ hxy hf).bind fun w w' hw => ?_
            refine (hA.add _ _ _ _ hpq hw).bind fun z z' hz => ?_
            have hW2 := h5 _ _ (List.length_set ..) (forall₂_set h4 ((ratio.mul (f64OfUsize i)).add b.1.offseti).toUsize hz)
            refine (hI _ _ hW2).2.2.bind fun u' v' ⟨h6, h7⟩ => ?_
            refine (upTo_param h6 _).bind fun _ _ hl => ?_
            · rcases forall₂_get? (List.forall₂_take dstEnd h6) c with ⟨e3, e4⟩ | ⟨p', q', e3, e4, hpq'⟩
              · rw [e3, e4]
                dsimp only
                have hW3 := h7 _ _ rfl h6
                refine (hI _ _ hW3).2.1.bind fun u'' v'' ⟨⟨h8, h9⟩, h10⟩ => ?_
                refine (hA.mul _ _ _ _ hxy hc).bind fun w2 w2' hw2 => ?_
                refine (hA.add _ _ _ _ h8 hw2).bind fun z2 z2' hz2 => ?_
                exact ih _ _ _ (h10 ⟨_, _⟩ ⟨_, _⟩ hz2 h9) _ _ hn2
              · rw [e3, e4]
                dsimp only
                refine (hA.mul _ _ _ _ hxy hc).bind fun w2 w2' hw2 => ?_
                refine (hA.add _ _ _ _ hpq' hw2).bind fun z2 z2' hz2 => ?_
                exact ih _ _ _ (h7 _ _ (List.length_set ..) (forall₂_set h6 c hz2)) _ _ hn2

/-- C112: `stream` depends on frames, sink and stream through their methods only.  If two sets of implementations are
related, so are the results, panics included. -/
theorem C112_param (hI : SinkRel I J P W) (hA : FrameRel A B P) (hM : StreamRel M L conv conv' P V N) (fuel : Nat)
    (s : σ) (t : σ') (hW : W s t) (st : τ) (st' : τ') (hV : V st st') :
    Both (fun a b => W a.1 b.1 ∧ N a.2 b.2) (stream A I M conv fuel s st) (stream B J L conv' fuel t st') := by
  unfold stream
  refine Both.bind (Q := fun (a : F64 × τ) (b : F64 × τ') => a.1 = b.1 ∧ V a.2 b.2) ?_ fun a b ⟨h1, h2⟩ => ?_
  · unfold ratio
    rw [← hM.rate _ _ hV, (hI s t hW).1]
    cases hr : M.rate st with
    | some sr => exact ⟨rfl, hV⟩
    | none => exact (hM.setRate _ _ _ hV hr).map fun a b h => ⟨rfl, h⟩
  · obtain ⟨ratio, st⟩ := a
    obtain ⟨_, st'⟩ := b
    cases h1
    dsimp only
    refine (hI s t hW).2.1.bind fun a b ⟨⟨h1, h3⟩, h4⟩ => ?_
    have hW1 : W (a.2 a.1) (b.2 b.1) := h4 _ _ h1 h3
    refine (hI _ _ hW1).2.2.bind fun u v ⟨h5, h6⟩ => ?_
    refine Both.bind (Q := fun x y => x.length = u.1.length ∧ List.Forall₂ P x y) ?_ fun x y ⟨h7, h8⟩ => ?_
    · revert h5
      generalize u.1 = x
      generalize v.1 = y
      intro h5
      cases h5 with
      | nil => exact ⟨rfl, .nil⟩
      | cons hh ht =>
        rename_i x xs y ys
        exact (hA.add _ _ _ _ hh h1).map fun z z' hz => ⟨rfl, .cons hz ht⟩
    · refine (hI _ _ (h6 _ _ h7 h8)).2.2.bind fun u v ⟨h5, h6⟩ => ?_
      rw [h5.length_eq, hM.len _ _ h2]
      generalize dstEnd ratio (L.len st') v.1.length = dstEnd
      refine (hI _ _ (h6 _ _ rfl h5)).2.2.bind fun u' v' ⟨h7, h8⟩ => ?_
      dsimp only
      refine (upTo_param h7 _).bind fun _ _ hl => ?_
      refine (hM.iter _ _ h2).bind fun it it' hN => ?_
      refine Both.bind (loop_param hI hA hM _ _ _ _ _ _ _ (h8 _ _ ?_ ?_) _ _ hN) fun a b ⟨h9, h10, h11⟩ => ?_
      · simp only [List.length_append, List.length_replicate, List.length_drop]; omega
      · exact List.rel_append (forall₂_replicate hA.dflt _) (List.forall₂_drop _ h7)
      · obtain ⟨s, it, n⟩ := a
        obtain ⟨t, it', n'⟩ := b
        cases h11
        cases n with
        | none => rfl
        | some n =>
          dsimp only
          refine (hI _ _ h9).2.1.bind fun a b ⟨⟨h1, h3⟩, h4⟩ => ?_
          exact ⟨h4 _ _ h1 (by dsimp only; rw [h3]), h10⟩

theorem flush_param (hI : SinkRel I J P W) (s : σ) (t : σ') (hW : W s t) : Both W (flush I s) (flush J t) := by
  unfold flush
  refine Both.bind (Q := fun (a : Bool × σ) (b : Bool × σ') => a.1 = b.1 ∧ W a.2 b.2) ?_ fun a b ⟨h, hW⟩ => ?_
  · unfold left
    refine (hI s t hW).2.1.bind fun a b ⟨⟨h1, h2⟩, h3⟩ => ?_
    have hW1 : W (a.2 a.1) (b.2 b.1) := h3 _ _ h1 h2
    dsimp only
    rw [h2]
    split
    · exact ⟨rfl, hW1⟩
    · refine (hI _ _ hW1).2.1.bind fun a b ⟨⟨h1, h2⟩, h3⟩ => ?_
      exact ⟨by dsimp only; rw [h2], h3 _ _ h1 h2⟩
  · dsimp only
    rw [h]
    split
    · refine (hI _ _ hW).2.1.bind fun a b ⟨⟨h1, h2⟩, h3⟩ => ?_
      have hW1 : W (a.2 a.1) (b.2 b.1) := h3 _ _ h1 h2
      rw [h2]
      refine (hI _ _ hW1).2.1.bind fun a' b' ⟨⟨h1, h2⟩, h3⟩ => ?_
      have hW2 : W (a'.2 a'.1) (b'.2 b'.1) := h3 _ _ h1 h2
      refine (hI _ _ hW2).2.2.bind fun u v ⟨h4, h5⟩ => ?_
      rw [h4.length_eq]
      split
      · exact h5 _ _ (List.length_set ..) (forall₂_set h4 _ h1)
      · rfl
    · exact hW

section
variable {k k' : Kind} {c c' : ChTy}

theorem loop_builtin (q : F64) (d : Nat) (l : Option Nat) (fuel i : Nat) (s : Sink k c) (it : It k' c') (hd : d ≤ s.buf.length) :
    loop (frameImpl k c) (sinkImpl k c) (streamImpl k' c') (Frame.convert c) q d l fuel i s it =
      Sink.loop q d l fuel i s it := by
  induction fuel generalizing i s it with
  | zero => rfl
  | succ fuel ih =>
    unfold loop Sink.loop
    have hb : ∀ (α β : Type) (x : α) (f : α → R β), ((Except.ok x : R α) >>= f) = f x := fun _ _ _ _ => rfl
    simp only [sinkImpl, frameImpl, streamImpl, hb]
    cases Math.ceilUsize ((q.mul (f64OfUsize i)).add s.res.offseti) with
    | error e => rfl
    | ok ceil =>
      simp only [hb]
      split
      · rfl
      · rename_i hf
        rw [not_not] at hf
        cases it.next with
        | error e => rfl
        | ok n =>
          obtain ⟨n, it⟩ := n
          cases n with
          | none => rfl
          | some src =>
            simp only [hb]
            cases hc : (src.convert c : R (Frame k c)) with
            | error e => rfl
            | ok x =>
              have hu : ∀ b : List (Frame k c), b.length = s.buf.length → upTo b d = .ok () := by
                intro b e
                unfold upTo
                rw [if_neg (by omega)]
              simp only [hb, hu _ rfl, Sink.modAt, if_pos (Nat.lt_of_lt_of_le hf hd)]
              rw [List.getElem?_eq_getElem (Nat.lt_of_lt_of_le hf hd)]
              simp only [hu _ (List.length_set ..), hb, List.length_modify]
              have e1 : ∀ (b : List (Frame k c)) (j : Nat) (hj : j < b.length) (g : Frame k c → Frame k c),
                  b.set j (g b[j]) = b.modify j g := by
                intro b j hj g
                rw [List.modify_eq_set_getElem? , List.getElem?_eq_getElem hj]; rfl
              rw [e1 _ _ (Nat.lt_of_lt_of_le hf hd) (fun b => b.add (x.mul _))]
              by_cases h : ceil < d
              · have hl : ceil < s.buf.length := Nat.lt_of_lt_of_le h hd
                rw [if_pos h, if_pos hl, List.getElem?_take_of_lt h, List.getElem?_eq_getElem (by rw [List.length_modify]; exact hl)]
                dsimp only
                rw [e1 _ _ (by rw [List.length_modify]; exact hl) (fun b => b.add (x.mul _))]
                exact ih _ _ _ (by simp only [List.length_modify]; exact hd)
              · rw [if_neg h, List.getElem?_eq_none (by rw [List.length_take]; omega)]
                exact ih _ _ _ (by simp only [List.length_modify]; exact hd)

/-- C112: with the types of the crate this is the model of the other claims. -/
theorem C112_builtin (fuel : Nat) (s : Sink k c) (st : Src k' c') :
    stream (frameImpl k c) (sinkImpl k c) (streamImpl k' c') (Frame.convert c) fuel s st = s.stream fuel st := by
  have hb : ∀ (α β : Type) (x : α) (f : α → R β), ((Except.ok x : R α) >>= f) = f x := fun _ _ _ _ => rfl
  have hr : ratio (sinkImpl k c) (streamImpl k' c') s st = s.ratio st := by
    unfold ratio Sink.ratio
    simp only [streamImpl, sinkImpl]
    cases st.rate with
    | some sr => rfl
    | none => cases st.setRate s.rate <;> rfl
  unfold stream Sink.stream
  rw [hr]
  cases s.ratio st with
  | error e => rfl
  | ok r =>
    obtain ⟨q, st⟩ := r
    have ha : addLeft (frameImpl k c) s.res.partial_ s.buf = .ok (s.buf.modify 0 (fun b => b.add s.res.partial_)) := by
      cases s.buf <;> rfl
    simp only [hb]
    have e : ∀ s : Sink k c, { s with res := ⟨s.res.partial_, s.res.offseti⟩ } = s := fun _ => rfl
    show ((addLeft (frameImpl k c) s.res.partial_ s.buf) >>= _) = _
    rw [ha]
    have hd : dstEnd q st.len (s.buf.modify 0 (fun b => b.add s.res.partial_)).length = Sink.dstEnd q st.len s.buf.length := by
      rw [List.length_modify]; rfl
    simp only [hb, sinkImpl, streamImpl]
    rw [hd]
    set d := Sink.dstEnd q st.len s.buf.length with hdd
    have hle : d ≤ s.buf.length := by
      rw [hdd]; unfold Sink.dstEnd; split <;> omega
    have hu : upTo (s.buf.modify 0 (fun b => b.add s.res.partial_)) d = .ok () := by
      unfold upTo
      rw [if_neg (by rw [List.length_modify]; omega)]
    rw [hu]
    simp only [hb]
    have hp : ({ s with buf := List.replicate d (frameImpl k c).dflt ++ (s.buf.modify 0 (fun b => b.add s.res.partial_)).drop d } : Sink k c)
        = s.prepare d := by
      unfold Sink.prepare
      simp only [List.length_modify, Nat.min_eq_left hle]
      rfl
    show (loop (frameImpl k c) (sinkImpl k c) (streamImpl k' c') (Frame.convert c) q d st.len fuel 0 _ st.iter >>= _) = _
    rw [show ({ s with buf := _ } : Sink k c) = s.prepare d from hp, loop_builtin _ _ _ _ _ _ _ ?_]
    · cases Sink.loop q d st.len fuel 0 (s.prepare d) st.iter with
      | error e => rfl
      | ok r =>
        obtain ⟨s, it, n⟩ := r
        cases n <;> rfl
    · rw [Sink.prepare_length]; exact hle

theorem flush_builtin (s : Sink k c) : flush (sinkImpl k c) s = s.flush := by
  have hb : ∀ (α β : Type) (x : α) (f : α → R β), ((Except.ok x : R α) >>= f) = f x := fun _ _ _ _ => rfl
  unfold flush left Sink.flush
  simp only [sinkImpl, hb, Sink.modAt]
  have hg : ∀ i, (if i < s.buf.length then (.ok { s with buf := s.buf.set i s.res.partial_ } : R (Sink k c)) else .error .bounds) =
      (if i < s.buf.length then .ok (s.buf.modify i fun _ => s.res.partial_) else .error .bounds : R (List (Frame k c))) >>=
        fun buf => .ok { s with buf } := by
    intro i
    split
    · rename_i hi
      rw [List.modify_eq_set_getElem?, List.getElem?_eq_getElem hi]; rfl
    · rfl
  cases Fl.lt Fl.epsilon (s.res.offseti.rem (Fl.lit 1)) <;>
    cases Fl.lt (s.res.offseti.rem (Fl.lit 1)) (Fl.epsilon : F64).neg
  · rfl
  · exact hg _
  · exact hg _
  · exact hg _

theorem forall₂_eq {α : Type} {x y : List α} (h : List.Forall₂ (fun a b => a = b) x y) : x = y :=
  List.forall₂_eq_eq_eq ▸ h

theorem Lawful.rel {I : SinkImpl σ (Frame k c)} {view : σ → Sink k c} (h : Lawful I view) :
    SinkRel I (sinkImpl k c) (fun a b => a = b) (fun s t => view s = t) := by
  rintro s _ rfl
  obtain ⟨h1, ⟨p, h2, h3⟩, p', h4, h5⟩ := h s
  refine ⟨h1, ?_, ?_⟩
  · rw [h2]
    exact ⟨⟨rfl, rfl⟩, fun r r' e e' => by
      show view (p r) = _
      rw [h3, show r.partial_ = r'.partial_ from e, e']⟩
  · rw [h4]
    exact ⟨List.forall₂_same.mpr fun _ _ => rfl, fun x y hl e => by
      show view (p' x) = _
      rw [h5 _ hl, forall₂_eq e]⟩

/-- C112: for a lawful sink, `stream` does to what shows of its state what the model of the other claims does. -/
theorem C112_lawful {I : SinkImpl σ (Frame k c)} {view : σ → Sink k c} (h : Lawful I view) (fuel : Nat) (s : σ) (st : Src k' c') :
    Both (fun a b => view a.1 = b.1 ∧ a.2 = b.2)
      (stream (frameImpl k c) I (streamImpl k' c') (Frame.convert c) fuel s st) ((view s).stream fuel st) := by
  rw [← C112_builtin]
  refine C112_param h.rel ⟨rfl, fun _ => Both.refl (fun _ => rfl) _, ?_, ?_⟩ (V := fun a b => a = b) (N := fun a b => a = b) ⟨?_, ?_, ?_, ?_, ?_⟩ fuel
    s _ rfl st _ rfl
  · rintro _ _ _ _ rfl rfl; rfl
  · rintro _ _ _ _ rfl rfl; rfl
  · rintro _ _ rfl; rfl
  · rintro _ _ rfl; rfl
  · rintro _ _ _ rfl _; exact Both.refl (fun _ => rfl) _
  · rintro _ _ rfl; exact Both.refl (Q := fun a b => a = b) (fun _ => rfl) _
  · rintro _ _ rfl
    refine Both.refl (fun a => ⟨rfl, ?_⟩) _
    cases a.1 with
    | none => trivial
    | some x => exact Both.refl (fun _ => rfl) _

/-- C112: the same for `flush`. -/
theorem C112_flush {I : SinkImpl σ (Frame k c)} {view : σ → Sink k c} (h : Lawful I view) (s : σ) :
    Both (fun a b => view a = b) (flush I s) (view s).flush := by
  rw [← flush_builtin]
  exact flush_param h.rel s _ rfl

end

/-- Silence of the given rate and length. -/
def silence (rate : F64) (len : Option Nat) : Src .mono .ch8 := .user (some rate) true len (fun _ => Frame.dflt)

theorem outline (hA : A.Total) (hc : ∀ x, ∃ y, conv x = .ok y) {r o rate : F64} {n : Nat} {len : Option Nat}
    {inv : F64 → σ → Prop} {pos : Nat → ι → Prop} (hI : Steady I r n inv) {st : τ} (hM : Keeps M st rate len pos) (fuel : Nat) (s : σ)
    (hs : inv o s) :
    Both (fun a b => inv b.1.res.offseti a.1 ∧ ∃ p, pos p a.2 ∧ b.2 = .user len (fun _ => Frame.dflt) p)
      (stream A I M conv fuel s st)
      ((⟨r, ⟨Frame.dflt, o⟩, List.replicate n Frame.dflt⟩ : Sink .mono .ch8).stream fuel (silence rate len)) := by
  rw [← C112_builtin]
  obtain ⟨m1, m2, ⟨it0, m3, m4⟩, m5⟩ := hM
  refine (C112_param (P := fun _ _ => True) (W := fun s (t : Sink .mono .ch8) => inv t.res.offseti s ∧ t.rate = r ∧ t.buf.length = n)
    (V := fun a b => a = st ∧ b = silence rate len)
    (N := fun a b => ∃ p, pos p a ∧ b = .user len (fun _ => Frame.dflt) p) ?_ ⟨trivial, ?_, ?_, ?_⟩ ⟨?_, ?_, ?_, ?_, ?_⟩ fuel s _
    ⟨hs, rfl, List.length_replicate ..⟩ st _ ⟨rfl, rfl⟩).mono fun a b h => ⟨h.1.1, h.2⟩
  · rintro s t ⟨h1, h2, h3⟩
    obtain ⟨i1, ⟨x, p, i2, i3, i4⟩, b, p', i5, i6, i7⟩ := hI _ _ h1
    refine ⟨i1.trans h2.symm, ?_, ?_⟩
    · rw [i2]
      exact ⟨⟨trivial, i3⟩, fun y y' _ e => ⟨by show inv y'.offseti (p y); rw [← e]; exact i4 y, h2, h3⟩⟩
    · rw [i5]
      refine ⟨?_, fun x y hx hy => ⟨i7 _ (hx.trans i6), h2, ?_⟩⟩
      · exact List.forall₂_iff_zip.mpr ⟨i6.trans h3.symm, fun _ => trivial⟩
      · show y.length = n
        rw [← hy.length_eq, hx, i6]
  · intro x
    obtain ⟨y, e⟩ := hA.1 x
    rw [e]; trivial
  · intro a b a' b' _ _
    obtain ⟨y, e⟩ := hA.2.1 a a'
    rw [e]; trivial
  · intro a b a' b' _ _
    obtain ⟨y, e⟩ := hA.2.2 a a'
    rw [e]; trivial
  · rintro _ _ ⟨rfl, rfl⟩; exact m1
  · rintro _ _ ⟨rfl, rfl⟩; exact m2
  · rintro _ _ _ ⟨rfl, rfl⟩ h; rw [m1] at h; cases h
  · rintro _ _ ⟨rfl, rfl⟩
    rw [m3]
    exact ⟨0, m4, rfl⟩
  · rintro it _ ⟨p, h1, rfl⟩
    have h2 := m5 p it h1
    cases len with
    | none =>
      rw [if_pos nofun] at h2
      obtain ⟨x, it', e, h⟩ := h2
      rw [e]
      obtain ⟨y, e⟩ := hc x
      exact ⟨⟨_, h, rfl⟩, by show Both _ (conv x) _; rw [e]; trivial⟩
    | some l =>
      by_cases hp : p < l
      · rw [if_pos (by rintro _ ⟨⟩; exact hp)] at h2
        obtain ⟨x, it', e, h⟩ := h2
        have e2 : (streamImpl .mono .ch8).next (.user (some l) (fun _ => Frame.dflt) p) =
            .ok (some Frame.dflt, .user (some l) (fun _ => Frame.dflt) (p + 1)) := by
          show (if p < l then _ else _) = _
          rw [if_pos hp]
        rw [e, e2]
        obtain ⟨y, e⟩ := hc x
        exact ⟨⟨_, h, rfl⟩, by show Both _ (conv x) _; rw [e]; trivial⟩
      · rw [if_neg (fun h => hp (h l rfl))] at h2
        obtain ⟨it', e, h⟩ := h2
        have e2 : (streamImpl .mono .ch8).next (.user (some l) (fun _ => Frame.dflt) p) =
            .ok (none, .user (some l) (fun _ => Frame.dflt) p) := by
          show (if p < l then _ else _) = _
          rw [if_neg hp]
        rw [e, e2]
        exact ⟨⟨_, h, rfl⟩, trivial⟩

/-- C112: whatever the arithmetic of the frames, and whatever the sink keeps in its buffer, as long as nothing of it
panics: a finite stream is streamed without panic. -/
theorem C112_returns (hA : A.Total) (hc : ∀ x, ∃ y, conv x = .ok y) {r o rate : F64} {n l : Nat}
    {inv : F64 → σ → Prop} {pos : Nat → ι → Prop} (hI : Steady I r n inv) {st : τ} (hM : Keeps M st rate (some l) pos) (s : σ)
    (hs : inv o s) : ∃ s' it, stream A I M conv (l + 1) s st = .ok (s', it) := by
  obtain ⟨b, e⟩ := C37_finite (⟨r, ⟨Frame.dflt, o⟩, List.replicate n Frame.dflt⟩ : Sink .mono .ch8) (silence rate (some l)) l rfl
    rfl rfl rfl (.inl nofun)
  have h := outline hA hc hI hM (l + 1) s hs
  rw [e] at h
  cases hx : stream A I M conv (l + 1) s st with
  | error e => rw [hx] at h; exact h.elim
  | ok a => exact ⟨_, _, rfl⟩

/-- C112: and which frames are taken, and where the index ends, is the same as for the types of the crate. -/
theorem C112_takes (hA : A.Total) (hc : ∀ x, ∃ y, conv x = .ok y) {r o rate : F64} {n : Nat} {len : Option Nat}
    {inv : F64 → σ → Prop} {pos : Nat → ι → Prop} (hI : Steady I r n inv) {st : τ} (hM : Keeps M st rate len pos) (fuel : Nat)
    (s : σ) (hs : inv o s) (s' : σ) (it : ι) (h : stream A I M conv fuel s st = .ok (s', it)) :
    ∃ m, Takes (r.div rate) o len n m ∧ pos m it ∧ inv (o.add ((r.div rate).mul (f64OfUsize m))) s' := by
  have h1 := outline hA hc hI hM fuel s hs
  rw [h] at h1
  cases hx : (⟨r, ⟨Frame.dflt, o⟩, List.replicate n Frame.dflt⟩ : Sink .mono .ch8).stream fuel (silence rate len) with
  | error e => rw [hx] at h1; exact h1.elim
  | ok b =>
    rw [hx] at h1
    obtain ⟨b, itb⟩ := b
    obtain ⟨h2, p, h3, h4⟩ := h1
    obtain ⟨st', m, g, a1, a2, a3, a4, a5, a6, a7, a8⟩ := stream_takes _ _ _ _ _ hx
    cases a1
    have hp : p = m := by
      subst h4
      rcases a8 with e | e
      · cases e; rfl
      · change (match len with
          | none => _
          | some n => _) = _ at e
        cases len with
        | none => cases e
        | some l =>
          dsimp only at e
          split at e <;> cases e
          rfl
    subst hp
    rw [a7] at h2
    refine ⟨p, ?_, h3, h2⟩
    have := a3
    rwa [show (List.replicate n (Frame.dflt : Frame .mono .ch8)).length = n from List.length_replicate ..] at this

/-! ### Examples -/

/-- A lawful sink that counts the calls of `buffer`. -/
def countSink : SinkImpl (Nat × Sink .mono .ch8) (Frame .mono .ch8) where
  rate s := s.2.rate
  resampler s := .ok (⟨s.2.res.partial_, s.2.res.offseti⟩, fun r => (s.1, { s.2 with res := ⟨r.partial_, r.offseti⟩ }))
  buffer s := .ok (s.2.buf, fun b => (s.1 + 1, { s.2 with buf := b }))

theorem countSink_lawful : Lawful countSink (·.2) :=
  fun _ => ⟨rfl, ⟨_, rfl, fun _ => rfl⟩, _, rfl, fun _ _ => rfl⟩

example := C112_lawful countSink_lawful 6 (0, exSink 5 8) (.audio (exAudio 8))
example := C112_flush countSink_lawful (0, exSink 5 8)
example : ((stream (frameImpl .mono .ch8) countSink (streamImpl .mono .ch8) (Frame.convert .ch8) 6 (0, exSink 5 8)
    (.audio (exAudio 8))).map fun r => (r.1.1, r.1.2.buf)) = .ok (13, (exAudio 8).frames) := by decide +kernel

/-- A frame type of its own: a peak meter.  Its `+=` is the maximum. -/
def peak : FrameImpl Nat := ⟨0, fun _ => .ok 1, fun a b => .ok (max a b), fun a b => .ok (a * b)⟩

theorem peak_total : peak.Total := ⟨fun _ => ⟨_, rfl⟩, fun _ _ => ⟨_, rfl⟩, fun _ _ => ⟨_, rfl⟩⟩

/-- A sink with two buffers, which `buffer` returns in turn: rate, resampler, buffers. -/
def flipSink (n : Nat) : SinkImpl (Res Nat × { b : List Nat // b.length = n } × { b : List Nat // b.length = n }) Nat where
  rate _ := Fl.lit 4
  resampler s := .ok (s.1, fun r => (r, s.2))
  buffer s := .ok (s.2.1, fun b => (s.1, s.2.2, if h : b.length = n then ⟨b, h⟩ else s.2.1))

theorem flipSink_steady (n : Nat) : Steady (flipSink n) (Fl.lit 4) n (fun o s => s.1.offseti = o) :=
  fun _ s h => ⟨rfl, ⟨_, _, rfl, h, fun _ => rfl⟩, _, _, rfl, s.2.1.2, fun _ _ => h⟩

/-- A stream of numbers. -/
def numbers : StreamImpl (List Nat) (List Nat) Nat where
  rate _ := some (Fl.lit 8)
  len st := some st.length
  setRate _ _ := .error .setSampleRate
  iter st := .ok st
  next it := .ok (it.head?, it.tail)

theorem numbers_keeps (st : List Nat) :
    Keeps numbers st (Fl.lit 8) (some st.length) (fun p it => p ≤ st.length ∧ it = st.drop p) := by
  refine ⟨rfl, rfl, ⟨st, rfl, Nat.zero_le _, rfl⟩, ?_⟩
  rintro p _ ⟨hp, rfl⟩
  split
  · rename_i h
    have h := h _ rfl
    refine ⟨st[p], st.drop (p + 1), ?_, h, rfl⟩
    show Except.ok ((st.drop p).head?, (st.drop p).tail) = _
    rw [List.head?_drop, List.getElem?_eq_getElem h, List.tail_drop]
  · rename_i h
    have h : st.length ≤ p := by
      by_contra h'
      exact h (by rintro _ ⟨⟩; omega)
    refine ⟨st.drop p, ?_, hp, rfl⟩
    show Except.ok ((st.drop p).head?, (st.drop p).tail) = _
    rw [List.drop_eq_nil_of_le h]; rfl

/-- The flipping sink before the call. -/
def exFlip : Res Nat × { b : List Nat // b.length = 3 } × { b : List Nat // b.length = 3 } :=
  (⟨0, Fl.lit 0⟩, ⟨[7, 7, 7], rfl⟩, ⟨[9, 9, 9], rfl⟩)

example := C112_returns peak_total (conv := Except.ok) (fun _ => ⟨_, rfl⟩) (flipSink_steady 3) (numbers_keeps [5, 2, 8, 1, 4])
  exFlip rfl
example : ((stream peak (flipSink 3) numbers Except.ok 6 exFlip [5, 2, 8, 1, 4]).map fun r => (r.1.2.1.1, r.1.2.2.1, r.2)) =
    .ok ([9, 9, 9], [5, 8, 7], [4]) := by decide +kernel
example := C112_takes peak_total (conv := Except.ok) (fun _ => ⟨_, rfl⟩) (flipSink_steady 3) (numbers_keeps [5, 2, 8, 1, 4]) 6
  exFlip rfl _ _ (R.returns₂ (x := stream peak (flipSink 3) numbers Except.ok 6 exFlip [5, 2, 8, 1, 4]) (by decide +kernel))

/-- Two peak meters, one of which is below the other. -/
theorem peak_le : FrameRel peak peak (· ≤ ·) :=
  ⟨le_rfl, fun _ => le_rfl, fun _ _ _ _ h h' => max_le_max h h', fun _ _ _ _ h h' => Nat.mul_le_mul h h'⟩

/-- Both flipping sinks, slot by slot. -/
def FlipLe (n : Nat) (s t : Res Nat × { b : List Nat // b.length = n } × { b : List Nat // b.length = n }) : Prop :=
  (s.1.partial_ ≤ t.1.partial_ ∧ s.1.offseti = t.1.offseti) ∧ List.Forall₂ (· ≤ ·) s.2.1.1 t.2.1.1 ∧
    List.Forall₂ (· ≤ ·) s.2.2.1 t.2.2.1

theorem flipSink_le (n : Nat) : SinkRel (flipSink n) (flipSink n) (· ≤ ·) (FlipLe n) := by
  rintro s t ⟨h1, h2, h3⟩
  refine ⟨rfl, ⟨h1, fun r r' a b => ⟨⟨a, b⟩, h2, h3⟩⟩, ⟨h2, fun x y hx hxy => ⟨h1, h3, ?_⟩⟩⟩
  have hy : y.length = n := by rw [← hxy.length_eq, hx]; exact s.2.1.2
  dsimp only at hx ⊢
  rw [dif_pos (by rw [hx]; exact s.2.1.2), dif_pos hy]
  exact hxy

theorem numbers_le : StreamRel numbers numbers Except.ok Except.ok (· ≤ ·) (List.Forall₂ (· ≤ ·)) (List.Forall₂ (· ≤ ·)) := by
  refine ⟨fun _ _ _ => rfl, fun _ _ h => congrArg some h.length_eq, fun _ _ _ _ _ => rfl, fun _ _ h => h, fun it it' h => ?_⟩
  cases h with
  | nil => exact ⟨.nil, trivial⟩
  | cons h t => exact ⟨t, h⟩

/-- So the peaks of a lower signal are lower. -/
example := C112_param (flipSink_le 3) peak_le numbers_le 6 exFlip exFlip ⟨⟨le_rfl, rfl⟩, by simp [exFlip], by simp [exFlip]⟩
  [5, 2, 8, 1, 4] [6, 2, 9, 1, 5] (by simp)

/-- A sink whose buffer loses a slot with every call of `buffer`. -/
def shrinkSink : SinkImpl (List Nat) Nat where
  rate _ := Fl.lit 8
  resampler s := .ok (⟨0, Fl.lit 0⟩, fun _ => s)
  buffer s := .ok (s.dropLast, id)

/-- C112: without a fixed number of slots, `stream` may panic, even on a stream that needs just one slot. -/
theorem C112_shrinks : stream peak shrinkSink numbers Except.ok 6 [1, 2, 3, 4] [5] = .error .bounds := by decide +kernel

end Fon.Gen
