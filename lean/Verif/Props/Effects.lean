import Verif.Spec.Effects
import Verif.Props.Generic
import Verif.Props.Mix

/-!
# C127: implementations that share state
-/

namespace Fon.Eff
open Gen (Both)
variable {W F G S T σ σ' τ τ' ι ι' : Type}

section
variable {α β α' β' : Type} {Inv : W → Prop}

theorem Sim.bind {Q : α → β → Prop} {Q' : α' → β' → Prop} {x : E W α} {y : R β} {f : α → E W α'} {g : β → R β'}
    (h : Sim Inv Q x y) (hf : ∀ a b, Q a b → Sim Inv Q' (f a) (g b)) : Sim Inv Q' (x >>= f) (y >>= g) := by
  intro w hw
  have h' := h w hw
  have e : (x >>= f) w = match x w with
    | (.ok a, w) => f a w
    | (.error e, w) => (.error e, w) := rfl
  rw [e]
  obtain ⟨h1, h2⟩ := h'
  revert h1 h2
  generalize x w = r
  obtain ⟨a, w'⟩ := r
  intro h1 h2
  cases a <;> cases y
  · exact ⟨h1, h2⟩
  · exact h1.elim
  · exact h1.elim
  · exact hf _ _ h1 w' h2

theorem Sim.pure {Q : α → β → Prop} {a : α} {b : β} (h : Q a b) : Sim Inv Q (Pure.pure a : E W α) (.ok b) := fun _ hw => ⟨h, hw⟩

theorem Sim.fail {Q : α → β → Prop} (e : Panic) : Sim Inv Q (fail e : E W α) (.error e) := fun _ hw => ⟨rfl, hw⟩

theorem Sim.lift {Q : α → β → Prop} {x : R α} {y : R β} (h : Both Q x y) : Sim Inv Q (lift x : E W α) y := fun _ hw => ⟨h, hw⟩

/-- Where the computation without shared state just returns. -/
theorem Sim.step {Q : α → β → Prop} {Q' : α' → β' → Prop} {x : E W α} {b : β} {f : α → E W α'} {y : R β'}
    (h : Sim Inv Q x (.ok b)) (hf : ∀ a, Q a b → Sim Inv Q' (f a) y) : Sim Inv Q' (x >>= f) y := by
  refine Sim.bind (Q := fun a b' => Q a b' ∧ b' = b) (g := fun _ => y) (y := .ok b) (fun w hw => ?_) fun a b' hq => ?_
  · obtain ⟨h1, h2⟩ := h w hw
    refine ⟨?_, h2⟩
    revert h1
    cases (x w).1 with
    | error e => exact id
    | ok a => exact fun h => ⟨h, rfl⟩
  · obtain ⟨hq, rfl⟩ := hq
    exact hf a hq

end

variable {Inv : W → Prop} {A : FrameImpl W F} {B : Gen.FrameImpl G} {I : SinkImpl W σ F} {J : Gen.SinkImpl σ' G}
  {M : StreamImpl W τ ι S} {L : Gen.StreamImpl τ' ι' T} {conv : S → E W F} {conv' : T → R G} {P : F → G → Prop}
  {Z : σ → σ' → Prop} {V : τ → τ' → Prop} {N : ι → ι' → Prop}

theorem loop_sim (hI : SinkSim Inv I J P Z) (hA : FrameSim Inv A B P) (hM : StreamSim Inv M L conv conv' P V N) (ratio : F64)
    (dstEnd : Nat) (srclen : Option Nat) (fuel i : Nat) (s : σ) (t : σ') (hZ : Z s t) (it : ι) (it' : ι') (hN : N it it') :
    Sim Inv (fun a b => Z a.1 b.1 ∧ N a.2.1 b.2.1 ∧ a.2.2 = b.2.2)
      (loop A I M conv ratio dstEnd srclen fuel i s it) (Gen.loop B J L conv' ratio dstEnd srclen fuel i t it') := by
  induction fuel generalizing i s t it it' with
  | zero => exact Sim.fail _
  | succ fuel ih =>
    unfold loop Gen.loop
    refine (hI s t hZ).2.1.bind fun a b ⟨⟨h1, h2⟩, h3⟩ => ?_
    have hZ1 : Z (a.2 a.1) (b.2 b.1) := h3 _ _ h1 h2
    dsimp only
    rw [h2]
    refine Sim.bind (Sim.lift (Both.refl (Q := fun a b => a = b) (fun _ => rfl) _)) fun c _ e => ?_
    subst e
    split
    · exact Sim.pure ⟨hZ1, hN, rfl⟩
    · refine (hA.ofF64 _).bind fun ca cb hc => ?_
      refine (hA.ofF64 _).bind fun fa fb hf => ?_
      refine (hM.next _ _ hN).bind fun n n' hn => ?_
      obtain ⟨n1, n2⟩ := n
      obtain ⟨n1', n2'⟩ := n'
      obtain ⟨hn2, hn1⟩ := hn
      cases n1 <;> cases n1'
      · exact Sim.pure ⟨hZ1, hn2, rfl⟩
      · exact hn1.elim
      · exact hn1.elim
      · dsimp only at hn1 ⊢
        refine hn1.bind fun x y hxy => ?_
        refine (hI _ _ hZ1).2.2.bind fun u v ⟨h4, h5⟩ => ?_
        refine (Sim.lift (Gen.upTo_param h4 _)).bind fun _ _ hl => ?_
        · rcases Gen.forall₂_get? h4 ((ratio.mul (f64OfUsize i)).add b.1.offseti).toUsize with ⟨e1, e2⟩ | ⟨p, q, e1, e2, hpq⟩
          · rw [e1, e2]; exact Sim.fail _
          · rw [e1, e2]
            dsimp only
            refine (hA.mul _ _ _ _ hxy hf).bind fun w w' hw => ?_
            refine (hA.add _ _ _ _ hpq hw).bind fun z z' hz => ?_
            have hZ2 := h5 _ _ (List.length_set ..) (Gen.forall₂_set h4 ((ratio.mul (f64OfUsize i)).add b.1.offseti).toUsize hz)
            refine (hI _ _ hZ2).2.2.bind fun u' v' ⟨h6, h7⟩ => ?_
            refine (Sim.lift (Gen.upTo_param h6 _)).bind fun _ _ hl => ?_
            · rcases Gen.forall₂_get? (List.forall₂_take dstEnd h6) c with ⟨e3, e4⟩ | ⟨p', q', e3, e4, hpq'⟩
              · rw [e3, e4]
                dsimp only
                have hZ3 := h7 _ _ rfl h6
                refine (hI _ _ hZ3).2.1.bind fun u'' v'' ⟨⟨h8, h9⟩, h10⟩ => ?_
                refine (hA.mul _ _ _ _ hxy hc).bind fun w2 w2' hw2 => ?_
                refine (hA.add _ _ _ _ h8 hw2).bind fun z2 z2' hz2 => ?_
                exact ih _ _ _ (h10 ⟨_, _⟩ ⟨_, _⟩ hz2 h9) _ _ hn2
              · rw [e3, e4]
                dsimp only
                refine (hA.mul _ _ _ _ hxy hc).bind fun w2 w2' hw2 => ?_
                refine (hA.add _ _ _ _ hpq' hw2).bind fun z2 z2' hz2 => ?_
                exact ih _ _ _ (h7 _ _ (List.length_set ..) (Gen.forall₂_set h6 c hz2)) _ _ hn2

theorem clear_sim (hA : FrameSim Inv A B P) (n : Nat) :
    Sim Inv (List.Forall₂ P) (clear A n) (.ok (List.replicate n B.dflt)) := by
  induction n with
  | zero => exact Sim.pure .nil
  | succ n ih => exact hA.dflt.step fun a h => ih.step fun as hs => Sim.pure (.cons h hs)

theorem ratio_sim (hI : SinkSim Inv I J P Z) (hM : StreamSim Inv M L conv conv' P V N) (s : σ) (t : σ') (hZ : Z s t) (st : τ)
    (st' : τ') (hV : V st st') :
    Sim Inv (fun (a : F64 × τ) (b : F64 × τ') => a.1 = b.1 ∧ V a.2 b.2) (ratio I M s st) (Gen.ratio J L t st') := by
  unfold ratio
  refine (hM.rate _ _ hV).step fun o ho => ?_
  unfold Gen.ratio
  rw [← ho]
  cases o with
  | some sr =>
    refine (hI s t hZ).1.step fun r hr => ?_
    rw [← hr]
    exact Sim.pure ⟨rfl, hV⟩
  | none =>
    refine (hI s t hZ).1.step fun r hr => ?_
    rw [← hr]
    have := (hM.setRate _ _ r hV ho.symm).bind (g := fun st => .ok (Fl.lit 1, st))
      (Q' := fun (a : F64 × τ) (b : F64 × τ') => a.1 = b.1 ∧ V a.2 b.2) (f := fun st => pure (Fl.lit 1, st))
      fun a b h => Sim.pure ⟨rfl, h⟩
    exact this

theorem dstEnd_sim (hI : SinkSim Inv I J P Z) (hM : StreamSim Inv M L conv conv' P V N) (q : F64) (s : σ) (t : σ') (hZ : Z s t)
    (st : τ) (st' : τ') (hV : V st st') :
    Sim Inv (fun (a : Nat × σ) (b : Nat × σ') => a.1 = b.1 ∧ Z a.2 b.2) (dstEnd I M q s st)
      (J.buffer t >>= fun x => .ok (Gen.dstEnd q (L.len st') x.1.length, x.2 x.1)) := by
  unfold dstEnd
  refine (hM.len _ _ hV).step fun o ho => ?_
  subst ho
  cases hl : L.len st' with
  | none =>
    refine (hI s t hZ).2.2.bind fun u v ⟨h1, h2⟩ => Sim.pure ⟨?_, h2 _ _ rfl h1⟩
    rw [h1.length_eq]; rfl
  | some l =>
    refine (hI s t hZ).2.2.bind fun u v ⟨h1, h2⟩ => Sim.pure ⟨?_, h2 _ _ rfl h1⟩
    rw [h1.length_eq]; rfl

theorem addLeft_sim (hA : FrameSim Inv A B P) {p : F} {q : G} (hp : P p q) {x : List F} {y : List G} (h : List.Forall₂ P x y) :
    Sim Inv (fun a b => a.length = x.length ∧ List.Forall₂ P a b) (addLeft A p x) (Gen.addLeft B q y) := by
  cases h with
  | nil => exact Sim.pure ⟨rfl, .nil⟩
  | cons hh ht =>
    rename_i a b xs ys
    exact (hA.add _ _ _ _ hh hp).bind (g := fun z => .ok (z :: ys)) fun z z' hz => Sim.pure ⟨rfl, .cons hz ht⟩

/-- C127: what the methods do to state that they share does not matter as long as each of them still does, whatever the
state, what it would do without; then so does `stream`. -/
theorem C127_param (hI : SinkSim Inv I J P Z) (hA : FrameSim Inv A B P) (hM : StreamSim Inv M L conv conv' P V N) (fuel : Nat)
    (s : σ) (t : σ') (hZ : Z s t) (st : τ) (st' : τ') (hV : V st st') :
    Sim Inv (fun a b => Z a.1 b.1 ∧ N a.2 b.2) (stream A I M conv fuel s st) (Gen.stream B J L conv' fuel t st') := by
  unfold stream Gen.stream
  refine (ratio_sim hI hM s t hZ st st' hV).bind fun a b ⟨h1, h2⟩ => ?_
  obtain ⟨ratio, st⟩ := a
  obtain ⟨_, st'⟩ := b
  cases h1
  dsimp only
  refine (hI s t hZ).2.1.bind fun a b ⟨⟨h1, h3⟩, h4⟩ => ?_
  have hZ1 : Z (a.2 a.1) (b.2 b.1) := h4 _ _ h1 h3
  refine (hI _ _ hZ1).2.2.bind fun u v ⟨h5, h6⟩ => ?_
  refine (addLeft_sim hA h1 h5).bind fun x y ⟨h7, h8⟩ => ?_
  refine (hM.len _ _ h2).step fun o ho => ?_
  subst ho
  have key := (dstEnd_sim hI hM ratio _ _ (h6 _ _ h7 h8) st st' h2).bind (Q' := fun (a : σ × ι) (b : σ' × ι') => Z a.1 b.1 ∧ N a.2 b.2)
    (f := fun x => do
      let (b, put) ← I.buffer x.2
      lift (Gen.upTo b x.1)
      let c ← clear A x.1
      let s := put (c ++ b.drop x.1)
      let it ← M.iter st
      let (s, it, srclen) ← loop A I M conv ratio x.1 (L.len st') fuel 0 s it
      match srclen with
      | none => fail .unwrapNone
      | some n => do
        let (r, put) ← I.resampler s
        pure (put { r with offseti := r.offseti.add (ratio.mul (f64OfUsize n)) }, it))
    (g := fun x => do
      let (b, put) ← J.buffer x.2
      Gen.upTo b x.1
      let s := put (List.replicate x.1 B.dflt ++ b.drop x.1)
      let srclen := L.len st'
      let it ← L.iter st'
      let (s, it, srclen) ← Gen.loop B J L conv' ratio x.1 srclen fuel 0 s it
      match srclen with
      | none => throw .unwrapNone
      | some n => do
        let (r, put) ← J.resampler s
        pure (put { r with offseti := r.offseti.add (ratio.mul (f64OfUsize n)) }, it)) ?_
  · rw [bind_assoc] at key
    exact key
  · rintro ⟨d, s⟩ ⟨_, t⟩ ⟨e, hZ⟩
    cases e
    dsimp only
    refine (hI _ _ hZ).2.2.bind fun u' v' ⟨h7, h8⟩ => ?_
    refine (Sim.lift (Gen.upTo_param h7 _)).bind fun _ _ hl => ?_
    refine (clear_sim hA d).step fun c hc => ?_
    refine (hM.iter _ _ h2).bind fun it it' hN => ?_
    refine Sim.bind (loop_sim hI hA hM _ _ _ _ _ _ _ (h8 _ _ ?_ ?_) _ _ hN) fun a b ⟨h9, h10, h11⟩ => ?_
    · have := hc.length_eq
      simp only [List.length_append, List.length_replicate, List.length_drop] at this ⊢; omega
    · exact List.rel_append hc (List.forall₂_drop _ h7)
    · obtain ⟨s, it, n⟩ := a
      obtain ⟨t, it', n'⟩ := b
      cases h11
      cases n with
      | none => exact Sim.fail _
      | some n =>
        dsimp only
        refine (hI _ _ h9).2.1.bind fun a b ⟨⟨h1, h3⟩, h4⟩ => ?_
        exact Sim.pure ⟨h4 _ _ h1 (by dsimp only; rw [h3]), h10⟩

theorem C127_flush (hI : SinkSim Inv I J P Z) (s : σ) (t : σ') (hZ : Z s t) : Sim Inv Z (flush I s) (Gen.flush J t) := by
  unfold flush Gen.flush
  refine Sim.bind (Q := fun (a : Bool × σ) (b : Bool × σ') => a.1 = b.1 ∧ Z a.2 b.2) ?_ fun a b ⟨h, hZ⟩ => ?_
  · unfold left Gen.left
    refine (hI s t hZ).2.1.bind fun a b ⟨⟨h1, h2⟩, h3⟩ => ?_
    have hZ1 : Z (a.2 a.1) (b.2 b.1) := h3 _ _ h1 h2
    dsimp only
    rw [h2]
    split
    · exact Sim.pure ⟨rfl, hZ1⟩
    · refine (hI _ _ hZ1).2.1.bind fun a b ⟨⟨h1, h2⟩, h3⟩ => ?_
      exact Sim.pure ⟨by dsimp only; rw [h2], h3 _ _ h1 h2⟩
  · dsimp only
    rw [h]
    split
    · refine (hI _ _ hZ).2.1.bind fun a b ⟨⟨h1, h2⟩, h3⟩ => ?_
      have hZ1 : Z (a.2 a.1) (b.2 b.1) := h3 _ _ h1 h2
      rw [h2]
      refine (hI _ _ hZ1).2.1.bind fun a' b' ⟨⟨h1, h2⟩, h3⟩ => ?_
      have hZ2 : Z (a'.2 a'.1) (b'.2 b'.1) := h3 _ _ h1 h2
      refine (hI _ _ hZ2).2.2.bind fun u v ⟨h4, h5⟩ => ?_
      rw [h4.length_eq]
      split
      · exact Sim.pure (h5 _ _ (List.length_set ..) (Gen.forall₂_set h4 _ h1))
      · exact Sim.fail _
    · exact Sim.pure hZ

theorem Returns.sim {α β : Type} {Q : α → Prop} {Q' : α → β → Prop} {x : E W α} {b : β} (h : Returns Inv Q x)
    (hQ : ∀ a, Q a → Q' a b) : Sim Inv Q' x (.ok b) := by
  intro w hw
  obtain ⟨a, w', e, h1, h2⟩ := h w hw
  rw [e]
  exact ⟨hQ a h1, h2⟩

theorem total_sim (hA : A.Total Inv) : FrameSim Inv A (Gen.frameImpl .mono .ch8) (fun _ _ => True) :=
  ⟨hA.dflt.sim fun _ _ => trivial, fun x => (hA.ofF64 x).sim fun _ _ => trivial,
    fun a _ a' _ _ _ => (hA.add a a').sim fun _ _ => trivial, fun a _ a' _ _ _ => (hA.mul a a').sim fun _ _ => trivial⟩

theorem keeps_sim (hc : ∀ x, Returns Inv (fun _ => True) (conv x)) {rate : F64} {len : Option Nat} {pos : Nat → ι → Prop} {st : τ}
    (hM : Keeps Inv M st rate len pos) :
    StreamSim Inv M (Gen.streamImpl .mono .ch8) conv (Frame.convert (k' := .mono) .ch8) (fun _ _ => True)
      (fun a b => a = st ∧ b = Gen.silence rate len) (fun a b => ∃ p, pos p a ∧ b = .user len (fun _ => Frame.dflt) p) := by
  obtain ⟨m1, m2, m3, m5⟩ := hM
  refine ⟨?_, ?_, ?_, ?_, ?_⟩
  · rintro _ _ ⟨rfl, rfl⟩; exact m1.sim fun _ h => h
  · rintro _ _ ⟨rfl, rfl⟩; exact m2.sim fun _ h => h
  · rintro _ _ _ ⟨rfl, rfl⟩ h; cases h
  · rintro _ _ ⟨rfl, rfl⟩; exact m3.sim fun _ h => ⟨0, h, rfl⟩
  · rintro it _ ⟨p, h1, rfl⟩
    have h2 := m5 p it h1
    have hn : (Gen.streamImpl .mono .ch8).next (.user len (fun _ => Frame.dflt) p) =
        if ∀ l, len = some l → p < l then .ok (some Frame.dflt, .user len (fun _ => Frame.dflt) (p + 1))
        else .ok (none, .user len (fun _ => Frame.dflt) p) := by
      cases len with
      | none => rw [if_pos nofun]; rfl
      | some l =>
        by_cases hp : p < l
        · rw [if_pos (by rintro _ ⟨⟩; exact hp)]
          show (if p < l then _ else _) = _
          rw [if_pos hp]
        · rw [if_neg fun h => hp (h l rfl)]
          show (if p < l then _ else _) = _
          rw [if_neg hp]
    rw [hn]
    split at h2
    · rw [if_pos ‹_›]
      refine h2.sim ?_
      rintro ⟨o, it'⟩ ⟨ho, hp⟩
      obtain ⟨x, rfl⟩ := Option.isSome_iff_exists.mp ho
      exact ⟨⟨_, hp, rfl⟩, (hc x).sim fun _ _ => trivial⟩
    · rw [if_neg ‹_›]
      refine h2.sim ?_
      rintro ⟨o, it'⟩ ⟨ho, hp⟩
      cases ho
      exact ⟨⟨_, hp, rfl⟩, trivial⟩

theorem outline (hA : A.Total Inv) (hc : ∀ x, Returns Inv (fun _ => True) (conv x)) {r o rate : F64} {n : Nat} {len : Option Nat}
    {inv : F64 → σ → Prop} {pos : Nat → ι → Prop} (hI : Steady Inv I r n inv) {st : τ} (hM : Keeps Inv M st rate len pos)
    (fuel : Nat) (s : σ) (hs : inv o s) :
    Sim Inv (fun a b => inv b.1.res.offseti a.1 ∧ ∃ p, pos p a.2 ∧ b.2 = .user len (fun _ => Frame.dflt) p)
      (stream A I M conv fuel s st)
      ((⟨r, ⟨Frame.dflt, o⟩, List.replicate n Frame.dflt⟩ : Sink .mono .ch8).stream fuel (Gen.silence rate len)) := by
  rw [← Gen.C112_builtin]
  have key := C127_param (I := I) (J := Gen.sinkImpl .mono .ch8)
    (Z := fun s (t : Sink .mono .ch8) => inv t.res.offseti s ∧ t.rate = r ∧ t.buf.length = n) ?_ (total_sim hA) (keeps_sim hc hM)
    fuel s ⟨r, ⟨Frame.dflt, o⟩, List.replicate n Frame.dflt⟩ ⟨hs, rfl, List.length_replicate ..⟩ st _ ⟨rfl, rfl⟩
  · intro w hw
    obtain ⟨h1, h2⟩ := key w hw
    exact ⟨h1.mono fun a b h => ⟨h.1.1, h.2⟩, h2⟩
  · rintro s t ⟨h1, h2, h3⟩
    obtain ⟨i1, i2, i3⟩ := hI _ _ h1
    refine ⟨i1.sim fun a h => h.trans h2.symm, i2.sim fun a h => ⟨⟨trivial, h.1⟩, fun y y' _ e => ⟨?_, h2, h3⟩⟩,
      i3.sim fun a h => ⟨?_, fun x y hx hy => ⟨h.2 _ (hx.trans h.1), h2, ?_⟩⟩⟩
    · show inv y'.offseti (a.2 y)
      rw [← e]; exact h.2 y
    · exact List.forall₂_iff_zip.mpr ⟨h.1.trans h3.symm, fun _ => trivial⟩
    · show y.length = n
      rw [← hy.length_eq, hx, h.1]

/-- C127: frames, sink and stream may influence each other through shared state; as long as the sink keeps its number of
slots and its index, the stream its length, and nothing panics, a finite stream is streamed without panic. -/
theorem C127_returns (hA : A.Total Inv) (hc : ∀ x, Returns Inv (fun _ => True) (conv x)) {r o rate : F64} {n l : Nat}
    {inv : F64 → σ → Prop} {pos : Nat → ι → Prop} (hI : Steady Inv I r n inv) {st : τ} (hM : Keeps Inv M st rate (some l) pos)
    (s : σ) (hs : inv o s) : Returns Inv (fun _ => True) (stream A I M conv (l + 1) s st) := by
  obtain ⟨b, e⟩ := C37_finite (⟨r, ⟨Frame.dflt, o⟩, List.replicate n Frame.dflt⟩ : Sink .mono .ch8)
    (Gen.silence rate (some l)) l rfl rfl rfl rfl (.inl nofun)
  intro w hw
  obtain ⟨h1, h2⟩ := outline hA hc hI hM (l + 1) s hs w hw
  rw [e] at h1
  generalize stream A I M conv (l + 1) s st w = x at h1 h2
  obtain ⟨x, w'⟩ := x
  cases x with
  | error e => exact h1.elim
  | ok a => exact ⟨a, w', rfl, trivial, h2⟩

theorem silence_keeps (rate : F64) (len : Option Nat) : Gen.Keeps (Gen.streamImpl .mono .ch8) (Gen.silence rate len) rate len
    (fun p it => it = .user len (fun _ => Frame.dflt) p) := by
  refine ⟨rfl, rfl, ⟨_, rfl, rfl⟩, ?_⟩
  rintro p _ rfl
  cases len with
  | none => rw [if_pos nofun]; exact ⟨_, _, rfl, rfl⟩
  | some l =>
    have hn : (Gen.streamImpl .mono .ch8).next (.user (some l) (fun _ => Frame.dflt) p) =
      if p < l then .ok (some Frame.dflt, .user (some l) (fun _ => Frame.dflt) (p + 1))
      else .ok (none, .user (some l) (fun _ => Frame.dflt) p) := rfl
    rw [hn]
    by_cases hp : p < l
    · rw [if_pos (by rintro _ ⟨⟩; exact hp), if_pos hp]; exact ⟨_, _, rfl, rfl⟩
    · rw [if_neg fun h => hp (h l rfl), if_neg hp]; exact ⟨_, rfl, rfl⟩

/-- C127: and which frames are taken, and where the index ends, is the same as for the types of the crate. -/
theorem C127_takes (hA : A.Total Inv) (hc : ∀ x, Returns Inv (fun _ => True) (conv x)) {r o rate : F64} {n : Nat}
    {len : Option Nat} {inv : F64 → σ → Prop} {pos : Nat → ι → Prop} (hI : Steady Inv I r n inv) {st : τ}
    (hM : Keeps Inv M st rate len pos) (fuel : Nat) (s : σ) (hs : inv o s) (w w' : W) (hw : Inv w) (s' : σ) (it : ι)
    (h : stream A I M conv fuel s st w = (.ok (s', it), w')) :
    Inv w' ∧ ∃ m, Takes (r.div rate) o len n m ∧ pos m it ∧ inv (o.add ((r.div rate).mul (f64OfUsize m))) s' := by
  obtain ⟨h1, h2⟩ := outline hA hc hI hM fuel s hs w hw
  rw [h] at h1 h2
  refine ⟨h2, ?_⟩
  have hK := silence_keeps rate len
  have hS : Gen.Steady (Gen.sinkImpl .mono .ch8) r n (fun o (t : Sink .mono .ch8) => t.rate = r ∧ t.buf.length = n ∧ t.res.offseti = o) :=
    fun o t ⟨h1, h2, h3⟩ => ⟨h1, ⟨_, _, rfl, h3, fun _ => ⟨h1, h2, rfl⟩⟩, _, _, rfl, h2, fun _ hb => ⟨h1, hb, h3⟩⟩
  cases hx : (⟨r, ⟨Frame.dflt, o⟩, List.replicate n Frame.dflt⟩ : Sink .mono .ch8).stream fuel (Gen.silence rate len) with
  | error e => rw [hx] at h1; exact h1.elim
  | ok b =>
    rw [hx] at h1
    obtain ⟨b, itb⟩ := b
    obtain ⟨h3, p, h4, h5⟩ := h1
    rw [← Gen.C112_builtin] at hx
    obtain ⟨m, k1, k2, k3⟩ := Gen.C112_takes (A := Gen.frameImpl .mono .ch8) (conv := Frame.convert .ch8)
      ⟨fun _ => ⟨_, rfl⟩, fun _ _ => ⟨_, rfl⟩, fun _ _ => ⟨_, rfl⟩⟩ (fun x => C25_builtin rfl rfl x) hS hK fuel _
      ⟨rfl, List.length_replicate .., rfl⟩ _ _ hx
    dsimp only at h5
    rw [h5] at k2
    cases k2
    rw [k3.2.2] at h3
    exact ⟨_, k1, h4, h3⟩

section
variable {α β : Type}

theorem log_sim {Q : α → β → Prop} {x : R α} {y : R β} (c : Call) (h : Both Q x y) : Sim (fun _ => True) Q (log c x) y :=
  fun _ _ => ⟨h, trivial⟩

/-- C127: writing down the calls changes nothing else. -/
theorem C127_logged (A : Gen.FrameImpl F) (I : Gen.SinkImpl σ F) (M : Gen.StreamImpl τ ι S) (conv : S → R F) (fuel : Nat)
    (s : σ) (st : τ) (w : List Call) :
    (stream (logFrame A) (logSink I) (logStream M) (fun x => log .convert (conv x)) fuel s st w).1 =
      Gen.stream A I M conv fuel s st := by
  have hf : ∀ {x y : List F}, List.Forall₂ (· = ·) x y → x = y := fun h => Gen.forall₂_eq h
  have key := C127_param (Inv := fun _ => True) (A := logFrame A) (I := logSink I) (M := logStream M)
    (conv := fun x => log .convert (conv x)) (B := A) (J := I) (L := M) (conv' := conv)
    (P := (· = ·)) (Z := (· = ·)) (V := (· = ·)) (N := (· = ·)) ?_ ⟨?_, ?_, ?_, ?_⟩ ⟨?_, ?_, ?_, ?_, ?_⟩ fuel s s rfl st st rfl
  · exact Both.eq ((key w trivial).1.mono fun a b h => Prod.ext h.1 h.2)
  · rintro s _ rfl
    refine ⟨log_sim _ rfl, log_sim _ (Both.refl (fun a => ⟨⟨rfl, rfl⟩, ?_⟩) _), log_sim _ (Both.refl (fun a => ⟨?_, ?_⟩) _)⟩
    · rintro ⟨p, o⟩ ⟨p', o'⟩ h1 h2
      cases h1; cases h2; rfl
    · exact List.forall₂_refl _
    · rintro x y _ h
      rw [hf h]
  · exact log_sim _ rfl
  · exact fun x => log_sim _ (Both.refl (fun _ => rfl) _)
  · rintro a _ a' _ rfl rfl; exact log_sim _ (Both.refl (fun _ => rfl) _)
  · rintro a _ a' _ rfl rfl; exact log_sim _ (Both.refl (fun _ => rfl) _)
  · rintro st _ rfl; exact log_sim _ rfl
  · rintro st _ rfl; exact log_sim _ rfl
  · rintro st _ r rfl _; exact log_sim _ (Both.refl (fun _ => rfl) _)
  · rintro st _ rfl; exact log_sim _ (Both.refl (fun _ => rfl) _)
  · rintro it _ rfl
    refine log_sim _ (Both.refl ?_ _)
    rintro ⟨o, it⟩
    refine ⟨rfl, ?_⟩
    cases o with
    | none => trivial
    | some x => exact log_sim _ (Both.refl (fun _ => rfl) _)

theorem bind_log (c : Call) (a : α) (f : α → E (List Call) β) (w : List Call) :
    (log c (.ok a) >>= f) w = f a (w ++ [c]) := rfl

theorem bind_ok {W : Type} {x : E W α} {a : α} {f : α → E W β} {w w' : W} (h : x w = (.ok a, w')) : (x >>= f) w = f a w' := by
  simp only [bind, h]

theorem bind_bind {W : Type} {γ : Type} (x : E W α) (f : α → E W β) (g : β → E W γ) (w : W) :
    ((x >>= f) >>= g) w = (x >>= fun a => f a >>= g) w := by
  simp only [bind]
  obtain ⟨y, w⟩ := x w
  cases y <;> rfl

theorem bind_error {W : Type} {x : E W α} {e : Panic} {f : α → E W β} {w w' : W} (h : x w = (.error e, w')) :
    (x >>= f) w = (.error e, w') := by
  simp only [bind, h]

theorem bind_lift {W : Type} (a : α) (f : α → E W β) (w : W) : ((lift (.ok a) : E W α) >>= f) w = f a w := rfl

end

section
variable {A : Gen.FrameImpl F} {I : Gen.SinkImpl σ F} {M : Gen.StreamImpl τ ι S} {conv : S → R F}

theorem loop_calls (hA : A.Total) (hc : ∀ x, ∃ y, conv x = .ok y) {r o rate : F64} {n : Nat} {len : Option Nat}
    {inv : F64 → σ → Prop} {pos : Nat → ι → Prop} (hI : Gen.Steady I r n inv) {st : τ} (hM : Gen.Keeps M st rate len pos)
    (q : F64) (fuel i : Nat) (s : σ) (hs : inv o s) (it : ι) (hp : pos i it) (w w' : List Call) (res : σ × ι × Option Nat)
    (h : loop (logFrame A) (logSink I) (logStream M) (fun x => log .convert (conv x)) q (Sink.dstEnd q len n) len fuel i s it w =
      (.ok res, w')) :
    ∃ m, i ≤ m ∧ (∀ j, i ≤ j → j < m → InDst q len n (posOf q o j).toUsize ∧ ∀ l, len = some l → j < l) ∧
      inv o res.1 ∧ pos m res.2.1 ∧
      (¬ InDst q len n (posOf q o m).toUsize ∧ res.2.2 = some m ∨
        InDst q len n (posOf q o m).toUsize ∧ (¬ ∀ l, len = some l → m < l) ∧ res.2.2 = len) ∧
      w' ++ [.resampler] = w ++ (List.range' i (m - i)).flatMap (frameCalls q o len n) ++ endCalls q o len n m := by
  obtain ⟨m1, m2, m3, m5⟩ := hM
  induction fuel generalizing i s it w with
  | zero => cases h
  | succ fuel ih =>
    obtain ⟨i1, ⟨x, put, i2, i3, i4⟩, b, putb, i5, i6, i7⟩ := hI _ _ hs
    have hi1 : inv o (put x) := i3 ▸ i4 x
    have hd : ∀ j, j < Sink.dstEnd q len n ↔ InDst q len n j := fun j => inDst_iff.symm
    unfold loop at h
    change (log .resampler (I.resampler s) >>= _) w = _ at h
    rw [i2, bind_log] at h
    dsimp only at h
    rw [i3, ceilUsize_ok, bind_lift] at h
    rw [show (Fl.mul q (f64OfUsize i)).add o = posOf q o i from rfl] at h
    by_cases hfl : InDst q len n (posOf q o i).toUsize
    swap
    · rw [if_pos (show ¬ _ from fun h => hfl ((hd _).mp h))] at h
      cases h
      refine ⟨i, le_rfl, fun j h1 h2 => absurd h1 (by omega), hi1, hp, .inl ⟨hfl, rfl⟩, ?_⟩
      rw [Nat.sub_self, endCalls, if_neg hfl]
      simp
    rw [if_neg (not_not.mpr ((hd _).mpr hfl))] at h
    obtain ⟨ca, e1⟩ := hA.1 (((posOf q o i).rem (Fl.lit 1)).min q)
    obtain ⟨fa, e2⟩ := hA.1 (q.sub (((posOf q o i).rem (Fl.lit 1)).min q))
    change (log .fromF64 (A.ofF64 (((posOf q o i).rem (Fl.lit 1)).min q)) >>= fun ca =>
      log .fromF64 (A.ofF64 (q.sub (((posOf q o i).rem (Fl.lit 1)).min q))) >>= _) _ = _ at h
    rw [e1, bind_log, e2, bind_log] at h
    change (log .next (M.next it) >>= _) _ = _ at h
    have hn := m5 i it hp
    by_cases hl : ∀ l, len = some l → i < l
    swap
    · rw [if_neg hl] at hn
      obtain ⟨it', e3, hp'⟩ := hn
      rw [e3, bind_log] at h
      cases h
      refine ⟨i, le_rfl, fun j h1 h2 => absurd h1 (by omega), hi1, hp', .inr ⟨hfl, hl, rfl⟩, ?_⟩
      rw [Nat.sub_self, endCalls, if_pos hfl]
      simp
    rw [if_pos hl] at hn
    obtain ⟨y, it', e3, hp'⟩ := hn
    rw [e3, bind_log] at h
    dsimp only at h
    obtain ⟨src, e4⟩ := hc y
    rw [e4, bind_log] at h
    obtain ⟨-, -, b1, putb1, j1, j2, j3⟩ := hI _ _ hi1
    change (log .buffer (I.buffer (put x)) >>= _) _ = _ at h
    rw [j1, bind_log] at h
    dsimp only at h
    have hdn : Sink.dstEnd q len n ≤ n := by
      unfold Sink.dstEnd
      split
      · exact min_le_right _ _
      · exact le_rfl
    have hup : ∀ b : List F, b.length = n → Gen.upTo b (Sink.dstEnd q len n) = .ok () := by
      intro b hb
      unfold Gen.upTo
      rw [if_neg (by omega)]
    rw [hup b1 j2, bind_lift] at h
    have hfn : (posOf q o i).toUsize < b1.length := by rw [j2]; exact lt_of_lt_of_le ((hd _).mpr hfl) hdn
    have e5 : b1[(posOf q o i).toUsize]? = some b1[(posOf q o i).toUsize] := List.getElem?_eq_getElem hfn
    rw [e5] at h
    dsimp only at h
    obtain ⟨v1, e6⟩ := hA.2.2 src fa
    obtain ⟨v2, e7⟩ := hA.2.1 b1[(posOf q o i).toUsize] v1
    change (log .mul (A.mul src fa) >>= fun v => log .addAssign (A.add b1[(posOf q o i).toUsize] v) >>= _) _ = _ at h
    rw [e6, bind_log, e7, bind_log] at h
    have hi2 : inv o (putb1 (b1.set (posOf q o i).toUsize v2)) := j3 _ (by rw [List.length_set, j2])
    change (log .buffer (I.buffer (putb1 (b1.set (posOf q o i).toUsize v2))) >>= _) _ = _ at h
    obtain ⟨-, -, b2, putb2, k1, k2, k3⟩ := hI _ _ hi2
    rw [k1, bind_log] at h
    dsimp only at h
    rw [hup b2 k2, bind_lift] at h
    have hce : ceilU (posOf q o i) = hiSlot (posOf q o i) := (hiSlot_eq _).symm
    rw [hce] at h
    have fin : ∀ s2 w2, inv o s2 → w2 = w ++ frameCalls q o len n i →
        loop (logFrame A) (logSink I) (logStream M) (fun x => log .convert (conv x)) q (Sink.dstEnd q len n) len fuel (i + 1)
          s2 it' w2 = (.ok res, w') →
        ∃ m, i ≤ m ∧ (∀ j, i ≤ j → j < m → InDst q len n (posOf q o j).toUsize ∧ ∀ l, len = some l → j < l) ∧
          inv o res.1 ∧ pos m res.2.1 ∧
          (¬ InDst q len n (posOf q o m).toUsize ∧ res.2.2 = some m ∨
            InDst q len n (posOf q o m).toUsize ∧ (¬ ∀ l, len = some l → m < l) ∧ res.2.2 = len) ∧
          w' ++ [.resampler] = w ++ (List.range' i (m - i)).flatMap (frameCalls q o len n) ++ endCalls q o len n m := by
      intro s2 w2 hs2 hw2 h
      obtain ⟨m, n1, n2, n3, n4, n5, n6⟩ := ih (i + 1) s2 hs2 it' hp' w2 h
      refine ⟨m, by omega, fun j h1 h2 => ?_, n3, n4, n5, ?_⟩
      · rcases Nat.eq_or_lt_of_le h1 with rfl | h1
        · exact ⟨hfl, hl⟩
        · exact n2 j h1 h2
      · rw [n6, hw2, show m - i = (m - (i + 1)) + 1 by omega, List.range'_succ]
        simp
    by_cases hin : InDst q len n (hiSlot (posOf q o i))
    · have hlt : hiSlot (posOf q o i) < (b2.take (Sink.dstEnd q len n)).length := by
        rw [List.length_take, k2]; exact lt_min ((hd _).mpr hin) (lt_of_lt_of_le ((hd _).mpr hin) hdn)
      rw [List.getElem?_eq_getElem hlt] at h
      dsimp only at h
      obtain ⟨v3, e8⟩ := hA.2.2 src ca
      obtain ⟨v4, e9⟩ := hA.2.1 (b2.take (Sink.dstEnd q len n))[hiSlot (posOf q o i)] v3
      change (log .mul (A.mul src ca) >>= fun v =>
        log .addAssign (A.add (b2.take (Sink.dstEnd q len n))[hiSlot (posOf q o i)] v) >>= _) _ = _ at h
      rw [e8, bind_log, e9, bind_log] at h
      refine fin _ _ (k3 _ (by rw [List.length_set, k2])) ?_ h
      rw [frameCalls, if_pos hin]; simp
    · have hlt : (b2.take (Sink.dstEnd q len n)).length ≤ hiSlot (posOf q o i) := by
        rw [List.length_take, k2]; exact le_trans (min_le_left _ _) (not_lt.mp fun h => hin ((hd _).mp h))
      rw [List.getElem?_eq_none hlt] at h
      dsimp only at h
      obtain ⟨-, ⟨x2, put2, l1, l2, l3⟩, -⟩ := hI _ _ (k3 b2 k2)
      obtain ⟨v3, e8⟩ := hA.2.2 src ca
      obtain ⟨v4, e9⟩ := hA.2.1 x2.partial_ v3
      change (log .resampler (I.resampler (putb2 b2)) >>= _) _ = _ at h
      rw [l1, bind_log] at h
      change (log .mul (A.mul src ca) >>= fun v => log .addAssign (A.add x2.partial_ v) >>= _) _ = _ at h
      rw [e8, bind_log, e9, bind_log] at h
      have hx : inv o (put2 { x2 with partial_ := v4 }) := by rw [← l2]; exact l3 { x2 with partial_ := v4 }
      refine fin _ _ hx ?_ h
      rw [frameCalls, if_neg hin]; simp

theorem clear_calls (d : Nat) (w : List Call) :
    clear (logFrame A) d w = (.ok (List.replicate d A.dflt), w ++ List.replicate d .default_) := by
  induction d generalizing w with
  | zero => simp [clear, pure]
  | succ d ih =>
    unfold clear
    change (log .default_ (.ok A.dflt) >>= fun x => clear (logFrame A) d >>= fun xs => pure (x :: xs)) w = _
    rw [bind_log, bind_ok (ih _)]
    simp [pure, List.replicate_succ]

theorem dstEnd_calls {n : Nat} {len : Option Nat} {st : τ} {s : σ} {b : List F} {put : List F → σ} (m2 : M.len st = len)
    (k1 : I.buffer s = .ok (b, put)) (k2 : b.length = n) (q : F64) (w : List Call) :
    dstEnd (logSink I) (logStream M) q s st w = (.ok (Sink.dstEnd q len n, put b), w ++ [.len] ++ [.buffer]) := by
  unfold dstEnd
  change (log .len (.ok (M.len st)) >>= _) w = _
  rw [m2, bind_log]
  cases len
  all_goals
    dsimp only
    change (log .buffer (I.buffer s) >>= _) _ = _
    rw [k1, bind_log, ← k2]
    rfl

/-- C127: the calls that `stream` makes, in order. -/
theorem C127_calls (hA : A.Total) (hc : ∀ x, ∃ y, conv x = .ok y) {r o rate : F64} {n : Nat} {len : Option Nat}
    {inv : F64 → σ → Prop} {pos : Nat → ι → Prop} (hI : Gen.Steady I r n inv) {st : τ} (hM : Gen.Keeps M st rate len pos)
    (fuel : Nat) (s : σ) (hs : inv o s) (w w' : List Call) (s' : σ) (it : ι)
    (h : stream (logFrame A) (logSink I) (logStream M) (fun x => log .convert (conv x)) fuel s st w = (.ok (s', it), w')) :
    ∃ d m, (∀ i, i < d ↔ InDst (r.div rate) len n i) ∧ Takes (r.div rate) o len n m ∧ pos m it ∧
      w' = w ++ startCalls n d ++ (List.range m).flatMap (frameCalls (r.div rate) o len n) ++ endCalls (r.div rate) o len n m := by
  have hM' := hM
  obtain ⟨m1, m2, ⟨it0, m3, m4⟩, m5⟩ := hM
  obtain ⟨i1, ⟨x, put, i2, i3, i4⟩, -⟩ := hI _ _ hs
  have hi1 : inv o (put x) := i3 ▸ i4 x
  have hdn : Sink.dstEnd (r.div rate) len n ≤ n := by
    unfold Sink.dstEnd
    split
    · exact min_le_right _ _
    · exact le_rfl
  refine ⟨Sink.dstEnd (r.div rate) len n, ?_⟩
  unfold stream ratio at h
  change ((log .streamRate (.ok (M.rate st)) >>= _) >>= _) w = _ at h
  rw [m1, bind_bind, bind_log] at h
  dsimp only at h
  change ((log .sinkRate (.ok (I.rate s)) >>= _) >>= _) _ = _ at h
  rw [i1, bind_bind, bind_log] at h
  change (log .resampler (I.resampler s) >>= _) _ = _ at h
  rw [i2, bind_log] at h
  dsimp only at h
  obtain ⟨-, -, b1, putb1, j1, j2, j3⟩ := hI _ _ hi1
  change (log .buffer (I.buffer (put x)) >>= _) _ = _ at h
  rw [j1, bind_log] at h
  dsimp only at h
  have hadd : ∃ b2 w2, b2.length = n ∧ w2 = w ++ [.streamRate, .sinkRate, .resampler, .buffer] ++ (if n = 0 then [] else [.addAssign]) ∧
      addLeft (logFrame A) x.partial_ b1 (w ++ [.streamRate] ++ [.sinkRate] ++ [.resampler] ++ [.buffer]) = (.ok b2, w2) := by
    cases b1 with
    | nil => exact ⟨[], _, j2, by rw [if_pos (show n = 0 from j2.symm)]; simp, rfl⟩
    | cons y ys =>
      obtain ⟨v, e⟩ := hA.2.1 y x.partial_
      refine ⟨v :: ys, _, j2, rfl, ?_⟩
      rw [if_neg (by rintro rfl; cases j2)]
      unfold addLeft
      change (log .addAssign (A.add y x.partial_) >>= _) _ = _
      rw [e, bind_log]
      simp [pure]
  obtain ⟨b2, w2, hb2, hw2, hadd⟩ := hadd
  rw [bind_ok hadd] at h
  have hi2 : inv o (putb1 b2) := j3 b2 hb2
  obtain ⟨-, -, b3, putb3, k1, k2, k3⟩ := hI _ _ hi2
  change (log .len (.ok (M.len st)) >>= _) _ = _ at h
  rw [m2, bind_log] at h
  rw [bind_ok (dstEnd_calls m2 k1 k2 _ _)] at h
  dsimp only at h
  have hi3 : inv o (putb3 b3) := k3 b3 k2
  obtain ⟨-, -, b4, putb4, l1, l2, l3⟩ := hI _ _ hi3
  change (log .buffer (I.buffer (putb3 b3)) >>= _) _ = _ at h
  rw [l1, bind_log] at h
  dsimp only at h
  have hup : Gen.upTo b4 (Sink.dstEnd (r.div rate) len n) = .ok () := by
    unfold Gen.upTo
    rw [if_neg (by omega)]
  rw [hup, bind_lift, bind_ok (clear_calls _ _)] at h
  change (log .intoIter (M.iter st) >>= _) _ = _ at h
  rw [m3, bind_log] at h
  have hi4 : inv o (putb4 (List.replicate (Sink.dstEnd (r.div rate) len n) A.dflt ++ b4.drop (Sink.dstEnd (r.div rate) len n))) :=
    l3 _ (by rw [List.length_append, List.length_replicate, List.length_drop, l2]; omega)
  generalize hw3 : w2 ++ [.len] ++ [.len] ++ [.buffer] ++ [.buffer] ++ List.replicate _ .default_ ++ [.intoIter] = w3 at h
  cases hl : loop (logFrame A) (logSink I) (logStream M) (fun x => log .convert (conv x)) (r.div rate)
      (Sink.dstEnd (r.div rate) len n) len fuel 0
      (putb4 (List.replicate (Sink.dstEnd (r.div rate) len n) A.dflt ++ b4.drop (Sink.dstEnd (r.div rate) len n))) it0 w3 with
  | mk y w4 =>
  cases y with
  | error e =>
    exfalso
    rw [bind_error hl] at h
    cases h
  | ok y =>
  rw [bind_ok hl] at h
  obtain ⟨m, n1, n2, n3, n4, n5, n6⟩ := loop_calls hA hc hI hM' _ _ _ _ hi4 _ m4 _ _ _ hl
  obtain ⟨s5, it5, sl⟩ := y
  dsimp only at h n3 n4 n5 n6
  have htk : Takes (r.div rate) o len n m ∧ sl = some m := by
    refine ⟨⟨fun j hj => (n2 j (Nat.zero_le _) hj).1, fun l hl => ?_, ?_⟩, ?_⟩
    · by_contra hlt
      exact absurd ((n2 l (Nat.zero_le _) (by omega)).2 l hl) (lt_irrefl _)
    all_goals
      rcases n5 with ⟨h1, h2⟩ | ⟨h1, h2, h3⟩
      · first | exact .inr h1 | exact h2
      · push Not at h2
        obtain ⟨l, rfl, h2⟩ := h2
        have : m = l := by
          by_contra hne
          exact absurd ((n2 l (Nat.zero_le _) (by omega)).2 l rfl) (lt_irrefl _)
        subst this
        first | exact .inl rfl | exact h3
  obtain ⟨htk, rfl⟩ := htk
  dsimp only at h
  obtain ⟨-, ⟨x5, put5, p1, p2, p3⟩, -⟩ := hI _ _ n3
  change (log .resampler (I.resampler s5) >>= _) _ = _ at h
  rw [p1, bind_log] at h
  cases h
  refine ⟨m, fun i => inDst_iff.symm, htk, n4, ?_⟩
  rw [n6, ← hw3, hw2, startCalls, Nat.sub_zero, List.range_eq_range']
  simp

end

/-! ### Examples -/

/-- A peak meter that counts the additions, up to 100. -/
def meter : FrameImpl Nat Nat :=
  ⟨pure 0, fun _ => pure 1, fun a b w => (.ok (max a b), min 100 (w + 1)), fun a b => pure (a * b)⟩

/-- The flipping sink, which does not look at the count. -/
def flip3 : SinkImpl Nat (Gen.Res Nat × { b : List Nat // b.length = 3 } × { b : List Nat // b.length = 3 }) Nat :=
  ⟨fun s => pure ((Gen.flipSink 3).rate s), fun s => lift ((Gen.flipSink 3).resampler s), fun s => lift ((Gen.flipSink 3).buffer s)⟩

/-- A stream that plays the count of the frames that it is added to: a loop from the sink back to the stream. -/
def echo : StreamImpl Nat Nat Nat Nat :=
  ⟨fun _ => pure (some (Fl.lit 8)), fun n => pure (some n), fun _ _ => fail .setSampleRate, pure,
    fun n w => match n with
      | 0 => (.ok (none, 0), w)
      | n + 1 => (.ok (some w, n), w)⟩

example : (stream meter flip3 echo pure 6 Gen.exFlip 5 40).1.map (fun r => (r.1.2.1.1, r.1.2.2.1, r.2)) =
    .ok ([43, 47, 9], [41, 45, 7], 1) := by decide +kernel
example : (stream meter flip3 echo pure 6 Gen.exFlip 5 40).2 = 49 := by decide +kernel
example : (stream meter flip3 echo pure 6 Gen.exFlip 5 60).1.map (fun r => (r.1.2.1.1, r.1.2.2.1, r.2)) =
    .ok ([63, 67, 9], [61, 65, 7], 1) := by decide +kernel

theorem ret_pure {α : Type} {Inv : W → Prop} {Q : α → Prop} {a : α} (h : Q a) : Returns Inv Q (pure a : E W α) :=
  fun w hw => ⟨a, w, rfl, h, hw⟩

theorem meter_total : meter.Total (· ≤ 100) :=
  ⟨ret_pure trivial, fun _ => ret_pure trivial, fun a b w _ => ⟨max a b, min 100 (w + 1), rfl, trivial, min_le_left _ _⟩,
    fun _ _ => ret_pure trivial⟩

theorem flip3_steady : Steady (· ≤ 100) flip3 (Fl.lit 4) 3 (fun o s => s.1.offseti = o) :=
  fun _ s h => ⟨ret_pure rfl, fun w hw => ⟨_, w, rfl, ⟨h, fun _ => rfl⟩, hw⟩,
    fun w hw => ⟨_, w, rfl, ⟨s.2.1.2, fun _ _ => h⟩, hw⟩⟩

theorem echo_keeps (n : Nat) : Keeps (· ≤ 100) echo n (Fl.lit 8) (some n) (fun p it => p + it = n) := by
  refine ⟨ret_pure rfl, ret_pure rfl, ret_pure (Nat.zero_add n), ?_⟩
  rintro p (_ | it) h
  · rw [if_neg (fun hl => absurd (hl _ rfl) (by omega))]
    exact fun w hw => ⟨(none, 0), w, rfl, ⟨rfl, h⟩, hw⟩
  · rw [if_pos (by rintro _ ⟨⟩; omega)]
    exact fun w hw => ⟨(some w, it), w, rfl, ⟨rfl, by omega⟩, hw⟩

example := C127_returns meter_total (conv := pure) (fun _ => ret_pure trivial) flip3_steady (echo_keeps 5) Gen.exFlip rfl 40 (by decide)
example := C127_takes meter_total (conv := pure) (fun _ => ret_pure trivial) flip3_steady (echo_keeps 5) 6 Gen.exFlip rfl 40 _
  (by decide) _ _ (Prod.ext (R.returns₂ (x := (stream meter flip3 echo pure 6 Gen.exFlip 5 40).1) (by decide +kernel)) rfl)

theorem sim_pure {α β : Type} {Inv : W → Prop} {Q : α → β → Prop} {a : α} {b : β} (h : Q a b) : Sim Inv Q (pure a : E W α) (.ok b) :=
  fun _ hw => ⟨h, hw⟩

theorem meter_le : FrameSim (· ≤ 100) meter Gen.peak (· ≤ ·) :=
  ⟨sim_pure le_rfl, fun _ => sim_pure le_rfl, fun _ _ _ _ h h' _ _ => ⟨max_le_max h h', min_le_left _ _⟩,
    fun _ _ _ _ h h' => sim_pure (Nat.mul_le_mul h h')⟩

theorem flip3_le : SinkSim (· ≤ 100) flip3 (Gen.flipSink 3) (· ≤ ·) (Gen.FlipLe 3) := by
  intro s t h
  obtain ⟨h1, h2, h3⟩ := Gen.flipSink_le 3 s t h
  exact ⟨sim_pure h1, fun _ hw => ⟨h2, hw⟩, fun _ hw => ⟨h3, hw⟩⟩

theorem echo_le : StreamSim (· ≤ 100) echo Gen.numbers pure Except.ok (· ≤ ·) (fun n l => l = List.replicate n 100)
    (fun n l => l = List.replicate n 100) := by
  refine ⟨fun _ _ _ => sim_pure rfl, ?_, ?_, ?_, ?_⟩
  · rintro n _ rfl; exact sim_pure (congrArg some (List.length_replicate ..).symm)
  · rintro n _ r rfl h; cases h
  · rintro n _ rfl; exact sim_pure rfl
  · rintro (_ | n) _ rfl w hw
    · exact ⟨⟨rfl, trivial⟩, hw⟩
    · exact ⟨⟨rfl, sim_pure hw⟩, hw⟩

/-- So the echo is never above the constant 100. -/
example := C127_param flip3_le meter_le echo_le 6 Gen.exFlip Gen.exFlip ⟨⟨le_rfl, rfl⟩, by simp [Gen.exFlip], by simp [Gen.exFlip]⟩ 5
  (List.replicate 5 100) rfl
example := C127_flush flip3_le Gen.exFlip Gen.exFlip ⟨⟨le_rfl, rfl⟩, by simp [Gen.exFlip], by simp [Gen.exFlip]⟩

example := C127_calls Gen.peak_total (conv := Except.ok) (fun _ => ⟨_, rfl⟩) (Gen.flipSink_steady 3) (Gen.numbers_keeps [5, 2, 8, 1, 4])
  6 Gen.exFlip rfl [] _ _ _ (Prod.ext (R.returns₂ (x := (stream (logFrame Gen.peak) (logSink (Gen.flipSink 3)) (logStream Gen.numbers)
    (fun x => log .convert (.ok x)) 6 Gen.exFlip [5, 2, 8, 1, 4] []).1) (by decide +kernel)) rfl)
/-- The calls for a stream of two frames, at twice the rate of the sink. -/
example : (stream (logFrame Gen.peak) (logSink (Gen.flipSink 3)) (logStream Gen.numbers) (fun x => log .convert (.ok x)) 6 Gen.exFlip
    [5, 2] []).2 = startCalls 3 1 ++
      [.resampler, .fromF64, .fromF64, .next, .convert, .buffer, .mul, .addAssign, .buffer, .mul, .addAssign,
        .resampler, .fromF64, .fromF64, .next, .convert, .buffer, .mul, .addAssign, .buffer, .resampler, .mul, .addAssign,
        .resampler, .resampler] := by decide +kernel

end Fon.Eff
