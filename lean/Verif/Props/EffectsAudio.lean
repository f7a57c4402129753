import Verif.Spec.EffectsAudio
import Verif.Props.Effects
import Verif.Props.GenericAudio
import Verif.Props.GenericAdapt

/-!
# C128: adaptors and buffers of implementations that share state
-/

namespace Fon.Eff
open Gen (Both)
variable {W F G S S' T T' σ σ' τ τ' ι ι' υ υ' κ κ' : Type}

section
variable {Inv : W → Prop} {A : FrameImpl W F} {B : Gen.FrameImpl G} {M : StreamImpl W τ ι S} {L : Gen.StreamImpl τ' ι' S'}
  {conv : S → E W F} {conv' : S' → R G} {P : F → G → Prop} {V : τ → τ' → Prop} {N : ι → ι' → Prop}

/-- C128: `take` of a stream with shared state calls the stream as often as `take` says, in the same order, and does
nothing else to the state. -/
theorem C128_take (M : StreamImpl W τ ι S) (n m : Nat) (it : ι) (w : W) :
    Both (fun a b => a.1 = b.1 ∧ a.2.1 = b.2) (takes (takeImpl M) m (it, n) w).1 (takes M (min m n) it w).1 ∧
      (takes (takeImpl M) m (it, n) w).2 = (takes M (min m n) it w).2 := by
  induction m generalizing n it w with
  | zero => rw [Nat.zero_min]; exact ⟨⟨rfl, rfl⟩, rfl⟩
  | succ m ih =>
    cases n with
    | zero => rw [Nat.min_zero]; exact ⟨⟨rfl, rfl⟩, rfl⟩
    | succ n =>
      rw [Nat.succ_min_succ]
      unfold takes
      change Both _ (((M.next it >>= fun x => pure (x.1, x.2, n)) >>= _) w).1 _ ∧
        (((M.next it >>= fun x => pure (x.1, x.2, n)) >>= _) w).2 = _
      rw [bind_bind]
      cases hx : M.next it w with
      | mk y w1 =>
        cases y with
        | error e =>
          rw [bind_error hx, bind_error hx]
          exact ⟨rfl, rfl⟩
        | ok y =>
          rw [bind_ok hx, bind_ok hx]
          obtain ⟨o, it'⟩ := y
          cases o with
          | none => exact ⟨⟨rfl, rfl⟩, rfl⟩
          | some x =>
            change Both _ ((takes (takeImpl M) m (it', n) >>= fun r => pure (x :: r.1, r.2)) w1).1
              ((takes M (min m n) it' >>= fun r => pure (x :: r.1, r.2)) w1).1 ∧
              ((takes (takeImpl M) m (it', n) >>= fun r => pure (x :: r.1, r.2)) w1).2 =
                ((takes M (min m n) it' >>= fun r => pure (x :: r.1, r.2)) w1).2
            obtain ⟨h1, h2⟩ := ih n it' w1
            cases ha : takes (takeImpl M) m (it', n) w1 with
            | mk y w2 =>
            cases hb : takes M (min m n) it' w1 with
            | mk z w3 =>
            rw [ha, hb] at h1 h2
            cases h2
            cases y <;> cases z
            · rw [bind_error ha, bind_error hb]; exact ⟨h1, rfl⟩
            · exact h1.elim
            · exact h1.elim
            · rw [bind_ok ha, bind_ok hb]
              exact ⟨⟨congrArg (x :: ·) h1.1, h1.2⟩, rfl⟩

/-- C128: streams with shared state that relate to streams without still do after `take`. -/
theorem C128_take_param (h : StreamSim Inv M L conv conv' P V N) :
    StreamSim Inv (takeImpl M) (Gen.takeImpl L) conv conv' P (fun a b => V a.1 b.1 ∧ a.2 = b.2) (fun a b => N a.1 b.1 ∧ a.2 = b.2) where
  rate := by rintro ⟨a, n⟩ ⟨b, _⟩ ⟨h1, rfl⟩; exact h.rate a b h1
  len := by
    rintro ⟨a, n⟩ ⟨b, _⟩ ⟨h1, rfl⟩
    refine (h.len a b h1).step fun o ho => ?_
    subst ho
    show Sim _ _ _ (.ok (some (match L.len b with
      | some a => min a n
      | none => n)))
    cases L.len b <;> exact Sim.pure rfl
  setRate := by
    rintro ⟨a, n⟩ ⟨b, _⟩ r ⟨h1, rfl⟩ h2
    have := (h.setRate a b r h1 h2).bind (f := fun a => pure (a, n)) (g := fun b => .ok (b, n))
      (Q' := fun (a : τ × Nat) (b : τ' × Nat) => V a.1 b.1 ∧ a.2 = b.2) fun _ _ h => Sim.pure ⟨h, rfl⟩
    exact this
  iter := by
    rintro ⟨a, n⟩ ⟨b, _⟩ ⟨h1, rfl⟩
    have := (h.iter a b h1).bind (f := fun a => pure (a, n)) (g := fun b => .ok (b, n))
      (Q' := fun (a : ι × Nat) (b : ι' × Nat) => N a.1 b.1 ∧ a.2 = b.2) fun _ _ h => Sim.pure ⟨h, rfl⟩
    exact this
  next := by
    rintro ⟨a, n⟩ ⟨b, _⟩ ⟨h1, rfl⟩
    cases n with
    | zero => exact Sim.pure ⟨⟨h1, rfl⟩, trivial⟩
    | succ n =>
      have := (h.next a b h1).bind (f := fun x => pure (x.1, x.2, n)) (g := fun x => .ok (x.1, x.2, n))
        (Q' := fun (a : Option S × ι × Nat) (b : Option S' × ι' × Nat) => (N a.2.1 b.2.1 ∧ a.2.2 = b.2.2) ∧
          match a.1, b.1 with
          | none, none => True
          | some x, some y => Sim Inv P (conv x) (conv' y)
          | _, _ => False)
        fun _ _ h => Sim.pure ⟨⟨h.1, rfl⟩, h.2⟩
      exact this

variable {M' : StreamImpl W υ κ T} {L' : Gen.StreamImpl υ' κ' T'} {PS : S → S' → Prop} {PT : T → T' → Prop}
  {V' : υ → υ' → Prop} {N' : κ → κ' → Prop} {mix : S → T → E W S} {mix' : S' → T' → R S'}

theorem Sim.inv {α β : Type} {Q : α → β → Prop} {a : α} {b : β} {w : W} (hw : Inv w)
    (h : Sim Inv Q (Pure.pure a : E W α) (.ok b)) : Q a b := (h w hw).1

/-- C128: and after `blend`. -/
theorem C128_blend_param (h : StreamSim Inv M L pure .ok PS V N) (h' : StreamSim Inv M' L' pure .ok PT V' N')
    (hs : ∀ st st' r, V' st st' → Sim Inv V' (M'.setRate st r) (L'.setRate st' r))
    (hm : ∀ x x' y y', PS x x' → PT y y' → Sim Inv PS (mix x y) (mix' x' y'))
    (hc : ∀ x x', PS x x' → Sim Inv P (conv x) (conv' x')) :
    StreamSim Inv (blendImpl M M' mix) (Gen.blendImpl L L' mix') conv conv' P (fun a b => V a.1 b.1 ∧ V' a.2 b.2)
      (fun a b => N a.1 b.1 ∧ N' a.2 b.2) where
  rate := by rintro ⟨a, b⟩ ⟨a', b'⟩ ⟨h1, h2⟩; exact h.rate a a' h1
  len := by
    rintro ⟨a, b⟩ ⟨a', b'⟩ ⟨h1, h2⟩
    refine (h.len a a' h1).step fun o ho => (h'.len b b' h2).step fun o' ho' => ?_
    subst ho ho'
    exact Sim.pure rfl
  setRate := by
    rintro ⟨a, b⟩ ⟨a', b'⟩ r ⟨h1, h2⟩ h3
    exact (h.setRate a a' r h1 h3).bind fun _ _ g1 => (hs b b' r h2).bind fun _ _ g2 => Sim.pure ⟨g1, g2⟩
  iter := by
    rintro ⟨a, b⟩ ⟨a', b'⟩ ⟨h1, h2⟩
    exact (h.iter a a' h1).bind fun _ _ g1 => (h'.iter b b' h2).bind fun _ _ g2 => Sim.pure ⟨g1, g2⟩
  next := by
    rintro ⟨a, b⟩ ⟨a', b'⟩ ⟨h1, h2⟩
    by_cases hi : ∃ w, Inv w
    swap
    · exact fun w hw => absurd ⟨w, hw⟩ hi
    obtain ⟨w, hw⟩ := hi
    refine (h.next a a' h1).bind fun x x' hx => ?_
    obtain ⟨x, c⟩ := x
    obtain ⟨x', c'⟩ := x'
    obtain ⟨hc1, hx⟩ := hx
    cases x <;> cases x'
    · exact Sim.pure ⟨⟨hc1, h2⟩, trivial⟩
    · exact hx.elim
    · exact hx.elim
    · refine (h'.next b b' h2).bind fun y y' hy => ?_
      obtain ⟨y, d⟩ := y
      obtain ⟨y', d'⟩ := y'
      obtain ⟨hd1, hy⟩ := hy
      cases y <;> cases y'
      · exact Sim.pure ⟨⟨hc1, hd1⟩, trivial⟩
      · exact hy.elim
      · exact hy.elim
      · exact (hm _ _ _ _ (hx.inv hw) (hy.inv hw)).bind fun z z' hz => Sim.pure ⟨⟨hc1, hd1⟩, hc _ _ hz⟩

/-- C128: the same for the check of the rates in `blend`. -/
theorem C128_blend (h : StreamSim Inv M L conv conv' P V N) {convT : T → E W F} {convT' : T' → R G}
    (h' : StreamSim Inv M' L' convT convT' P V' N') (a : τ) (a' : τ') (h1 : V a a') (b : υ) (b' : υ') (h2 : V' b b') :
    Sim Inv (fun x y => V x.1 y.1 ∧ V' x.2 y.2) (blend M M' a b) (Gen.blend L L' a' b') := by
  unfold blend Gen.blend
  refine (h.rate a a' h1).step fun o ho => (h'.rate b b' h2).step fun o' ho' => ?_
  subst ho ho'
  split
  · exact Sim.pure ⟨h1, h2⟩
  · cases ha : L.rate a' <;> cases hb : L'.rate b'
    · exact Sim.pure ⟨h1, h2⟩
    · have := (h.setRate a a' ‹_› h1 ha).bind (f := fun x => pure (x, b)) (g := fun x => .ok (x, b'))
        (Q' := fun x y => V x.1 y.1 ∧ V' x.2 y.2) fun _ _ h => Sim.pure ⟨h, h2⟩
      exact this
    · have := (h'.setRate b b' ‹_› h2 hb).bind (f := fun x => pure (a, x)) (g := fun x => .ok (a', x))
        (Q' := fun x y => V x.1 y.1 ∧ V' x.2 y.2) fun _ _ h => Sim.pure ⟨h1, h⟩
      exact this
    · exact Sim.fail _

theorem audSink_sim : SinkSim Inv (audSinkImpl W F) (Gen.audSinkImpl G) P
    (fun s t => s.rate = t.rate ∧ List.Forall₂ P s.before t.before ∧ List.Forall₂ P s.buf t.buf ∧
      P s.res.partial_ t.res.partial_ ∧ s.res.offseti = t.res.offseti) :=
  fun _ _ ⟨h1, h2, h3, h4, h5⟩ => ⟨Sim.pure h1, Sim.pure ⟨⟨h4, h5⟩, fun _ _ g1 g2 => ⟨h1, h2, h3, g1, g2⟩⟩,
    Sim.pure ⟨h3, fun _ _ _ g => ⟨h1, h2, g, h4, h5⟩⟩⟩

theorem extendInternal_sim (hA : FrameSim Inv A B P) (hM : StreamSim Inv M L conv conv' P V N) (size fuel : Nat) (a : Gen.Aud F)
    (b : Gen.Aud G) (hab : AudRel P a b) (st : τ) (st' : τ') (hV : V st st') :
    Sim Inv (AudRel P) (extendInternal A size M conv fuel a st) (Gen.extendInternal B size L conv' fuel b st') := by
  obtain ⟨e, hf⟩ := hab
  unfold extendInternal Gen.extendInternal
  refine (hM.len _ _ hV).step fun o ho => ?_
  subst ho
  cases L.len st' with
  | none => exact Sim.fail _
  | some l =>
    dsimp only
    refine (hM.rate _ _ hV).step fun o ho => ?_
    subst ho
    rw [e, hf.length_eq]
    split
    · exact Sim.fail _
    · split
      · exact Sim.fail _
      · refine (clear_sim hA _).step fun c hc => hA.dflt.step fun p hp => ?_
        refine (C127_param audSink_sim hA hM fuel _ _ ⟨?_, ?_, ?_, ?_, ?_⟩ st st' hV).bind fun x y h => ?_
        · rfl
        · exact hf
        · exact hc
        · exact hp
        · rfl
        · refine (C127_flush audSink_sim x.1 y.1 h.1).bind fun s t h => Sim.pure ⟨rfl, ?_⟩
          exact List.rel_append h.2.1 h.2.2.1

/-- C128: buffers, frames and streams with shared state that relate to such without still do after `extend`. -/
theorem C128_extend_param (hA : FrameSim Inv A B P) (hM : StreamSim Inv M L conv conv' P V N) (size fuel : Nat) (a : Gen.Aud F)
    (b : Gen.Aud G) (hab : AudRel P a b) (st : τ) (st' : τ') (hV : V st st') (w : W) (hw : Inv w) :
    let x := extend A size M conv fuel a st w
    let y := Gen.extend B size L conv' fuel b st'
    AudRel P x.1 y.1 ∧ x.2.1 = y.2 ∧ Inv x.2.2 := by
  obtain ⟨h1, h2⟩ := extendInternal_sim hA hM size fuel a b hab st st' hV w hw
  unfold extend Gen.extend
  cases hx : extendInternal A size M conv fuel a st w with
  | mk x w' =>
  cases hy : Gen.extendInternal B size L conv' fuel b st' with
  | error e' =>
    rw [hx, hy] at h1
    rw [hx] at h2
    cases x with
    | error e => cases h1; exact ⟨⟨rfl, .nil⟩, rfl, h2⟩
    | ok x => exact h1.elim
  | ok y =>
    rw [hx, hy] at h1
    rw [hx] at h2
    cases x with
    | error e => exact h1.elim
    | ok x => exact ⟨h1, rfl, h2⟩

/-- C128: after a panic the buffer is empty and has rate 0. -/
theorem C128_lost (size fuel : Nat) (a b : Gen.Aud F) (st : τ) (w w' : W) (e : Panic)
    (h : extend A size M conv fuel a st w = (b, .error e, w')) : b = ⟨Fl.lit 0, []⟩ := by
  unfold extend at h
  cases hx : extendInternal A size M conv fuel a st w with
  | mk x w1 =>
    rw [hx] at h
    cases x <;> cases h
    rfl

/-- C128, exactly when `extend` panics with implementations that do not panic themselves: the state they share has no
influence on it. -/
theorem C128_panics_iff (hA : A.Total Inv) (hc : ∀ x, Returns Inv (fun _ => True) (conv x)) {rate : F64} {l : Nat}
    {pos : Nat → ι → Prop} {st : τ} (hM : Keeps Inv M st rate (some l) pos) (size : Nat) (a : Gen.Aud F)
    (hf : a.Room size (Audio.dstLen a.rate l (some rate))) (w : W) (hw : Inv w) :
    (∃ e, (extend A size M conv (l + 1) a st w).2.1 = .error e) ↔
      ∃ n off, Takes (a.rate.div rate) (Fl.lit 0) (some l) (Audio.dstLen a.rate l (some rate)) n ∧
        off = (Fl.lit 0 : F64).add ((a.rate.div rate).mul (f64OfUsize n)) ∧
        HasFract off ∧ Audio.dstLen a.rate l (some rate) ≤ off.toUsize := by
  have hr : AudRel (fun _ _ => True) a (⟨a.rate, List.replicate a.frames.length Frame.dflt⟩ : Gen.Aud (Frame .mono .ch8)) :=
    ⟨rfl, List.forall₂_iff_zip.mpr ⟨(List.length_replicate ..).symm, fun _ => trivial⟩⟩
  rw [(C128_extend_param (total_sim hA) (keeps_sim hc hM) size (l + 1) a _ hr st _ ⟨rfl, rfl⟩ w hw).2.1]
  refine Gen.C124_panics_iff (A := Gen.frameImpl .mono .ch8) ⟨fun _ => ⟨_, rfl⟩, fun _ _ => ⟨_, rfl⟩, fun _ _ => ⟨_, rfl⟩⟩
    (fun x => C25_builtin rfl rfl x) (silence_keeps rate (some l)) size
    ⟨a.rate, List.replicate a.frames.length Frame.dflt⟩ ?_
  unfold Gen.Aud.Room
  rw [List.length_replicate]
  exact hf

end

section
variable {α β : Type} {Inv : W → Prop}

theorem Post.bind {Q : α → Prop} {Q' : β → Prop} {x : E W α} {f : α → E W β} (h : Post Inv Q x)
    (hf : ∀ a, Q a → Post Inv Q' (f a)) : Post Inv Q' (x >>= f) := by
  intro w hw
  obtain ⟨h1, h2⟩ := h w hw
  cases hx : x w with
  | mk y w' =>
    rw [hx] at h1 h2
    cases y with
    | error e => rw [bind_error hx]; exact ⟨h1, nofun⟩
    | ok a => rw [bind_ok hx]; exact hf a (h2 a rfl) w' h1

theorem Post.pure {Q : α → Prop} {a : α} (h : Q a) : Post Inv Q (Pure.pure a : E W α) :=
  fun _ hw => ⟨hw, fun _ e => by cases e; exact h⟩

theorem Post.fail {Q : α → Prop} (e : Panic) : Post Inv Q (fail e : E W α) := fun _ hw => ⟨hw, nofun⟩

theorem Post.lift (x : R α) : Post Inv (fun a => x = .ok a) (lift x : E W α) := fun _ hw => ⟨hw, fun _ e => e⟩

theorem Post.mono {Q Q' : α → Prop} {x : E W α} (h : Post Inv Q x) (hf : ∀ a, Q a → Q' a) : Post Inv Q' x :=
  fun w hw => ⟨(h w hw).1, fun a e => hf a ((h w hw).2 a e)⟩

end

section
variable {Inv : W → Prop} {A : FrameImpl W F} {M : StreamImpl W τ ι S} {conv : S → E W F} {Q K : F → Prop} {V : τ → Prop} {N : ι → Prop}
open Gen (Within set_all)

theorem post_res {β : Type} {R : β → Prop} (s : Gen.AudSink F) (f : Gen.Res F × (Gen.Res F → Gen.AudSink F) → E W β)
    (h : Post Inv R (f (s.res, fun r => { s with res := r }))) : Post Inv R ((audSinkImpl W F).resampler s >>= f) := h

theorem post_buf {β : Type} {R : β → Prop} (s : Gen.AudSink F) (f : List F × (List F → Gen.AudSink F) → E W β)
    (h : Post Inv R (f (s.buf, fun b => { s with buf := b }))) : Post Inv R ((audSinkImpl W F).buffer s >>= f) := h

theorem loop_post (hC : Closed Inv A M conv Q K V N) (fs : List F) (n : Nat) (q : F64) (d : Nat) (l : Option Nat) (fuel i : Nat)
    (s : Gen.AudSink F) (it : ι) (hs : Within fs n Q s) (hN : N it) :
    Post Inv (fun r => Within fs n Q r.1) (loop A (audSinkImpl W F) M conv q d l fuel i s it) := by
  induction fuel generalizing i s it with
  | zero => exact Post.fail _
  | succ fuel ih =>
    obtain ⟨h1, h2, h3, h4⟩ := hs
    unfold loop
    refine post_res _ _ ?_
    dsimp only
    refine (Post.lift _).bind fun c _ => ?_
    split
    · exact Post.pure ⟨h1, h2, h3, h4⟩
    · refine (hC.ofF64 _).bind fun ca hca => (hC.ofF64 _).bind fun fa hfa => (hC.next it hN).bind fun x hx => ?_
      obtain ⟨o, it'⟩ := x
      obtain ⟨hN', hx⟩ := hx
      cases o with
      | none => exact Post.pure ⟨h1, h2, h3, h4⟩
      | some x =>
        refine (hx x rfl).bind fun src hsrc => ?_
        refine post_buf _ _ ?_
        refine (Post.lift _).bind fun _ _ => ?_
        dsimp only
        split
        · exact Post.fail _
        · rename_i y hy
          refine (hC.mul _ _ hsrc hfa).bind fun v1 hv1 => (hC.add _ _ (h3 _ (List.mem_of_getElem? hy)) hv1).bind fun v2 hv2 => ?_
          refine post_buf _ _ ?_
          dsimp only
          refine (Post.lift _).bind fun _ _ => ?_
          have h3' : ∀ x ∈ s.buf.set ((q.mul (f64OfUsize i)).add s.res.offseti).toUsize v2, Q x := set_all h3 hv2
          split
          · rename_i z hz
            refine (hC.mul _ _ hsrc hca).bind fun v3 hv3 => (hC.add _ _ (h3' _ ?_) hv3).bind fun v4 hv4 => ?_
            · exact List.mem_of_mem_take (List.mem_of_getElem? hz)
            · exact ih _ _ _ ⟨h1, by simpa using h2, set_all h3' hv4, h4⟩ hN'
          · refine post_res _ _ ?_
            dsimp only
            refine (hC.mul _ _ hsrc hca).bind fun v3 hv3 => (hC.add _ _ h4 hv3).bind fun v4 hv4 => ?_
            exact ih _ _ _ ⟨h1, by simpa using h2, h3', hv4⟩ hN'

theorem clear_post (hC : Closed Inv A M conv Q K V N) (n : Nat) : Post Inv (fun l => l.length = n ∧ ∀ x ∈ l, Q x) (clear A n) := by
  induction n with
  | zero => exact Post.pure ⟨rfl, nofun⟩
  | succ n ih =>
    refine hC.dflt.bind fun a ha => ih.bind fun as has => Post.pure ⟨by simp [has.1], ?_⟩
    rintro x (_ | ⟨_, hx⟩)
    · exact ha
    · exact has.2 x hx

theorem addLeft_post (hC : Closed Inv A M conv Q K V N) (p : F) (hp : Q p) (l : List F) (hl : ∀ x ∈ l, Q x) :
    Post Inv (fun r => r.length = l.length ∧ ∀ x ∈ r, Q x) (addLeft A p l) := by
  cases l with
  | nil => exact Post.pure ⟨rfl, nofun⟩
  | cons y ys =>
    refine (hC.add _ _ (hl y (.head _)) hp).bind fun z hz => Post.pure ⟨rfl, ?_⟩
    rintro x (_ | ⟨_, hx⟩)
    · exact hz
    · exact hl x (.tail _ hx)

theorem stream_post (hC : Closed Inv A M conv Q K V N) (fs : List F) (n fuel : Nat) (s : Gen.AudSink F) (st : τ)
    (hs : Within fs n Q s) (hV : V st) :
    Post Inv (fun r => Within fs n Q r.1) (stream A (audSinkImpl W F) M conv fuel s st) := by
  obtain ⟨h1, h2, h3, h4⟩ := hs
  unfold stream
  refine Post.bind (Q := fun r => V r.2) ?_ fun r hV => ?_
  · unfold ratio
    refine (hC.rate st hV).bind fun o _ => ?_
    cases o with
    | some sr => exact Post.pure hV
    | none => exact (hC.set _ _ hV).bind fun st hV => Post.pure hV
  · obtain ⟨q, st⟩ := r
    dsimp only
    refine post_res _ _ (post_buf _ _ ?_)
    dsimp only
    refine (addLeft_post hC _ h4 _ h3).bind fun b hb => (hC.len _ hV).bind fun l _ => ?_
    refine Post.bind (Q := fun r => Within fs n Q r.2 ∧ r.1 ≤ n) ?_ fun r hr => ?_
    · unfold dstEnd
      refine (hC.len _ hV).bind fun o _ => ?_
      cases o with
      | some l => exact Post.pure ⟨⟨h1, hb.1.trans h2, hb.2, h4⟩, (min_le_right _ _).trans (hb.1.trans h2).le⟩
      | none => exact Post.pure ⟨⟨h1, hb.1.trans h2, hb.2, h4⟩, (hb.1.trans h2).le⟩
    · obtain ⟨d, s⟩ := r
      obtain ⟨⟨h1, h2, h3, h4⟩, hd⟩ := hr
      dsimp only at hd h1 h2 h3 h4 ⊢
      refine post_buf _ _ ?_
      dsimp only
      refine (Post.lift _).bind fun _ _ => (clear_post hC d).bind fun c hc => (hC.iter _ hV).bind fun it hN => ?_
      refine (loop_post hC fs n q d l fuel 0 _ it ?_ hN).bind fun r hr => ?_
      · refine ⟨h1, ?_, ?_, h4⟩
        · show (c ++ s.buf.drop d).length = n
          rw [List.length_append, hc.1, List.length_drop, h2]; omega
        · intro x hx
          rcases List.mem_append.mp hx with hx | hx
          · exact hc.2 x hx
          · exact h3 x (List.mem_of_mem_drop hx)
      · obtain ⟨s, it, o⟩ := r
        cases o with
        | none => exact Post.fail _
        | some n => exact Post.pure hr

theorem flush_post (fs : List F) (n : Nat) (s : Gen.AudSink F) (hs : Within fs n Q s) :
    Post Inv (Within fs n Q) (flush (audSinkImpl W F) s) := by
  obtain ⟨h1, h2, h3, h4⟩ := hs
  unfold flush
  refine Post.bind (Q := fun r => r.2 = s) ?_ fun r hr => ?_
  · unfold left
    change Post Inv _ (if _ then _ else _)
    split <;> exact Post.pure rfl
  · obtain ⟨b, t⟩ := r
    cases hr
    cases b with
    | false => exact Post.pure ⟨h1, h2, h3, h4⟩
    | true =>
      dsimp only
      rw [if_pos rfl]
      refine post_res _ _ (post_res _ _ (post_buf _ _ ?_))
      dsimp only
      split
      · exact Post.pure ⟨h1, by simpa using h2, set_all h3 h4, h4⟩
      · exact Post.fail _

/-- C128: whatever the implementations do, `extend` only appends, and the new frames come from the arithmetic of the
frames. -/
theorem C128_closed (hC : Closed Inv A M conv Q K V N) (size fuel : Nat) (a b : Gen.Aud F) (st : τ) (hV : V st) (w w' : W)
    (hw : Inv w) (h : extend A size M conv fuel a st w = (b, .ok (), w')) :
    Inv w' ∧ ∃ fs, b.frames = a.frames ++ fs ∧ ∀ x ∈ fs, Q x := by
  have key : Post Inv (fun b => ∃ fs, b.frames = a.frames ++ fs ∧ ∀ x ∈ fs, Q x) (extendInternal A size M conv fuel a st) := by
    unfold extendInternal
    refine (hC.len _ hV).bind fun o _ => ?_
    cases o with
    | none => exact Post.fail _
    | some l =>
      refine (hC.rate _ hV).bind fun r _ => ?_
      dsimp only
      split
      · exact Post.fail _
      · split
        · exact Post.fail _
        · refine (clear_post hC _).bind fun c hc => hC.dflt.bind fun p hp => ?_
          refine (stream_post hC a.frames c.length fuel _ st ⟨rfl, rfl, hc.2, hp⟩ hV).bind fun r hr => ?_
          refine (flush_post a.frames c.length r.1 hr).bind fun s hs => Post.pure ⟨s.buf, ?_, hs.2.2.1⟩
          show s.before ++ s.buf = _
          rw [hs.1]
  obtain ⟨k1, k2⟩ := key w hw
  unfold extend at h
  cases hx : extendInternal A size M conv fuel a st w with
  | mk x w1 =>
    rw [hx] at h k1 k2
    cases x <;> cases h
    exact ⟨k1, k2 _ rfl⟩

/-- C128: and for any implementations at all, the rate and the old frames stay, and the number of new frames follows from the
length and the rate that the stream first reports. -/
theorem C128_keeps (A : FrameImpl W F) (size : Nat) (M : StreamImpl W τ ι S) (conv : S → E W F) (fuel : Nat) (a b : Gen.Aud F)
    (st : τ) (w w' : W) (h : extend A size M conv fuel a st w = (b, .ok (), w')) :
    b.rate = a.rate ∧ ∃ fs, b.frames = a.frames ++ fs ∧
      ∃ l r w1 w2, M.len st w = (.ok (some l), w1) ∧ M.rate st w1 = (.ok r, w2) ∧ ∀ n, Growth a.rate l r n → fs.length = n := by
  have hT : ∀ {α : Type} (x : E W α), Post (fun _ => True) (fun _ => True) x := fun _ _ _ => ⟨trivial, fun _ _ => trivial⟩
  have hC : Closed (fun _ => True) A M conv (fun _ => True) (fun _ => True) (fun _ => True) (fun _ => True) := by
    constructor <;> intros
    case next => exact fun _ _ => ⟨trivial, fun _ _ => ⟨trivial, fun _ _ => hT _⟩⟩
    all_goals exact hT _
  unfold extend at h
  cases hx : extendInternal A size M conv fuel a st w with
  | mk x w1 =>
    rw [hx] at h
    cases x <;> cases h
    unfold extendInternal at hx
    cases hl : M.len st w with
    | mk o w1 =>
    cases o with
    | error e => rw [bind_error hl] at hx; cases hx
    | ok o =>
    rw [bind_ok hl] at hx
    cases o with
    | none => cases hx
    | some l =>
    change (M.rate st >>= _) w1 = _ at hx
    cases hr : M.rate st w1 with
    | mk o w2 =>
    cases o with
    | error e => rw [bind_error hr] at hx; cases hx
    | ok r =>
    rw [bind_ok hr] at hx
    dsimp only at hx
    have key : Post (fun _ => True) (fun b => b.rate = a.rate ∧ ∃ fs, b.frames = a.frames ++ fs ∧ fs.length = Audio.dstLen a.rate l r)
        (do
          let new ← clear A (Audio.dstLen a.rate l r)
          let p ← A.dflt
          let (s, _) ← stream A (audSinkImpl W F) M conv fuel ⟨a.rate, a.frames, new, ⟨p, Fl.lit 0⟩⟩ st
          let s ← flush (audSinkImpl W F) s
          pure (⟨a.rate, s.before ++ s.buf⟩ : Gen.Aud F)) := by
      refine (clear_post hC _).bind fun c hc => hC.dflt.bind fun p hp => ?_
      refine (stream_post hC a.frames c.length fuel _ st ⟨rfl, rfl, hc.2, hp⟩ trivial).bind fun r hr => ?_
      refine (flush_post a.frames c.length r.1 hr).bind fun s hs => Post.pure ⟨rfl, s.buf, ?_, hs.2.1.trans hc.1⟩
      show s.before ++ s.buf = _
      rw [hs.1]
    split at hx
    · cases hx
    · split at hx
      · cases hx
      · obtain ⟨k1, fs, k2, k3⟩ := (key w2 trivial).2 _ (congrArg Prod.fst hx)
        refine ⟨k1, fs, k2, l, r, w1, w2, rfl, hr, fun n hn => ?_⟩
        rw [k3, dstLen_growth hn]

end

/-! ### Examples -/

/-- The echo appended to a buffer: it plays the additions so far, the first ones being those to its own frames. -/
example : let x := extend meter 8 echo pure 6 Gen.exPeaks 5 40
    (x.1.frames, x.2.1, x.2.2) = ([7, 1, 43, 47, 0], .ok (), 49) := by decide +kernel

theorem echo_extends : extend meter 8 echo pure 6 Gen.exPeaks 5 40 = ((extend meter 8 echo pure 6 Gen.exPeaks 5 40).1, .ok (),
    (extend meter 8 echo pure 6 Gen.exPeaks 5 40).2.2) :=
  Prod.ext rfl (Prod.ext (show (extend meter 8 echo pure 6 Gen.exPeaks 5 40).2.1 = _ by decide +kernel) rfl)

example := C128_keeps _ _ _ _ _ _ _ _ _ _ echo_extends
example := C128_panics_iff meter_total (conv := pure) (fun _ => ret_pure trivial) (echo_keeps 5) 8 Gen.exPeaks (by decide +kernel) 40
  (by decide)
example := C128_extend_param meter_le echo_le 8 6 Gen.exPeaks Gen.exPeaks ⟨rfl, List.forall₂_refl _⟩ 5 _ rfl 40 (by decide)

theorem echo_closed : Closed (· ≤ 100) meter echo pure (· ≤ 100) (· = 1) (fun _ => True) (fun _ => True) where
  dflt := Post.pure (Nat.zero_le _)
  ofF64 _ := Post.pure rfl
  add a b ha hb w _ := ⟨min_le_left _ _, by rintro _ ⟨⟩; exact max_le ha hb⟩
  mul a w ha hw := Post.pure (by subst hw; rw [Nat.mul_one]; exact ha)
  rate _ _ := Post.pure trivial
  len _ _ := Post.pure trivial
  set _ _ _ := Post.fail _
  iter _ _ := Post.pure trivial
  next it _ w hw := by
    cases it with
    | zero => exact ⟨hw, by rintro _ ⟨⟩; exact ⟨trivial, nofun⟩⟩
    | succ n => exact ⟨hw, by rintro _ ⟨⟩; exact ⟨trivial, by rintro _ ⟨⟩; exact Post.pure hw⟩⟩

example := C128_closed echo_closed 8 6 Gen.exPeaks _ 5 trivial 40 _ (by decide) echo_extends

/-- A peak meter whose `+=` panics when the count is full. -/
def full : FrameImpl Nat Nat := { meter with add := fun a b w => if w < 45 then (.ok (max a b), w + 1) else (.error .assert, w) }

theorem full_panics : extend full 8 echo pure 6 Gen.exPeaks 5 40 = ((extend full 8 echo pure 6 Gen.exPeaks 5 40).1, .error .assert,
    (extend full 8 echo pure 6 Gen.exPeaks 5 40).2.2) :=
  Prod.ext rfl (Prod.ext (show (extend full 8 echo pure 6 Gen.exPeaks 5 40).2.1 = _ by decide +kernel) rfl)

example := C128_lost _ _ _ _ _ _ _ _ full_panics
example : (extend full 8 echo pure 6 Gen.exPeaks 5 40).2.2 = 45 := by decide +kernel

example := C128_take echo 2 5 3 7
example : (takes (takeImpl echo) 5 (3, 2) 7).1 = .ok ([7, 7], 1, 0) := by decide +kernel
/-- Of an endless stream that counts the calls, `take(2)` makes two. -/
def ticks : StreamImpl Nat Unit Unit Nat :=
  ⟨fun _ => pure (some (Fl.lit 8)), fun _ => pure none, fun _ _ => fail .setSampleRate, pure, fun _ w => (.ok (some w, ()), w + 1)⟩
example : takes (takeImpl ticks) 5 ((), 2) 7 = (.ok ([7, 8], (), 0), 9) := rfl

example := C128_take_param echo_le
example := C128_blend_param (mix := fun x y => pure (max x y)) (mix' := fun x y => .ok (max x y)) echo_le echo_le
  (fun _ _ _ _ => Sim.fail _) (fun _ _ _ _ h h' => Sim.pure (max_le_max h h')) (fun _ _ h => Sim.pure h)
example := C128_blend echo_le echo_le 5 _ rfl 3 _ rfl

end Fon.Eff
