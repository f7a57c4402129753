import Verif.Spec.Sink
import Verif.Proofs.Range
import Verif.Proofs.Copy

/-!
# Properties of `Sink`: C35 - C46, C55 - C57
-/

namespace Fon
open Fmt Fl Sink
variable {k k' : Kind} {c c' : ChTy}

/-- A sink of `n` slots. -/
def exSink (n : Nat) (rate : ℚ) : Sink .mono .ch8 := ⟨lit rate, Resampler.dflt, List.replicate n #v[9#8]⟩
/-- Five frames. -/
def exAudio (rate : ℚ) : Audio .mono .ch8 := ⟨lit rate, [#v[1#8], #v[2#8], #v[3#8], #v[4#8], #v[5#8]]⟩

/-- The same as `exAudio`, but for the last two frames. -/
def exOther : Audio .mono .ch8 := ⟨lit 8, [#v[1#8], #v[2#8], #v[3#8], #v[70#8], #v[-50#8]]⟩
/-- A sink of seven slots that has been used up to slot `o`. -/
def exLater (o : ℚ) : Sink .mono .ch8 := ⟨lit 8, ⟨#v[3#8], lit o⟩, (exSink 7 8).buf⟩
/-- A sink with other contents than `exSink 3 8`. -/
def exDirty : Sink .mono .ch8 := ⟨lit 8, Resampler.dflt, [#v[7#8], #v[8#8], #v[-9#8]]⟩

theorem ratio_eq {s : Sink k c} {st st' : Src k' c'} {q : F64} (h : s.ratio st = .ok (q, st')) :
    q = ratioOf s.rate st.rate := by
  unfold Sink.ratio at h
  unfold ratioOf
  cases hr : st.rate with
  | some sr => rw [hr] at h; cases h; rfl
  | none =>
    rw [hr] at h
    simp only at h
    cases hs : st.setRate s.rate with
    | error e => rw [hs] at h; cases h
    | ok t => rw [hs] at h; cases h; rfl

theorem ratio_ok {s : Sink k c} {st : Src k' c'} (h : st.playable) :
    ∃ st', s.ratio st = .ok (ratioOf s.rate st.rate, st') := by
  have : ∃ p, s.ratio st = .ok p := by
    unfold Sink.ratio
    cases hr : st.rate with
    | some sr => exact ⟨_, rfl⟩
    | none =>
      rcases h with h | h
      · exact absurd hr h
      · obtain ⟨t, ht⟩ := (setRate_ok_iff st s.rate).mpr h
        simp only [ht]; exact ⟨_, rfl⟩
  obtain ⟨⟨q, st'⟩, hp⟩ := this
  exact ⟨st', by rw [hp, ratio_eq hp]⟩

theorem inDst_iff {q : F64} {len : Option Nat} {n i : Nat} : InDst q len n i ↔ i < dstEnd q len n := by
  unfold InDst dstEnd
  cases len with
  | none => simp
  | some l => simp; omega

theorem modify_ne {α : Type} {l : List α} {f : α → α} {i j : Nat} (h : i ≠ j) : (l.modify i f)[j]? = l[j]? := by
  rw [List.getElem?_modify]; simp [h]

theorem place_other (q off : F64) (d i : Nat) (src : Frame k c) (st) (x : Nat)
    (h1 : (Sink.pos q off i).toUsize < d) (h : d ≤ x) : (place q off d i src st).1[x]? = st.1[x]? := by
  unfold place
  dsimp only
  split
  · rw [modify_ne (by omega), modify_ne (by omega)]
  · rw [modify_ne (by omega)]

theorem placeN_other (q off : F64) (d : Nat) (g : Nat → Frame k c) (i n : Nat) (st) (x : Nat)
    (h1 : ∀ j, i ≤ j → j < i + n → (Sink.pos q off j).toUsize < d) (h : d ≤ x) :
    (placeN q off d g i n st).1[x]? = st.1[x]? := by
  induction n generalizing i st with
  | zero => rfl
  | succ n ih =>
    rw [placeN, ih _ _ (fun j a b => h1 j (by omega) (by omega)),
      place_other _ _ _ _ _ _ _ (h1 i (by omega) (by omega)) h]

theorem prepare_other (s : Sink k c) (d x : Nat) (h : d ≤ x) :
    (s.prepare d).buf[x]? = if x = 0 then s.buf[0]?.map (·.add s.res.partial_) else s.buf[x]? := by
  unfold prepare
  dsimp only
  rw [List.length_modify, List.getElem?_append, List.length_replicate]
  rcases Nat.lt_or_ge x (min d s.buf.length) with h1 | h1
  · omega
  · rw [if_neg (by omega), List.getElem?_drop]
    rcases Nat.lt_or_ge x s.buf.length with h2 | h2
    · rw [show d + (x - min d s.buf.length) = x by omega, List.getElem?_modify]
      split
      · rename_i h3; rw [if_pos h3.symm, ← h3]; rfl
      · rename_i h3; rw [if_neg (Ne.symm h3)]; simp
    · have : s.buf.length ≤ d + (x - min d s.buf.length) := by omega
      rw [List.getElem?_eq_none (by simpa using this)]
      split
      · rw [List.getElem?_eq_none (by omega)]; rfl
      · rw [List.getElem?_eq_none (by omega)]

theorem prepare_in (s : Sink k c) (d x : Nat) (h : x < d) (hd : d ≤ s.buf.length) :
    (s.prepare d).buf[x]? = some Frame.dflt := by
  unfold prepare
  dsimp only
  rw [List.getElem?_append_left (by simp; omega), List.getElem?_replicate, if_pos (by simp; omega)]

/-! ## C36 -/

/-- C36: `stream` keeps rate and buffer length and touches nothing outside the destination range,
except that slot 0 gets the left over frame added. -/
theorem C36_stream (fuel : Nat) (s s' : Sink k c) (st : Src k' c') (it : It k' c')
    (h : s.stream fuel st = .ok (s', it)) :
    s'.buf.length = s.buf.length ∧ s'.rate = s.rate ∧
    ∀ i, ¬ InDst (ratioOf s.rate st.rate) st.len s.buf.length i →
      s'.buf[i]? = if i = 0 then s.buf[0]?.map (·.add s.res.partial_) else s.buf[i]? := by
  obtain ⟨q, st', n, g, a1, a2, a3, a4, a5, a6, a7⟩ := stream_run fuel s s' st it h
  have hb : s'.buf = (placeN q s.res.offseti (dstEnd q st.len s.buf.length) g 0 n
        ((s.prepare (dstEnd q st.len s.buf.length)).buf, s.res.partial_)).1 := by rw [← a4]
  refine ⟨?_, a5, ?_⟩
  · rw [hb, placeN_length, prepare_length]
  · intro i hi
    rw [← ratio_eq a1, inDst_iff, not_lt] at hi
    rw [hb, placeN_other _ _ _ _ _ _ _ _ (fun j _ hj => (a3 j (by omega)).1) hi,
      prepare_other _ _ _ hi]

example := C36_stream 6 (exSink 7 8) _ (.audio (exAudio 8)) _
  (R.returns₂ (x := (exSink 7 8).stream 6 (.audio (exAudio 8))) (by decide +kernel))

/-- C36: whatever is done with the sink of a region, the frames outside it, the number of frames and
the rate stay. -/
theorem C36_sink (a : Audio k c) (reg : Rng) (s t : AudioSink k c) (h : a.sink reg = .ok s)
    (hc : s.Calls t) (i : Nat) (x y : Nat) (hr : reg.resolve a.frames.length = .ok (x, y)) :
    t.release.rate = a.rate ∧ t.release.frames.length = a.frames.length ∧
    (i < x ∨ y ≤ i → t.release.frames[i]? = a.frames[i]?) := by
  have key : t.pre = s.pre ∧ t.post = s.post ∧ t.sink.buf.length = s.sink.buf.length ∧
      t.sink.rate = s.sink.rate := by
    induction hc with
    | none => exact ⟨rfl, rfl, rfl, rfl⟩
    | @stream t u k' c' fuel st it _ h1 ih =>
      unfold AudioSink.stream at h1
      cases hs : t.sink.stream fuel st with
      | error e => rw [hs] at h1; cases h1
      | ok p =>
        rw [hs] at h1; cases h1
        obtain ⟨b1, b2, _⟩ := C36_stream _ _ _ _ _ hs
        exact ⟨ih.1, ih.2.1, b1.trans ih.2.2.1, b2.trans ih.2.2.2⟩
    | @flush t u _ h1 ih =>
      unfold AudioSink.flush at h1
      cases hs : t.sink.flush with
      | error e => rw [hs] at h1; cases h1
      | ok p =>
        rw [hs] at h1; cases h1
        refine ⟨ih.1, ih.2.1, ?_⟩
        rw [← ih.2.2.1, ← ih.2.2.2]
        unfold Sink.flush at hs
        dsimp only at hs
        split at hs
        · obtain ⟨b, hb, hs⟩ := R.bind_ok hs
          cases hs
          unfold modAt at hb
          split at hb
          · cases hb; simp
          · cases hb
        · cases hs; simp
  have hxy : x ≤ y ∧ y ≤ a.frames.length := (Rng.resolve_ok hr).2.2
  unfold Audio.sink at h
  rw [hr] at h
  cases h
  obtain ⟨k1, k2, k3, k4⟩ := key
  have hlen : t.sink.buf.length = y - x := by rw [k3]; simp; omega
  unfold AudioSink.release
  rw [k1, k2, k4]
  refine ⟨rfl, ?_, ?_⟩
  · simp [hlen]; omega
  · rintro (hi | hi)
    · dsimp only
      rw [List.append_assoc, List.getElem?_append_left (by simp; omega), List.getElem?_take, if_pos hi]
    · dsimp only
      rw [List.getElem?_append_right (by simp [hlen]; omega), List.getElem?_drop]
      congr 1
      simp [hlen]; omega

/-- One call of `stream` and one of `flush` on the middle of some audio. -/
example (s t u : AudioSink .mono .ch8) (it : It .mono .ch8) (h : (exAudio 8).sink (.incl 1 3) = .ok s)
    (h1 : s.stream 6 ((Src.audio (exAudio 12)).mkTake 2) = .ok (t, it)) (h2 : t.flush = .ok u) :=
  C36_sink (exAudio 8) (.incl 1 3) s u h (.flush (.stream 6 _ it (.none s) h1) h2) 4 1 4 (by decide +kernel)
example : (do
    let s ← (exAudio 8).sink (.incl 1 3)
    let t ← s.stream 6 ((Src.audio (exAudio 12)).mkTake 2)
    let u ← t.1.flush
    return u.release.frames) = .ok [#v[1#8], #v[0#8], #v[1#8], #v[4#8], #v[5#8]] := by decide +kernel

/-! ## C37 -/

/-- C37: streaming a finite stream returns, whatever the rates and the state of the sink; the loop runs at most
`len + 1` times. -/
theorem C37_finite (s : Sink k c) (st : Src k' c') (l : Nat) (hl : st.len = some l) (hk : k.builtin = true)
    (hk' : k'.builtin = true) (hs : st.safe = true) (hp : st.playable) :
    ∃ r, s.stream (l + 1) st = .ok r := by
  obtain ⟨st', hq⟩ := ratio_ok (s := s) hp
  refine stream_ok (l + 1) l s st st' _ hq (by omega) (fun j _ _ => st.safe_nth hs j)
    (fun j f _ _ _ => C25_builtin hk' hk f) (.inr ?_)
  obtain ⟨o, ho⟩ := st.safe_nth hs l
  rw [ho, (st.nth_len l o ho).mpr ⟨l, hl, le_refl _⟩]

example := C37_finite (exSink 3 8) (.audio (exAudio 8)) 5 rfl rfl rfl rfl (.inl (by simp [Src.rate]))

theorem loop_fuel (q : F64) (d : Nat) (sl : Option Nat) (fuel i : Nat) (s : Sink k c) (it : It k' c')
    (h : loop q d sl fuel i s it ≠ .error .outOfFuel) :
    loop q d sl (fuel + 1) i s it = loop q d sl fuel i s it := by
  induction fuel generalizing i s it with
  | zero => exact absurd rfl h
  | succ fuel ih =>
    rw [loop] at h
    dsimp only at h
    rw [ceilUsize_ok] at h
    rw [loop, loop]
    dsimp only
    rw [ceilUsize_ok]
    simp only at h ⊢
    split
    · rfl
    · rename_i hfl
      rw [if_neg hfl] at h
      split
      · rfl
      · rfl
      · rename_i src it' hn
        rw [hn] at h
        simp only at h ⊢
        split
        · rfl
        · rename_i x hx
          rw [hx] at h
          simp only at h ⊢
          split
          · rfl
          · rename_i b hb
            rw [hb] at h
            simp only at h
            split
            · rename_i hce
              rw [if_pos hce] at h
              split
              · rfl
              · rename_i b' hb'
                rw [hb'] at h
                exact ih _ _ _ h
            · rename_i hce
              rw [if_neg hce] at h
              exact ih _ _ _ h

/-- The fuel of the model is only a bound on the number of iterations: a result other than running out does
not depend on it. -/
theorem C37_fuel (fuel m : Nat) (s : Sink k c) (st : Src k' c') (h : s.stream fuel st ≠ .error .outOfFuel) :
    s.stream (fuel + m) st = s.stream fuel st := by
  induction m with
  | zero => rfl
  | succ m ih =>
    rw [← ih] at h ⊢
    unfold Sink.stream at h ⊢
    cases hq : s.ratio st with
    | error e => rfl
    | ok p =>
      rw [hq] at h
      dsimp only at h ⊢
      rw [← Nat.add_assoc, loop_fuel]
      intro he
      rw [he] at h
      exact h rfl

example (m : Nat) := C37_fuel 6 m (exSink 3 8) (.audio (exAudio 12)) (by
  rw [R.returns (x := (exSink 3 8).stream 6 (.audio (exAudio 12))) (by decide +kernel)]; simp)

example : ((exSink 3 8).stream 6 (.audio (exAudio 8))).map (fun r => r.1.buf) =
    .ok [#v[1#8], #v[2#8], #v[3#8]] := by decide +kernel
example : ((exSink 7 8).stream 6 (.audio (exAudio 8))).map (fun r => r.1.buf) =
    .ok [#v[1#8], #v[2#8], #v[3#8], #v[4#8], #v[5#8], #v[9#8], #v[9#8]] := by decide +kernel
example : (Src.audio (exAudio 8)).playable ∧ (Src.audio (exAudio 8)).safe = true :=
  ⟨.inl (by simp [Src.rate]), rfl⟩

/-! ## C38 -/

theorem takes_unique {q off : F64} {len : Option Nat} {b n m : Nat} (hn : Takes q off len b n)
    (hm : Takes q off len b m) : n = m := by
  have key : ∀ n m, Takes q off len b n → Takes q off len b m → ¬ n < m := by
    intro n m hn hm hlt
    rcases hn.2.2 with h | h
    · have := hm.2.1 n h; omega
    · exact h (hm.1 n hlt)
  have := key n m hn hm
  have := key m n hm hn
  omega

theorem stream_takes (fuel : Nat) (s s' : Sink k c) (st : Src k' c') (it : It k' c')
    (h : s.stream fuel st = .ok (s', it)) :
    ∃ st' n g, s.ratio st = .ok (ratioOf s.rate st.rate, st') ∧ n < fuel ∧
      Takes (ratioOf s.rate st.rate) s.res.offseti st.len s.buf.length n ∧
      (∀ j, j < n → Conv st j (g j)) ∧
      (s'.buf, s'.res.partial_) = placeN (ratioOf s.rate st.rate) s.res.offseti
        (dstEnd (ratioOf s.rate st.rate) st.len s.buf.length) g 0 n
        ((s.prepare (dstEnd (ratioOf s.rate st.rate) st.len s.buf.length)).buf, s.res.partial_) ∧
      s'.rate = s.rate ∧
      s'.res.offseti = s.res.offseti.add ((ratioOf s.rate st.rate).mul (f64OfUsize n)) ∧
      (it = st'.iterAt n ∨ (st'.iterAt n).next = .ok (none, it)) := by
  obtain ⟨q, st', n, g, a1, a2, a3, a4, a5, a6, a7⟩ := stream_run fuel s s' st it h
  cases ratio_eq a1
  refine ⟨st', n, g, a1, a2, ⟨fun j hj => inDst_iff.mpr (a3 j hj).1, ?_, ?_⟩, fun j hj => (a3 j hj).2, a4, a5, a6, ?_⟩
  · intro l hl
    by_contra hlt
    obtain ⟨f, hf, _⟩ := (a3 l (by omega)).2
    have := (st.nth_len l _ hf).mpr ⟨l, hl, le_refl _⟩
    cases this
  · rcases a7 with ⟨b, _⟩ | ⟨_, b, _⟩
    · exact .inr (fun hh => b (inDst_iff.mp hh))
    · exact .inl b
  · rcases a7 with ⟨_, b⟩ | ⟨_, _, b⟩
    · exact .inl b
    · exact .inr b

/-- C38: streaming a drain removes exactly the frames with a position in the destination range, from the
front; the others stay in order, and so does the rate. -/
theorem C38_drain (fuel : Nat) (s s' : Sink k c) (a : Audio k' c') (it : It k' c')
    (h : s.stream fuel (.drain a) = .ok (s', it)) :
    ∃ n, Takes (ratioOf s.rate (some a.rate)) s.res.offseti (some a.frames.length) s.buf.length n ∧
      it.dropped = [⟨k', c', ⟨a.rate, a.frames.drop n⟩⟩] := by
  obtain ⟨st', n, g, a1, a2, a3, a4, a5, a6, a7, a8⟩ := stream_takes fuel s s' _ it h
  have hst : st' = .drain a := by
    unfold Sink.ratio at a1
    simp only [Src.rate] at a1
    cases a1; rfl
  subst hst
  refine ⟨n, a3, ?_⟩
  rcases a8 with rfl | a8
  · rfl
  · have : it = .drain a n := by
      simp only [Src.iterAt, It.next] at a8
      split at a8 <;> cases a8
      rfl
    subst this; rfl

example := C38_drain 6 (exSink 3 8) _ (exAudio 12) _
  (R.returns₂ (x := (exSink 3 8).stream 6 (.drain (exAudio 12))) (by decide +kernel))

/-- C38: also through `take`, up to its limit. -/
theorem C38_take (fuel : Nat) (s s' : Sink k c) (a : Audio k' c') (m : Nat) (it : It k' c')
    (h : s.stream fuel ((Src.drain a).mkTake m) = .ok (s', it)) :
    ∃ n, Takes (ratioOf s.rate (some a.rate)) s.res.offseti (some (min a.frames.length m)) s.buf.length n ∧
      it.dropped = [⟨k', c', ⟨a.rate, a.frames.drop n⟩⟩] := by
  obtain ⟨st', n, g, a1, a2, a3, a4, a5, a6, a7, a8⟩ := stream_takes fuel s s' _ it h
  have hst : st' = .take (.drain a) m := by
    unfold Sink.ratio at a1
    simp only [Src.rate, Src.mkTake] at a1
    cases a1; rfl
  subst hst
  refine ⟨n, a3, ?_⟩
  rcases a8 with rfl | a8
  · rfl
  · simp only [Src.iterAt, It.next] at a8
    cases hm : m - n with
    | zero => rw [hm] at a8; cases a8; rfl
    | succ m' =>
      rw [hm] at a8
      simp only at a8
      cases hx : a.frames[n]? with
      | some f => rw [hx] at a8; cases a8
      | none => rw [hx] at a8; cases a8; rfl

example := C38_take 6 (exSink 3 8) _ (exAudio 12) 2 _
  (R.returns₂ (x := (exSink 3 8).stream 6 ((Src.drain (exAudio 12)).mkTake 2)) (by decide +kernel))

theorem placeN_congr (q off : F64) (d : Nat) (g g' : Nat → Frame k c) (i n : Nat) (st)
    (h : ∀ j, i ≤ j → j < i + n → g j = g' j) : placeN q off d g i n st = placeN q off d g' i n st := by
  induction n generalizing i st with
  | zero => rfl
  | succ n ih =>
    rw [placeN, placeN, h i (by omega) (by omega), ih _ _ (fun j a b => h j (by omega) (by omega))]

/-- C38: frames that are not taken have no influence: if two streams of the same rate and length have the same
first `n` frames, where `n` is the number of frames taken, the sink ends up the same. -/
theorem C38_unused (fuel fuel' n : Nat) (s s1 s2 : Sink k c) (st1 st2 : Src k' c') (it1 it2 : It k' c')
    (h1 : s.stream fuel st1 = .ok (s1, it1)) (h2 : s.stream fuel' st2 = .ok (s2, it2))
    (hr : st1.rate = st2.rate) (hl : st1.len = st2.len)
    (hn : Takes (ratioOf s.rate st1.rate) s.res.offseti st1.len s.buf.length n)
    (he : ∀ i, i < n → st1.nth i = st2.nth i) : s1 = s2 := by
  obtain ⟨t1, n1, g1, _, _, a3, a4, a5, a6, a7, _⟩ := stream_takes fuel s s1 _ it1 h1
  obtain ⟨t2, n2, g2, _, _, b3, b4, b5, b6, b7, _⟩ := stream_takes fuel' s s2 _ it2 h2
  rw [← hr, ← hl] at b3 b5
  rw [← hr] at b7
  cases takes_unique hn a3
  cases takes_unique hn b3
  have hg : ∀ j, 0 ≤ j → j < 0 + n → g1 j = g2 j := by
    intro j _ hj
    obtain ⟨f1, e1, e2⟩ := a4 j (by omega)
    obtain ⟨f2, e3, e4⟩ := b4 j (by omega)
    rw [he j (by omega), e3] at e1
    cases e1
    rw [e4] at e2
    exact (Except.ok.inj e2).symm
  rw [placeN_congr _ _ _ g1 g2 _ _ _ hg, ← b5] at a5
  rw [← b7] at a7
  rw [← b6] at a6
  obtain ⟨r1, ⟨p1, o1⟩, u1⟩ := s1
  obtain ⟨r2, ⟨p2, o2⟩, u2⟩ := s2
  simp only [Prod.mk.injEq] at a5 a6 a7
  obtain ⟨rfl, rfl⟩ := a5
  subst a6; subst a7; rfl

example := C38_unused 6 6 3 (exSink 3 8) _ _ (.audio (exAudio 8))
  (.audio exOther) _ _
  (R.returns₂ (x := (exSink 3 8).stream 6 (.audio (exAudio 8))) (by decide +kernel))
  (R.returns₂ (x := (exSink 3 8).stream 6
    (.audio exOther)) (by decide +kernel))
  rfl rfl (by decide +kernel) (by decide +kernel)

example : ((exSink 3 8).stream 6 (.drain (exAudio 8))).map (fun r => r.2.dropped) =
    .ok [⟨.mono, .ch8, ⟨lit 8, [#v[4#8], #v[5#8]]⟩⟩] := by decide +kernel
example : Takes (ratioOf (lit 8) (some (lit 8))) (lit 0) (some 5) 3 3 := by
  refine ⟨fun j hj => ?_, by simp, .inr ?_⟩
  · rw [inDst_iff]; rcases (by omega : j = 0 ∨ j = 1 ∨ j = 2) with rfl | rfl | rfl <;> decide +kernel
  · rw [inDst_iff]; decide +kernel

/-! ## C39 -/

/-- C39: after up to `m` frames were taken from `drain()` and it was dropped, exactly the frames yielded are gone. -/
theorem C39_drain (a : Audio k c) (m : Nat) :
    ∃ it, a.drain.iter.run m = .ok (a.frames.take m, it) ∧
      it.dropped = [⟨k, c, ⟨a.rate, a.frames.drop m⟩⟩] := by
  have key : ∀ m cur, cur ≤ a.frames.length → ∃ it, (It.drain a cur).run m =
      .ok ((a.frames.drop cur).take m, it) ∧ it.dropped = [⟨k, c, ⟨a.rate, a.frames.drop (cur + m)⟩⟩] := by
    intro m
    induction m with
    | zero => intro cur _; exact ⟨_, by simp only [It.run, List.take_zero]; rfl, rfl⟩
    | succ m ih =>
      intro cur hc
      unfold It.run
      simp only [It.next]
      cases hx : a.frames[cur]? with
      | none =>
        have hle := List.getElem?_eq_none_iff.mp hx
        refine ⟨.drain a cur, ?_, ?_⟩
        · rw [List.drop_eq_nil_of_le hle]; rfl
        · simp [It.dropped, List.drop_eq_nil_of_le hle]; omega
      | some f =>
        have hlt := (List.getElem?_eq_some_iff.mp hx).1
        obtain ⟨it, h1, h2⟩ := ih (cur + 1) (by omega)
        refine ⟨it, ?_, ?_⟩
        · rw [drop_cons hx]
          simp only [bind, Except.bind, h1, List.take_succ_cons]
          rfl
        · rw [h2]; congr 5; omega
  obtain ⟨it, h1, h2⟩ := key m 0 (by omega)
  exact ⟨it, by simpa [Audio.drain, Src.iter] using h1, by simpa using h2⟩

theorem drainN_eq (a : Audio k c) (m : Nat) :
    a.drainN m = some (⟨a.rate, a.frames.drop m⟩, a.frames.take m) := by
  obtain ⟨it, h1, h2⟩ := C39_drain a m
  unfold Audio.drainN
  rw [h1]; simp only [h2]; simp

/-- C39: any history of drains yields the frames in order, each once, and keeps the rest. -/
theorem C39_history (a : Audio k c) (ms : List Nat) :
    a.drains ms = some (⟨a.rate, a.frames.drop ms.sum⟩, a.frames.take ms.sum) := by
  induction ms generalizing a with
  | nil => simp [Audio.drains]
  | cons m ms ih =>
    simp only [Audio.drains, drainN_eq, ih, List.sum_cons, List.drop_drop]
    congr 2
    rw [List.take_add]

example : (exAudio 8).drains [2, 0, 1] = some (⟨lit 8, [#v[4#8], #v[5#8]]⟩, [#v[1#8], #v[2#8], #v[3#8]]) := by
  decide +kernel

/-! ## C35, C40, C56: ratio 1 -/

theorem ratioOf_one {r : F64} {sr : Option F64} (h : ∀ x, sr = some x → ∃ ρ : ℚ, r.Is ρ ∧ x.Is ρ ∧ ρ ≠ 0) :
    (ratioOf r sr).Is 1 := by
  cases sr with
  | none => exact is_one
  | some x =>
    obtain ⟨ρ, h1, h2, h3⟩ := h x rfl
    have e : binary64.rnd (ρ / ρ) = 1 := by rw [div_self h3]; exact rnd_of_rep rep_one
    have := h1.div h2 h3 (by rw [e]; simpa using one_le_maxF)
    rwa [e] at this

theorem takes_one {q off : F64} {o b : Nat} (hq : q.Is 1) (ho : off.Is (o:ℚ)) (hb : b ≤ 2 ^ 53) (len : Option Nat) :
    Takes q off len b (copyLen len b - o) := by
  have hd : dstEnd q len b = copyLen len b := by rw [dstEnd_one hq len b hb]; rfl
  have hle : copyLen len b ≤ b := by unfold copyLen; cases len <;> simp
  have hp : ∀ j, j ≤ copyLen len b - o → (Sink.pos q off j).Is ((j + o : Nat) : ℚ) :=
    fun j hj => pos_one hq ho (by omega) (by omega)
  have h64 : ∀ (x : F64) (m : Nat), x.Is (m:ℚ) → b ≤ m → ¬ x.toUsize < b := by
    intro x m hx hm
    have := le_toUsize hx (m := b) (by exact_mod_cast hm) (by omega)
    omega
  refine ⟨fun j hj => ?_, fun l hl => ?_, .inr ?_⟩
  · rw [inDst_iff, hd]
    have : (posOf q off j).toUsize = j + o := toUsize_nat (hp j (by omega)) (by omega)
    omega
  · unfold copyLen; rw [hl]; simp only; omega
  · rw [inDst_iff, hd]
    have h1 := hp (copyLen len b - o) (le_refl _)
    have := le_toUsize h1 (m := copyLen len b) (by norm_cast; omega) (by omega)
    unfold posOf; unfold Sink.pos at this
    omega

/-- What streaming at ratio 1 does, from any whole offset: slots before the offset are cleared, the following
ones get the frames of the stream in order. -/
theorem C40_actual (fuel o : Nat) (s s' : Sink k c) (st : Src k' c') (it : It k' c')
    (h : s.stream fuel st = .ok (s', it))
    (hr : ∀ x, st.rate = some x → ∃ ρ : ℚ, s.rate.Is ρ ∧ x.Is ρ ∧ ρ ≠ 0)
    (ho : s.res.offseti.Is (o:ℚ)) (hb : s.buf.length ≤ 2 ^ 53) :
    s'.res.partial_ = s.res.partial_ ∧ s'.res.offseti.Is ((max o (copyLen st.len s.buf.length) : Nat) : ℚ) ∧
    (∀ x, x < copyLen st.len s.buf.length → x < o → s'.buf[x]? = some Frame.dflt) ∧
    (∀ x, x < copyLen st.len s.buf.length → o ≤ x → ∃ src f y, st.nth (x - o) = .ok (some src) ∧
      src.convert c = .ok f ∧ s'.buf[x]? = some y ∧ FrameArrives f y) ∧
    (∀ x, copyLen st.len s.buf.length ≤ x →
      s'.buf[x]? = if x = 0 then s.buf[0]?.map (·.add s.res.partial_) else s.buf[x]?) := by
  have hq := ratioOf_one hr
  obtain ⟨st', n, g, a1, a2, a3, a4, a5, a6, a7, a8⟩ := stream_takes fuel s s' _ it h
  cases takes_unique a3 (takes_one hq ho hb st.len)
  have hd : dstEnd (ratioOf s.rate st.rate) st.len s.buf.length = copyLen st.len s.buf.length := by
    rw [dstEnd_one hq _ _ hb]; rfl
  have hle : copyLen st.len s.buf.length ≤ s.buf.length := by unfold copyLen; cases st.len <;> simp
  rw [hd] at a5
  have hcases : copyLen st.len s.buf.length ≤ o ∨ o ≤ copyLen st.len s.buf.length := by omega
  have hslot : s'.res.partial_ = s.res.partial_ ∧ ∀ x, s'.buf[x]? =
      if o ≤ x ∧ x < copyLen st.len s.buf.length then
        (s.prepare (copyLen st.len s.buf.length)).buf[x]?.map
          (put (ratioOf s.rate st.rate) s.res.offseti (x - o) (g (x - o)))
      else (s.prepare (copyLen st.len s.buf.length)).buf[x]? := by
    rcases hcases with hc | hc
    · rw [show copyLen st.len s.buf.length - o = 0 by omega, placeN] at a5
      simp only [Prod.mk.injEq] at a5
      refine ⟨a5.2, fun x => ?_⟩
      rw [if_neg (by omega), a5.1]
    · obtain ⟨b1, b2⟩ := placeN_one g hq ho (d := copyLen st.len s.buf.length) (by omega) 0
        (copyLen st.len s.buf.length - o)
        ((s.prepare (copyLen st.len s.buf.length)).buf, s.res.partial_) (by omega)
      rw [← a5] at b1 b2
      refine ⟨b1, fun x => ?_⟩
      have := b2 x
      rw [show 0 + o = o by omega, show 0 + (copyLen st.len s.buf.length - o) + o = copyLen st.len s.buf.length by omega] at this
      exact this
  refine ⟨hslot.1, ?_, ?_, ?_, ?_⟩
  · rw [a7]
    rcases hcases with hc | hc
    · rw [show copyLen st.len s.buf.length - o = 0 by omega, show max o (copyLen st.len s.buf.length) = o by omega]
      have := pos_one (i := 0) hq ho (by omega) (.inr rfl)
      unfold Sink.pos at this
      rw [Fl.add_comm']; simpa using this
    · have := pos_one (i := copyLen st.len s.buf.length - o) hq ho (by omega) (by omega)
      unfold Sink.pos at this
      rw [Fl.add_comm', show max o (copyLen st.len s.buf.length) = copyLen st.len s.buf.length - o + o by omega]
      exact this
  · intro x hx hxo
    rw [hslot.2, if_neg (by omega), prepare_in _ _ _ hx hle]
  · intro x hx hxo
    obtain ⟨f, e1, e2⟩ := a4 (x - o) (by omega)
    refine ⟨f, g (x - o), put (ratioOf s.rate st.rate) s.res.offseti (x - o) (g (x - o)) Frame.dflt, e1, e2, ?_, ?_⟩
    · rw [hslot.2, if_pos ⟨hxo, hx⟩, prepare_in _ _ _ hx hle]; rfl
    · exact put_arrives _ (wFloor_one hq ho (by omega) (by omega)) (wCeil_one hq ho (by omega) (by omega))
  · intro x hx
    rw [hslot.2, if_neg (by omega), prepare_other _ _ _ hx]

/-- The second call on a sink, at offset 3. -/
example := C40_actual 6 3 (exLater 3) _ (.audio (exAudio 8)) _
  (R.returns₂ (x := (exLater 3).stream 6 (.audio (exAudio 8)))
    (by decide +kernel))
  (fun x hx => by cases hx; exact ⟨8, by decide +kernel, by decide +kernel, by norm_num⟩) (by decide +kernel)
  (by decide +kernel)

/-- C35: streaming into a fresh sink at the same rate copies the converted frames, as far as both go, and leaves
the later slots alone (if nothing is copied slot 0 gets silence added).  Buffers of more than 2^53 frames
do not fit into memory. -/
theorem C35_copy (fuel : Nat) (s s' : Sink k c) (st : Src k' c') (it : It k' c')
    (h : s.stream fuel st = .ok (s', it))
    (hr : ∀ x, st.rate = some x → ∃ ρ : ℚ, s.rate.Is ρ ∧ x.Is ρ ∧ ρ ≠ 0)
    (ho : s.res = Resampler.dflt) (hb : s.buf.length ≤ 2 ^ 53) :
    (∀ x, (∀ l, st.len = some l → x < l) → x < s.buf.length →
      ∃ src f y, st.nth x = .ok (some src) ∧ src.convert c = .ok f ∧ s'.buf[x]? = some y ∧ FrameArrives f y) ∧
    (∀ x l, st.len = some l → l ≤ x → s'.buf[x]? =
      if x = 0 then s.buf[0]?.map (·.add Frame.dflt) else s.buf[x]?) := by
  have ho' : s.res.offseti.Is ((0:Nat):ℚ) := by rw [ho]; exact_mod_cast is_zero
  obtain ⟨_, _, _, h4, h5⟩ := C40_actual fuel 0 s s' st it h hr ho' hb
  constructor
  · intro x hx hxb
    refine h4 x ?_ (by omega)
    unfold copyLen
    cases hl : st.len with
    | none => exact hxb
    | some l => have := hx l hl; simp only; omega
  · intro x l hl hx
    rw [ho] at h5
    exact h5 x (by unfold copyLen; rw [hl]; simp only; omega)

example := C35_copy 6 (exSink 7 8) _ (.audio (exAudio 8)) _
  (R.returns₂ (x := (exSink 7 8).stream 6 (.audio (exAudio 8))) (by decide +kernel))
  (fun x hx => by cases hx; exact ⟨8, by decide +kernel, by decide +kernel, by norm_num⟩) rfl (by decide +kernel)

/-- Samples in [-1, 1] arrive with the same value. -/
theorem arrives_value {f y : Frame k c} (h : FrameArrives f y) (i : Nat) (hi : i < k.chans) :
    SameInRange c f[i] y[i] := by
  have := h i hi
  cases c with
  | ch8 => exact this
  | ch16 => exact this
  | ch32 => intro p hp h1 h2; have := this.1 p hp; rwa [clampQ_of_range h1 h2] at this
  | ch64 => intro p hp h1 h2; have := this.1 p hp; rwa [clampQ_of_range h1 h2] at this

/-- C35: in a copy, samples in [-1, 1] have the same value as in the converted frame. -/
theorem C35_value (fuel : Nat) (s s' : Sink k c) (st : Src k' c') (it : It k' c')
    (h : s.stream fuel st = .ok (s', it))
    (hr : ∀ x, st.rate = some x → ∃ ρ : ℚ, s.rate.Is ρ ∧ x.Is ρ ∧ ρ ≠ 0)
    (ho : s.res = Resampler.dflt) (hb : s.buf.length ≤ 2 ^ 53) (x : Nat) (hx : ∀ l, st.len = some l → x < l)
    (hxb : x < s.buf.length) (i : Nat) (hi : i < k.chans) :
    ∃ (src : Frame k' c') (f y : Frame k c), st.nth x = .ok (some src) ∧ src.convert c = .ok f ∧ s'.buf[x]? = some y ∧
      SameInRange c f[i] y[i] := by
  obtain ⟨src, f, y, h1, h2, h3, h4⟩ := (C35_copy fuel s s' st it h hr ho hb).1 x hx hxb
  exact ⟨src, f, y, h1, h2, h3, arrives_value h4 i hi⟩

example := C35_value 6 (exSink 7 8) _ (.audio (exAudio 8)) _
  (R.returns₂ (x := (exSink 7 8).stream 6 (.audio (exAudio 8))) (by decide +kernel))
  (fun x hx => by cases hx; exact ⟨8, by decide +kernel, by decide +kernel, by norm_num⟩) rfl (by decide +kernel)
  4 (by decide +kernel) (by decide +kernel) 0 (by decide)

example : ((⟨lit 0.1, Resampler.dflt, List.replicate 3 #v[lit 0.5, lit 0.75]⟩ : Sink .stereo .ch32).stream 3
    (.audio (k := .mono) (c := .ch64) ⟨lit 0.1, [#v[lit 0.1], #v[lit (-7)]]⟩)).map (fun r => r.1.buf) =
    .ok [#v[lit 0.1, lit 0.1], #v[lit (-1), lit (-1)], #v[lit 0.5, lit 0.75]] := by decide +kernel

/-- C56: an infinite stream without rate fills the sink from the offset on, and the call returns. -/
theorem C56_fills (o : Nat) (s : Sink k c) (st : Src k' c') (hk : k.builtin = true) (hk' : k'.builtin = true)
    (hs : st.safe = true) (hc : st.configurable = true) (hrate : st.rate = none) (hlen : st.len = none)
    (ho : s.res.offseti.Is (o:ℚ)) (hb : s.buf.length ≤ 2 ^ 53) :
    ∃ s' it, s.stream (s.buf.length + 1) st = .ok (s', it) ∧ s'.buf.length = s.buf.length ∧
      (∀ x, x < s.buf.length → x < o → s'.buf[x]? = some Frame.dflt) ∧
      (∀ x, x < s.buf.length → o ≤ x → ∃ src f y, st.nth (x - o) = .ok (some src) ∧
        src.convert c = .ok f ∧ s'.buf[x]? = some y ∧ FrameArrives f y) := by
  have hr : ∀ x, st.rate = some x → ∃ ρ : ℚ, s.rate.Is ρ ∧ x.Is ρ ∧ ρ ≠ 0 := by
    intro x hx; rw [hrate] at hx; cases hx
  have hq := ratioOf_one hr
  obtain ⟨st', hq'⟩ := ratio_ok (s := s) (st := st) (.inr hc)
  have ht := takes_one hq ho hb st.len
  have hcl : copyLen st.len s.buf.length = s.buf.length := by rw [hlen]; rfl
  rw [hcl] at ht
  obtain ⟨⟨s', it⟩, h⟩ := stream_ok (s.buf.length + 1) (s.buf.length - o) s st st' _ hq' (by omega)
    (fun j _ _ => st.safe_nth hs j) (fun j f _ _ _ => C25_builtin hk' hk f) (by
      left
      rcases ht.2.2 with h | h
      · rw [hlen] at h; cases h
      · exact fun hh => h (inDst_iff.mpr hh))
  obtain ⟨_, _, h3, h4, _⟩ := C40_actual _ o s s' st it h hr ho hb
  rw [hcl] at h3 h4
  exact ⟨s', it, h, (C36_stream _ _ _ _ _ h).1, h3, h4⟩

example := C56_fills 2 (exLater 2) (.frame (k := .stereo) (c := .ch8) #v[4#8, 6#8])
  rfl rfl rfl rfl rfl rfl (by decide +kernel) (by decide +kernel)

example : ((exSink 3 8).stream 4 (.frame (k := .stereo) (c := .ch8) #v[4#8, 6#8])).map (fun r => r.1.buf) =
    .ok [#v[5#8], #v[5#8], #v[5#8]] := by decide +kernel

/-- C40 is false: the second call clears what the first wrote, and its own frames are lost, too. -/
theorem C40_false : ∃ (s s1 s2 : Sink .mono .ch8) (it1 it2 : It .mono .ch8),
    s.res = Resampler.dflt ∧ s.buf = List.replicate 6 #v[9#8] ∧
    s.stream 4 ((Src.audio (exAudio 8)).mkTake 3) = .ok (s1, it1) ∧
    s1.buf = [#v[1#8], #v[2#8], #v[3#8], #v[9#8], #v[9#8], #v[9#8]] ∧
    s1.stream 4 ((Src.audio (exAudio 8)).mkTake 3) = .ok (s2, it2) ∧
    s2.buf = [#v[0#8], #v[0#8], #v[0#8], #v[9#8], #v[9#8], #v[9#8]] := by
  have h1 := (C37_finite (exSink 6 8) ((Src.audio (exAudio 8)).mkTake 3) 3 rfl rfl rfl rfl (.inl (by simp [Src.rate, Src.mkTake])))
  obtain ⟨⟨s1, it1⟩, h1⟩ := h1
  have h2 := (C37_finite s1 ((Src.audio (exAudio 8)).mkTake 3) 3 rfl rfl rfl rfl (.inl (by simp [Src.rate, Src.mkTake])))
  obtain ⟨⟨s2, it2⟩, h2⟩ := h2
  refine ⟨exSink 6 8, s1, s2, it1, it2, rfl, rfl, h1, ?_, h2, ?_⟩
  · have : ((exSink 6 8).stream 4 ((Src.audio (exAudio 8)).mkTake 3)).map (fun r => r.1.buf) = .ok
      [#v[1#8], #v[2#8], #v[3#8], #v[9#8], #v[9#8], #v[9#8]] := by decide +kernel
    rw [h1] at this
    exact Except.ok.inj this
  · have : ((exSink 6 8).stream 4 ((Src.audio (exAudio 8)).mkTake 3)).bind (fun r =>
      (r.1.stream 4 ((Src.audio (exAudio 8)).mkTake 3)).map (fun r => r.1.buf)) = .ok
      [#v[0#8], #v[0#8], #v[0#8], #v[9#8], #v[9#8], #v[9#8]] := by decide +kernel
    rw [h1] at this
    simp only [Except.bind, h2] at this
    exact Except.ok.inj this

/-- C40 is false for all streams: what was in the destination range before (in particular, what an earlier call
wrote) has no influence on the result there. -/
theorem C40_erases (fuel fuel' : Nat) (s1 s2 t1 t2 : Sink k c) (st : Src k' c') (it1 it2 : It k' c')
    (h1 : s1.stream fuel st = .ok (t1, it1)) (h2 : s2.stream fuel' st = .ok (t2, it2))
    (hr : s1.rate = s2.rate) (ho : s1.res.offseti = s2.res.offseti) (hb : s1.buf.length = s2.buf.length) (i : Nat)
    (hi : InDst (ratioOf s1.rate st.rate) st.len s1.buf.length i) : t1.buf[i]? = t2.buf[i]? := by
  obtain ⟨_, n1, g1, _, _, a3, a4, a5, _⟩ := stream_takes fuel s1 t1 _ it1 h1
  obtain ⟨_, n2, g2, _, _, b3, b4, b5, _⟩ := stream_takes fuel' s2 t2 _ it2 h2
  rw [← hr, ← ho, ← hb] at b3 b5
  cases takes_unique a3 b3
  have hg : ∀ j, 0 ≤ j → j < 0 + n1 → g2 j = g1 j := by
    intro j _ hj
    obtain ⟨f1, e1, e2⟩ := a4 j (by omega)
    obtain ⟨f2, e3, e4⟩ := b4 j (by omega)
    rw [e3] at e1
    cases e1
    rw [e4] at e2
    exact Except.ok.inj e2
  rw [placeN_congr _ _ _ g2 g1 _ _ _ hg] at b5
  have h5 := congrArg Prod.fst a5
  have h6 := congrArg Prod.fst b5
  simp only at h5 h6
  rw [h5, h6]
  have hd := inDst_iff.mp hi
  have hle := dstEnd_le (ratioOf s1.rate st.rate) st.len s1.buf.length
  generalize dstEnd (ratioOf s1.rate st.rate) st.len s1.buf.length = d at *
  have key : ∀ (n j : Nat) (u v : List (Frame k c) × Frame k c), (∀ x, x < d → u.1[x]? = v.1[x]?) →
      ∀ x, x < d → (placeN (ratioOf s1.rate st.rate) s1.res.offseti d g1 j n u).1[x]? =
        (placeN (ratioOf s1.rate st.rate) s1.res.offseti d g1 j n v).1[x]? := by
    intro n
    induction n with
    | zero => intro j u v h; exact h
    | succ n ih =>
      intro j u v h x hx
      rw [placeN, placeN]
      refine ih _ _ _ (fun y hy => ?_) x hx
      unfold place
      dsimp only
      split
      · simp only [List.getElem?_modify, h y hy]
      · simp only [List.getElem?_modify, h y hy]
  refine key _ _ _ _ (fun x hx => ?_) i hd
  simp only
  rw [prepare_in _ _ _ hx hle, prepare_in _ _ _ hx (by omega)]

example := C40_erases 6 6 exDirty (exSink 3 8) _ _ (.audio (exAudio 12)) _ _
  (R.returns₂ (x := exDirty.stream 6 (.audio (exAudio 12)))
    (by decide +kernel))
  (R.returns₂ (x := (exSink 3 8).stream 6 (.audio (exAudio 12))) (by decide +kernel)) rfl rfl rfl 1 (by decide +kernel)

/-! ## C41 -/

/-- C41 is false: a left over frame has no influence on the destination range of the next call. -/
theorem C41_lost (fuel fuel' : Nat) (s t1 t2 : Sink k c) (st : Src k' c') (it1 it2 : It k' c') (p : Frame k c)
    (h1 : s.stream fuel st = .ok (t1, it1))
    (h2 : ({ s with res := { s.res with partial_ := p } } : Sink k c).stream fuel' st = .ok (t2, it2)) (i : Nat)
    (hi : InDst (ratioOf s.rate st.rate) st.len s.buf.length i) : t1.buf[i]? = t2.buf[i]? :=
  C40_erases fuel fuel' s _ t1 t2 st it1 it2 h1 h2 rfl rfl rfl i hi

example := C41_lost 6 6 (exSink 3 8) _ _ (.audio (exAudio 12)) _ _ #v[5#8]
  (R.returns₂ (x := (exSink 3 8).stream 6 (.audio (exAudio 12))) (by decide +kernel))
  (R.returns₂ (x := ({ exSink 3 8 with res := { (exSink 3 8).res with partial_ := #v[5#8] } } :
    Sink .mono .ch8).stream 6 (.audio (exAudio 12))) (by decide +kernel)) 0 (by decide +kernel)

/-- C41 is false, by example: four frames into two slots of half the rate leave one half of `127`; a second
call with silence does not play it, and it is still there afterwards. -/
theorem C41_false :
    let snd (s : Sink .mono .ch8) (v : Ch8) : R (Sink .mono .ch8) :=
      (s.stream 9 (.audio (k := .mono) (c := .ch8) ⟨lit 16, [#v[v], #v[v], #v[v], #v[v]]⟩)).map (·.1)
    (∃ s1, snd (exSink 2 8) 127#8 = .ok s1 ∧ s1.res.partial_ = #v[63#8] ∧
      ∃ s2, snd s1 0#8 = .ok s2 ∧
        s2.buf = [#v[0#8], #v[0#8]] ∧ s2.res.partial_ = #v[63#8]) := by
  intro snd
  have e1 : (snd (exSink 2 8) 127#8).map (fun s => s.res.partial_) = .ok #v[63#8] := by decide +kernel
  cases h1 : snd (exSink 2 8) 127#8 with
  | error e => rw [h1] at e1; cases e1
  | ok s1 =>
    rw [h1] at e1
    refine ⟨s1, rfl, Except.ok.inj e1, ?_⟩
    have e2 : ((snd (exSink 2 8) 127#8).bind fun s1 => (snd s1 0#8).map
        (fun s => (s.buf, s.res.partial_))) = .ok ([#v[0#8], #v[0#8]], #v[63#8]) := by decide +kernel
    rw [h1] at e2
    simp only [Except.bind] at e2
    cases h2 : snd s1 0#8 with
    | error e => rw [h2] at e2; cases e2
    | ok s2 =>
      rw [h2] at e2
      have e3 := Except.ok.inj e2
      simp only [Prod.mk.injEq] at e3
      exact ⟨s2, rfl, e3.1, e3.2⟩

/-- C41, what is left of it: with an empty destination range the left over frame is added to slot 0, and it stays in
the resampler (so each such call adds it again). -/
theorem C41_partial (fuel : Nat) (s s' : Sink k c) (st : Src k' c') (it : It k' c') (h : s.stream fuel st = .ok (s', it))
    (h0 : ∀ i, ¬ InDst (ratioOf s.rate st.rate) st.len s.buf.length i) :
    s'.buf[0]? = s.buf[0]?.map (·.add s.res.partial_) ∧ s'.res.partial_ = s.res.partial_ := by
  refine ⟨by simpa using (C36_stream _ _ _ _ _ h).2.2 0 (h0 0), ?_⟩
  obtain ⟨_, n, g, _, _, a3, a4, a5, _⟩ := stream_takes fuel s s' _ it h
  have : n = 0 := by
    by_contra hn
    exact h0 _ (a3.1 0 (by omega))
  subst this
  exact congrArg Prod.snd a5

example := C41_partial 1 (⟨lit 8, ⟨#v[3#8], lit 0⟩, [#v[9#8]]⟩ : Sink .mono .ch8) _ (.audio (k := .mono) (c := .ch8) ⟨lit 8, []⟩) _
  (R.returns₂ (x := Sink.stream 1 (⟨lit 8, ⟨#v[3#8], lit 0⟩, [#v[9#8]]⟩ : Sink .mono .ch8)
    (.audio (k := .mono) (c := .ch8) ⟨lit 8, []⟩)) (by decide +kernel))
  (fun i hi => by
    rcases Nat.eq_zero_or_pos i with rfl | hp
    · revert hi; decide +kernel
    · exact absurd hi.1 (by simpa using Nat.one_le_iff_ne_zero.mp hp))

example : ((⟨lit 8, ⟨#v[3#8], lit 0⟩, [#v[9#8]]⟩ : Sink .mono .ch8).stream 1 (.audio (k := .mono) (c := .ch8)
    ⟨lit 8, []⟩)).map (fun r => (r.1.buf, r.1.res.partial_)) = .ok ([#v[12#8]], #v[3#8]) := by decide +kernel

/-! ## C42 -/

theorem flush_cond (x : F64) : (Fl.lt Fl.epsilon (x.rem (Fl.lit 1)) || Fl.lt (x.rem (Fl.lit 1)) (Fl.epsilon : F64).neg) = true ↔
    HasFract x := by
  have eps : (Fl.epsilon : F64).Is (2 ^ (-52:ℤ)) := is_epsilon
  have heps := two_zpow_pos (-52)
  cases x with
  | nan =>
    obtain ⟨_, _, e⟩ := (is_epsilon : (Fl.epsilon : F64).Is _)
    rw [e]
    constructor
    · intro h; cases h
    · rintro ⟨q, ⟨_, _, h⟩, _⟩; cases h
  | inf s =>
    obtain ⟨_, _, e⟩ := (is_epsilon : (Fl.epsilon : F64).Is _)
    obtain ⟨_, _, e1⟩ := (is_one : (Fl.lit 1 : F64).Is _)
    rw [e, e1]
    constructor
    · intro h; cases h
    · rintro ⟨q, ⟨_, _, h⟩, _⟩; cases h
  | fin q nz h =>
    have hq : (Fl.fin q nz h : F64).Is q := is_fin
    have hiff : HasFract (Fl.fin q nz h : F64) ↔ 2 ^ (-52 : ℤ) < |q - truncQ q| := by
      constructor
      · rintro ⟨p, hp, hh⟩; rw [hq.unique hp]; exact hh
      · intro hh; exact ⟨q, hq, hh⟩
    rw [hiff, Bool.or_eq_true]
    rcases lt_or_ge q 0 with h0 | h0
    · have hr := hq.rem_one_neg h0
      have e : q - (truncQ q : ℚ) = -(-q - ⌊-q⌋) := by rw [truncQ_neg h0]; push_cast; ring
      have hf := Int.floor_le (-q)
      rw [eps.lt hr, hr.lt eps.neg, decide_eq_true_eq, decide_eq_true_eq, e, abs_neg, abs_of_nonneg (by linarith)]
      constructor
      · rintro (h | h) <;> linarith
      · intro h; right; linarith
    · have hr := hq.rem_one h0
      have hf := Int.floor_le q
      rw [eps.lt hr, hr.lt eps.neg, decide_eq_true_eq, decide_eq_true_eq, truncQ_nonneg h0, abs_of_nonneg (by linarith)]
      constructor
      · rintro (h | h) <;> linarith
      · intro h; left; exact h

/-- C42: `flush` puts the left over frame into the slot at the resampler index if that has a fractional part. -/
theorem C42_write (s : Sink k c) (h : HasFract s.res.offseti) (hi : s.res.offseti.toUsize < s.buf.length) :
    s.flush = .ok { s with buf := s.buf.set s.res.offseti.toUsize s.res.partial_ } := by
  unfold Sink.flush
  dsimp only
  rw [if_pos ((flush_cond _).mpr h)]
  unfold modAt
  rw [if_pos hi]
  simp only [bind, Except.bind, pure, Except.pure]
  congr 2
  apply List.ext_getElem?
  intro j
  rw [List.getElem?_modify, List.getElem?_set]
  by_cases hj : s.res.offseti.toUsize = j
  · subst hj; simp [hi]
  · simp [hj]

example := C42_write (⟨lit 8, ⟨#v[3#8], lit 1.5⟩, [#v[9#8], #v[9#8]]⟩ : Sink .mono .ch8) (by decide +kernel) (by decide +kernel)

/-- C42: `flush` does nothing otherwise. -/
theorem C42_nothing (s : Sink k c) (h : ¬ HasFract s.res.offseti) : s.flush = .ok s := by
  unfold Sink.flush
  dsimp only
  rw [if_neg (fun hh => h ((flush_cond _).mp hh))]

example := C42_nothing (⟨lit 8, ⟨#v[3#8], lit 2⟩, [#v[9#8], #v[9#8]]⟩ : Sink .mono .ch8) (by decide +kernel)

/-- C42, panics: exactly if the slot does not exist. -/
theorem C42_panics_iff (s : Sink k c) : (∃ e, s.flush = .error e) ↔
    HasFract s.res.offseti ∧ s.buf.length ≤ s.res.offseti.toUsize := by
  by_cases h : HasFract s.res.offseti
  · by_cases hi : s.res.offseti.toUsize < s.buf.length
    · rw [C42_write s h hi]; simp [h]; omega
    · simp only [h, true_and]
      refine ⟨fun _ => by omega, fun _ => ?_⟩
      unfold Sink.flush
      dsimp only
      rw [if_pos ((flush_cond _).mpr h)]
      unfold modAt
      rw [if_neg hi]
      exact ⟨_, rfl⟩
  · rw [C42_nothing s h]; simp [h]

/-- C42 is false: streaming one frame of rate 8 into a full buffer of rate 12, then `flush`, panics. -/
theorem C42_false : (((exSink 1 12).stream 2 (.audio (k := .mono) (c := .ch8) ⟨lit 8, [#v[8#8]]⟩)).map
      (fun r => r.1.flush.map (·.buf))) = .ok (.error .bounds) := by decide +kernel

example : HasFract (lit 1.5) := ⟨1.5, is_lit (rep_dyadic 3 (-1) (by norm_num) (by decide) (by decide) (by decide)), by
  rw [truncQ_nonneg (by norm_num), show ⌊(1.5:ℚ)⌋ = 1 by norm_num]; norm_num⟩

/-! ## C43 -/

theorem frame_inRange_iff (f : Frame k c) : f.InRange ↔ ∀ i (h : i < k.chans), Valid c f[i] := by
  cases c with
  | ch8 => simp [Frame.InRange, Valid]
  | ch16 => simp [Frame.InRange, Valid]
  | ch32 =>
    simp only [Frame.InRange, Valid]
    constructor
    · intro h i hi; exact h _ (Vector.getElem_mem hi)
    · intro h x hx
      obtain ⟨i, hi, rfl⟩ := Vector.mem_iff_getElem.mp hx
      exact h i hi
  | ch64 =>
    simp only [Frame.InRange, Valid]
    constructor
    · intro h i hi; exact h _ (Vector.getElem_mem hi)
    · intro h x hx
      obtain ⟨i, hi, rfl⟩ := Vector.mem_iff_getElem.mp hx
      exact h i hi

theorem frame_add_inRange (a b : Frame k c) : (a.add b).InRange := by
  rw [frame_inRange_iff]
  intro i hi
  simp only [Frame.add, Vector.getElem_zipWith]
  exact Valid.add

theorem dflt_inRange : (Frame.dflt : Frame k c).InRange := by
  rw [frame_inRange_iff]
  intro i hi
  simp only [Frame.dflt, Vector.getElem_replicate]
  exact (Valid.consts c).2.2.2

theorem placeN_slots (q off : F64) (d : Nat) (g : Nat → Frame k c) (P : Frame k c → Prop)
    (hP : ∀ i b, P b → P (b.add ((g i).mul (Frame.ofF64 (wFloor q off i)))) ∧
      P (b.add ((g i).mul (Frame.ofF64 (wCeil q off i))))) (i n : Nat) (st)
    (h : ∀ x y, x < d → st.1[x]? = some y → P y) :
    ∀ x y, x < d → (placeN q off d g i n st).1[x]? = some y → P y := by
  induction n generalizing i st with
  | zero => exact h
  | succ n ih =>
    rw [placeN]
    apply ih
    intro x y hx hy
    unfold place at hy
    dsimp only at hy
    have step1 : ∀ x y, x < d → (st.1.modify (Sink.pos q off i).toUsize
        (fun b => b.add ((g i).mul (Frame.ofF64 (wFloor q off i)))))[x]? = some y → P y := by
      intro x y hx hy
      rw [List.getElem?_modify] at hy
      cases hs : st.1[x]? with
      | none => rw [hs] at hy; cases hy
      | some b =>
        rw [hs] at hy
        simp only [Option.map_eq_map, Option.map_some, Option.some.injEq] at hy
        subst hy
        split
        · exact (hP i b (h x b hx hs)).1
        · exact h x b hx hs
    split at hy
    · rw [List.getElem?_modify] at hy
      cases hs : (st.1.modify (Sink.pos q off i).toUsize
        (fun b => b.add ((g i).mul (Frame.ofF64 (wFloor q off i)))))[x]? with
      | none => rw [hs] at hy; cases hy
      | some b =>
        rw [hs] at hy
        simp only [Option.map_eq_map, Option.map_some, Option.some.injEq] at hy
        subst hy
        split
        · exact (hP i b (step1 x b hx hs)).2
        · exact step1 x b hx hs
    · exact step1 x y hx hy

/-- C43: all slots of the destination range are in range afterwards, whatever the stream, the rates and the state of
the sink. -/
theorem C43_range (fuel : Nat) (s s' : Sink k c) (st : Src k' c') (it : It k' c') (h : s.stream fuel st = .ok (s', it))
    (i : Nat) (y : Frame k c) (hi : InDst (ratioOf s.rate st.rate) st.len s.buf.length i) (hy : s'.buf[i]? = some y) :
    y.InRange := by
  obtain ⟨_, n, g, _, _, a3, a4, a5, _⟩ := stream_takes fuel s s' _ it h
  have h5 := congrArg Prod.fst a5
  simp only at h5
  rw [h5] at hy
  refine placeN_slots _ _ _ g Frame.InRange (fun _ _ _ => ⟨frame_add_inRange _ _, frame_add_inRange _ _⟩) _ _ _ ?_ i y
    (inDst_iff.mp hi) hy
  intro x y hx hy
  simp only at hy
  rw [prepare_in _ _ _ hx (dstEnd_le _ _ _)] at hy
  cases hy
  exact dflt_inRange

example := C43_range 3 (⟨lit 3, Resampler.dflt, [#v[lit 9], #v[lit 9]]⟩ : Sink .mono .ch64) _
  (.audio (k := .mono) (c := .ch64) ⟨lit 2, [#v[.nan], #v[lit (-7)]]⟩) _
  (R.returns₂ (x := Sink.stream 3 (⟨lit 3, Resampler.dflt, [#v[lit 9], #v[lit 9]]⟩ : Sink .mono .ch64)
    (.audio (k := .mono) (c := .ch64) ⟨lit 2, [#v[.nan], #v[lit (-7)]]⟩)) (by decide +kernel)) 1 #v[lit (-1)]
  (by decide +kernel) (by decide +kernel)

example : ((⟨lit 3, Resampler.dflt, [#v[lit 9], #v[lit 9]]⟩ : Sink .mono .ch64).stream 3
    (.audio (k := .mono) (c := .ch64) ⟨lit 2, [#v[.nan], #v[lit (-7)]]⟩)).map (fun r => r.1.buf) =
    .ok [#v[lit 1], #v[lit (-1)]] := by decide +kernel

/-! ## C44 -/

/-- Silence converts to silence between all layouts. -/
theorem convert_dflt (hk : k.builtin = true) (hk' : k'.builtin = true) :
    ((Frame.dflt : Frame k' c).convert c : R (Frame k c)) = .ok Frame.dflt := by
  match k, k', hk, hk' with
  | .mono, .mono, _, _ => cases c <;> decide +kernel
  | .mono, .stereo, _, _ => cases c <;> decide +kernel
  | .mono, .surround, _, _ => cases c <;> decide +kernel
  | .stereo, .mono, _, _ => cases c <;> decide +kernel
  | .stereo, .stereo, _, _ => cases c <;> decide +kernel
  | .stereo, .surround, _, _ => cases c <;> decide +kernel
  | .surround, .mono, _, _ => cases c <;> decide +kernel
  | .surround, .stereo, _, _ => cases c <;> decide +kernel
  | .surround, .surround, _, _ => cases c <;> decide +kernel

theorem silent_chan {w : F64} {r : ℚ} (hw : w.Is r) (hr : |r| ≤ 2 ^ (100:ℤ)) :
    c.add c.dflt (c.mul c.dflt (c.ofF64 w)) = c.dflt := by
  have key : ∀ {f : Fmt} {u : Fl f} {p : ℚ}, u.Is p → ChF.add (lit 0) (ChF.mul (lit 0) u) = lit 0 := by
    intro f u p hu
    have h1 : ∀ z : Fl f, z.Is 0 → ChF.add (lit 0) z = lit 0 := by
      rintro z ⟨nz, hz, rfl⟩
      have : Fl.add (lit 0) (Fl.fin 0 nz hz) = (lit 0 : Fl f) := by
        rw [lit_zero_eq]; simp only [Fl.add, Bool.false_and, add_zero]; exact lit_zero_eq
      unfold ChF.add
      rw [this]
      exact clamp1_of_inRange inRange_zero
    exact h1 _ (by unfold ChF.mul; rw [Fl.mul_comm']; exact mul_zero' hu is_zero)
  cases c with
  | ch8 =>
    have h2 : ChTy.ch8.mul 0#8 (ChTy.ch8.ofF64 w) = 0#8 := (C02_ch8_zero _).2
    change ChTy.ch8.add 0#8 (ChTy.ch8.mul 0#8 _) = 0#8
    rw [h2]; decide
  | ch16 =>
    have h2 : ChTy.ch16.mul 0#16 (ChTy.ch16.ofF64 w) = 0#16 := (C02_ch16_zero _).2
    change ChTy.ch16.add 0#16 (ChTy.ch16.mul 0#16 _) = 0#16
    rw [h2]; decide
  | ch32 => exact key (hw.cast binary32 (small hr))
  | ch64 => exact key hw

theorem rem_one_lt {x : F64} {q : ℚ} (h : x.Is q) : ∃ p, (x.rem (lit 1)).Is p ∧ |p| < 1 := by
  rcases lt_or_ge q 0 with h0 | h0
  · refine ⟨_, h.rem_one_neg h0, ?_⟩
    have h1 := Int.floor_le (-q)
    have h2 := Int.lt_floor_add_one (-q)
    rw [abs_neg, abs_of_nonneg (by linarith)]; linarith
  · refine ⟨_, h.rem_one h0, ?_⟩
    have h1 := Int.floor_le q
    have h2 := Int.lt_floor_add_one q
    rw [abs_of_nonneg (by linarith)]; linarith

/-- The weights are moderate if the ratio is. -/
theorem weights_bound {q : F64} {r : ℚ} (hq : q.Is r) (hr : |r| ≤ 2 ^ (99:ℤ)) (off : F64) (i : Nat) :
    (∃ a, (wCeil q off i).Is a ∧ |a| ≤ 2 ^ (100:ℤ)) ∧ (∃ b, (wFloor q off i).Is b ∧ |b| ≤ 2 ^ (100:ℤ)) := by
  have big : (1:ℚ) ≤ 2 ^ (99:ℤ) := by norm_num
  have big2 : (2:ℚ) ^ (100:ℤ) = 2 ^ (99:ℤ) + 2 ^ (99:ℤ) := by norm_num
  have hc : ∃ a, (wCeil q off i).Is a ∧ |a| ≤ 2 ^ (99:ℤ) := by
    unfold wCeil
    have nonfin : ∀ x : F64, x.rem (lit 1) = .nan → ∃ a, ((x.rem (lit 1)).min q).Is a ∧ |a| ≤ 2 ^ (99:ℤ) := by
      intro x hx
      rw [hx]
      exact ⟨r, hq, hr⟩
    cases hp : Sink.pos q off i with
    | nan => exact nonfin _ rfl
    | inf s =>
      apply nonfin
      rw [lit_one_eq]; rfl
    | fin p nz h =>
      obtain ⟨p', h1, h2⟩ := rem_one_lt (x := .fin p nz h) is_fin
      refine ⟨_, h1.min hq, ?_⟩
      rcases min_choice p' r with h3 | h3 <;> rw [h3]
      · linarith
      · exact hr
  obtain ⟨a, h1, h2⟩ := hc
  refine ⟨⟨a, h1, by linarith⟩, ?_⟩
  unfold wFloor
  have hb : |r - a| ≤ 2 ^ (100:ℤ) := by
    rw [big2]; exact (abs_sub r a).trans (add_le_add hr h2)
  refine ⟨_, hq.sub h1 (small hb), abs_rnd_le_of_rep (rep_pow 100 (by norm_num) (by norm_num)) hb⟩

/-- C44: silence stays silence in the destination range if the rate ratio is at most 2^99 (and so for all sample rates
in use). -/
theorem C44_partial (fuel : Nat) (s s' : Sink k c) (st : Src k' c) (it : It k' c) (h : s.stream fuel st = .ok (s', it))
    (hk : k.builtin = true) (hk' : k'.builtin = true) (r : ℚ) (hq : (ratioOf s.rate st.rate).Is r)
    (hr : |r| ≤ 2 ^ (99:ℤ)) (hsil : ∀ i f, st.nth i = .ok (some f) → f = Frame.dflt) (i : Nat)
    (hi : InDst (ratioOf s.rate st.rate) st.len s.buf.length i) : s'.buf[i]? = some Frame.dflt := by
  obtain ⟨_, n, g, _, _, a3, a4, a5, _⟩ := stream_takes fuel s s' _ it h
  have h5 := congrArg Prod.fst a5
  simp only at h5
  have hg : ∀ j, 0 ≤ j → j < 0 + n → g j = (fun _ => Frame.dflt : Nat → Frame k c) j := by
    intro j _ hj
    obtain ⟨f, e1, e2⟩ := a4 j (by omega)
    rw [hsil j f e1, convert_dflt hk hk'] at e2
    exact (Except.ok.inj e2).symm
  rw [placeN_congr _ _ _ g _ _ _ _ hg] at h5
  have hlen := (C36_stream _ _ _ _ _ h).1
  have hlt : i < s'.buf.length := by rw [hlen]; exact hi.1
  obtain ⟨y, hy⟩ : ∃ y, s'.buf[i]? = some y := ⟨_, List.getElem?_eq_getElem hlt⟩
  rw [hy]
  congr 1
  rw [h5] at hy
  refine placeN_slots _ _ _ _ (fun b => b = Frame.dflt) ?_ _ _ _ ?_ i _ (inDst_iff.mp hi) hy
  · rintro j b rfl
    obtain ⟨⟨a, h1, h2⟩, ⟨b, h3, h4⟩⟩ := weights_bound hq hr s.res.offseti j
    constructor
    · ext x hx
      simpa [Frame.add, Frame.mul, Frame.ofF64, Frame.dflt] using silent_chan (c := c) h3 h4
    · ext x hx
      simpa [Frame.add, Frame.mul, Frame.ofF64, Frame.dflt] using silent_chan (c := c) h1 h2
  · intro x y hx hy
    simp only at hy
    rw [prepare_in _ _ _ hx (dstEnd_le _ _ _)] at hy
    exact (Option.some.inj hy).symm

example := C44_partial 3 (⟨lit 3, Resampler.dflt, [#v[lit 9], #v[lit 9]]⟩ : Sink .mono .ch64) _
  (.audio (k := .stereo) (c := .ch64) ⟨lit 2, [#v[lit 0, lit 0], #v[lit 0, lit 0]]⟩) _
  (R.returns₂ (x := Sink.stream 3 (⟨lit 3, Resampler.dflt, [#v[lit 9], #v[lit 9]]⟩ : Sink .mono .ch64)
    (.audio (k := .stereo) (c := .ch64) ⟨lit 2, [#v[lit 0, lit 0], #v[lit 0, lit 0]]⟩)) (by decide +kernel))
  rfl rfl 1.5 (by decide +kernel) (by norm_num) (fun i f h => by
    match i, h with
    | 0, h => cases h; decide +kernel
    | 1, h => cases h; decide +kernel
    | n + 2, h => cases h) 1 (by decide +kernel)

/-- C44 is false for extreme rates: the weight overflows, and infinity times zero is not a number. -/
theorem C44_false : ((⟨lit 1e300, Resampler.dflt, [#v[lit 0]]⟩ : Sink .mono .ch32).stream 3
    (.audio (k := .mono) (c := .ch32) ⟨lit 1, [#v[lit 0]]⟩)).map (fun r => r.1.buf) = .ok [#v[lit 1]] := by
  decide +kernel

example : ((⟨lit 3, Resampler.dflt, [#v[lit 9], #v[lit 9]]⟩ : Sink .mono .ch64).stream 3
    (.audio (k := .stereo) (c := .ch64) ⟨lit 2, [#v[lit 0, lit 0], #v[lit 0, lit 0]]⟩)).map (fun r => r.1.buf) =
    .ok [#v[lit 0], #v[lit 0]] := by decide +kernel

/-! ## C55 -/

/-- C55: `sink` returns exactly if start ≤ end ≤ len (an inclusive range must not end at `usize::MAX`, which no
length allows anyway). -/
theorem C55_panics_iff (a : Audio k c) (r : Rng) (hlen : (a.frames.length : ℤ) ≤ usizeMax) :
    (∃ s, a.sink r = .ok s) ↔ (r.bounds a.frames.length).1 ≤ (r.bounds a.frames.length).2 ∧
      (r.bounds a.frames.length).2 ≤ a.frames.length := by
  have key : (∃ s, a.sink r = .ok s) ↔ ∃ p, r.resolve a.frames.length = .ok p := by
    unfold Audio.sink
    cases r.resolve a.frames.length <;> simp
  rw [key]
  exact r.resolve_iff hlen

example := C55_panics_iff (exAudio 8) (.range 3 6) (by decide +kernel)

/-- C55: the sink is that slice with a fresh resampler, and releasing it puts its contents back in place. -/
theorem C55_slice (a : Audio k c) (r : Rng) (s : AudioSink k c) (h : a.sink r = .ok s) :
    s.sink.buf = (a.frames.drop (r.bounds a.frames.length).1).take
      ((r.bounds a.frames.length).2 - (r.bounds a.frames.length).1) ∧
    s.sink.res = Resampler.dflt ∧ s.sink.rate = a.rate ∧ s.release = a ∧
    ∀ b, b.length = s.sink.buf.length → ∀ i, i < b.length →
      (({ s with sink := { s.sink with buf := b } } : AudioSink k c).release.frames)[(r.bounds a.frames.length).1 + i]? = b[i]? := by
  unfold Audio.sink at h
  cases hr : r.resolve a.frames.length with
  | error e => rw [hr] at h; cases h
  | ok p =>
    obtain ⟨x, y⟩ := p
    have hxy := Rng.resolve_ok hr
    rw [hr] at h
    cases h
    obtain ⟨h1, h2, h3, h4⟩ := hxy
    rw [← h1, ← h2]
    refine ⟨rfl, rfl, rfl, ?_, ?_⟩
    · unfold AudioSink.release
      have : a.frames.take x ++ (a.frames.drop x).take (y - x) ++ a.frames.drop y = a.frames := by
        rw [List.append_assoc, show a.frames.drop y = (a.frames.drop x).drop (y - x) by
          rw [List.drop_drop]; congr 1; omega, List.take_append_drop, List.take_append_drop]
      simp only [this]
    · intro b hb i hi
      unfold AudioSink.release
      simp only
      rw [List.append_assoc, List.getElem?_append_right (by rw [List.length_take]; omega),
        List.getElem?_append_left (by rw [List.length_take]; omega)]
      congr 1
      rw [List.length_take]; omega

example := C55_slice (exAudio 8) (.incl 1 3) _ (R.returns (x := (exAudio 8).sink (.incl 1 3)) (by decide +kernel))

example : ((exAudio 8).sink (.incl 1 3)).map (fun s => s.sink.buf) = .ok [#v[2#8], #v[3#8], #v[4#8]] := by decide +kernel
example : ((exAudio 8).sink (.pair (.exc 1) .unb)).map (fun s => s.sink.buf) = .ok [#v[3#8], #v[4#8], #v[5#8]] := by decide +kernel
example : ((exAudio 8).sink (.pair .unb (.inc 1))).map (fun s => s.sink.buf) = .ok [#v[1#8], #v[2#8]] := by decide +kernel
example : ((exAudio 8).sink (.pair (.exc 18446744073709551615) .unb)).map (fun s => s.sink.buf) = .error .overflow := by
  decide +kernel
example : ((exAudio 8).sink (.done 2)).map (fun s => s.sink.buf) = .ok [] := by decide +kernel
example : ((exAudio 8).sink (.range 3 6)).map (fun s => s.sink.buf) = .error .bounds := by decide +kernel

/-! ## C57 -/

theorem loop_diverges (q : F64) (d : Nat) (sl : Option Nat) (st : Src k' c') (fuel i : Nat) (s : Sink k c)
    (hb : d ≤ s.buf.length) (hp : ∀ j, i ≤ j → (Sink.pos q s.res.offseti j).toUsize < d)
    (hn : ∀ j, ∃ (f : Frame k' c') (x : Frame k c), st.nth j = .ok (some f) ∧ f.convert c = .ok x) :
    loop q d sl fuel i s (st.iterAt i) = .error .outOfFuel := by
  induction fuel generalizing i s with
  | zero => rfl
  | succ fuel ih =>
    unfold loop
    dsimp only
    rw [ceilUsize_ok]
    simp only
    have hfl := hp i (le_refl _)
    have hfl' : ((q.mul (f64OfUsize i)).add s.res.offseti).toUsize < d := hfl
    rw [if_neg (not_not.mpr hfl')]
    obtain ⟨f, x, hf, hx⟩ := hn i
    rw [st.next_some i f hf]
    simp only
    rw [hx]
    simp only
    rw [show modAt s.buf ((q.mul (f64OfUsize i)).add s.res.offseti).toUsize _ = .ok _ from
      if_pos (by omega)]
    simp only
    split
    · rename_i hce
      rw [show modAt (s.buf.modify _ _) (ceilU ((q.mul (f64OfUsize i)).add s.res.offseti)) _
        = .ok _ from if_pos (by simp; omega)]
      exact ih (i + 1) _ (by simpa using hb) (fun j hj => hp j (by omega))
    · exact ih (i + 1) _ (by simpa using hb) (fun j hj => hp j (by omega))

/-- C57 is false: streaming an endless stream of rate 8 into a sink of rate 0 does not come to an end, however long
it runs. -/
theorem C57_false (fuel : Nat) (f : Frame .mono .ch8) :
    (exSink 1 0).stream fuel (.user (k := .mono) (c := .ch8) (some (lit 8)) true none (fun _ => f)) = .error .outOfFuel := by
  have hq : (ratioOf (exSink 1 0).rate (some (lit 8))).Is 0 := by
    have h8 : (lit 8 : F64).Is 8 := is_lit (by exact_mod_cast rep_int (f := binary64) (n := 8) (by decide))
    have := (is_zero (f := binary64)).div h8 (by norm_num) (by rw [zero_div, rnd_zero]; simpa using maxF_pos.le)
    rwa [zero_div, rnd_zero] at this
  unfold Sink.stream Sink.ratio
  simp only [Src.rate, Src.len, ← Src.iterAt_zero]
  rw [show dstEnd _ none (exSink 1 0).buf.length = 1 from rfl]
  rw [loop_diverges]
  · rfl
  · intro j _
    have hz : ∀ x : F64, (x.Is 0 ∨ x = .nan) → (x.add (lit 0)).toUsize = 0 := by
      rintro x (hx | rfl)
      · have := toUsize_nat (n := 0) (by simpa using add_zero' hx is_zero) (by norm_num)
        exact this
      · rfl
    have : (Sink.pos (ratioOf (exSink 1 0).rate (some (lit 8))) (lit 0) j).toUsize = 0 := by
      apply hz
      cases hj : f64OfUsize j with
      | nan => right; rw [Fl.mul_comm']; rfl
      | inf b =>
        right
        obtain ⟨_, _, e⟩ := hq
        rw [e]; simp [Fl.mul]
      | fin p nz h =>
        left; rw [Fl.mul_comm']
        exact mul_zero' is_fin hq
    change (Sink.pos (ratioOf (exSink 1 0).rate (some (lit 8))) (lit 0) j).toUsize < 1
    omega
  · intro j
    exact ⟨f, f, rfl, C21_id rfl f⟩

/-- C57: with a positive ratio `r` and a nonnegative offset the call returns, after at most `2^m + 1` iterations if
`r * 2^m` reaches the end of the buffer. -/
theorem C57_partial (s : Sink k c) (st : Src k' c') (hk : k.builtin = true) (hk' : k'.builtin = true)
    (hs : st.safe = true) (hp : st.playable) (r o : ℚ) (m : Nat) (hq : (ratioOf s.rate st.rate).Is r) (hr : 0 < r)
    (ho : s.res.offseti.Is o) (ho' : 0 ≤ o) (hb : s.buf.length < 2 ^ 64) (hm : m ≤ 63)
    (h : (s.buf.length : ℚ) ≤ r * 2 ^ m) : ∃ t, s.stream (2 ^ m + 1) st = .ok t := by
  obtain ⟨st', hq'⟩ := ratio_ok (s := s) hp
  refine stream_ok (2 ^ m + 1) (2 ^ m) s st st' _ hq' (by omega) (fun j _ _ => st.safe_nth hs j)
    (fun j f _ _ _ => C25_builtin hk' hk f) (.inl ?_)
  have hd := dstEnd_le (ratioOf s.rate st.rate) st.len s.buf.length
  suffices h' : s.buf.length ≤ (Sink.pos (ratioOf s.rate st.rate) s.res.offseti (2 ^ m)).toUsize by omega
  have hinf : s.buf.length ≤ (Fl.inf false : F64).toUsize := by
    simp only [Fl.toUsize, Fl.toIntSat, usizeMax_eq]; norm_num; omega
  have h2m : (f64OfUsize (2 ^ m)).Is (2 ^ m : ℚ) := by
    have hrep : binary64.Rep (2 ^ m : ℚ) := by
      have := rep_pow (f := binary64) (m:ℤ) (by omega) (by omega)
      simpa using this
    have := is_ofInt (f := binary64) (n := (2 ^ m : Nat)) (by push_cast; exact hrep)
    unfold f64OfUsize
    simpa using this
  unfold Sink.pos
  -- the product
  have hprod : (∃ p, ((ratioOf s.rate st.rate).mul (f64OfUsize (2 ^ m))).Is p ∧ (s.buf.length : ℚ) ≤ p) ∨
      (ratioOf s.rate st.rate).mul (f64OfUsize (2 ^ m)) = .inf false := by
    by_cases hmax : |binary64.rnd (r * 2 ^ m)| ≤ binary64.maxF
    · refine .inl ⟨_, hq.mul h2m hmax, ?_⟩
      -- `r * 2 ^ m` is a float
      have hgen : binary64.Gen (r * 2 ^ m) := by
        obtain ⟨a, e, h1, h2, h3⟩ := hq.rep.gen
        refine ⟨a, e + m, h1, by omega, ?_⟩
        rw [h3, zpow_add₀ (by norm_num)]; simp; ring
      rw [rnd_of_gen hgen]; exact h
    · right
      obtain ⟨n1, g1, e1⟩ := hq
      obtain ⟨n2, g2, e2⟩ := h2m
      rw [e1, e2]
      simp only [Fl.mul, Fl.ofQ]
      rw [dif_neg hmax]
      have : ¬ (r * 2 ^ m < 0) := not_lt.mpr (by positivity)
      simp [this]
  rcases hprod with ⟨p, h1, h2⟩ | h1
  · have hp0 : 0 ≤ p := le_trans (by positivity) h2
    by_cases hmax : |binary64.rnd (p + o)| ≤ binary64.maxF
    · refine le_toUsize (h1.add ho hmax) ?_ hb
      have : binary64.rnd p ≤ binary64.rnd (p + o) := rnd_mono (by linarith)
      rw [rnd_of_rep h1.rep] at this
      linarith
    · obtain ⟨n1, g1, e1⟩ := h1
      obtain ⟨n2, g2, e2⟩ := ho
      rw [e1, e2]
      simp only [Fl.add, Fl.ofQ]
      rw [dif_neg hmax]
      have : ¬ (p + o < 0) := not_lt.mpr (by positivity)
      simp only [this, decide_false]
      exact hinf
  · rw [h1]
    obtain ⟨n2, g2, e2⟩ := ho
    rw [e2]
    exact hinf

example := C57_partial (exSink 7 12) (.user (k := .mono) (c := .ch8) (some (lit 8)) true none (fun _ => #v[100#8]))
  rfl rfl rfl (.inl (by simp [Src.rate])) 1.5 0 3 (by decide +kernel) (by norm_num) (by decide +kernel) (by norm_num)
  (by decide +kernel) (by decide) (by decide +kernel)

example : ((⟨lit 12, Resampler.dflt, [#v[0#8], #v[0#8], #v[0#8]]⟩ : Sink .mono .ch8).stream 3
    (.user (k := .mono) (c := .ch8) (some (lit 8)) true none (fun _ => #v[100#8]))).map (fun r => r.1.buf) =
    .ok [#v[100#8], #v[100#8], #v[49#8]] := by decide +kernel

end Fon
