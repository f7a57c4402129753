import Verif.Props.Audio

/-!
# C61, C74 - C76, C79: several calls in a row
-/

namespace Fon
open Fmt Fl Sink
variable {k k' k'' : Kind} {c c' c'' : ChTy}

/-! ## C61: streaming frame by frame -/

/-- C61: setting the rate of a frame does nothing, so it is streamed at ratio 1 whatever the rate of the sink. -/
theorem C61_setRate (f : Frame k c) (n : Nat) (x : F64) :
    ((Src.frame f).mkTake n).setRate x = .ok ((Src.frame f).mkTake n) ∧ ((Src.frame f).mkTake n).rate = none := ⟨rfl, rfl⟩

theorem frame_one (s : Sink k c) (f : Frame k' c') (hk : k.builtin = true) (hk' : k'.builtin = true) (o : Nat)
    (ho : s.res.offseti.Is (o:ℚ)) (hb : s.buf.length ≤ 2 ^ 53) (h0 : 0 < s.buf.length) :
    ∃ s' it, s.stream 2 ((Src.frame f).mkTake 1) = .ok (s', it) ∧ s'.buf.length = s.buf.length ∧
      s'.res.partial_ = s.res.partial_ ∧ s'.res.offseti.Is ((max o 1 : Nat) : ℚ) ∧ s'.rate = s.rate ∧
      (0 < o → s'.buf = Frame.dflt :: s.buf.tail) ∧
      (o = 0 → ∃ x y, f.convert c = .ok x ∧ s'.buf = y :: s.buf.tail ∧ FrameArrives x y) := by
  obtain ⟨⟨s', it⟩, h⟩ := C37_finite s ((Src.frame f).mkTake 1) 1 rfl hk hk' rfl (.inr rfl)
  have hl : copyLen ((Src.frame f).mkTake 1).len s.buf.length = 1 := by
    show min 1 s.buf.length = 1; omega
  obtain ⟨h1, h2, h3, h4, h5⟩ := C40_actual 2 o s s' _ it h (by intro x hx; cases hx) ho hb
  rw [hl] at h2 h3 h4 h5
  have hlen := (C36_stream _ _ _ _ _ h).1
  have htl : ∀ x, 1 ≤ x → s'.buf[x]? = s.buf[x]? := fun x hx => by rw [h5 x hx, if_neg (by omega)]
  have hcons : ∀ y, s'.buf[0]? = some y → s'.buf = y :: s.buf.tail := by
    intro y hy
    apply List.ext_getElem?
    intro i
    cases i with
    | zero => rw [hy]; rfl
    | succ i => rw [htl _ (by omega), List.getElem?_cons_succ, List.getElem?_tail]
  refine ⟨s', it, h, hlen, h1, h2, (C36_stream _ _ _ _ _ h).2.1, fun hp => hcons _ (h3 0 (by omega) hp), fun ho' => ?_⟩
  subst ho'
  obtain ⟨src, x, y, e1, e2, e3, e4⟩ := h4 0 (by omega) (by omega)
  cases (Except.ok.inj e1 : some f = some src)
  exact ⟨x, y, e2, hcons y e3, e4⟩

/-- What streaming frame by frame does: from the second frame on each call clears the first slot and writes
nothing. The claim, that the result is that of streaming the frames at once, is false (`C61_false`). -/
theorem C61_actual (s : Sink k c) (fs : List (Frame k' c')) (hk : k.builtin = true) (hk' : k'.builtin = true)
    (hr : s.res = Resampler.dflt) (hb : s.buf.length ≤ 2 ^ 53) (h0 : 0 < s.buf.length) (h2 : 2 ≤ fs.length) :
    ∃ s', s.frameByFrame fs = .ok s' ∧ s'.buf = Frame.dflt :: s.buf.tail ∧ s'.res.partial_ = Frame.dflt ∧
      s'.res.offseti.Is 1 := by
  have key : ∀ (fs : List (Frame k' c')) (s : Sink k c), s.res.offseti.Is 1 → s.buf.length ≤ 2 ^ 53 → 0 < s.buf.length →
      ∃ s', s.frameByFrame fs = .ok s' ∧ (s'.buf = if fs = [] then s.buf else Frame.dflt :: s.buf.tail) ∧
        s'.res.partial_ = s.res.partial_ ∧ s'.res.offseti.Is 1 := by
    intro fs
    induction fs with
    | nil => intro s h _ _; exact ⟨s, rfl, rfl, rfl, h⟩
    | cons f fs ih =>
      intro s h hb h0
      obtain ⟨t, it, e, e1, e2, e3, _, e4, _⟩ := frame_one s f hk hk' 1 (by exact_mod_cast h) hb h0
      obtain ⟨u, g1, g2, g3, g4⟩ := ih t (by simpa using e3) (by omega) (by omega)
      refine ⟨u, ?_, ?_, by rw [g3, e2], g4⟩
      · simp only [Sink.frameByFrame, C61_setRate, bind, Except.bind, e]; exact g1
      · rw [g2, e4 (by norm_num)]; simp
  match fs, h2 with
  | f :: g :: fs, _ =>
    obtain ⟨t, it, e, e1, e2, e3, _, _, e5⟩ := frame_one s f hk hk' 0 (by rw [hr]; exact_mod_cast is_zero) hb h0
    obtain ⟨_, y, _, ey, _⟩ := e5 rfl
    obtain ⟨u, g1, g2, g3, g4⟩ := key (g :: fs) t (by simpa using e3) (by omega) (by omega)
    refine ⟨u, ?_, by rw [g2, ey]; simp, by rw [g3, e2, hr]; rfl, g4⟩
    rw [Sink.frameByFrame]
    simp only [C61_setRate, bind, Except.bind, e]; exact g1

example := C61_actual (exSink 3 8) [#v[4#8], #v[5#8], #v[6#8]] (k' := .mono) (c' := .ch8) rfl rfl rfl (by decide) (by decide) (by decide)

/-- C61 is false, by example. -/
theorem C61_false : ∃ s1 s2, (exSink 3 8).frameByFrame (exAudio 8).frames = .ok s1 ∧
    (∃ it, (exSink 3 8).stream 9 (.audio (exAudio 8)) = .ok (s2, it)) ∧
    s1.buf = [#v[0#8], #v[9#8], #v[9#8]] ∧ s2.buf = [#v[1#8], #v[2#8], #v[3#8]] := by
  have e1 : ((exSink 3 8).frameByFrame (exAudio 8).frames).map (·.buf) = .ok [#v[0#8], #v[9#8], #v[9#8]] := by decide +kernel
  have e2 : ((exSink 3 8).stream 9 (.audio (exAudio 8))).map (·.1.buf) = .ok [#v[1#8], #v[2#8], #v[3#8]] := by decide +kernel
  cases h1 : (exSink 3 8).frameByFrame (exAudio 8).frames with
  | error e => rw [h1] at e1; cases e1
  | ok s1 =>
    cases h2 : (exSink 3 8).stream 9 (.audio (exAudio 8)) with
    | error e => rw [h2] at e2; cases e2
    | ok r =>
      rw [h1] at e1; rw [h2] at e2
      exact ⟨s1, r.1, rfl, ⟨r.2, rfl⟩, Except.ok.inj e1, Except.ok.inj e2⟩

/-- C61 holds for a single frame. -/
theorem C61_partial (s : Sink k c) (f : Frame k' c') (hk : k.builtin = true) (hk' : k'.builtin = true)
    (hr : s.res = Resampler.dflt) (hb : s.buf.length ≤ 2 ^ 53) (h0 : 0 < s.buf.length) :
    ∃ s' x y, s.frameByFrame [f] = .ok s' ∧ f.convert c = .ok x ∧ s'.buf = y :: s.buf.tail ∧ FrameArrives x y := by
  obtain ⟨t, it, e, _, _, _, _, _, e5⟩ := frame_one s f hk hk' 0 (by rw [hr]; exact_mod_cast is_zero) hb h0
  obtain ⟨x, y, ex, ey, ha⟩ := e5 rfl
  refine ⟨t, x, y, ?_, ex, ey, ha⟩
  simp only [Sink.frameByFrame, C61_setRate, bind, Except.bind, e]

example := C61_partial (exSink 3 8) (k' := .stereo) (c' := .ch8) #v[4#8, 6#8] rfl rfl rfl (by decide) (by decide)

/-! ## C76: a resampler kept for the next buffer -/

/-- What a resampler that has filled a buffer of `b` slots does to the next buffer, at equal rates: the first `b` slots
of the range are cleared, nothing is written to them.  The claim is that playback continues in the next buffer. -/
theorem C76_actual (fuel fuel' : Nat) (s s' t t' : Sink k c) (st : Src k' c') (st2 : Src k'' c'') (it it2)
    (h : s.stream fuel st = .ok (s', it)) (h2 : t.stream fuel' st2 = .ok (t', it2)) (ht : t.res = s'.res)
    (hr : ∀ x, st.rate = some x → ∃ ρ : ℚ, s.rate.Is ρ ∧ x.Is ρ ∧ ρ ≠ 0)
    (hr2 : ∀ x, st2.rate = some x → ∃ ρ : ℚ, t.rate.Is ρ ∧ x.Is ρ ∧ ρ ≠ 0)
    (hs : s.res = Resampler.dflt) (hb : s.buf.length ≤ 2 ^ 53) (hb2 : t.buf.length ≤ 2 ^ 53)
    (hfull : ∀ l, st.len = some l → s.buf.length ≤ l) (x : Nat) (hx : x < s.buf.length)
    (hx2 : x < copyLen st2.len t.buf.length) : t'.buf[x]? = some Frame.dflt := by
  obtain ⟨_, e2, _⟩ := C40_actual fuel 0 s s' st it h hr (by rw [hs]; exact_mod_cast is_zero) hb
  have hc : copyLen st.len s.buf.length = s.buf.length := by
    unfold copyLen
    cases hl : st.len with
    | none => rfl
    | some l => have := hfull l hl; simp only; omega
  rw [hc, show max 0 s.buf.length = s.buf.length by omega] at e2
  exact (C40_actual fuel' s.buf.length t t' st2 it2 h2 hr2 (by rw [ht]; exact e2) hb2).2.2.1 x hx2 hx

/-- The sink of the second call: the resampler of the first, and a fresh buffer. -/
def exNext : Sink .mono .ch8 :=
  { exSink 4 8 with res := (R.out ((exSink 3 8).stream 6 (.audio (exAudio 8))) (by decide +kernel)).1.res }

example := C76_actual 6 6 (exSink 3 8) _ exNext _ (.audio (exAudio 8)) (.audio (exAudio 8)) _ _
  (R.returns₂ (x := (exSink 3 8).stream 6 (.audio (exAudio 8))) (by decide +kernel))
  (R.returns₂ (x := exNext.stream 6 (.audio (exAudio 8))) (by decide +kernel)) rfl
  (fun x hx => by cases hx; exact ⟨8, by decide +kernel, by decide +kernel, by norm_num⟩)
  (fun x hx => by cases hx; exact ⟨8, by decide +kernel, by decide +kernel, by norm_num⟩) rfl (by decide +kernel)
  (by decide +kernel) (fun l hl => by cases hl; decide) 2 (by decide) (by decide +kernel)

/-- C76 is false, by example: draining five frames into two buffers of two slots with one resampler. -/
theorem C76_false :
    (do let (s1, it) ← (exSink 2 8).stream 9 (.drain (exAudio 8))
        let t : Sink .mono .ch8 := { exSink 2 8 with res := s1.res }
        let (s2, _) ← t.stream 9 (.drain (k := .mono) (c := .ch8) ⟨lit 8, [#v[3#8], #v[4#8], #v[5#8]]⟩)
        return (s1.buf, it.dropped.map (fun d : (k : Kind) × (c : ChTy) × Audio k c => d.2.2.frames.length), s2.buf)) =
      .ok ([#v[1#8], #v[2#8]], [3], [#v[0#8], #v[0#8]]) := by decide +kernel

/-! ## C74: playing a buffer piece by piece -/

/-- C74: nothing is lost or repeated between the pieces: together the buffers are the first frames of the audio,
converted, and the rest stays in the audio. -/
theorem C74_gapless {a a' : Audio k' c'} {bs : List (List (Frame k c))} (h : Plays a bs a')
    (hn : bs.flatten.length ≤ a.len) :
    a'.frames = a.frames.drop bs.flatten.length ∧ a'.rate = a.rate ∧
    ∀ x, x < bs.flatten.length → ∃ src f y, a.get x = some src ∧ src.convert c = .ok f ∧
      bs.flatten[x]? = some y ∧ FrameArrives f y := by
  induction h with
  | done a => simp
  | @piece a a' a'' bs fuel s s' it ρ hs ha hρ hr hb h hd next ih =>
    have hlen := (C36_stream _ _ _ _ _ h).1
    simp only [List.flatten_cons, List.length_append] at hn
    have hra : ∀ x, (Src.drain a).rate = some x → ∃ ρ : ℚ, s.rate.Is ρ ∧ x.Is ρ ∧ ρ ≠ 0 := by
      rintro x ⟨⟩; exact ⟨ρ, hs, ha, hρ⟩
    have ho : s.res.offseti.Is ((0:Nat):ℚ) := by rw [hr]; exact_mod_cast is_zero
    obtain ⟨n, hT, hdr⟩ := C38_drain _ _ _ _ _ h
    have hnb : n = s'.buf.length := by
      have := takes_unique hT (takes_one (ratioOf_one hra) ho hb _)
      rw [this]
      unfold copyLen Audio.len at *
      simp only; omega
    rw [hdr] at hd
    have ha' : a' = ⟨a.rate, a.frames.drop n⟩ := by
      have := List.head_eq_of_cons_eq hd
      cases this; rfl
    subst ha'
    obtain ⟨e1, e2, e3⟩ := ih (by simp only [Audio.len, List.length_drop] at *; omega)
    refine ⟨?_, e2, ?_⟩
    · rw [e1]; simp only [List.drop_drop, List.flatten_cons, List.length_append, hnb]
    · intro x hx
      simp only [List.flatten_cons, List.length_append] at hx ⊢
      by_cases hxs : x < s'.buf.length
      · obtain ⟨src, f, y, g1, g2, g3, g4⟩ := (C35_copy fuel s s' _ it h hra hr hb).1 x (by
          rintro l ⟨⟩; unfold Audio.len at hn; omega) (by omega)
        exact ⟨src, f, y, Except.ok.inj g1, g2, by rw [List.getElem?_append_left hxs]; exact g3, g4⟩
      · obtain ⟨src, f, y, g1, g2, g3, g4⟩ := e3 (x - s'.buf.length) (by omega)
        refine ⟨src, f, y, ?_, g2, by rw [List.getElem?_append_right (by omega)]; exact g3, g4⟩
        simp only [Audio.get, List.getElem?_drop] at g1 ⊢
        rw [show n + (x - s'.buf.length) = x by omega] at g1
        exact g1

/-- What is left of `exAudio 8` after two frames. -/
def exRest : Audio .mono .ch8 := ⟨lit 8, [#v[3#8], #v[4#8], #v[5#8]]⟩

/-- Two buffers of two frames each. -/
theorem exPlays : ∃ bs a', Plays (k := .mono) (c := .ch8) (exAudio 8) bs a' ∧ bs.flatten.length = 4 := by
  refine ⟨_, ⟨lit 8, [#v[5#8]]⟩, .piece 6 (exSink 2 8) _ _ 8 (by decide +kernel) (by decide +kernel) (by norm_num) rfl
    (by decide) (R.returns₂ (x := (exSink 2 8).stream 6 (.drain (exAudio 8))) (by decide +kernel))
    (a' := exRest) (by decide +kernel) (.piece 6 (exSink 2 8) _ _ 8 (by decide +kernel)
      (by decide +kernel) (by norm_num) rfl (by decide) (R.returns₂ (x := (exSink 2 8).stream 6
        (.drain exRest)) (by decide +kernel)) (by decide +kernel) (.done _)), ?_⟩
  decide +kernel

example := exPlays.imp fun bs h => h.imp fun a' h => C74_gapless h.1 (by rw [h.2]; decide)

/-- C74: each piece can be played. -/
theorem C74_plays (a : Audio k' c') (s : Sink k c) (hk : k.builtin = true) (hk' : k'.builtin = true) :
    ∃ s' it a', s.stream (a.len + 1) (.drain a) = .ok (s', it) ∧ it.dropped = [⟨k', c', a'⟩] := by
  obtain ⟨⟨s', it⟩, h⟩ := C37_finite s (.drain a) a.len rfl hk hk' rfl (.inl (by simp [Src.rate]))
  obtain ⟨n, _, hd⟩ := C38_drain _ _ _ _ _ h
  exact ⟨s', it, _, h, hd⟩

example := C74_plays (exAudio 12) (exSink 3 8) rfl rfl

example : ((exSink 2 8).stream 6 (.drain (exAudio 8))).map (fun r => (r.1.buf, r.2.dropped.length)) =
    .ok ([#v[1#8], #v[2#8]], 1) := by decide +kernel

/-! ## C75: extending repeatedly -/

/-- C75: extending by streams of the same rate appends them one after another.  As with C50 the products of rate and
length have to be exact (`C50_false`). -/
theorem C75_partial (a : Audio k c) (sts : List (Src k' c')) (ls : List Nat) (hl : sts.map Src.len = ls.map some)
    (hls : ∀ l ∈ ls, l < 2 ^ 51) (hk : k.builtin = true) (hk' : k'.builtin = true)
    (hs : ∀ st ∈ sts, st.safe = true ∧ st.playable)
    (hr : ∀ st ∈ sts, ∀ x, st.rate = some x → ∃ ρ : ℚ, a.rate.Is ρ ∧ x.Is ρ ∧ ρ ≠ 0 ∧
      ∀ l ∈ ls, binary64.Rep (ρ * l)) (hf : a.Fits ls.sum) :
    ∃ b, a.extendAll sts = .ok b ∧ b.rate = a.rate ∧ b.len = a.len + ls.sum ∧
      (∀ i, i < a.len → b.get i = a.get i) ∧
      (∀ j, j < ls.sum → ∃ src f y, Src.chained sts j = .ok (some src) ∧ src.convert c = .ok f ∧
        b.get (a.len + j) = some y ∧ FrameArrives f y) := by
  induction sts generalizing a ls with
  | nil =>
    cases ls with
    | nil => exact ⟨a, rfl, rfl, by simp, fun _ _ => rfl, fun j hj => by simp at hj⟩
    | cons _ _ => cases hl
  | cons st sts ih =>
    cases ls with
    | nil => cases hl
    | cons l ls =>
      simp only [List.map_cons, List.cons.injEq] at hl
      have hfl : a.Fits l := by
        unfold Audio.Fits at *
        simp only [List.sum_cons] at hf
        refine ⟨by have := hf.1; push_cast at this; omega, le_trans (Nat.mul_le_mul_right _ (by omega)) hf.2⟩
      obtain ⟨b, it, e1, e2, e3, e4, e5⟩ := C50_partial a st l hl.1 (hls l (by simp)) hk hk' (hs st (by simp)).1
        (hs st (by simp)).2 (fun x hx => by
          obtain ⟨ρ, h1, h2, h3, h4⟩ := hr st (by simp) x hx
          exact ⟨ρ, h1, h2, h3, h4 l (by simp)⟩) hfl
      obtain ⟨d, g1, g2, g3, g4, g5⟩ := ih b ls hl.2 (fun l h => hls l (by simp [h])) (fun st h => hs st (by simp [h]))
        (fun st h x hx => by
          obtain ⟨ρ, h1, h2, h3, h4⟩ := hr st (by simp [h]) x hx
          exact ⟨ρ, by rw [e2]; exact h1, h2, h3, fun l h => h4 l (by simp [h])⟩) (by
          unfold Audio.Fits at *
          simp only [Audio.len] at e3
          simp only [List.sum_cons] at hf
          rw [e3, Nat.add_assoc]
          push_cast at hf ⊢
          exact ⟨by linarith [hf.1], hf.2⟩)
      refine ⟨d, ?_, by rw [g2, e2], by rw [g3, e3, List.sum_cons]; omega, fun i hi => by rw [g4 i (by omega), e4 i hi], ?_⟩
      · simp only [Audio.extendAll, e1]; exact g1
      · intro j hj
        simp only [List.sum_cons] at hj
        by_cases hjl : j < l
        · obtain ⟨src, f, y, h1, h2, h3, h4⟩ := e5 j hjl
          exact ⟨src, f, y, by simp only [Src.chained, hl.1, if_pos hjl]; exact h1, h2, by rw [g4 _ (by omega)]; exact h3, h4⟩
        · obtain ⟨src, f, y, h1, h2, h3, h4⟩ := g5 (j - l) (by omega)
          refine ⟨src, f, y, by simp only [Src.chained, hl.1, if_neg hjl]; exact h1, h2, ?_, h4⟩
          rw [e3] at h3
          rw [show a.len + j = a.len + l + (j - l) by omega]; exact h3

example := C75_partial (exAudio 8) [.audio (exAudio 8), (Src.drain (exAudio 8)).mkTake 2] [5, 2] rfl (by decide) rfl rfl
  (by decide) (by
    intro st hst x hx
    simp only [List.mem_cons, List.not_mem_nil, or_false] at hst
    refine ⟨8, by decide +kernel, ?_, by norm_num, fun l hl => ?_⟩
    · rcases hst with rfl | rfl <;> cases hx <;> decide +kernel
    · rw [show (8:ℚ) * l = ((8 * l : Nat) : ℚ) by push_cast; ring]
      simp only [List.mem_cons, List.not_mem_nil, or_false] at hl
      rcases hl with rfl | rfl <;> exact rep_nat53 (by norm_num)) (by decide +kernel)

example : ((exAudio 8).extendAll [.audio (exAudio 8), (Src.drain (exAudio 8)).mkTake 2]).map (·.frames) =
    .ok ((exAudio 8).frames ++ (exAudio 8).frames ++ [#v[1#8], #v[2#8]]) := by decide +kernel

/-! ## C79: take and blend -/

/-- C79: taking from a blend is blending what was taken: same frames, length and rate. -/
theorem C79_take_blend (a : Src k c) (b : Src k' c') (op : Blend) (n : Nat) :
    (∀ i, (Src.take (.blend a b op) n).nth i = (Src.blend (.take a n) (.take b n) op).nth i) ∧
    (Src.take (.blend a b op) n).len = (Src.blend (.take a n) (.take b n) op).len ∧
    (Src.take (.blend a b op) n).rate = (Src.blend (.take a n) (.take b n) op).rate := by
  refine ⟨fun i => ?_, ?_, rfl⟩
  · simp only [Src.nth]
    by_cases h : i < n
    · simp only [if_pos h]
    · simp only [if_neg h]; rfl
  · simp only [Src.len]
    cases a.len <;> cases b.len <;> simp <;> omega

/-- C79: so a sink cannot tell them apart. -/
theorem C79_stream (fuel fuel' : Nat) (s s1 s2 : Sink k'' c'') (a : Src k c) (b : Src k' c') (op : Blend) (n : Nat) (it1 it2)
    (h1 : s.stream fuel (.take (.blend a b op) n) = .ok (s1, it1))
    (h2 : s.stream fuel' (.blend (.take a n) (.take b n) op) = .ok (s2, it2)) : s1 = s2 := by
  obtain ⟨e1, e2, e3⟩ := C79_take_blend a b op n
  obtain ⟨_, m, _, _, _, hT, _⟩ := stream_takes _ _ _ _ _ h1
  exact C38_unused fuel fuel' m s s1 s2 _ _ it1 it2 h1 h2 e3 e2 hT (fun i _ => e1 i)

example := C79_stream 6 6 (exSink 7 12) _ _ (.audio (exAudio 8)) (.frame #v[1#8] : Src .mono .ch8) .plus 3 _ _
  (R.returns₂ (x := (exSink 7 12).stream 6 (.take (.blend (.audio (exAudio 8)) (.frame #v[1#8] : Src .mono .ch8) .plus) 3))
    (by decide +kernel))
  (R.returns₂ (x := (exSink 7 12).stream 6
    (.blend (.take (.audio (exAudio 8)) 3) (.take (.frame #v[1#8] : Src .mono .ch8) 3) .plus)) (by decide +kernel))

/-- C79: it is enough to take from one side. -/
theorem C79_take_left (a : Src k c) (b : Src k' c') (op : Blend) (n : Nat) :
    (∀ i, (Src.take (.blend a b op) n).nth i = (Src.blend (.take a n) b op).nth i) ∧
    (Src.take (.blend a b op) n).len = (Src.blend (.take a n) b op).len := by
  refine ⟨fun i => ?_, ?_⟩
  · simp only [Src.nth]
    by_cases h : i < n
    · simp only [if_pos h]
    · simp only [if_neg h]; rfl
  · simp only [Src.len]
    cases a.len <;> cases b.len <;> simp <;> omega

/-- C79: blending with `Dest` keeps the first stream, as far as the second goes, and `Src` gives the second,
converted, as far as the first goes. -/
theorem C79_ops (a : Src k c) (b : Src k' c') (i : Nat) (x : Frame k c) (y : Frame k' c') (z : Frame k c)
    (ha : a.nth i = .ok (some x)) (hb : b.nth i = .ok (some y)) (hz : y.convert c = .ok z) :
    (Src.blend a b .dest).nth i = .ok (some x) ∧ (Src.blend a b .src).nth i = .ok (some z) ∧
    (Src.blend a b .clear).nth i = .ok (some Frame.dflt) ∧ (Src.blend a b .plus).nth i = .ok (some (x.add z)) ∧
    (Src.blend a b .amplify).nth i = .ok (some (x.mul z)) := by
  obtain ⟨h1, h2, h3, h4, h5⟩ := C26_meaning x z
  simp only [Src.nth, ha, hb, hz, bind, Except.bind, pure, Except.pure, h1, h2, h3, h4, h5, and_self]

example := C79_ops (.audio (exAudio 8)) (.frame #v[3#8, 5#8] : Src .stereo .ch8) 2 #v[3#8] #v[3#8, 5#8] #v[4#8] rfl rfl
  (by decide +kernel)

/-- C79: blending streams of the same frame type with `Plus` or `Amplify` does not depend on the order. -/
theorem C79_comm (a b : Src k c) (hk : k.builtin = true) (ha : a.safe = true) (hb : b.safe = true) :
    (∀ i, (Src.blend a b .plus).nth i = (Src.blend b a .plus).nth i ∧
      (Src.blend a b .amplify).nth i = (Src.blend b a .amplify).nth i) ∧
    (∀ op, (Src.blend a b op).len = (Src.blend b a op).len) := by
  constructor
  · intro i
    obtain ⟨x, hx⟩ := a.safe_nth ha i
    obtain ⟨y, hy⟩ := b.safe_nth hb i
    cases x with
    | none => cases y <;> simp only [Src.nth, hx, hy, bind, Except.bind, pure, Except.pure, and_self]
    | some x =>
      cases y with
      | none => simp only [Src.nth, hx, hy, bind, Except.bind, pure, Except.pure, and_self]
      | some y =>
        obtain ⟨_, _, _, p1, m1⟩ := C79_ops a b i x y y hx hy (C21_id hk y)
        obtain ⟨_, _, _, p2, m2⟩ := C79_ops b a i y x x hy hx (C21_id hk x)
        rw [p1, p2, m1, m2, C18_frame_add, C18_frame_mul]; exact ⟨rfl, rfl⟩
  · intro op
    simp only [Src.len]
    cases a.len <;> cases b.len <;> simp <;> omega

example := C79_comm (.audio (exAudio 8)) (.drain (exAudio 12)) rfl rfl rfl

example : (Src.take (.blend (.audio (exAudio 8)) (.frame #v[1#8] : Src .mono .ch8) .plus) 2).nth 1 = .ok (some #v[3#8]) ∧
    (Src.take (.blend (.audio (exAudio 8)) (.frame #v[1#8] : Src .mono .ch8) .plus) 2).len = some 2 := by decide +kernel
example : (Src.audio (exAudio 8)).safe = true ∧ (Src.audio (exAudio 8)).nth 1 = .ok (some #v[2#8]) := by decide +kernel

end Fon
