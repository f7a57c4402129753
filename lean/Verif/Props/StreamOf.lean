import Verif.Model.StreamOf
import Verif.Props.Mix

/-!
# C77: streams that report a wrong length
-/

namespace Fon
open Fmt Fl Sink
variable {k k' : Kind} {c c' : ChTy}

/-- `Sink::stream` is `streamOf` for the length and the iterator of the stream. -/
theorem C77_stream (fuel : Nat) (s : Sink k c) (st : Src k' c') :
    s.stream fuel st = (s.ratio st).bind (fun r => s.streamOf fuel r.1 r.2.len r.2.iter) := by
  unfold Sink.stream Sink.streamOf
  cases s.ratio st <;> rfl

/-- C77 holds if a length is reported: whatever the length is, a stream that ends is streamed without panic. -/
theorem C77_partial (s : Sink k c) (q : F64) (l n : Nat) (st : Src k' c') (hn : st.len = some n)
    (hk : k.builtin = true) (hk' : k'.builtin = true) (hs : st.safe = true) :
    ∃ r, s.streamOf (n + 1) q (some l) st.iter = .ok r := by
  obtain ⟨o, ho⟩ := st.safe_nth hs n
  have hend : st.nth n = .ok none := by rw [ho, (st.nth_len n o ho).mpr ⟨n, hn, le_refl _⟩]
  have hb : dstEnd q (some l) s.buf.length ≤ (s.prepare (dstEnd q (some l) s.buf.length)).buf.length := by
    rw [prepare_length]; exact dstEnd_le _ _ _
  obtain ⟨r, hr⟩ := loop_ok q (dstEnd q (some l) s.buf.length) (some l) st (n + 1) 0 n
    (s.prepare (dstEnd q (some l) s.buf.length)) hb (by omega) (by omega)
    (fun j _ _ _ => st.safe_nth hs j) (fun j f _ _ _ _ => C25_builtin hk' hk f) (.inr hend)
  rw [Src.iterAt_zero] at hr
  obtain ⟨m, g, _, _, _, _, _, h6⟩ := loop_run _ _ _ st _ _ _ hb r (by rw [Src.iterAt_zero]; exact hr)
  unfold Sink.streamOf
  simp only [hr]
  rcases h6 with ⟨_, _, e⟩ | ⟨_, _, _, e⟩ <;> rw [e] <;> exact ⟨_, rfl⟩

example := C77_partial (exSink 4 8) (lit 1.5) 9 5 (.audio (exAudio 8)) rfl rfl rfl rfl

/-- C77 is false without a length: if the stream ends before the buffer is full, `stream` panics, with the frames
already written. -/
theorem C77_panics (s : Sink k c) (q : F64) (n : Nat) (st : Src k' c') (hn : st.len = some n)
    (hk : k.builtin = true) (hk' : k'.builtin = true) (hs : st.safe = true)
    (hin : ∀ j, j ≤ n → (posOf q s.res.offseti j).toUsize < s.buf.length) :
    s.streamOf (n + 1) q none st.iter = .error .unwrapNone := by
  obtain ⟨o, ho⟩ := st.safe_nth hs n
  have hend : st.nth n = .ok none := by rw [ho, (st.nth_len n o ho).mpr ⟨n, hn, le_refl _⟩]
  have hb : dstEnd q none s.buf.length ≤ (s.prepare (dstEnd q none s.buf.length)).buf.length := by
    rw [prepare_length]; exact dstEnd_le _ _ _
  obtain ⟨r, hr⟩ := loop_ok q (dstEnd q none s.buf.length) none st (n + 1) 0 n
    (s.prepare (dstEnd q none s.buf.length)) hb (by omega) (by omega)
    (fun j _ _ _ => st.safe_nth hs j) (fun j f _ _ _ _ => C25_builtin hk' hk f) (.inr hend)
  rw [Src.iterAt_zero] at hr
  obtain ⟨m, g, h1, _, _, _, _, h6⟩ := loop_run _ _ _ st _ _ _ hb r (by rw [Src.iterAt_zero]; exact hr)
  unfold Sink.streamOf
  simp only [hr]
  rcases h6 with ⟨e, _, _⟩ | ⟨_, _, _, e⟩
  · exact absurd (hin m (by omega)) (by simpa [Sink.pos, posOf, dstEnd, Sink.prepare] using e)
  · rw [e]

example := C77_panics (exSink 9 8) (lit 1.5) 5 (.audio (exAudio 8)) rfl rfl rfl rfl (by decide +kernel)

/-- C77 is false, by example: two frames, no length reported. -/
theorem C77_false : (exSink 3 8).streamOf 9 (lit 1) none (Src.audio (k := .mono) (c := .ch8) ⟨lit 8, [#v[1#8], #v[2#8]]⟩).iter =
    .error .unwrapNone := by
  have := C77_panics (exSink 3 8) (lit 1) 2 (Src.audio (k := .mono) (c := .ch8) ⟨lit 8, [#v[1#8], #v[2#8]]⟩) rfl rfl rfl rfl
    (by decide +kernel)
  have e : ∀ (x : R (Sink .mono .ch8 × It .mono .ch8)), x.map (fun _ => ()) = .error .unwrapNone → x = .error .unwrapNone := by
    intro x h; cases x with
    | error e => cases h; rfl
    | ok y => cases h
  exact e _ (by decide +kernel)

/-- What happens if the length reported is too large, at ratio 1: the slots for the missing frames are cleared, and the
resampler counts them as played. -/
theorem C77_short (fuel : Nat) (s s' : Sink k c) (q : F64) (l n : Nat) (st : Src k' c') (it : It k' c') (hn : st.len = some n)
    (hl : n ≤ l) (hq : q.Is 1) (ho : s.res = Resampler.dflt) (hb : s.buf.length ≤ 2 ^ 53) (hlb : l ≤ s.buf.length)
    (h : s.streamOf fuel q (some l) st.iter = .ok (s', it)) :
    s'.res.offseti.Is (l:ℚ) ∧
    (∀ x, x < n → ∃ src f y, st.nth x = .ok (some src) ∧ src.convert c = .ok f ∧ s'.buf[x]? = some y ∧ FrameArrives f y) ∧
    (∀ x, n ≤ x → x < l → s'.buf[x]? = some Frame.dflt) := by
  have hd : dstEnd q (some l) s.buf.length = l := by rw [dstEnd_one hq _ _ hb]; simp only; omega
  have hz : s.res.offseti.Is ((0:Nat):ℚ) := by rw [ho]; exact_mod_cast is_zero
  unfold Sink.streamOf at h
  rw [hd] at h
  simp only [← Src.iterAt_zero] at h
  cases hr : loop q l (some l) fuel 0 (s.prepare l) (st.iterAt 0) with
  | error e => rw [hr] at h; cases h
  | ok r =>
    obtain ⟨m, g, h1, h2, h3, h4, h5, h6⟩ := loop_run _ _ _ st _ _ _ (by rw [prepare_length]; exact hlb) r hr
    have hres : (s.prepare l).res = s.res := rfl
    simp only [Nat.zero_add, hres] at h2 h3 h4 h5 h6
    have hpos : ∀ j, j ≤ 2 ^ 53 → (pos q s.res.offseti j).toUsize = j := fun j hj => by
      have := pos_one (i := j) hq hz hj (by omega)
      exact toUsize_nat (by simpa using this) (by omega)
    have hml : m ≤ n := by
      by_contra hc
      push Not at hc
      obtain ⟨f, hf, _⟩ := (h2 n (by omega) hc).2
      have := (st.nth_len n _ hf).mpr ⟨n, hn, le_refl _⟩
      cases this
    have hmn : m = n ∧ r.2.2 = some l := by
      rcases h6 with ⟨e1, _, e3⟩ | ⟨_, e2, _, e4⟩
      · rw [hpos m (by omega)] at e1
        refine ⟨by omega, ?_⟩
        rw [e3]; congr 1; omega
      · obtain ⟨n', hn', hle⟩ := (st.nth_len m none e2).mp rfl
        rw [hn] at hn'; cases hn'
        exact ⟨by omega, e4⟩
    obtain ⟨rfl, hrl⟩ := hmn
    rw [hr] at h
    obtain ⟨t, it', sl⟩ := r
    simp only at hrl h3 h5
    subst hrl
    cases h
    obtain ⟨b1, b2⟩ := placeN_one g hq hz (d := l) (by omega) 0 m ((s.prepare l).buf, s.res.partial_) (by omega)
    have h3' : t.buf = (placeN q s.res.offseti l g 0 m ((s.prepare l).buf, s.res.partial_)).1 := congrArg Prod.fst h3
    rw [← h3'] at b2
    simp only [Nat.zero_add, Nat.add_zero, Nat.zero_le, true_and, Nat.sub_zero] at b2
    refine ⟨?_, ?_, ?_⟩
    · simp only [h5]
      have := pos_one (i := l) hq hz (by omega) (by omega)
      unfold Sink.pos at this
      rw [Fl.add_comm']; simpa using this
    · intro x hx
      obtain ⟨f, e1, e2⟩ := (h2 x (by omega) hx).2
      refine ⟨f, g x, _, e1, e2, ?_, put_arrives (q := q) (off := s.res.offseti) (i := x) _
        (wFloor_one hq hz (by omega) (by omega)) (wCeil_one hq hz (by omega) (by omega))⟩
      simp only [b2]
      rw [if_pos hx, prepare_in _ _ _ (by omega) hlb]; rfl
    · intro x h1 h2
      simp only [b2]
      rw [if_neg (by omega), prepare_in _ _ _ h2 hlb]

example := C77_short 9 (exSink 8 8) _ (lit 1) 7 5 (.audio (exAudio 8)) _ rfl (by decide) (by decide +kernel) rfl (by decide)
  (by decide) (R.returns₂ (x := (exSink 8 8).streamOf 9 (lit 1) (some 7) (Src.audio (exAudio 8)).iter) (by decide +kernel))

example : ((exSink 4 8).streamOf 9 (lit 1) (some 3) (Src.audio (k := .mono) (c := .ch8) ⟨lit 8, [#v[1#8], #v[2#8]]⟩).iter).map
    (fun r => (r.1.buf, r.1.res.offseti)) = .ok ([#v[1#8], #v[2#8], #v[0#8], #v[9#8]], lit 3) := by decide +kernel

end Fon
