import Verif.Spec.Drains
import Verif.Props.Sink
import Verif.Props.Release

/-!
# Drains inside taken and blended streams
-/

namespace Fon
variable {k k' : Kind} {c c' : ChTy}
open Fl Sink

/-- Two frames. -/
def exShort : Audio .stereo .ch8 := ⟨lit 8, [#v[10#8, 20#8], #v[30#8, 40#8]]⟩
/-- Two drained buffers, blended. -/
def exDrains (op : Blend) : Src .mono .ch8 := .blend (.drain (exAudio 8)) (.drain exShort) op

theorem dropped_iterAt (s : Src k c) (n : Nat) : (s.iterAt n).dropped = s.drains.map (behead n) := by
  induction s with
  | take s m ih => exact ih
  | blend a b op iha ihb => simp only [Src.iterAt, It.dropped, Src.drains, List.map_append, iha, ihb]
  | _ => rfl

theorem map_behead_zero (l : List ((k : Kind) × (c : ChTy) × Audio k c)) : l.map (behead 0) = l := by
  have : behead 0 = id := by
    funext x; obtain ⟨k, c, r, fs⟩ := x; simp [behead]
  rw [this, List.map_id]

theorem dropped_iter (s : Src k c) : s.iter.dropped = s.drains := by
  rw [← Src.iterAt_zero, dropped_iterAt, map_behead_zero]

theorem exhausted_dropped (s : Src k c) (n : Nat) (it : It k c) (h : (s.iterAt n).next = .ok (none, it)) :
    it.dropped = s.exhausted n := by
  induction s generalizing n with
  | frame f => cases h
  | audio a =>
    simp only [Src.iterAt] at h
    cases hd : a.frames.drop n with
    | nil => rw [hd] at h; cases h; rfl
    | cons f fs => rw [hd] at h; cases h
  | drain a =>
    simp only [Src.iterAt, It.next] at h
    split at h <;> cases h
    rfl
  | user r fx l g =>
    simp only [Src.iterAt, It.next] at h
    cases l with
    | none => cases h
    | some m =>
      simp only at h
      split at h <;> cases h
      rfl
  | take s m ih =>
    simp only [Src.iterAt, It.next, Src.exhausted] at h ⊢
    by_cases hm : n < m
    · obtain ⟨j, hj⟩ : ∃ j, m - n = j + 1 := ⟨m - n - 1, by omega⟩
      rw [hj] at h
      simp only at h
      rw [if_pos hm]
      cases hn : (s.iterAt n).next with
      | error e => rw [hn] at h; cases h
      | ok p =>
        obtain ⟨o, i⟩ := p
        rw [hn] at h
        cases h
        exact ih n i hn
    · rw [show m - n = 0 by omega] at h
      cases h
      rw [if_neg hm]
      exact dropped_iterAt s n
  | blend a b op iha ihb =>
    have hl : ∀ o, a.nth n = .ok o → (o = none ↔ ∃ l, a.len = some l ∧ l ≤ n) := fun o ho => a.nth_len n o ho
    simp only [Src.iterAt, It.next] at h
    cases hx : a.nth n with
    | error e => rw [a.next_err n e hx] at h; cases h
    | ok x =>
      cases x with
      | none =>
        obtain ⟨l, h1, h2⟩ := (hl _ hx).mp rfl
        obtain ⟨i, hi⟩ := a.next_none n hx
        rw [hi] at h
        cases h
        simp [It.dropped, Src.exhausted, h1, h2, iha n i hi, dropped_iterAt]
      | some x =>
        rw [a.next_some n x hx] at h
        simp only at h
        have hlen : a.len.any (· ≤ n) = false := by
          cases hal : a.len with
          | none => rfl
          | some l =>
            by_contra hle
            cases (hl _ hx).mpr ⟨l, hal, by simpa using hle⟩
        cases hy : (b.iterAt n).next with
        | error e => rw [hy] at h; cases h
        | ok p =>
          obtain ⟨o, i⟩ := p
          rw [hy] at h
          cases o with
          | none =>
            cases h
            simp [It.dropped, Src.exhausted, hlen, ihb n i hy, dropped_iterAt]
          | some y =>
            simp only at h
            split at h
            · cases h
            · split at h <;> cases h

/-- Adding a number that is not negative does not make the whole part smaller. -/
theorem toUsize_add {f : Fmt} {x off : Fl f} {o : ℚ} (ho : off.Is o) (h : 0 ≤ o) : x.toUsize ≤ (x.add off).toUsize := by
  obtain ⟨b, hb, rfl⟩ := ho
  cases x with
  | nan => exact le_refl _
  | inf s => exact le_refl _
  | fin p a ha =>
    have hp : (Fl.fin p a ha : Fl f).Is p := ⟨_, _, rfl⟩
    by_cases hneg : p < 0
    · have : (Fl.fin p a ha : Fl f).toUsize = 0 := by
        unfold Fl.toUsize Fl.toIntSat
        simp only
        have : truncQ p ≤ 0 := by
          unfold truncQ
          split
          · rename_i h0; exact absurd h0 (by linarith)
          · exact Int.ceil_le.mpr (by simpa using hneg.le)
        rw [usizeMax_eq]
        omega
      omega
    · have hp0 : 0 ≤ p := not_lt.mp hneg
      have hle : p ≤ f.rnd (p + o) := by
        have := Fmt.rnd_mono (f := f) (show p ≤ p + o by linarith)
        rwa [Fmt.rnd_of_rep ha.1] at this
      have hm : ((Fl.fin p a ha : Fl f).toUsize : ℚ) ≤ p := by
        have h0 : 0 ≤ ⌊p⌋ := Int.floor_nonneg.mpr hp0
        have h1 : ((Fl.fin p a ha : Fl f).toUsize : ℤ) ≤ ⌊p⌋ := by
          unfold Fl.toUsize Fl.toIntSat
          simp only
          rw [truncQ_nonneg hp0, usizeMax_eq]
          omega
        calc (((Fl.fin p a ha : Fl f).toUsize : ℕ) : ℚ) = (((Fl.fin p a ha : Fl f).toUsize : ℤ) : ℚ) := by norm_cast
          _ ≤ (⌊p⌋ : ℚ) := by exact_mod_cast h1
          _ ≤ p := Int.floor_le p
      have hmax : (Fl.fin p a ha : Fl f).toUsize < 2 ^ 64 := by
        have := toUsize_le' (Fl.fin p a ha : Fl f)
        rw [usizeMax_eq] at this
        omega
      by_cases hf : |f.rnd (p + o)| ≤ f.maxF
      · exact le_toUsize (hp.add ⟨_, _, rfl⟩ hf) (hm.trans hle) hmax
      · have : (Fl.fin p a ha : Fl f).add (Fl.fin o b hb) = .inf false := by
          simp only [Fl.add, Fl.ofQ, dif_neg hf]
          rw [decide_eq_false (by linarith)]
        rw [this]
        have e : (Fl.inf false : Fl f).toUsize = 18446744073709551615 := by
          unfold Fl.toUsize Fl.toIntSat
          rw [usizeMax_eq]; rfl
        omega

theorem ratio_drains {s : Sink k c} {st st' : Src k' c'} {q : F64} (h : s.ratio st = .ok (q, st')) :
    st'.drains = st.drains := by
  rw [← dropped_iter, ← dropped_iter, (ratio_same h).2.2]

/-- The position of the frame after the last is past the destination range. -/
theorem past_end {q off : F64} {o : ℚ} (ho : off.Is o) (h : 0 ≤ o) (l B : Nat) :
    ¬ InDst q (some l) B (posOf q off l).toUsize := by
  rw [inDst_iff]
  have : (q.mul (f64OfUsize l)).toUsize ≤ (posOf q off l).toUsize := toUsize_add ho h
  unfold dstEnd
  simp only
  omega

theorem exhausted_nil (s : Src k c) (n : Nat) (h : s.drains = []) : s.exhausted n = [] := by
  induction s with
  | take s m ih => simp only [Src.exhausted]; rw [ih h]; simp only [Src.drains] at h; simp [h]
  | blend a b op iha ihb =>
    simp only [Src.drains, List.append_eq_nil_iff] at h
    simp only [Src.exhausted, iha h.1, ihb h.2, h.1, h.2]; simp
  | drain a => cases h
  | _ => rfl

theorem setRate_drains (s s' : Src k c) (r : F64) (h : s.setRate r = .ok s') : s.drains = [] := by
  induction s with
  | frame f => rfl
  | audio a => rfl
  | drain a => cases h
  | user => rfl
  | take s m ih =>
    simp only [Src.setRate] at h
    cases hs : s.setRate r with
    | error e => rw [hs] at h; cases h
    | ok t => exact ih t hs
  | blend a b op iha ihb =>
    simp only [Src.setRate] at h
    cases hs : a.setRate r with
    | error e => rw [hs] at h; cases h
    | ok t =>
      rw [hs] at h
      cases hb : b.setRate r with
      | error e => rw [hb] at h; cases h
      | ok u => simp only [Src.drains, iha t hs, ihb u hb]; rfl

theorem ratio_exhausted {s : Sink k c} {st st' : Src k' c'} {q : F64} (h : s.ratio st = .ok (q, st')) (n : Nat) :
    st'.exhausted n = st.exhausted n := by
  have hd := ratio_drains h
  unfold ratio at h
  split at h
  · cases h; rfl
  · cases hs : st.setRate s.rate with
    | error e => rw [hs] at h; cases h
    | ok t =>
      have := setRate_drains _ _ _ hs
      rw [exhausted_nil st' n (by rw [hd, this]), exhausted_nil st n this]

/-- C118, any resampler: the same, unless the frame after the last would still have a position in the destination range.
Then the stream is asked for it, and buffers inside the first part of a blend may lose one frame more. -/
theorem C118_any (fuel : Nat) (s s' : Sink k c) (st : Src k' c') (it : It k' c') (h : s.stream fuel st = .ok (s', it)) :
    ∃ n, Takes (ratioOf s.rate st.rate) s.res.offseti st.len s.buf.length n ∧
      it.dropped = if InDst (ratioOf s.rate st.rate) st.len s.buf.length
          (posOf (ratioOf s.rate st.rate) s.res.offseti n).toUsize
        then st.exhausted n else st.drains.map (behead n) := by
  obtain ⟨q, st', n, g, b1, b2, b3, b4, b5, b6, b7⟩ := stream_run fuel s s' st it h
  cases ratio_eq b1
  have ht : ∀ l, st.len = some l → n ≤ l := by
    intro l hl
    by_contra hlt
    obtain ⟨f, hf, _⟩ := (b3 l (by omega)).2
    cases (st.nth_len l _ hf).mpr ⟨l, hl, le_refl _⟩
  have hi : ∀ j, j < n → InDst (ratioOf s.rate st.rate) st.len s.buf.length
      (posOf (ratioOf s.rate st.rate) s.res.offseti j).toUsize := fun j hj => inDst_iff.mpr (b3 j hj).1
  rcases b7 with ⟨c1, c2⟩ | ⟨c1, c2, c3⟩
  · have c1' : ¬ InDst (ratioOf s.rate st.rate) st.len s.buf.length
        (posOf (ratioOf s.rate st.rate) s.res.offseti n).toUsize := fun hh => c1 (inDst_iff.mp hh)
    refine ⟨n, ⟨hi, ht, .inr c1'⟩, ?_⟩
    rw [if_neg c1', c2, dropped_iterAt, ratio_drains b1]
  · refine ⟨n, ⟨hi, ht, .inl c2⟩, ?_⟩
    have c1' : InDst (ratioOf s.rate st.rate) st.len s.buf.length
        (posOf (ratioOf s.rate st.rate) s.res.offseti n).toUsize := inDst_iff.mpr c1
    rw [if_pos c1', exhausted_dropped st' n it c3, ratio_exhausted b1]

/-- C118: streaming removes exactly the frames that were taken from the front of every buffer drained anywhere inside
the stream, whatever it was taken from or blended with; all else stays.  For every resampler with an offset that is not
negative. -/
theorem C118_partial (fuel : Nat) (s s' : Sink k c) (st : Src k' c') (it : It k' c') (o : ℚ) (ho : s.res.offseti.Is o)
    (h0 : 0 ≤ o) (h : s.stream fuel st = .ok (s', it)) :
    ∃ n, Takes (ratioOf s.rate st.rate) s.res.offseti st.len s.buf.length n ∧
      it.dropped = st.drains.map (behead n) := by
  obtain ⟨n, h1, h2⟩ := C118_any fuel s s' st it h
  refine ⟨n, h1, ?_⟩
  rw [h2, if_neg]
  intro hh
  rcases h1.2.2 with h3 | h3
  · rw [h3] at hh
    exact past_end ho h0 n _ hh
  · exact h3 hh

example := C118_any 7 (exLater (-1)) _ (exDrains .plus) _
  (R.returns₂ (x := (exLater (-1)).stream 7 (exDrains .plus)) (by decide +kernel))
example := C118_partial 7 (exLater 2) _ (exDrains .plus) _ 2 (is_lit (rep_nat53 (by norm_num : 2 ≤ 2 ^ 53))) (by norm_num)
  (R.returns₂ (x := (exLater 2).stream 7 (exDrains .plus)) (by decide +kernel))

/-- C118 does not hold for resamplers with a negative offset: the first buffer loses three frames, though only two
were taken. -/
theorem C118_false : ¬ ∀ (fuel : Nat) (s s' : Sink .mono .ch8) (st : Src .mono .ch8) (it : It .mono .ch8),
    s.stream fuel st = .ok (s', it) → ∃ n, Takes (ratioOf s.rate st.rate) s.res.offseti st.len s.buf.length n ∧ it.dropped = st.drains.map (behead n) := by
  intro hall
  obtain ⟨n, h1, h2⟩ := hall 7 (exLater (-1)) _ (exDrains .plus) _
    (R.returns₂ (x := (exLater (-1)).stream 7 (exDrains .plus)) (by decide +kernel))
  have h3 := congrArg (List.map fun x => x.2.2.frames.length) h2
  have h4 : List.map (fun x => x.2.2.frames.length) (((exLater (-1)).stream 7 (exDrains .plus)).out (by decide +kernel)).2.dropped
      = [2, 0] := by decide +kernel
  have h5 := h1.2.1 2 rfl
  rw [h4] at h3
  simp only [exDrains, Src.drains, behead, List.map_cons, List.map_nil, List.length_drop,
    List.cons_append, List.nil_append, exAudio, exShort, List.length_cons, List.length_nil, List.cons.injEq] at h3
  omega

theorem run_dropped (m i : Nat) (st : Src k c) (fs : List (Frame k c)) (it : It k c)
    (h : (st.iterAt i).run m = .ok (fs, it)) :
    it.dropped = if fs.length < m then st.exhausted (i + fs.length) else st.drains.map (behead (i + fs.length)) := by
  induction m generalizing i fs with
  | zero => cases h; exact dropped_iterAt st i
  | succ m ih =>
    unfold It.run at h
    cases hn : st.nth i with
    | error e => rw [st.next_err i e hn] at h; cases h
    | ok o =>
      cases o with
      | none =>
        obtain ⟨it', hi⟩ := st.next_none i hn
        rw [hi] at h
        cases h
        rw [if_pos (by simp)]
        exact exhausted_dropped st i it hi
      | some f =>
        rw [st.next_some i f hn] at h
        cases hr : (st.iterAt (i + 1)).run m with
        | error e => simp only [bind, Except.bind, hr] at h; cases h
        | ok p =>
          obtain ⟨gs, it'⟩ := p
          simp only [bind, Except.bind, hr] at h
          cases h
          rw [ih (i + 1) gs hr]
          simp only [List.length_cons, Nat.add_lt_add_iff_right]
          rw [show i + 1 + gs.length = i + (gs.length + 1) by omega]

/-- C118, iteration without a sink: after `m` calls of `next` the buffers lack the frames that were yielded, unless
`None` was among the results. -/
theorem C118_iter (m : Nat) (st : Src k c) (fs : List (Frame k c)) (it : It k c) (h : st.iter.run m = .ok (fs, it)) :
    it.dropped = if fs.length < m then st.exhausted fs.length else st.drains.map (behead fs.length) := by
  rw [← Src.iterAt_zero] at h
  have := run_dropped m 0 st fs it h
  rwa [Nat.zero_add] at this

example := C118_iter 2 (exDrains .plus) _ _ (R.returns₂ (x := (exDrains .plus).iter.run 2) (by decide +kernel))
example := C118_iter 9 (exDrains .plus) _ _ (R.returns₂ (x := (exDrains .plus).iter.run 9) (by decide +kernel))

/-- C118: two drained buffers, the longer one blended with the shorter: after `None` the longer one has lost one frame
that was not yielded. -/
theorem C118_actual (m : Nat) (a : Audio k c) (b : Audio k' c') (op : Blend) (fs : List (Frame k c)) (it : It k c)
    (h : (Src.blend (.drain a) (.drain b) op).iter.run m = .ok (fs, it)) (hm : fs.length < m)
    (hl : b.frames.length < a.frames.length) :
    fs.length = b.frames.length ∧
      it.dropped = [⟨k, c, ⟨a.rate, a.frames.drop (b.frames.length + 1)⟩⟩, ⟨k', c', ⟨b.rate, []⟩⟩] := by
  have hlen : fs.length = b.frames.length := by
    have := (C30_exact _ m fs it h).1 (min a.frames.length b.frames.length) rfl
    omega
  refine ⟨hlen, ?_⟩
  rw [C118_iter m _ fs it h, if_pos hm, hlen]
  have : ¬ a.frames.length ≤ b.frames.length := by omega
  simp [Src.exhausted, Src.len, this, Src.drains, behead]

example := C118_actual 9 (exAudio 8) exShort .plus _ _
  (R.returns₂ (x := (Src.blend (.drain (exAudio 8)) (.drain exShort) .plus).iter.run 9) (by decide +kernel))
  (by decide +kernel) (by decide +kernel)

end Fon
