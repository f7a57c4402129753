import Verif.Props.Mean
import Verif.Props.Append
import Verif.Props.Drains

/-!
# C136: the beginning of the result depends on the beginning of the stream only
-/

namespace Fon
open Fon.Fl hiding min max
open Fon.Fmt Fon.Sink
variable {k k' : Kind} {c c' : ChTy}

theorem fl_mul_mono {f : Fmt} {q x y : Fl f} {r : ℚ} (hq : q.Is r) (hr : 0 < r) (h : x.le y = true) :
    (q.mul x).le (q.mul y) = true := by
  obtain ⟨a, ha, rfl⟩ := hq
  have n0 : r ≠ 0 := hr.ne'
  have s0 : (decide (r < 0) || a) = false := by
    have := ha.2
    cases a
    · simp [hr.le]
    · exact absurd (this rfl) n0
  obtain ⟨h1, h2, h3⟩ := le_iff_cases.mp h
  rcases x with _ | s | ⟨p, b, hp⟩
  · exact absurd rfl h1
  · cases s
    · rcases y with _ | t | ⟨p', b', hp'⟩
      · exact absurd rfl h2
      · cases t
        · simp only [Fl.mul, if_neg n0, s0]; rfl
        · simp [Fl.le, Fl.lt, Fl.eq] at h
      · simp [Fl.le, Fl.lt, Fl.eq] at h
    · have e : (Fl.fin r a ha).mul (inf true) = inf true := by simp only [Fl.mul, if_neg n0, s0]; rfl
      rw [e]
      refine neg_inf_le ?_
      rcases y with _ | t | ⟨p', b', hp'⟩
      · exact absurd rfl h2
      · simp only [Fl.mul, if_neg n0]; simp
      · simp only [Fl.mul]; exact ofQ_ne_nan _ _
  · rcases y with _ | t | ⟨p', b', hp'⟩
    · exact absurd rfl h2
    · cases t
      · have e : (Fl.fin r a ha).mul (inf false) = inf false := by simp only [Fl.mul, if_neg n0, s0]; rfl
        rw [e]
        refine le_inf ?_
        simp only [Fl.mul]; exact ofQ_ne_nan _ _
      · simp [Fl.le, Fl.lt, Fl.eq] at h
    · simp only [Fl.mul]
      refine ofQ_mono _ _ (mul_le_mul_of_nonneg_left ?_ hr.le)
      rw [is_fin.le is_fin] at h; simpa using h

theorem fl_add_mono {f : Fmt} {o x y : Fl f} {r : ℚ} (ho : o.Is r) (h : x.le y = true) :
    (x.add o).le (y.add o) = true := by
  obtain ⟨a, ha, rfl⟩ := ho
  obtain ⟨h1, h2, h3⟩ := le_iff_cases.mp h
  rcases x with _ | s | ⟨p, b, hp⟩
  · exact absurd rfl h1
  · rcases y with _ | t | ⟨p', b', hp'⟩
    · exact absurd rfl h2
    · exact h
    · cases s
      · simp [Fl.le, Fl.lt, Fl.eq] at h
      · exact neg_inf_le (by simp only [Fl.add]; exact ofQ_ne_nan _ _)
  · rcases y with _ | t | ⟨p', b', hp'⟩
    · exact absurd rfl h2
    · cases t
      · exact le_inf (by simp only [Fl.add]; exact ofQ_ne_nan _ _)
      · simp [Fl.le, Fl.lt, Fl.eq] at h
    · simp only [Fl.add]
      refine ofQ_mono _ _ (add_le_add_left ?_ _)
      rw [is_fin.le is_fin] at h; simpa using h

theorem toUsize_mono {f : Fmt} {x y : Fl f} (h : x.le y = true) : x.toUsize ≤ y.toUsize := by
  obtain ⟨h1, h2, h3⟩ := le_iff_cases.mp h
  unfold Fl.toUsize
  refine Int.toNat_le_toNat ?_
  rcases h3 with rfl | rfl | ⟨p, q, ⟨a, ha, rfl⟩, ⟨b, hb, rfl⟩, hpq⟩
  · unfold Fl.toIntSat
    rcases y with _ | t | ⟨p', b', hp'⟩
    · exact absurd rfl h2
    · cases t <;> simp [usizeMax_eq]
    · simp
  · unfold Fl.toIntSat
    rcases x with _ | t | ⟨p', b', hp'⟩
    · exact absurd rfl h1
    · cases t <;> simp [usizeMax_eq]
    · simp [usizeMax_eq]
  · unfold Fl.toIntSat
    have := truncQ_mono hpq
    simp only
    omega

/-- The positions of the frames do not decrease. -/
theorem pos_mono {q off : F64} {r o : ℚ} (hq : q.Is r) (hr : 0 < r) (ho : off.Is o) {i j : Nat} (h : i ≤ j) :
    (posOf q off i).toUsize ≤ (posOf q off j).toUsize := by
  refine toUsize_mono (fl_add_mono ho (fl_mul_mono hq hr ?_))
  unfold f64OfUsize Fl.ofInt
  exact ofQ_mono _ _ (by exact_mod_cast h)

theorem slot_le_hi (x : F64) : x.toUsize ≤ hiSlot x := by
  unfold hiSlot; split <;> omega

/-- Frames beyond a slot are not heard in it. -/
theorem mixed_beyond {q off : F64} (g : Nat → Frame k c) {x n m : Nat} (hm : n ≤ m)
    (h : ∀ j, n ≤ j → j < m → x < (posOf q off j).toUsize) (b : Frame k c) : mixed q off g x m b = mixed q off g x n b := by
  induction m with
  | zero => rw [Nat.le_zero.mp hm]
  | succ m ih =>
    rcases Nat.lt_or_ge m n with h1 | h1
    · rw [show n = m + 1 by omega]
    · have h2 := h m h1 (by omega)
      have h3 := slot_le_hi (posOf q off m)
      rw [mixed, if_neg (by omega), if_neg (by omega)]
      exact ih h1 fun j h4 h5 => h j h4 (by omega)

theorem mixed_same {q off : F64} {g g' : Nat → Frame k c} {x n : Nat} (h : ∀ j, j < n → g j = g' j) (b : Frame k c) :
    mixed q off g x n b = mixed q off g' x n b := by
  induction n with
  | zero => rfl
  | succ n ih =>
    rw [mixed, mixed, ih fun j hj => h j (by omega), h n (by omega)]

theorem inDst_down {q : F64} {len : Option Nat} {b x y : Nat} (h : InDst q len b x) (hy : y ≤ x) : InDst q len b y :=
  ⟨lt_of_le_of_lt hy h.1, fun l hl => lt_of_le_of_lt hy (h.2 l hl)⟩

/-- If frame `n` is not taken although the streams agree there with one where it is, then it lies beyond all slots. -/
theorem takes_beyond {q off : F64} {b n x m : Nat} {st st2 : Src k' c'} {o : Option (Frame k' c')}
    (ht : Takes q off st.len b n) (hx : InDst q st.len b x) (hnm : n < m) (h : ∀ j, j < m → st2.nth j = st.nth j)
    (hs : st2.nth n = .ok o) (ho : o ≠ none) : x < (posOf q off n).toUsize := by
  rcases ht.2.2 with h1 | h1
  · exact absurd ((st.nth_len n o ((h n hnm).symm.trans hs)).mpr ⟨n, h1, le_refl _⟩) ho
  · by_contra h2
    exact h1 (inDst_down hx (not_lt.mp h2))

/-- C136: two streams of one rate that agree in their first `m` frames, of whatever length, give the same slots before the
position of frame `m`. -/
theorem C136_prefix {fuel fuel' : Nat} {s s' t t' : Sink k c} {st st2 : Src k' c'} {it it2 : It k' c'} {r o : ℚ}
    (h : s.stream fuel st = .ok (s', it)) (h2 : t.stream fuel' st2 = .ok (t', it2)) (hr2 : st2.rate = st.rate)
    (hrate : t.rate = s.rate) (hoff : t.res.offseti = s.res.offseti) (ho : s.res.offseti.Is o)
    (hq : (ratioOf s.rate st.rate).Is r) (hr : 0 < r) {m : Nat} (hm : ∀ j, j < m → st2.nth j = st.nth j) {x : Nat}
    (hx : x < (posOf (ratioOf s.rate st.rate) s.res.offseti m).toUsize)
    (h1 : InDst (ratioOf s.rate st.rate) st.len s.buf.length x)
    (h1' : InDst (ratioOf s.rate st.rate) st2.len t.buf.length x) : t'.buf[x]? = s'.buf[x]? := by
  obtain ⟨n, g, a1, a2, a3, _⟩ := C58_mix fuel s s' st it h
  obtain ⟨n', g', b1, b2, b3, _⟩ := C58_mix fuel' t t' st2 it2 h2
  rw [hr2, hrate, hoff] at b1 b3
  rw [a3 x h1, b3 x h1']
  congr 1
  obtain ⟨N, hN⟩ : ∃ N, min m (min n n') = N := ⟨_, rfl⟩
  have far : ∀ j i, i ≤ j → x < (posOf (ratioOf s.rate st.rate) s.res.offseti i).toUsize →
      x < (posOf (ratioOf s.rate st.rate) s.res.offseti j).toUsize := fun j i hij hi =>
    lt_of_lt_of_le hi (pos_mono hq hr ho hij)
  have e1 : mixed (ratioOf s.rate st.rate) s.res.offseti g x n Frame.dflt =
      mixed (ratioOf s.rate st.rate) s.res.offseti g x N Frame.dflt := by
    refine mixed_beyond g (by omega) (fun j hj hj' => ?_) _
    rcases Nat.lt_or_ge N m with h3 | h3
    · rcases Nat.lt_or_ge N n with h4 | h4
      · have h5 : N = n' := by omega
        obtain ⟨f, hf, _⟩ := a2 N h4
        exact far j N hj (h5 ▸ takes_beyond b1 h1' (h5 ▸ h3) (fun j hj => (hm j hj).symm) (o := some f) (h5 ▸ hf) (by simp))
      · omega
    · exact far j m (by omega) hx
  have e2 : mixed (ratioOf s.rate st.rate) s.res.offseti g' x n' Frame.dflt =
      mixed (ratioOf s.rate st.rate) s.res.offseti g' x N Frame.dflt := by
    refine mixed_beyond g' (by omega) (fun j hj hj' => ?_) _
    rcases Nat.lt_or_ge N m with h3 | h3
    · rcases Nat.lt_or_ge N n' with h4 | h4
      · have h5 : N = n := by omega
        obtain ⟨f, hf, _⟩ := b2 N h4
        exact far j N hj (h5 ▸ takes_beyond a1 h1 (h5 ▸ h3) hm (o := some f) (h5 ▸ hf) (by simp))
      · omega
    · exact far j m (by omega) hx
  rw [e1, e2]
  refine mixed_same (fun j hj => ?_) _
  obtain ⟨f, hf, hc⟩ := a2 j (by omega)
  obtain ⟨f', hf', hc'⟩ := b2 j (by omega)
  rw [hm j (by omega), hf] at hf'
  cases hf'
  rw [hc] at hc'
  exact (Except.ok.inj hc').symm

example := C136_prefix (s := exSink 7 8) (t := exSink 9 8) (m := 3) (x := 2)
  (R.returns₂ (x := (exSink 7 8).stream 6 (.audio (exAudio 8))) (by decide +kernel))
  (R.returns₂ (x := (exSink 9 8).stream 6 (.audio exOther)) (by decide +kernel))
  rfl rfl rfl (is_lit rep_zero) (r := 1) (by decide +kernel) (by norm_num)
  (by decide +kernel) (by decide +kernel) (by decide +kernel) (by decide +kernel)

/-- Slots before the position of frame `n`, where the stream ends or the buffer does. -/
theorem before_next {q off : F64} {len : Option Nat} {b n m x : Nat} {r o : ℚ} (hq : q.Is r) (hr : 0 < r) (ho : off.Is o)
    (ht : Takes q off len b n) (hx : InDst q len b x) (h : x < (posOf q off m).toUsize) (hm : ∀ l, len = some l → m ≤ l) :
    x < (posOf q off n).toUsize := by
  rcases ht.2.2 with h1 | h1
  · exact lt_of_lt_of_le h (pos_mono hq hr ho (hm n h1))
  · by_contra h2
    exact h1 (inDst_down hx (not_lt.mp h2))

/-- What `with_stream` has in a slot that is not the one of `flush`. -/
theorem with_run {rate : F64} {b : Audio k c} {st : Src k' c'} (h : Audio.withStream rate st = .ok b) :
    ∃ l s t it, st.len = some l ∧
      (⟨rate, Resampler.dflt, List.replicate (Audio.dstLen rate l st.rate) Frame.dflt⟩ : Sink k c).stream
        (l + 1) st = .ok (s, it) ∧ s.flush = .ok t ∧ b.frames = t.buf := by
  unfold Audio.withStream at h
  cases he : (Audio.withFrames rate [] : Audio k c).extend st with
  | mk y e =>
    cases e with
    | error e => rw [he] at h; cases h
    | ok it =>
      rw [he] at h
      cases h
      obtain ⟨l, s, t, h1, _, h3, h4, h5⟩ := extend_run _ b st it (extend_int he)
      exact ⟨l, s, t, it, h1, h3, h4, by rw [h5]; rfl⟩

theorem flush_other {s t : Sink k c} (h : s.flush = .ok t) {x : Nat} (hx : x < s.res.offseti.toUsize) :
    t.buf[x]? = s.buf[x]? := by
  by_cases hf : HasFract s.res.offseti
  · by_cases hi : s.res.offseti.toUsize < s.buf.length
    · rw [C42_write s hf hi] at h; cases h
      exact List.getElem?_set_ne (by omega)
    · exfalso
      obtain ⟨e, he⟩ := (C42_panics_iff s).mpr ⟨hf, by omega⟩
      rw [he] at h; cases h
  · rw [C42_nothing s hf] at h; cases h; rfl

theorem dflt_off : (Resampler.dflt : Resampler k c).offseti.Is 0 := is_lit rep_zero

theorem whole_add_zero {f : Fmt} {x z : Fl f} (hz : z.Is 0) :
    (x.add z).toUsize = x.toUsize ∧ (z.add x).toUsize = x.toUsize := by
  obtain ⟨b, hb, rfl⟩ := hz
  cases x with
  | nan => exact ⟨rfl, rfl⟩
  | inf s => exact ⟨rfl, rfl⟩
  | fin p a ha =>
    constructor
    · obtain ⟨a', h', e⟩ := add_zero' (x := Fl.fin p a ha) is_fin (is_fin (h := hb))
      rw [e]; rfl
    · have e : (Fl.fin 0 b hb : Fl f).add (Fl.fin p a ha) = (Fl.fin p a ha : Fl f).add (Fl.fin 0 b hb) := by
        simp only [Fl.add, _root_.add_comm 0 p, Bool.and_comm b a]
      obtain ⟨a', h', e'⟩ := add_zero' (x := Fl.fin p a ha) is_fin (is_fin (h := hb))
      rw [e, e']; rfl

theorem with_slot {rate : F64} {b : Audio k c} {st : Src k' c'} {r : ℚ} (h : Audio.withStream rate st = .ok b)
    (hq : (ratioOf rate st.rate).Is r) (hr : 0 < r) {m x : Nat} (hm : ∀ l, st.len = some l → m ≤ l) (hb : x < b.len)
    (hx : x < (posOf (ratioOf rate st.rate) (Resampler.dflt : Resampler k c).offseti m).toUsize) :
    ∃ l D s it, D = b.len ∧ InDst (ratioOf rate st.rate) st.len D x ∧
      (⟨rate, Resampler.dflt, List.replicate D Frame.dflt⟩ : Sink k c).stream (l + 1) st = .ok (s, it) ∧
      b.get x = s.buf[x]? := by
  obtain ⟨l, s, t, it, h1, h2, h3, h4⟩ := with_run h
  obtain ⟨n, g, a1, _, _, _, a5, _⟩ := C58_mix _ _ _ _ _ h2
  have hl : b.len = Audio.dstLen rate l st.rate := by
    unfold Audio.len
    rw [h4, (flush_keeps s t h3).1, (C36_stream _ _ _ _ _ h2).1, List.length_replicate]
  have hi : InDst (ratioOf rate st.rate) st.len (Audio.dstLen rate l st.rate) x := by
    refine ⟨by omega, fun l' h' => ?_⟩
    have := lt_of_lt_of_le hx (pos_mono hq hr dflt_off (hm l' h'))
    unfold posOf at this
    rwa [(whole_add_zero dflt_off).1] at this
  refine ⟨l, Audio.dstLen rate l st.rate, s, it, hl.symm, hi, h2, ?_⟩
  unfold Audio.get
  rw [h4]
  refine flush_other h3 ?_
  rw [List.length_replicate] at a1
  have := before_next hq hr dflt_off a1 hi hx hm
  unfold posOf at this
  rw [(whole_add_zero dflt_off).1] at this
  rw [a5, (whole_add_zero dflt_off).2]
  exact this

/-- C136: the same for `with_stream`. -/
theorem C136_withStream {rate : F64} {b b2 : Audio k c} {st st2 : Src k' c'} {r : ℚ} (h : Audio.withStream rate st = .ok b)
    (h2 : Audio.withStream rate st2 = .ok b2) (hr2 : st2.rate = st.rate) (hq : (ratioOf rate st.rate).Is r) (hr : 0 < r) {m : Nat}
    (hm : ∀ j, j < m → ∃ f, st.nth j = .ok (some f) ∧ st2.nth j = .ok (some f)) {x : Nat}
    (hx : x < ((ratioOf rate st.rate).mul (f64OfUsize m)).toUsize) (hb : x < b.len) (hb2 : x < b2.len) :
    b2.get x = b.get x := by
  have hx' : x < (posOf (ratioOf rate st.rate) (Resampler.dflt : Resampler k c).offseti m).toUsize :=
    lt_of_lt_of_le hx (toUsize_add dflt_off le_rfl)
  have e1 : ∀ l, st.len = some l → m ≤ l := by
    intro l hl
    by_contra hc
    obtain ⟨f, hf, _⟩ := hm l (by omega)
    cases (st.nth_len l _ hf).mpr ⟨l, hl, le_refl _⟩
  have e2 : ∀ l, st2.len = some l → m ≤ l := by
    intro l hl
    by_contra hc
    obtain ⟨f, _, hf⟩ := hm l (by omega)
    cases (st2.nth_len l _ hf).mpr ⟨l, hl, le_refl _⟩
  obtain ⟨l, D, s, it, a1, a2, a3, a4⟩ := with_slot h hq hr e1 hb hx'
  obtain ⟨l', D', s', it', b1, b2', b3, b4⟩ := with_slot h2 (hr2 ▸ hq) hr e2 hb2 (hr2 ▸ hx')
  rw [a4, b4]
  refine C136_prefix a3 b3 hr2 rfl rfl dflt_off hq hr (m := m) (fun j hj => ?_) hx' ?_ ?_
  · obtain ⟨f, hf, hf'⟩ := hm j hj
    rw [hf, hf']
  · simpa using a2
  · rw [hr2] at b2'
    simpa using b2'

example := C136_withStream (k := .mono) (c := .ch8) (st := .audio (exAudio 8)) (st2 := .audio exOther) (m := 3) (x := 4)
  (R.returns (x := (Audio.withStream (lit 16) (.audio (exAudio 8)) : R (Audio .mono .ch8))) (by decide +kernel))
  (R.returns (x := (Audio.withStream (lit 16) (.audio exOther) : R (Audio .mono .ch8))) (by decide +kernel))
  rfl (r := 2) (by decide +kernel) (by norm_num)
  (fun j hj => by
    rcases (show j = 0 ∨ j = 1 ∨ j = 2 by omega) with rfl | rfl | rfl
    · exact ⟨#v[1#8], by decide +kernel⟩
    · exact ⟨#v[2#8], by decide +kernel⟩
    · exact ⟨#v[3#8], by decide +kernel⟩)
  (by decide +kernel) (by decide +kernel) (by decide +kernel)

/-- C136: the first frames of a stream give the beginning of what all of it gives. -/
theorem C136_take {rate : F64} {b b2 : Audio k c} {st : Src k' c'} {r : ℚ} {m : Nat} (h : Audio.withStream rate st = .ok b)
    (h2 : Audio.withStream rate (st.mkTake m) = .ok b2) (hm : ∀ j, j < m → ∃ f, st.nth j = .ok (some f))
    (hq : (ratioOf rate st.rate).Is r) (hr : 0 < r) {x : Nat}
    (hx : x < ((ratioOf rate st.rate).mul (f64OfUsize m)).toUsize) (hb : x < b.len) (hb2 : x < b2.len) :
    b2.get x = b.get x := by
  refine C136_withStream h h2 rfl hq hr (fun j hj => ?_) hx hb hb2
  obtain ⟨f, hf⟩ := hm j hj
  refine ⟨f, hf, ?_⟩
  change (if j < m then st.nth j else .ok none) = _
  rw [if_pos hj, hf]

example := C136_take (k := .mono) (c := .ch8) (st := .audio (exAudio 8)) (m := 3) (x := 3)
  (R.returns (x := (Audio.withStream (lit 12) (.audio (exAudio 8)) : R (Audio .mono .ch8))) (by decide +kernel))
  (R.returns (x := (Audio.withStream (lit 12) ((Src.audio (exAudio 8)).mkTake 3) : R (Audio .mono .ch8))) (by decide +kernel))
  (fun j hj => by
    rcases (show j = 0 ∨ j = 1 ∨ j = 2 by omega) with rfl | rfl | rfl
    · exact ⟨#v[1#8], by decide +kernel⟩
    · exact ⟨#v[2#8], by decide +kernel⟩
    · exact ⟨#v[3#8], by decide +kernel⟩)
  (r := 3 / 2) (by decide +kernel) (by norm_num) (by decide +kernel) (by decide +kernel) (by decide +kernel)

/-- C136: the same for `extend`. -/
theorem C136_extend {a b b2 : Audio k c} {st st2 : Src k' c'} {it it2} {r : ℚ} (h : a.extend st = (b, .ok it))
    (h2 : a.extend st2 = (b2, .ok it2)) (hr2 : st2.rate = st.rate) (hq : (ratioOf a.rate st.rate).Is r) (hr : 0 < r) {m : Nat}
    (hm : ∀ j, j < m → ∃ f, st.nth j = .ok (some f) ∧ st2.nth j = .ok (some f)) {x : Nat}
    (hx : x < ((ratioOf a.rate st.rate).mul (f64OfUsize m)).toUsize) (hb : a.len + x < b.len) (hb2 : a.len + x < b2.len) :
    b2.get (a.len + x) = b.get (a.len + x) := by
  obtain ⟨y, a1, rfl⟩ := C130_append h
  obtain ⟨y2, b1, rfl⟩ := C130_append h2
  simp only [Audio.len, List.length_append] at hb hb2
  have := C136_withStream a1 b1 hr2 hq hr hm hx (by unfold Audio.len; omega) (by unfold Audio.len; omega)
  unfold Audio.get at this ⊢
  simp only [Audio.len]
  rw [List.getElem?_append_right (by omega), List.getElem?_append_right (by omega), Nat.add_sub_cancel_left]
  exact this

example := C136_extend (a := exAudio 16) (st := .audio (exAudio 8)) (st2 := .audio exOther) (m := 3) (x := 4)
  (R.returnsSnd (x := (exAudio 16).extend (.audio (exAudio 8))) (by decide +kernel))
  (R.returnsSnd (x := (exAudio 16).extend (.audio exOther)) (by decide +kernel))
  rfl (r := 2) (by decide +kernel) (by norm_num)
  (fun j hj => by
    rcases (show j = 0 ∨ j = 1 ∨ j = 2 by omega) with rfl | rfl | rfl
    · exact ⟨#v[1#8], by decide +kernel⟩
    · exact ⟨#v[2#8], by decide +kernel⟩
    · exact ⟨#v[3#8], by decide +kernel⟩)
  (by decide +kernel) (by decide +kernel) (by decide +kernel)

/-- C136: the slot at the position of frame `m` may differ: it is the first that does. -/
theorem C136_false : (∀ j, j < 3 → (Src.audio exOther).nth j = (Src.audio (exAudio 8)).nth j) ∧
    ((Audio.withStream (lit 8) (.audio exOther) : R (Audio .mono .ch8)).map (·.get 3)) = .ok (some #v[70#8]) ∧
    ((Audio.withStream (lit 8) (.audio (exAudio 8)) : R (Audio .mono .ch8)).map (·.get 3)) = .ok (some #v[4#8]) ∧
    ((lit 1 : F64).mul (f64OfUsize 3)).toUsize = 3 := by decide +kernel

/-- C136: and the slot where a stream ends, on the way to the next one, has only a part of what it gets if the stream goes
on. -/
theorem C136_end : ((Audio.withStream (lit 12) ((Src.audio (exAudio 8)).mkTake 3) : R (Audio .mono .ch8)).map (·.frames)) =
      .ok [#v[1#8], #v[2#8], #v[0#8], #v[3#8], #v[0#8]] ∧
    ((Audio.withStream (lit 12) (.audio (exAudio 8)) : R (Audio .mono .ch8)).map (·.frames)) =
      .ok [#v[1#8], #v[2#8], #v[0#8], #v[3#8], #v[4#8], #v[1#8], #v[5#8], #v[0#8]] := by decide +kernel

end Fon
