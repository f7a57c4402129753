import Verif.Props.Const

/-!
# Properties of audio buffers
-/

namespace Fon
open Fon.Fl hiding min max
open Fon.Fmt Fon.Sink
variable {k k' : Kind} {c c' : ChTy}

/-! ## C47 -/

/-- C47: constructors. -/
theorem C47_construct (rate : F64) (n : Nat) (f : Frame k c) (l : List (Frame k c)) :
    (∀ a, Audio.withFrame rate n f = .ok a →
      (∀ i, a.get i = if i < n then some f else none) ∧ a.len = n ∧ a.sampleRate = rate) ∧
    (∀ a : Audio k c, Audio.withSilence rate n = .ok a →
      (∀ i, a.get i = if i < n then some Frame.dflt else none) ∧ a.len = n ∧ a.sampleRate = rate) ∧
    (∀ i, (Audio.withFrames rate l).get i = l[i]?) ∧
    (Audio.withFrames rate l).len = l.length ∧ (Audio.withFrames rate l).sampleRate = rate := by
  have key : ∀ (g : Frame k c) a, Audio.withFrame rate n g = .ok a →
      (∀ i, a.get i = if i < n then some g else none) ∧ a.len = n ∧ a.sampleRate = rate := by
    intro g a h
    unfold Audio.withFrame at h
    split at h <;> cases h
    exact ⟨fun i => by simp [Audio.get, List.getElem?_replicate], by simp [Audio.len], rfl⟩
  exact ⟨key f, key Frame.dflt, fun i => rfl, rfl, rfl⟩

/-- C47: `with_frame` and `with_silence` panic exactly if the frames would take more than `isize::MAX` bytes. -/
theorem C47_panics_iff (rate : F64) (n : Nat) (f : Frame k c) :
    ((∃ e, Audio.withFrame rate n f = .error e) ↔ 2 ^ 63 ≤ n * (k.chans * c.size)) ∧
    ((∃ e, (Audio.withSilence rate n : R (Audio k c)) = .error e) ↔ 2 ^ 63 ≤ n * (k.chans * c.size)) := by
  have key : ∀ g : Frame k c, (∃ e, Audio.withFrame rate n g = .error e) ↔ 2 ^ 63 ≤ n * (k.chans * c.size) := by
    intro g
    unfold Audio.withFrame Audio.isizeMax Kind.size
    split
    · simp only [Except.error.injEq, exists_eq', true_iff]; omega
    · simp only [reduceCtorEq, exists_false, false_iff]; omega
  exact ⟨key f, key Frame.dflt⟩

example : (Audio.withFrame (lit 1) 2 #v[3#8, 4#8] : R (Audio .stereo .ch8)) =
    .ok ⟨lit 1, [#v[3#8, 4#8], #v[3#8, 4#8]]⟩ := by decide +kernel
example : (Audio.withSilence (lit 1) (2 ^ 60) : R (Audio .mono .ch64)) = .error .capacity := by decide +kernel
example := C47_construct (k := .stereo) (c := .ch8) (lit 1) 2 #v[3#8, 4#8] [#v[5#8, 6#8]]
example := C47_panics_iff (k := .mono) (c := .ch64) (lit 1) (2 ^ 60) #v[lit 1]

/-- C47: all ways of reading agree with `get`. -/
theorem C47_read (a : Audio k c) :
    (∀ i, a.get i = none ↔ a.len ≤ i) ∧ (∀ i, a.asSlice[i]? = a.get i) ∧ (∀ i, a.iter[i]? = a.get i) ∧
    (∀ i, a.toFrames[i]? = a.get i) ∧ a.asSlice.length = a.len ∧ a.iter.length = a.len ∧ a.toFrames.length = a.len ∧
    (a.isEmpty = true ↔ ∀ i, a.get i = none) ∧ Audio.withFrames a.sampleRate a.toFrames = a := by
  refine ⟨fun i => by simp [Audio.get, Audio.len], fun _ => rfl, fun _ => rfl, fun _ => rfl, rfl, rfl, rfl, ?_, rfl⟩
  simp only [Audio.isEmpty, Audio.len, beq_iff_eq, Audio.get, List.getElem?_eq_none_iff]
  constructor
  · intro h i; omega
  · intro h; have := h 0; omega

/-- C47: writing through `get_mut` and `iter_mut`. -/
theorem C47_write (a : Audio k c) (i : Nat) (f : Frame k c) (g : Nat → Frame k c → Frame k c) :
    (a.setMut i f = none ↔ a.get i = none) ∧
    (∀ b, a.setMut i f = some b → b.sampleRate = a.sampleRate ∧ b.len = a.len ∧
      ∀ j, b.get j = if j = i then some f else a.get j) ∧
    (a.iterMut g).sampleRate = a.sampleRate ∧ (a.iterMut g).len = a.len ∧
    (∀ j, (a.iterMut g).get j = (a.get j).map (g j)) := by
  refine ⟨?_, ?_, rfl, by simp [Audio.iterMut, Audio.len], fun j => by simp [Audio.iterMut, Audio.get]⟩
  · unfold Audio.setMut Audio.get
    split <;> simp <;> omega
  · intro b hb
    unfold Audio.setMut at hb
    split at hb
    · rename_i h
      cases hb
      refine ⟨rfl, by simp [Audio.len], fun j => ?_⟩
      simp only [Audio.get, List.getElem?_set]
      by_cases hj : i = j
      · subst hj; simp [h]
      · rw [if_neg hj, if_neg (Ne.symm hj)]
    · cases hb

example : (exAudio 8).get 2 = some #v[3#8] ∧ ((exAudio 8).setMut 2 #v[9#8]).map (·.frames) =
    some [#v[1#8], #v[2#8], #v[9#8], #v[4#8], #v[5#8]] := by decide +kernel

/-! ## C48 -/

theorem extend_eq (a : Audio k c) (st : Src k' c') (l : Nat) (hl : st.len = some l)
    (hf : a.Fits (Audio.dstLen a.rate l st.rate)) :
    a.extendInternal st =
      match (⟨a.rate, Resampler.dflt, List.replicate (Audio.dstLen a.rate l st.rate) Frame.dflt⟩ : Sink k c).stream
        (l + 1) st with
      | .error e => .error e
      | .ok (s, it) => match s.flush with
        | .error e => .error e
        | .ok t => .ok (⟨t.rate, a.frames ++ t.buf⟩, it) := by
  unfold Audio.extendInternal
  rw [hl]
  dsimp only
  set D := Audio.dstLen a.rate l st.rate
  rw [if_neg (not_lt.mpr hf.1), if_neg (not_lt.mpr hf.2)]
  unfold Audio.sink
  have hr : (Rng.from_ a.frames.length).resolve
      (Audio.withFrames a.rate (a.frames ++ List.replicate D (Frame.dflt : Frame k c))).frames.length =
      .ok (a.frames.length, a.frames.length + D) := by
    simp [Rng.resolve, Audio.withFrames]
  rw [hr]
  simp only [Audio.withFrames, AudioSink.stream]
  have e1 : (a.frames ++ List.replicate D (Frame.dflt : Frame k c)).take a.frames.length = a.frames := by simp
  have e2 : ((a.frames ++ List.replicate D (Frame.dflt : Frame k c)).drop a.frames.length).take
      (a.frames.length + D - a.frames.length) = List.replicate D Frame.dflt := by
    rw [List.drop_left, Nat.add_sub_cancel_left, List.take_of_length_le (by simp)]
  have e3 : (a.frames ++ List.replicate D (Frame.dflt : Frame k c)).drop (a.frames.length + D) = [] :=
    List.drop_of_length_le (by simp)
  rw [e1, e2, e3]
  cases hs : (⟨a.rate, Resampler.dflt, List.replicate D Frame.dflt⟩ : Sink k c).stream (l + 1) st with
  | error e => rfl
  | ok p =>
    simp only [AudioSink.flush]
    cases p.1.flush with
    | error e => rfl
    | ok t => simp [AudioSink.release]

/-- What `extend` does when it returns. -/
theorem extend_run (a b : Audio k c) (st : Src k' c') (it : It k' c') (h : a.extendInternal st = .ok (b, it)) :
    ∃ l s t, st.len = some l ∧ a.Fits (Audio.dstLen a.rate l st.rate) ∧
      (⟨a.rate, Resampler.dflt, List.replicate (Audio.dstLen a.rate l st.rate) Frame.dflt⟩ : Sink k c).stream
        (l + 1) st = .ok (s, it) ∧ s.flush = .ok t ∧ b = ⟨t.rate, a.frames ++ t.buf⟩ := by
  cases hl : st.len with
  | none => unfold Audio.extendInternal at h; rw [hl] at h; cases h
  | some l =>
    have hf : a.Fits (Audio.dstLen a.rate l st.rate) := by
      unfold Audio.extendInternal at h
      rw [hl] at h
      dsimp only at h
      split at h
      · cases h
      · split at h
        · cases h
        · exact ⟨by omega, by omega⟩
    rw [extend_eq a st l hl hf] at h
    cases hs : (⟨a.rate, Resampler.dflt, List.replicate (Audio.dstLen a.rate l st.rate) Frame.dflt⟩ : Sink k c).stream
        (l + 1) st with
    | error e => rw [hs] at h; cases h
    | ok p =>
      rw [hs] at h
      simp only at h
      cases ht : p.1.flush with
      | error e => rw [ht] at h; cases h
      | ok t =>
        rw [ht] at h
        cases h
        exact ⟨l, p.1, t, rfl, hf, hs, ht, rfl⟩

theorem flush_keeps (s t : Sink k c) (h : s.flush = .ok t) : t.buf.length = s.buf.length ∧ t.rate = s.rate := by
  by_cases hf : HasFract s.res.offseti
  · by_cases hi : s.res.offseti.toUsize < s.buf.length
    · rw [C42_write s hf hi] at h; cases h; simp
    · exfalso
      obtain ⟨e, he⟩ := (C42_panics_iff s).mpr ⟨hf, by omega⟩
      rw [he] at h; cases h
  · rw [C42_nothing s hf] at h; cases h; simp

theorem dstLen_growth {rate : F64} {l n : Nat} {sr : Option F64} (h : Growth rate l sr n) :
    Audio.dstLen rate l sr = n := by
  cases h with
  | plain => rfl
  | rated sr q h h0 h1 n hn =>
    unfold Audio.dstLen
    simp only
    have hc := ceil_is h h0
    have hn' : (n:ℤ) = ceilE binary64.eps q := by
      rw [hn]; unfold ceilE
      rw [show binary64.eps = 2 ^ (-52:ℤ) from rfl]
      split <;> simp
    rw [← hn'] at hc
    have hlt : n < 2 ^ 64 := by
      have hfl : ⌊q⌋ < 2 ^ 63 := by rw [Int.floor_lt]; exact_mod_cast h1
      have : (n:ℤ) ≤ ⌊q⌋ + 1 := by rw [hn]; split <;> omega
      omega
    exact toUsize_nat (by exact_mod_cast hc) hlt

/-- C48: frames and rate stay, and the number of frames grows as described. -/
theorem C48_keeps (a b : Audio k c) (st : Src k' c') (it : It k' c') (h : a.extend st = (b, .ok it)) :
    b.rate = a.rate ∧ (∀ i, i < a.len → b.get i = a.get i) ∧
    ∃ l, st.len = some l ∧ ∀ n, Growth a.rate l st.rate n → b.len = a.len + n := by
  unfold Audio.extend at h
  cases he : a.extendInternal st with
  | error e => rw [he] at h; cases h
  | ok p =>
    rw [he] at h
    obtain ⟨rfl, e2⟩ := Prod.mk.inj h
    cases e2
    obtain ⟨l, s, t, h1, h2, h3, h4, h5⟩ := extend_run a _ st _ he
    obtain ⟨k1, k2⟩ := flush_keeps s t h4
    obtain ⟨k3, k4, _⟩ := C36_stream _ _ _ _ _ h3
    rw [h5]
    refine ⟨k2.trans k4, fun i hi => ?_, l, h1, fun n hn => ?_⟩
    · simp only [Audio.get]
      exact List.getElem?_append_left hi
    · rw [← dstLen_growth hn]
      simp only [Audio.len, List.length_append, k1, k3, List.length_replicate]

example := C48_keeps (exAudio 8) _ (.audio (exAudio 12)) _
  (R.returnsSnd (x := (exAudio 8).extend (.audio (exAudio 12))) (by decide +kernel))

/-- C48: the same for `with_stream`. -/
theorem C48_withStream (rate : F64) (b : Audio k c) (st : Src k' c') (h : Audio.withStream rate st = .ok b) :
    b.rate = rate ∧ ∃ l, st.len = some l ∧ ∀ n, Growth rate l st.rate n → b.len = n := by
  unfold Audio.withStream at h
  cases he : (Audio.withFrames rate [] : Audio k c).extend st with
  | mk x y =>
    cases y with
    | error e => rw [he] at h; cases h
    | ok it =>
      rw [he] at h
      cases h
      obtain ⟨h1, _, l, h2, h3⟩ := C48_keeps _ _ _ _ he
      refine ⟨h1, l, h2, fun n hn => ?_⟩
      rw [h3 n hn]; simp [Audio.len, Audio.withFrames]

example := C48_withStream (lit 8) _ (.audio (exAudio 12))
  (R.returns (x := (Audio.withStream (lit 8) (.audio (exAudio 12)) : R (Audio .mono .ch8))) (by decide +kernel))

example : ((exAudio 8).extend (.audio (k := .mono) (c := .ch8) ⟨lit 12, [#v[4#8], #v[4#8]]⟩)).1.frames =
    [#v[1#8], #v[2#8], #v[3#8], #v[4#8], #v[5#8], #v[2#8], #v[2#8]] := by decide +kernel
example : Growth (lit 8) 2 (some (lit 12)) 2 := by
  refine .rated _ (binary64.rnd (4 / 3)) ⟨false, ?_, ?_⟩ ?_ ?_ _ ?_
  · exact ⟨rep_rnd (by decide +kernel), by decide⟩
  all_goals decide +kernel

/-! ## C49 -/

/-- Relative rounding error of numbers that are not tiny. -/
theorem rel_err_normal {f : Fmt} {q : ℚ} (h : 2 ^ (f.emin + f.prec - 1) ≤ |q|) : |f.rnd q - q| ≤ |q| * f.u := by
  have h0 : q ≠ 0 := by
    rintro rfl
    have := two_zpow_pos (f.emin + f.prec - 1)
    simp only [abs_zero] at h; linarith
  have h2 := abs_rnd_sub_le (f := f) q
  have key : 2 ^ (f.expo q + f.prec - 1) ≤ |q| := by
    rcases (emin_le_expo (f := f) q).eq_or_lt with he | he
    · rwa [← he]
    · have h1 := le_abs_of_expo q h0 he
      have hp := f.hprec
      rw [← zpow_natCast (2:ℚ) (f.prec - 1), ← zpow_add₀ (by norm_num)] at h1
      rw [show f.expo q + f.prec - 1 = ((f.prec - 1 : ℕ) : ℤ) + f.expo q by omega]
      exact h1
  refine h2.trans ?_
  calc 2 ^ f.expo q / 2 = 2 ^ (f.expo q + f.prec - 1) * f.u := by
        unfold Fmt.u
        rw [← zpow_add₀ (by norm_num), div_eq_mul_inv, ← zpow_neg_one, ← zpow_add₀ (by norm_num)]
        congr 1; ring
    _ ≤ _ := mul_le_mul_of_nonneg_right key u_pos.le

/-- The quotient of two whole numbers, computed in floats, has the right ceiling. -/
theorem ceil_quot {N D : Nat} (hD : 0 < D) (hN : N < 2 ^ 52) (hD' : D ≤ 2 ^ 51) :
    ceilE binary64.eps (binary64.rnd ((N:ℚ) / D)) = ⌈(N:ℚ) / D⌉ := by
  have hDq : (0:ℚ) < D := by exact_mod_cast hD
  have hdm := Nat.div_add_mod N D
  have hml := Nat.mod_lt N hD
  set F := N / D
  set r := N % D
  have e : (N:ℚ) / D = F + r / D := by
    have : (N:ℚ) = D * F + r := by exact_mod_cast hdm.symm
    rw [this]; field_simp
  have heps : binary64.eps = 2 ^ (-52:ℤ) := rfl
  rcases Nat.eq_zero_or_pos r with h0 | h0
  · have e' : (N:ℚ) / D = (F:ℕ) := by rw [e, h0]; simp
    have hF : F ≤ 2 ^ 53 := by
      have : F ≤ N := Nat.div_le_self _ _
      omega
    rw [e', rnd_of_rep (rep_nat53 hF)]
    unfold ceilE
    rw [Int.floor_natCast, Int.cast_natCast, sub_self, if_neg (not_lt.mpr (by rw [heps]; positivity)), Int.ceil_natCast]
    simp
  · have hr1 : (1:ℚ) ≤ r := by exact_mod_cast h0
    have hrD : (r:ℚ) + 1 ≤ D := by exact_mod_cast hml
    have hN1 : 1 ≤ N := by
      rcases Nat.eq_zero_or_pos N with h | h
      · simp only [r, h, Nat.zero_mod] at h0; omega
      · exact h
    have hNq : (1:ℚ) ≤ N := by exact_mod_cast hN1
    have hN' : (N:ℚ) < 2 ^ 52 := by exact_mod_cast hN
    have hDq' : (D:ℚ) ≤ 2 ^ 51 := by exact_mod_cast hD'
    have hpos : (0:ℚ) < N / D := by positivity
    have herr := rel_err_normal (f := binary64) (q := (N:ℚ) / D) (by
      rw [abs_of_pos hpos, le_div_iff₀ hDq]
      calc (2:ℚ) ^ (binary64.emin + binary64.prec - 1) * D ≤ 2 ^ (binary64.emin + binary64.prec - 1) * 2 ^ 51 := by
            exact mul_le_mul_of_nonneg_left hDq' (two_zpow_pos _).le
        _ ≤ 1 := by
            rw [show ((2:ℚ) ^ 51) = 2 ^ (51:ℤ) by norm_num, ← zpow_add₀ (by norm_num)]
            exact zpow_le_one_of_nonpos₀ (by norm_num) (by decide)
        _ ≤ N := hNq)
    rw [abs_of_pos hpos, abs_le] at herr
    have hu : binary64.u = 1 / 2 ^ 53 := by norm_num [Fmt.u, binary64]
    have hlt : (N:ℚ) / D * binary64.u < 1 / (2 * D) := by
      rw [hu, div_mul_div_comm, div_lt_div_iff₀ (by positivity) (by positivity)]
      nlinarith
    have hhalf : (1:ℚ) / (2 * D) = 1 / D / 2 := by field_simp
    have h1D : (1:ℚ) / D ≤ r / D := by gcongr
    have h2D : (r:ℚ) / D ≤ 1 - 1 / D := by
      rw [div_le_iff₀ hDq]; field_simp; linarith
    have hlow : 2 ^ (-52:ℤ) ≤ (1:ℚ) / (2 * D) := by
      rw [le_div_iff₀ (by positivity)]
      norm_num; linarith
    have hfloor : ⌊binary64.rnd ((N:ℚ) / D)⌋ = (F:ℤ) := by
      rw [Int.floor_eq_iff]
      push_cast
      have : (0:ℚ) < 1 / (2 * D) := by positivity
      constructor <;> linarith [herr.1, herr.2]
    unfold ceilE
    rw [hfloor, heps, if_pos (by push_cast; linarith [herr.1])]
    rw [eq_comm, Int.ceil_eq_iff]
    push_cast
    have : (0:ℚ) < 1 / D := by positivity
    constructor <;> linarith

/-- Whole-number rates: the computed length is the exact ceiling. -/
theorem dstLen_int {rate sr : F64} {dst src n : Nat} (hr : rate.Is (dst:ℚ)) (hs : sr.Is (src:ℚ)) (h0 : 0 < src)
    (hN : dst * n < 2 ^ 52) (hn : n ≤ 2 ^ 53) (hs' : src ≤ 2 ^ 51) :
    Audio.dstLen rate n (some sr) = ⌈(dst * n : ℚ) / src⌉₊ := by
  have h1 : (rate.mul (f64OfUsize n)).Is ((dst * n : Nat):ℚ) := by
    have e : binary64.rnd ((dst:ℚ) * n) = ((dst * n : Nat):ℚ) := by
      rw [← Nat.cast_mul]; exact rnd_of_rep (rep_nat53 (by omega))
    have := hr.mul (is_usize hn) (by rw [e]; exact (rep_nat53 (by omega)).le_maxF)
    rwa [e] at this
  have hsq : (0:ℚ) < src := by exact_mod_cast h0
  have hle : ((dst * n : Nat):ℚ) / src ≤ (2 ^ 52 : Nat) := by
    rw [div_le_iff₀ hsq]
    have : (1:ℚ) ≤ src := by exact_mod_cast h0
    have h2 : ((dst * n : Nat):ℚ) ≤ (2 ^ 52 : Nat) := by exact_mod_cast hN.le
    have h3 : (0:ℚ) ≤ (2 ^ 52 : Nat) := by positivity
    nlinarith
  have hnn : (0:ℚ) ≤ ((dst * n : Nat):ℚ) / src := by positivity
  have hup : binary64.rnd (((dst * n : Nat):ℚ) / src) ≤ (2 ^ 52 : Nat) :=
    rnd_le_of_gen (rep_nat53 (by norm_num)).gen hle
  have hlo := rnd_nonneg (f := binary64) hnn
  have h2 := h1.div hs hsq.ne' (by
    rw [abs_of_nonneg hlo]
    refine hup.trans ?_
    have := (rep_nat53 (n := 2 ^ 52) (by norm_num)).le_maxF
    rwa [abs_of_nonneg (by positivity)] at this)
  have hc := ceil_quot h0 hN hs'
  have hcn := Int.natCast_ceil_eq_ceil hnn
  refine dstLen_growth (.rated _ _ h2 hlo ?_ _ ?_)
  · refine lt_of_le_of_lt hup (by norm_num)
  · unfold ceilE at hc
    rw [show binary64.eps = 2 ^ (-52:ℤ) from rfl, ← hcn] at hc
    push_cast at hc ⊢
    rw [← hc]
    split <;> simp

/-- C49: the exact ceiling.  Only for source rates up to 2^51 (see `C49_false`). -/
theorem C49_partial (rate sr : F64) (dst src n : Nat) (hr : rate.Is (dst:ℚ)) (hs : sr.Is (src:ℚ)) (h0 : 0 < src)
    (hN : dst * n < 2 ^ 52) (hn : n ≤ 2 ^ 53) (hs' : src ≤ 2 ^ 51) (st : Src k' c') (hl : st.len = some n)
    (hsr : st.rate = some sr) (b : Audio k c) (h : Audio.withStream rate st = .ok b) :
    b.len = ⌈(dst * n : ℚ) / src⌉₊ := by
  unfold Audio.withStream at h
  cases he : (Audio.withFrames rate [] : Audio k c).extendInternal st with
  | error e => unfold Audio.extend at h; rw [he] at h; cases h
  | ok p =>
    obtain ⟨l, s, t, h1, h2, h3, h4, h5⟩ := extend_run _ _ st _ he
    unfold Audio.extend at h
    rw [he] at h
    cases h
    rw [hl] at h1
    cases h1
    obtain ⟨k1, k2⟩ := flush_keeps s t h4
    obtain ⟨k3, _⟩ := C36_stream _ _ _ _ _ h3
    rw [h5]
    simp only [Audio.len, List.length_append, k1, k3, List.length_replicate]
    rw [hsr, show (Audio.withFrames rate [] : Audio k c).rate = rate from rfl,
      dstLen_int hr hs h0 hN hn hs']
    simp [Audio.withFrames]

example := C49_partial (lit 8) (lit 12) 8 12 5 (by decide +kernel) (by decide +kernel) (by norm_num) (by norm_num)
  (by norm_num) (by norm_num) (.audio (exAudio 12)) rfl rfl _
  (R.returns (x := (Audio.withStream (lit 8) (.audio (exAudio 12)) : R (Audio .mono .ch8))) (by decide +kernel))

/-- C49 fails for huge source rates: one frame, from 2^53 Hz to 1 Hz. -/
theorem C49_false : (Audio.withStream (lit 1) (.audio (k := .mono) (c := .ch8) ⟨lit (2 ^ 53), [#v[1#8]]⟩) :
    R (Audio .mono .ch8)).map (·.len) = .ok 0 ∧ ⌈(1 * 1 : ℚ) / (2 ^ 53 : Nat)⌉₊ = 1 := by
  constructor
  · decide +kernel
  · rw [Nat.ceil_eq_iff (by norm_num)]; norm_num

example : ⌈(48000 * 100 : ℚ) / (44100 : Nat)⌉₊ = 109 := by
  rw [Nat.ceil_eq_iff (by norm_num)]; norm_num
example : (Audio.withStream (lit 48000) (.audio (k := .mono) (c := .ch8) ⟨lit 44100, List.replicate 10 #v[1#8]⟩) :
    R (Audio .mono .ch8)).map (·.len) = .ok 11 := by decide +kernel

/-! ## C50 -/

theorem Audio.Fits.mono {a : Audio k c} {d d' : Nat} (h : a.Fits d') (hd : d ≤ d') : a.Fits d := by
  refine ⟨by have := h.1; omega, le_trans (Nat.mul_le_mul_right _ (by omega)) h.2⟩

/-- Equal rates: the computed length may be too long by one. -/
theorem dstLen_equal {rate sr : F64} {ρ : ℚ} {l : Nat} (hr : rate.Is ρ) (hs : sr.Is ρ) (hρ : 2 ^ (-1022 : ℤ) ≤ ρ)
    (hm : ρ * l ≤ binary64.maxF) (hl : l < 2 ^ 51) :
    Audio.dstLen rate l (some sr) = l ∨ Audio.dstLen rate l (some sr) = l + 1 := by
  have hρ0 : 0 < ρ := lt_of_lt_of_le (two_zpow_pos _) hρ
  have hlq : (l:ℚ) ≤ 2 ^ 51 := by exact_mod_cast hl.le
  have hu : binary64.u = 1 / 2 ^ 53 := by norm_num [Fmt.u, binary64]
  have hmax : binary64.Rep binary64.maxF := ⟨2 ^ 53 - 1, binary64.etop, by decide +kernel, by decide, le_rfl, by
    unfold Fmt.maxF; norm_num [binary64]⟩
  rcases Nat.eq_zero_or_pos l with rfl | h0
  · left
    refine dstLen_growth (.rated _ 0 ?_ le_rfl (by norm_num) _ (by norm_num))
    have h1 : (rate.mul (f64OfUsize 0)).Is 0 := by
      have := hr.mul (is_usize (n := 0) (by norm_num)) (by simp [rnd_zero, maxF_pos.le])
      simpa [rnd_zero] using this
    have := h1.div hs hρ0.ne' (by simp [rnd_zero, maxF_pos.le])
    simpa [rnd_zero] using this
  · have h1q : (1:ℚ) ≤ l := by exact_mod_cast h0
    set P := binary64.rnd (ρ * l) with hP
    have e1 := rel_err_normal (f := binary64) (q := ρ * l) (by
      rw [abs_of_pos (by positivity)]
      calc (2:ℚ) ^ (binary64.emin + binary64.prec - 1) = 2 ^ (-1022:ℤ) := rfl
        _ ≤ ρ := hρ
        _ ≤ ρ * l := by nlinarith)
    rw [← hP, abs_of_pos (by positivity : 0 < ρ * l), abs_le, hu] at e1
    have h1 : (rate.mul (f64OfUsize l)).Is P :=
      hr.mul (is_usize (by omega)) (abs_rnd_le_of_rep hmax (by rw [abs_of_pos (by positivity)]; exact hm))
    have hb1 : (l:ℚ) * (1 - 1 / 2 ^ 53) ≤ P / ρ := by rw [le_div_iff₀ hρ0]; nlinarith [e1.1]
    have hb2 : P / ρ ≤ (l:ℚ) * (1 + 1 / 2 ^ 53) := by rw [div_le_iff₀ hρ0]; nlinarith [e1.2]
    have hbp : 1 / 2 ≤ P / ρ := by nlinarith
    have e2 := rel_err_normal (f := binary64) (q := P / ρ) (by
      rw [abs_of_pos (by linarith)]
      refine le_trans ?_ hbp
      rw [show (1:ℚ) / 2 = 2 ^ (-1:ℤ) by norm_num]
      exact zpow_le_zpow_right₀ (by norm_num) (by decide))
    set x := binary64.rnd (P / ρ) with hx
    rw [abs_of_pos (by linarith : 0 < P / ρ), abs_le, hu] at e2
    have hx1 : (l:ℚ) - 1 / 2 < x := by nlinarith [e2.1]
    have hx2 : x < (l:ℚ) + 1 := by nlinarith [e2.2]
    have hxm : |x| ≤ binary64.maxF := by
      rw [abs_of_nonneg (rnd_nonneg (by linarith))]
      have := (rep_nat53 (n := l + 1) (by omega)).le_maxF
      rw [abs_of_nonneg (by positivity)] at this
      push_cast at this; linarith
    have h2 := h1.div hs hρ0.ne' (by rw [← hx]; exact hxm)
    rw [← hx] at h2
    have hx0 : 0 ≤ x := rnd_nonneg (by linarith)
    have hx63 : x < 2 ^ 63 := by
      have : (l:ℚ) + 1 ≤ 2 ^ 52 := by linarith
      linarith
    rcases lt_or_ge x l with hlt | hge
    · left
      refine dstLen_growth (.rated _ _ h2 hx0 hx63 _ ?_)
      have hfl : ⌊x⌋ = (l:ℤ) - 1 := by rw [Int.floor_eq_iff]; push_cast; constructor <;> linarith
      rw [hfl, if_pos]
      · ring
      · push_cast
        have : (2:ℚ) ^ (-52:ℤ) < 1 / 2 := by norm_num
        exact this.trans (by linarith)
    · have hfl : ⌊x⌋ = (l:ℤ) := by rw [Int.floor_eq_iff]; push_cast; constructor <;> linarith
      by_cases hc : 2 ^ (-52:ℤ) < x - ⌊x⌋
      · right
        refine dstLen_growth (.rated _ _ h2 hx0 hx63 _ ?_)
        rw [if_pos hc, hfl]; push_cast; rfl
      · left
        refine dstLen_growth (.rated _ _ h2 hx0 hx63 _ ?_)
        rw [if_neg hc, hfl]

/-- If the product of rate and length is exact, so is the computed length. -/
theorem dstLen_equal_exact {rate sr : F64} {ρ : ℚ} {l : Nat} (hr : rate.Is ρ) (hs : sr.Is ρ) (hρ : ρ ≠ 0)
    (he : binary64.Rep (ρ * l)) (hl : l < 2 ^ 51) : Audio.dstLen rate l (some sr) = l := by
  have e1 := rnd_of_rep he
  have h1 : (rate.mul (f64OfUsize l)).Is (ρ * l) := by
    have := hr.mul (is_usize (n := l) (by omega)) (by rw [e1]; exact he.le_maxF)
    rwa [e1] at this
  have e2 : binary64.rnd (ρ * l / ρ) = l := by
    rw [mul_div_cancel_left₀ _ hρ]; exact rnd_of_rep (rep_nat53 (by omega))
  have h2 := h1.div hs hρ (by rw [e2]; exact (rep_nat53 (by omega)).le_maxF)
  rw [e2] at h2
  refine dstLen_growth (.rated _ _ h2 (by positivity) ?_ _ ?_)
  · have : (l:ℚ) < 2 ^ 51 := by exact_mod_cast hl
    linarith
  · rw [Int.floor_natCast, Int.cast_natCast, sub_self, if_neg (by norm_num)]

theorem no_fract {x : F64} {n : Nat} (h : x.Is (n:ℚ)) : ¬ HasFract x := by
  rintro ⟨q, hq, hlt⟩
  cases hq.unique h
  rw [truncQ_nonneg (by positivity), Int.floor_natCast, Int.cast_natCast, sub_self, abs_zero] at hlt
  norm_num at hlt

/-- At equal rates `extend` returns, and what it appends is given by the computed length. -/
theorem extend_equal (a : Audio k c) (st : Src k' c') (l d : Nat) (hl : st.len = some l)
    (hd : Audio.dstLen a.rate l st.rate = d) (hld : l ≤ d)
    (hk : k.builtin = true) (hk' : k'.builtin = true) (hs : st.safe = true) (hp : st.playable)
    (hr : ∀ x, st.rate = some x → ∃ ρ : ℚ, a.rate.Is ρ ∧ x.Is ρ ∧ ρ ≠ 0)
    (hf : a.Fits d) (hd53 : d ≤ 2 ^ 53) :
    ∃ b it, a.extend st = (b, .ok it) ∧ b.rate = a.rate ∧ b.len = a.len + d ∧
      (∀ i, i < a.len → b.get i = a.get i) ∧
      (∀ j, j < l → ∃ src f y, st.nth j = .ok (some src) ∧ src.convert c = .ok f ∧ b.get (a.len + j) = some y ∧
        FrameArrives f y) ∧
      (0 < l → ∀ j, l ≤ j → j < d → b.get (a.len + j) = some Frame.dflt) := by
  subst hd
  obtain ⟨⟨s, it⟩, hstream⟩ := C37_finite
    (⟨a.rate, Resampler.dflt, List.replicate (Audio.dstLen a.rate l st.rate) Frame.dflt⟩ : Sink k c) st l hl hk hk' hs hp
  have ho : (Resampler.dflt : Resampler k c).offseti.Is ((0:Nat):ℚ) := by exact_mod_cast is_zero
  obtain ⟨b1, b2, _, b4, b5⟩ := C40_actual (l + 1) 0 _ s st it hstream hr ho (by simpa using hd53)
  obtain ⟨k3, k4, _⟩ := C36_stream _ _ _ _ _ hstream
  have hfl := C42_nothing s (no_fract b2)
  have he := extend_eq a st l hl hf
  rw [hstream] at he
  simp only [hfl] at he
  have hcl : copyLen st.len (List.replicate (Audio.dstLen a.rate l st.rate) (Frame.dflt : Frame k c)).length = l := by
    rw [hl]; simp only [copyLen, List.length_replicate]; omega
  simp only at b4 b5
  rw [hcl] at b4 b5
  refine ⟨⟨s.rate, a.frames ++ s.buf⟩, it, by unfold Audio.extend; rw [he], k4, ?_, fun i hi => ?_, fun j hj => ?_,
    fun h0 j hj hjd => ?_⟩
  · simp [Audio.len, k3]
  · simp only [Audio.get]; exact List.getElem?_append_left hi
  · obtain ⟨src, f, y, c1, c2, c3, c4⟩ := b4 j hj (by omega)
    refine ⟨src, f, y, c1, c2, ?_, c4⟩
    simp only [Audio.get, Audio.len]
    rw [List.getElem?_append_right (by omega), Nat.add_sub_cancel_left]; exact c3
  · simp only [Audio.get, Audio.len]
    rw [List.getElem?_append_right (by omega), Nat.add_sub_cancel_left, b5 j hj, if_neg (by omega)]
    simp [hjd]

/-- C50: extending with a stream without rate, or with a stream of the same rate where the product of rate and length
is exact (for example whole-number rates), appends exactly the converted stream.  Other rates are excluded: see
`C50_false` and `C50_actual`. -/
theorem C50_partial (a : Audio k c) (st : Src k' c') (l : Nat) (hl : st.len = some l) (hl' : l < 2 ^ 51)
    (hk : k.builtin = true) (hk' : k'.builtin = true) (hs : st.safe = true) (hp : st.playable)
    (hr : ∀ x, st.rate = some x → ∃ ρ : ℚ, a.rate.Is ρ ∧ x.Is ρ ∧ ρ ≠ 0 ∧ binary64.Rep (ρ * l)) (hf : a.Fits l) :
    ∃ b it, a.extend st = (b, .ok it) ∧ b.rate = a.rate ∧ b.len = a.len + l ∧
      (∀ i, i < a.len → b.get i = a.get i) ∧
      (∀ j, j < l → ∃ src f y, st.nth j = .ok (some src) ∧ src.convert c = .ok f ∧ b.get (a.len + j) = some y ∧
        FrameArrives f y) := by
  have hd : Audio.dstLen a.rate l st.rate = l := by
    cases hx : st.rate with
    | none => rfl
    | some x =>
      obtain ⟨ρ, h1, h2, h3, h4⟩ := hr x hx
      exact dstLen_equal_exact h1 h2 h3 h4 hl'
  obtain ⟨b, it, h1, h2, h3, h4, h5, _⟩ := extend_equal a st l l hl hd le_rfl hk hk' hs hp
    (fun x hx => by obtain ⟨ρ, h1, h2, h3, _⟩ := hr x hx; exact ⟨ρ, h1, h2, h3⟩) hf (by omega)
  exact ⟨b, it, h1, h2, h3, h4, h5⟩

example := C50_partial (exAudio 44100) (.audio (exAudio 44100)) 5 rfl (by norm_num) rfl rfl rfl (by decide)
  (fun x hx => by cases hx; exact ⟨44100, by decide +kernel, by decide +kernel, by norm_num,
    by exact_mod_cast rep_nat53 (n := 44100 * 5) (by norm_num)⟩) (by decide +kernel)

/-- What happens at other equal rates: the converted stream, and perhaps one frame of silence. -/
theorem C50_actual (a : Audio k c) (st : Src k' c') (l : Nat) (hl : st.len = some l) (hl' : l < 2 ^ 51) (h0 : 0 < l)
    (hk : k.builtin = true) (hk' : k'.builtin = true) (hs : st.safe = true) (hp : st.playable)
    (hr : ∀ x, st.rate = some x → ∃ ρ : ℚ, a.rate.Is ρ ∧ x.Is ρ ∧ 2 ^ (-1022 : ℤ) ≤ ρ ∧ ρ * l ≤ binary64.maxF)
    (hf : a.Fits (l + 1)) :
    ∃ b it, a.extend st = (b, .ok it) ∧ b.rate = a.rate ∧
      (∀ i, i < a.len → b.get i = a.get i) ∧
      (∀ j, j < l → ∃ src f y, st.nth j = .ok (some src) ∧ src.convert c = .ok f ∧ b.get (a.len + j) = some y ∧
        FrameArrives f y) ∧
      (b.len = a.len + l ∨ b.len = a.len + l + 1 ∧ b.get (a.len + l) = some Frame.dflt) := by
  have hd : Audio.dstLen a.rate l st.rate = l ∨ Audio.dstLen a.rate l st.rate = l + 1 := by
    cases hx : st.rate with
    | none => exact .inl rfl
    | some x =>
      obtain ⟨ρ, h1, h2, h3, h4⟩ := hr x hx
      exact dstLen_equal h1 h2 h3 h4 hl'
  have hr' : ∀ x, st.rate = some x → ∃ ρ : ℚ, a.rate.Is ρ ∧ x.Is ρ ∧ ρ ≠ 0 := fun x hx => by
    obtain ⟨ρ, h1, h2, h3, _⟩ := hr x hx
    exact ⟨ρ, h1, h2, (lt_of_lt_of_le (two_zpow_pos _) h3).ne'⟩
  rcases hd with hd | hd
  · obtain ⟨b, it, h1, h2, h3, h4, h5, _⟩ := extend_equal a st l l hl hd le_rfl hk hk' hs hp hr'
      (hf.mono (by omega)) (by omega)
    exact ⟨b, it, h1, h2, h4, h5, .inl h3⟩
  · obtain ⟨b, it, h1, h2, h3, h4, h5, h6⟩ := extend_equal a st l (l + 1) hl hd (by omega) hk hk' hs hp hr'
      hf (by omega)
    exact ⟨b, it, h1, h2, h4, h5, .inr ⟨h3, h6 h0 l le_rfl (by omega)⟩⟩

example := C50_actual (exAudio 44100) (.audio (exAudio 44100)) 5 rfl (by norm_num) (by norm_num) rfl rfl rfl (by decide)
  (fun x hx => by cases hx; exact ⟨44100, by decide +kernel, by decide +kernel, by decide +kernel, by decide +kernel⟩)
  (by decide +kernel)

/-- C50 fails at 0.1 Hz: three frames are extended to four. -/
theorem C50_false : (Audio.withStream (lit 0.1) (.audio (k := .mono) (c := .ch8) ⟨lit 0.1, [#v[1#8], #v[2#8], #v[3#8]]⟩) :
    R (Audio .mono .ch8)).map (·.frames) = .ok [#v[1#8], #v[2#8], #v[3#8], #v[0#8]] := by decide +kernel

example : (Src.audio (exAudio 44100)).len = some 5 ∧ (Src.audio (exAudio 44100)).safe = true ∧
    (Src.audio (exAudio 44100)).playable ∧ binary64.Rep ((44100:ℚ) * 5) ∧
    (lit 44100 : F64).Is 44100 ∧ (exAudio 44100).Fits 5 :=
  ⟨rfl, rfl, .inl (by simp [Src.rate]), by exact_mod_cast rep_nat53 (n := 44100 * 5) (by norm_num),
    is_lit (by exact_mod_cast rep_nat53 (n := 44100) (by norm_num)), by decide, by decide⟩

/-! ## C51 -/

/-- C51, exactly when `extend` panics on a finite stream that fits into memory: the flush at the end needs a slot
after the last one. -/
theorem C51_iff (a : Audio k c) (st : Src k' c') (l : Nat) (hl : st.len = some l)
    (hk : k.builtin = true) (hk' : k'.builtin = true) (hs : st.safe = true) (hp : st.playable)
    (hf : a.Fits (Audio.dstLen a.rate l st.rate)) :
    (∃ e, (a.extend st).2 = .error e) ↔
      ∃ n off, Takes (ratioOf a.rate st.rate) (lit 0) (some l) (Audio.dstLen a.rate l st.rate) n ∧
        off = (lit 0 : F64).add ((ratioOf a.rate st.rate).mul (f64OfUsize n)) ∧
        HasFract off ∧ Audio.dstLen a.rate l st.rate ≤ off.toUsize := by
  obtain ⟨⟨s, it⟩, hstream⟩ := C37_finite
    (⟨a.rate, Resampler.dflt, List.replicate (Audio.dstLen a.rate l st.rate) Frame.dflt⟩ : Sink k c) st l hl hk hk' hs hp
  obtain ⟨st', n, g, a1, a2, a3, a4, a5, a6, a7, a8⟩ := stream_takes _ _ _ _ _ hstream
  obtain ⟨k3, k4, _⟩ := C36_stream _ _ _ _ _ hstream
  simp only [List.length_replicate, hl] at a3 k3
  have he := extend_eq a st l hl hf
  rw [hstream] at he
  simp only at he
  have hiff : (∃ e, (a.extend st).2 = .error e) ↔ ∃ e, s.flush = .error e := by
    unfold Audio.extend
    rw [he]
    cases s.flush <;> simp
  rw [hiff, C42_panics_iff, k3, a7]
  constructor
  · rintro ⟨h1, h2⟩
    exact ⟨n, _, a3, rfl, h1, h2⟩
  · rintro ⟨m, off, h1, rfl, h2, h3⟩
    cases takes_unique h1 a3
    exact ⟨h2, h3⟩

/-- Seven frames from 7 Hz to 29 Hz, where `extend` panics. -/
example := C51_iff (exAudio 29) (.audio (k := .mono) (c := .ch8) ⟨lit 7, List.replicate 7 #v[1#8]⟩) 7 rfl rfl rfl rfl
  (by decide) (by decide +kernel)

/-- Positions of the frames for whole-number rates, with error bounds. -/
theorem pos_int {rate sr : F64} {dst src : Nat} (hr : rate.Is (dst:ℚ)) (hs : sr.Is (src:ℚ)) (h0 : 0 < src)
    (hd0 : 0 < dst) (hs' : src ≤ 2 ^ 51) (hd' : dst ≤ 2 ^ 51) :
    (ratioOf rate (some sr)).Is (binary64.rnd ((dst:ℚ) / src)) ∧
    ∀ n : Nat, dst * n ≤ 2 ^ 51 →
      ((ratioOf rate (some sr)).mul (f64OfUsize n)).Is (binary64.rnd (binary64.rnd ((dst:ℚ) / src) * n)) ∧
      (posOf (ratioOf rate (some sr)) (lit 0) n).Is (binary64.rnd (binary64.rnd ((dst:ℚ) / src) * n)) ∧
      ((lit 0 : F64).add ((ratioOf rate (some sr)).mul (f64OfUsize n))).Is
        (binary64.rnd (binary64.rnd ((dst:ℚ) / src) * n)) ∧
      (dst * n : ℚ) / src * (1 - 1 / 2 ^ 53) ^ 2 ≤ binary64.rnd (binary64.rnd ((dst:ℚ) / src) * n) ∧
      binary64.rnd (binary64.rnd ((dst:ℚ) / src) * n) ≤ (dst * n : ℚ) / src * (1 + 1 / 2 ^ 53) ^ 2 := by
  have hsq : (0:ℚ) < src := by exact_mod_cast h0
  have hdq : (0:ℚ) < dst := by exact_mod_cast hd0
  have hs1 : (1:ℚ) ≤ src := by exact_mod_cast h0
  have hd1 : (1:ℚ) ≤ dst := by exact_mod_cast hd0
  have hs2 : (src:ℚ) ≤ 2 ^ 51 := by exact_mod_cast hs'
  have hd2 : (dst:ℚ) ≤ 2 ^ 51 := by exact_mod_cast hd'
  have hu : binary64.u = 1 / 2 ^ 53 := by norm_num [Fmt.u, binary64]
  have h64 : binary64.Rep ((2 ^ 53 : Nat):ℚ) := rep_nat53 le_rfl
  have hqpos : (0:ℚ) < dst / src := by positivity
  have hqle : (dst:ℚ) / src ≤ 2 ^ 51 := by rw [div_le_iff₀ hsq]; nlinarith
  have hqge : (1:ℚ) / 2 ^ 51 ≤ dst / src := by rw [div_le_div_iff₀ (by norm_num) hsq]; nlinarith
  have tiny : (2:ℚ) ^ (binary64.emin + binary64.prec - 1) ≤ 1 / 2 ^ 52 := by
    rw [show (1:ℚ) / 2 ^ 52 = 2 ^ (-52:ℤ) by norm_num]
    exact zpow_le_zpow_right₀ (by norm_num) (by decide)
  set r := binary64.rnd ((dst:ℚ) / src) with hrdef
  have e1 := rel_err_normal (f := binary64) (q := (dst:ℚ) / src) (by
    rw [abs_of_pos hqpos]
    exact (tiny.trans (by norm_num)).trans hqge)
  rw [abs_of_pos hqpos, abs_le, hu, ← hrdef] at e1
  have hr0 : (dst:ℚ) / src * (1 - 1 / 2 ^ 53) ≤ r := by linarith [e1.1]
  have hr1 : r ≤ (dst:ℚ) / src * (1 + 1 / 2 ^ 53) := by linarith [e1.2]
  have hrpos : 0 < r := lt_of_lt_of_le (by positivity) hr0
  have hratio : (ratioOf rate (some sr)).Is r := hr.div hs hsq.ne' (abs_rnd_le_of_rep h64 (by
    rw [abs_of_pos hqpos]; exact hqle.trans (by norm_num)) |>.trans (by
      have := h64.le_maxF; rwa [abs_of_nonneg (by positivity)] at this))
  refine ⟨hratio, fun n hn => ?_⟩
  have hnq : (dst:ℚ) * n ≤ 2 ^ 51 := by exact_mod_cast hn
  have hn51 : n ≤ 2 ^ 51 := le_trans (Nat.le_mul_of_pos_left n hd0) hn
  have hN : (dst * n : ℚ) / src ≤ 2 ^ 51 := by rw [div_le_iff₀ hsq]; nlinarith
  have hNN : (dst * n : ℚ) / src = dst / src * n := by ring
  have hn0 : (0:ℚ) ≤ n := by positivity
  have hprod1 : (dst * n : ℚ) / src * (1 - 1 / 2 ^ 53) ≤ r * n := by rw [hNN]; nlinarith
  have hprod2 : r * n ≤ (dst * n : ℚ) / src * (1 + 1 / 2 ^ 53) := by rw [hNN]; nlinarith
  have hprod3 : |r * n| ≤ ((2 ^ 53 : Nat):ℚ) := by
    rw [abs_of_nonneg (by positivity)]
    push_cast
    linarith
  have hm : |binary64.rnd (r * n)| ≤ binary64.maxF := (abs_rnd_le_of_rep h64 hprod3).trans (by
      have := h64.le_maxF; rwa [abs_of_nonneg (by positivity)] at this)
  have m1 := hratio.mul (is_usize (n := n) (by omega)) hm
  have e2 : |binary64.rnd (r * n) - r * n| ≤ |r * n| * binary64.u := by
    rcases Nat.eq_zero_or_pos n with rfl | hnpos
    · simp [rnd_zero]
    · refine rel_err_normal ?_
      have : (1:ℚ) ≤ n := by exact_mod_cast hnpos
      rw [abs_of_pos (by positivity)]
      refine tiny.trans ?_
      have : (1:ℚ) / 2 ^ 51 * (1 - 1 / 2 ^ 53) ≤ r := le_trans (by gcongr) hr0
      nlinarith
  rw [abs_of_nonneg (by positivity : 0 ≤ r * n), abs_le, hu] at e2
  refine ⟨m1, add_zero' m1 is_zero, ?_, ?_, ?_⟩
  · rw [Fl.add_comm']; exact add_zero' m1 is_zero
  · nlinarith [e2.1]
  · nlinarith [e2.2]

/-- C51 for whole-number rates: `extend` panics exactly if the resampled length is whole, and float rounding puts the
end of the stream after it. -/
theorem C51_int (a : Audio k c) (st : Src k' c') (sr : F64) (dst src l : Nat) (hl : st.len = some l)
    (hr : a.rate.Is (dst:ℚ)) (hs : sr.Is (src:ℚ)) (hsr : st.rate = some sr) (h0 : 0 < src) (hd0 : 0 < dst)
    (hs' : src ≤ 2 ^ 51) (hd' : dst ≤ 2 ^ 51) (hN : dst * l < 2 ^ 51)
    (hk : k.builtin = true) (hk' : k'.builtin = true) (hsafe : st.safe = true)
    (hf : a.Fits ⌈(dst * l : ℚ) / src⌉₊) :
    (∃ e, (a.extend st).2 = .error e) ↔
      src ∣ dst * l ∧ (dst * l : ℚ) / src + 2 ^ (-52 : ℤ) < binary64.rnd (binary64.rnd ((dst:ℚ) / src) * l) := by
  have hsq : (0:ℚ) < src := by exact_mod_cast h0
  have hdq : (0:ℚ) < dst := by exact_mod_cast hd0
  have hd1 : (1:ℚ) ≤ dst := by exact_mod_cast hd0
  have hl51 : l ≤ 2 ^ 51 := le_trans (Nat.le_mul_of_pos_left l hd0) hN.le
  have hdl : Audio.dstLen a.rate l st.rate = ⌈(dst * l : ℚ) / src⌉₊ := by
    rw [hsr]; exact dstLen_int hr hs h0 (by omega) (by omega) hs'
  rw [C51_iff a st l hl hk hk' hsafe (.inl (by rw [hsr]; simp)) (by rw [hdl]; exact hf), hdl, hsr]
  obtain ⟨hq, hpos⟩ := pos_int hr hs h0 hd0 hs' hd'
  set r := binary64.rnd ((dst:ℚ) / src)
  have hNq : (dst:ℚ) * l < 2 ^ 51 := by exact_mod_cast hN
  have hbig : (dst * l : ℚ) / src < 2 ^ 51 := by
    rw [div_lt_iff₀ hsq]
    have : (1:ℚ) ≤ src := by exact_mod_cast h0
    nlinarith
  have hle : ∀ n : Nat, n ≤ l → dst * n ≤ 2 ^ 51 := fun n hn =>
    le_trans (Nat.mul_le_mul_left _ hn) hN.le
  have hnn : ∀ n : Nat, 0 ≤ binary64.rnd (r * n) := fun n =>
    rnd_nonneg (mul_nonneg (rnd_nonneg (by positivity)) (by positivity))
  -- size of the error
  have herr : ∀ n : Nat, n ≤ l → binary64.rnd (r * n) < (dst * n : ℚ) / src + 1 / src := by
    intro n hn
    obtain ⟨_, _, _, _, h5⟩ := hpos n (hle n hn)
    have h6 : (dst * n : ℚ) / src * (1 + 1 / 2 ^ 53) ^ 2 = (dst * n : ℚ) / src + (dst * n) * (2 / 2 ^ 53 + 1 / 2 ^ 106) / src := by
      field_simp; ring
    rw [h6] at h5
    refine lt_of_le_of_lt h5 ?_
    have h7 : ((dst:ℚ) * n) * (2 / 2 ^ 53 + 1 / 2 ^ 106) < 1 := by
      have : (dst:ℚ) * n ≤ 2 ^ 51 := by exact_mod_cast hle n hn
      nlinarith
    gcongr
  have hto : ∀ (x : F64) (n : Nat), n ≤ l → x.Is (binary64.rnd (r * n)) →
      ∀ m : Nat, m ≤ x.toUsize ↔ (m:ℚ) ≤ binary64.rnd (r * n) := by
    intro x n hn hx m
    have hlt : binary64.rnd (r * n) < 2 ^ 64 := by
      have h1 := herr n hn
      have : (dst * n : ℚ) / src ≤ (dst * l : ℚ) / src := by gcongr
      have h2 : (1:ℚ) / src ≤ 1 := by rw [div_le_one hsq]; exact_mod_cast h0
      linarith
    rw [toUsize_is hx (hnn n) hlt, Int.le_toNat (Int.floor_nonneg.mpr (hnn n)), Int.le_floor, Int.cast_natCast]
  set m := ⌈(dst * l : ℚ) / src⌉₊ with hm
  have hmge : (dst * l : ℚ) / src ≤ m := Nat.le_ceil _
  constructor
  · rintro ⟨n, off, ⟨t1, t2, t3⟩, rfl, hfr, hge⟩
    have hnl := t2 l rfl
    obtain ⟨p1, p2, p3, p4, p5⟩ := hpos n (hle n hnl)
    rw [hto _ n hnl p3] at hge
    have hup := herr n hnl
    have hmono : (dst * n : ℚ) / src ≤ (dst * l : ℚ) / src := by gcongr
    -- the resampled length is whole
    have hdvd : src ∣ dst * l := by
      by_contra hnd
      have : (dst * l : ℚ) / src + 1 / src ≤ m := by
        rw [← add_div, div_le_iff₀ hsq]
        rw [div_le_iff₀ hsq] at hmge
        have h1 : dst * l ≤ m * src := by exact_mod_cast hmge
        have h2 : dst * l ≠ m * src := fun h => hnd ⟨m, by rw [h]; ring⟩
        have h3 : dst * l + 1 ≤ m * src := by omega
        exact_mod_cast h3
      linarith
    have hmeq : (m:ℚ) = (dst * l : ℚ) / src := by
      obtain ⟨x, hx⟩ := hdvd
      have hx' : (dst * l : ℚ) / src = (x:ℕ) := by
        rw [div_eq_iff hsq.ne']; exact_mod_cast (by rw [hx]; ring)
      rw [hm, hx', Nat.ceil_natCast]
    -- all frames were taken
    have hn : n = l := by
      by_contra hne
      have h1 : n + 1 ≤ l := by omega
      have h2 : (dst * n : ℚ) / src + 1 / src ≤ (dst * l : ℚ) / src := by
        rw [← add_div]
        have h3 : dst * n + 1 ≤ dst * l := by nlinarith
        have h4 : (dst * n + 1 : ℚ) ≤ dst * l := by exact_mod_cast h3
        gcongr
      linarith
    subst hn
    refine ⟨hdvd, ?_⟩
    obtain ⟨x, hx, hlt⟩ := hfr
    cases hx.unique p3
    have hfl : ⌊binary64.rnd (r * n)⌋ = (m:ℤ) := by
      rw [Int.floor_eq_iff]
      have h2 : (1:ℚ) / src ≤ 1 := by rw [div_le_one hsq]; exact_mod_cast h0
      push_cast
      constructor <;> linarith
    rw [truncQ_nonneg (hnn n), hfl, Int.cast_natCast, abs_of_nonneg (by linarith)] at hlt
    rw [← hmeq]; linarith
  · rintro ⟨hdvd, hlt⟩
    have hmeq : (m:ℚ) = (dst * l : ℚ) / src := by
      obtain ⟨x, hx⟩ := hdvd
      have hx' : (dst * l : ℚ) / src = (x:ℕ) := by
        rw [div_eq_iff hsq.ne']; exact_mod_cast (by rw [hx]; ring)
      rw [hm, hx', Nat.ceil_natCast]
    have heps := two_zpow_pos (-52)
    obtain ⟨p1, p2, p3, p4, p5⟩ := hpos l (hle l le_rfl)
    have hmle : m ≤ ((ratioOf a.rate (some sr)).mul (f64OfUsize l)).toUsize := by
      rw [hto _ l le_rfl p1]; linarith
    refine ⟨l, _, ⟨fun j hj => ?_, fun x hx => by cases hx; exact le_rfl, .inl rfl⟩, rfl, ?_, ?_⟩
    · have hjm : (posOf (ratioOf a.rate (some sr)) (lit 0) j).toUsize < m := by
        obtain ⟨q1, q2, q3, q4, q5⟩ := hpos j (hle j hj.le)
        rw [← not_le, hto _ j hj.le q2, not_le]
        refine lt_of_lt_of_le (herr j hj.le) ?_
        rw [hmeq, ← add_div]
        have h3 : dst * j + 1 ≤ dst * l := by nlinarith
        have h4 : (dst * j + 1 : ℚ) ≤ dst * l := by exact_mod_cast h3
        gcongr
      exact ⟨hjm, fun x hx => by cases hx; omega⟩
    · refine ⟨_, p3, ?_⟩
      have hfl : ⌊binary64.rnd (r * l)⌋ = (m:ℤ) := by
        rw [Int.floor_eq_iff]
        have h2 : (1:ℚ) / src ≤ 1 := by rw [div_le_one hsq]; exact_mod_cast h0
        have := herr l le_rfl
        push_cast
        constructor <;> linarith
      rw [truncQ_nonneg (hnn l), hfl, Int.cast_natCast, abs_of_nonneg (by linarith)]
      rw [lt_sub_iff_add_lt', hmeq]; exact hlt
    · rw [hto _ l le_rfl p3]; linarith

example := C51_int (exAudio 29) (.audio (k := .mono) (c := .ch8) ⟨lit 7, List.replicate 7 #v[1#8]⟩) (lit 7) 29 7 7 rfl
  (by decide +kernel) (by decide +kernel) rfl (by norm_num) (by norm_num) (by norm_num) (by norm_num) (by norm_num)
  rfl rfl rfl (by decide +kernel)

/-- C51: no panic if the resampled length is not whole, or if the quotient of the rates is a float (for example, if it
is whole).  Missing: the whole lengths at other rates, where it may panic (`C51_int`, `C51_false`). -/
theorem C51_partial (a : Audio k c) (st : Src k' c') (sr : F64) (dst src l : Nat) (hl : st.len = some l)
    (hr : a.rate.Is (dst:ℚ)) (hs : sr.Is (src:ℚ)) (hsr : st.rate = some sr) (h0 : 0 < src) (hd0 : 0 < dst)
    (hs' : src ≤ 2 ^ 51) (hd' : dst ≤ 2 ^ 51) (hN : dst * l < 2 ^ 51)
    (hk : k.builtin = true) (hk' : k'.builtin = true) (hsafe : st.safe = true)
    (hf : a.Fits ⌈(dst * l : ℚ) / src⌉₊) (h : ¬ src ∣ dst * l ∨ binary64.Rep ((dst:ℚ) / src)) :
    ∃ it, (a.extend st).2 = .ok it := by
  have hiff := C51_int a st sr dst src l hl hr hs hsr h0 hd0 hs' hd' hN hk hk' hsafe hf
  cases he : (a.extend st).2 with
  | ok it => exact ⟨it, rfl⟩
  | error e =>
    exfalso
    obtain ⟨h1, h2⟩ := hiff.mp ⟨e, he⟩
    rcases h with h | h
    · exact h h1
    · have hsq : (0:ℚ) < src := by exact_mod_cast h0
      obtain ⟨x, hx⟩ := h1
      have hxq : (dst:ℚ) * l = src * x := by exact_mod_cast hx
      have hx51 : x ≤ 2 ^ 53 := by
        have : x ≤ src * x := Nat.le_mul_of_pos_left x h0
        omega
      have e1 : (dst:ℚ) / src * l = x := by rw [div_mul_eq_mul_div, hxq, mul_div_cancel_left₀ _ hsq.ne']
      have e2 : (dst:ℚ) * l / src = x := by rw [hxq, mul_div_cancel_left₀ _ hsq.ne']
      rw [rnd_of_rep h, e1, e2, rnd_of_rep (rep_nat53 hx51)] at h2
      have := two_zpow_pos (-52)
      linarith

example := C51_partial (exAudio 29) (.audio (exAudio 7)) (lit 7) 29 7 5 rfl (by decide +kernel) (by decide +kernel) rfl
  (by norm_num) (by norm_num) (by norm_num) (by norm_num) (by norm_num) rfl rfl rfl (by decide +kernel) (.inl (by decide))

/-- C51 fails: from 44100 Hz to 48000 Hz, 147 frames (a 300th of a second), whatever they contain and whatever they
are appended to. -/
theorem C51_false (a : Audio k c) (x : Audio k' c') (hk : k.builtin = true) (hk' : k'.builtin = true)
    (ha : a.rate.Is 48000) (hx : x.rate.Is 44100) (hl : x.len = 147) (hf : a.Fits 160) :
    ∃ e, (a.extend (.audio x)).2 = .error e := by
  have e : ((48000:Nat) * (147:Nat) : ℚ) / (44100:Nat) = (160:Nat) := by norm_num
  refine (C51_int a (.audio x) x.rate 48000 44100 147 (congrArg some hl) (by exact_mod_cast ha) (by exact_mod_cast hx) rfl
    (by norm_num) (by norm_num) (by norm_num) (by norm_num) (by norm_num) hk hk' rfl
    (by rw [e, Nat.ceil_natCast]; exact hf)).mpr ⟨by decide, ?_⟩
  decide +kernel

example := C51_false (exAudio 48000) (⟨lit 44100, List.replicate 147 #v[1#8]⟩ : Audio .mono .ch8) rfl rfl
  (by decide +kernel) (by decide +kernel) rfl (by decide +kernel)

/-- The same as a run of the model. -/
example : (Audio.withStream (lit 29) (.audio (k := .mono) (c := .ch8) ⟨lit 7, List.replicate 7 #v[1#8]⟩) :
    R (Audio .mono .ch8)).map (·.len) = .error .bounds := by decide +kernel
example : ¬ 44100 ∣ 48000 * 100 ∧ binary64.Rep ((96000:Nat) / (48000:Nat) : ℚ) := by
  refine ⟨by decide, ?_⟩
  have : ((96000:Nat) / (48000:Nat) : ℚ) = (2:Nat) := by norm_num
  rw [this]; exact rep_nat53 (by norm_num)

/-! ## C52 -/

/-- C52: an infinite stream panics; the buffer is left empty, with sample rate 0. -/
theorem C52_actual (a : Audio k c) (st : Src k' c') (h : st.len = none) :
    a.extend st = (⟨lit 0, []⟩, .error .unwrapNone) := by
  unfold Audio.extend Audio.extendInternal
  rw [h]; rfl

example := C52_actual (exAudio 8) (.frame (k := .stereo) (c := .ch16) #v[4#16, 6#16]) rfl

/-- So it is with any panic. -/
theorem C52_any (a : Audio k c) (st : Src k' c') (e : Panic) (h : (a.extend st).2 = .error e) :
    (a.extend st).1 = ⟨lit 0, []⟩ := by
  unfold Audio.extend at *
  cases he : a.extendInternal st with
  | ok p => rw [he] at h; cases h
  | error e => rfl

example := C52_any (exAudio 29) (.audio (k := .mono) (c := .ch8) ⟨lit 7, List.replicate 7 #v[1#8]⟩) _
  (R.panics (x := ((exAudio 29).extend (.audio (k := .mono) (c := .ch8) ⟨lit 7, List.replicate 7 #v[1#8]⟩)).2)
    (by decide +kernel))

/-- C52 is false for every buffer that is not empty. -/
theorem C52_false (a : Audio k c) (st : Src k' c') (h : st.len = none) (ha : 0 < a.len) :
    (a.extend st).1.len ≠ a.len ∧ (a.extend st).1.get 0 ≠ a.get 0 := by
  rw [C52_actual a st h]
  refine ⟨by simp only [Audio.len, List.length_nil] at *; omega, ?_⟩
  simp only [Audio.get, Audio.len] at *
  rw [List.getElem?_eq_getElem ha]; simp

example := C52_false (exAudio 8) (.frame (k := .stereo) (c := .ch16) #v[4#16, 6#16]) rfl (by decide)

example : (Src.frame #v[3#8] : Src .mono .ch8).len = none ∧ 0 < (exAudio 8).len ∧
    ((exAudio 8).extend (Src.frame #v[3#8] : Src .mono .ch8)).1.frames = [] := by decide +kernel

/-! ## C53 -/

theorem size_pos (c : ChTy) : 0 < c.size := by cases c <;> decide

theorem withBuffer_eq (rate : F64) (xs : List c.T) (hk : 0 < k.chans) :
    Audio.withBuffer k c rate xs = if k.chans ∣ xs.length then .ok ⟨rate, Audio.chunk k c xs (xs.length / k.chans)⟩
      else .error .assert := by
  have hs := size_pos c
  unfold Audio.withBuffer
  have e0 : k.size c ≠ 0 := (Nat.mul_pos hk hs).ne'
  have e1 : xs.length * c.size / k.size c = xs.length / k.chans := Nat.mul_div_mul_right _ _ hs
  have e2 : xs.length * c.size % k.size c = xs.length % k.chans * c.size := Nat.mul_mod_mul_right _ _ _
  simp only
  rw [if_neg e0, e1, e2]
  by_cases h : k.chans ∣ xs.length
  · rw [if_pos h, if_neg (by simp [Nat.mod_eq_zero_of_dvd h])]
  · rw [if_neg h, if_pos]
    intro h'
    rcases Nat.mul_eq_zero.mp h' with h' | h'
    · exact h (Nat.dvd_of_mod_eq_zero h')
    · omega

/-- C53: panics exactly if the number of samples is not a multiple of the number of channels. -/
theorem C53_panics_iff (rate : F64) (xs : List c.T) (hk : 0 < k.chans) :
    (∃ e, Audio.withBuffer k c rate xs = .error e) ↔ ¬ k.chans ∣ xs.length := by
  rw [withBuffer_eq rate xs hk]
  by_cases h : k.chans ∣ xs.length
  · rw [if_pos h]; simp [h]
  · rw [if_neg h]; simp [h]

example := C53_panics_iff (k := .stereo) (c := .ch16) (lit 8) [1#16, 2#16, 3#16] (by decide)

/-- C53: interleaved frames. -/
theorem C53_frames (rate : F64) (xs : List c.T) (hk : 0 < k.chans) (a : Audio k c)
    (h : Audio.withBuffer k c rate xs = .ok a) :
    a.sampleRate = rate ∧ a.len * k.chans = xs.length ∧
    ∀ f (hf : f < a.len), ∃ fr, a.get f = some fr ∧ ∀ j (hj : j < k.chans), some fr[j] = xs[f * k.chans + j]? := by
  rw [withBuffer_eq rate xs hk] at h
  by_cases hd : k.chans ∣ xs.length
  · rw [if_pos hd] at h
    cases h
    have hlen : (Audio.mk rate (Audio.chunk k c xs (xs.length / k.chans))).len = xs.length / k.chans := by
      simp [Audio.len, Audio.chunk]
    have hmul := Nat.div_mul_cancel hd
    refine ⟨rfl, by rw [hlen, hmul], fun f hf => ?_⟩
    rw [hlen] at hf
    refine ⟨Vector.ofFn fun j => (xs[f * k.chans + j.val]?).getD c.dflt, by
      simp only [Audio.get, Audio.chunk, List.getElem?_map, List.getElem?_range hf, Option.map_some], fun j hj => ?_⟩
    have : f * k.chans + j < xs.length := by
      have : (f + 1) * k.chans ≤ xs.length / k.chans * k.chans := Nat.mul_le_mul_right _ hf
      rw [hmul] at this
      have e : (f + 1) * k.chans = f * k.chans + k.chans := by ring
      omega
    simp [this]
  · rw [if_neg hd] at h; cases h

example := C53_frames (k := .stereo) (c := .ch16) (lit 8) [1#16, 2#16, 3#16, 4#16] (by decide) _
  (R.returns (x := Audio.withBuffer .stereo .ch16 (lit 8) [1#16, 2#16, 3#16, 4#16]) (by decide +kernel))

theorem flatMap_get {n : Nat} {α : Type} (l : List (Vector α n)) (f j : Nat) (hj : j < n) :
    (l.flatMap (·.toList))[f * n + j]? = l[f]?.map (fun v => v[j]) := by
  induction l generalizing f with
  | nil => simp
  | cons v l ih =>
    rw [List.flatMap_cons]
    cases f with
    | zero =>
      rw [List.getElem?_append_left (by simp; omega)]
      simp [hj]
    | succ f =>
      rw [List.getElem?_append_right (by simp; nlinarith)]
      rw [show (f + 1) * n + j - v.toList.length = f * n + j by
        simp only [Vector.length_toList]
        have : (f + 1) * n = f * n + n := by ring
        omega, ih f]
      simp

/-- C53: the views of the samples are the samples in order. -/
theorem C53_samples (a : Audio k c) (f j : Nat) (hj : j < k.chans) :
    a.asSamples[f * k.chans + j]? = (a.get f).map (fun fr => fr[j]) ∧
    a.asSamples.length = a.len * k.chans := by
  refine ⟨flatMap_get a.frames f j hj, ?_⟩
  simp only [Audio.asSamples, Audio.len]
  generalize a.frames = l
  induction l with
  | nil => simp
  | cons v l ih =>
    rw [List.flatMap_cons, List.length_append, ih]
    simp only [Vector.length_toList, List.length_cons]; ring

example := C53_samples (⟨lit 8, [#v[1#16, 2#16], #v[3#16, 4#16]]⟩ : Audio .stereo .ch16) 1 1 (by decide)

/-- C53: the samples come back as they were. -/
theorem C53_back (rate : F64) (xs : List c.T) (hk : 0 < k.chans) (a : Audio k c)
    (h : Audio.withBuffer k c rate xs = .ok a) : a.asSamples = xs := by
  obtain ⟨_, h2, h3⟩ := C53_frames rate xs hk a h
  have hlen : a.asSamples.length = xs.length := by rw [(C53_samples a 0 0 hk).2, h2]
  apply List.ext_getElem?
  intro i
  by_cases hi : i < xs.length
  · have hf : i / k.chans < a.len := by rw [Nat.div_lt_iff_lt_mul hk, h2]; exact hi
    have hj := Nat.mod_lt i hk
    obtain ⟨fr, e1, e2⟩ := h3 _ hf
    have := (C53_samples a (i / k.chans) (i % k.chans) hj).1
    rw [Nat.div_add_mod', e1] at this
    rw [this, Option.map_some, e2 _ hj, Nat.div_add_mod']
  · rw [List.getElem?_eq_none (by omega), List.getElem?_eq_none (by omega)]

example := C53_back (k := .stereo) (c := .ch16) (lit 8) [1#16, 2#16, 3#16, 4#16] (by decide) _
  (R.returns (x := Audio.withBuffer .stereo .ch16 (lit 8) [1#16, 2#16, 3#16, 4#16]) (by decide +kernel))

/-- C53: and the frames too. -/
theorem C53_forth (a : Audio k c) (hk : 0 < k.chans) : Audio.withBuffer k c a.rate a.asSamples = .ok a := by
  have hd : k.chans ∣ a.asSamples.length := by
    rw [(C53_samples a 0 0 hk).2]; exact Nat.dvd_mul_left _ _
  have he := withBuffer_eq (k := k) a.rate a.asSamples hk
  rw [if_pos hd] at he
  rw [he]
  have hlen : a.asSamples.length / k.chans = a.frames.length := by
    rw [(C53_samples a 0 0 hk).2]; exact Nat.mul_div_cancel _ hk
  congr 1
  obtain ⟨r, fs⟩ := a
  congr 1
  apply List.ext_getElem?
  intro i
  rw [hlen]
  by_cases hi : i < fs.length
  · simp only [Audio.chunk, List.getElem?_map, List.getElem?_range hi, Option.map_some, List.getElem?_eq_getElem hi]
    congr 1
    ext j hj
    have := (C53_samples (⟨r, fs⟩ : Audio k c) i j hj).1
    simp only [Audio.get, List.getElem?_eq_getElem hi, Option.map_some] at this
    simp [this]
  · rw [List.getElem?_eq_none (by simp [Audio.chunk]; omega), List.getElem?_eq_none (by omega)]

example := C53_forth (⟨lit 8, [#v[1#16, 2#16], #v[3#16, 4#16]]⟩ : Audio .stereo .ch16) (by decide)

example : (Audio.withBuffer .stereo .ch16 (lit 8) [1#16, 2#16, 3#16, 4#16]).map (·.frames) =
    .ok [#v[1#16, 2#16], #v[3#16, 4#16]] ∧
    (Audio.withBuffer .stereo .ch16 (lit 8) [1#16, 2#16, 3#16]).map (·.frames) = .error .assert := by decide +kernel

/-! ## C60 -/

/-- C60: an audio made from raw samples is in range exactly if the samples were. -/
theorem C60_iff (rate : F64) (xs : List c.T) (hk : 0 < k.chans) (a : Audio k c)
    (h : Audio.withBuffer k c rate xs = .ok a) :
    (∀ fr ∈ a.frames, fr.InRange) ↔ ∀ x ∈ xs, Valid c x := by
  obtain ⟨_, h2, h3⟩ := C53_frames rate xs hk a h
  constructor
  · intro hr x hx
    obtain ⟨i, hi, rfl⟩ := List.mem_iff_getElem.mp hx
    have hf : i / k.chans < a.len := by rw [Nat.div_lt_iff_lt_mul hk, h2]; exact hi
    obtain ⟨fr, e1, e2⟩ := h3 _ hf
    have := e2 _ (Nat.mod_lt i hk)
    rw [Nat.div_add_mod', List.getElem?_eq_getElem hi] at this
    rw [← Option.some.inj this]
    exact (frame_inRange_iff fr).mp (hr fr (List.mem_of_getElem? e1)) _ _
  · intro hr fr hfr
    rw [frame_inRange_iff]
    intro j hj
    obtain ⟨f, hf, e⟩ := List.mem_iff_getElem.mp hfr
    obtain ⟨fr', e1, e2⟩ := h3 f hf
    have : fr' = fr := by
      simp only [Audio.get, List.getElem?_eq_getElem hf, Option.some.injEq] at e1
      rw [← e1, e]
    subst this
    exact hr _ (List.mem_of_getElem? (e2 j hj).symm)

/-- C60 is false: a raw `f32` buffer may contain 2, and the audio has a sample out of range. -/
theorem C60_false : ∃ (a : Audio .mono .ch32), Audio.withBuffer .mono .ch32 (lit 8) [lit 2] = .ok a ∧
    ∃ fr ∈ a.frames, ¬ fr.InRange := by
  have h := withBuffer_eq (k := .mono) (c := .ch32) (lit 8) [lit 2] (by decide)
  rw [if_pos (by decide)] at h
  refine ⟨_, h, ?_⟩
  have := (C60_iff _ _ (by decide) _ h).not
  simp only [not_forall] at this
  obtain ⟨fr, h1, h2⟩ := this.mpr ⟨lit 2, by simp, fun hr => by
    obtain ⟨q, hq, _, h2⟩ := hr
    have h2' : (lit 2 : F32).Is 2 := is_lit (by
      have := rep_int (f := binary32) (n := 2) (by decide)
      exact_mod_cast this)
    cases hq.unique h2'
    norm_num at h2⟩
  exact ⟨fr, h1, h2⟩

/-- Samples in range stay so. -/
example : ∃ a, Audio.withBuffer .stereo .ch32 (lit 8) [lit 1, lit (-1)] = .ok a ∧ ∀ fr ∈ a.frames, fr.InRange := by
  have h := withBuffer_eq (k := .stereo) (c := .ch32) (lit 8) [lit 1, lit (-1)] (by decide)
  rw [if_pos (by decide)] at h
  refine ⟨_, h, (C60_iff _ _ (by decide) _ h).mpr ?_⟩
  intro x hx
  simp only [List.mem_cons, List.not_mem_nil, or_false] at hx
  rcases hx with rfl | rfl
  · exact inRange_one
  · exact inRange_neg_one

end Fon
