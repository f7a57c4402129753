import Verif.Props.Const

/-!
# C78: upsampling by a whole factor
-/

namespace Fon
open Fmt Fl Sink
variable {k k' : Kind} {c c' : ChTy}

theorem boosted_float {f : Fmt} [Std f] {x u z : Fl f} {N : Nat} (hN : N ≤ 2 ^ 24) (hu : u.Is (N:ℚ)) (hz : z.Is 0) {p : ℚ}
    (hx : x.Is p) (hp : |p| ≤ 1) :
    (ChF.add (ChF.add (lit 0) (ChF.mul x u)) (ChF.mul x z)).Is (clampQ (f.rnd (p * N))) := by
  have hN' : (N:ℚ) ≤ 2 ^ 24 := by exact_mod_cast hN
  have hm : |f.rnd (p * N)| ≤ f.maxF := small (by
    rw [abs_mul, Nat.abs_cast]
    calc |p| * N ≤ 1 * 2 ^ 24 := mul_le_mul hp hN' (by positivity) (by norm_num)
      _ ≤ 2 ^ 100 := by norm_num)
  have h1 := hx.mul hu hm
  have h2 : (Fl.add (lit 0) (x.mul u)).Is (f.rnd (p * N)) := by
    have e : f.rnd (0 + f.rnd (p * N)) = f.rnd (p * N) := by rw [zero_add]; exact rnd_of_rep h1.rep
    have := (is_zero (f := f)).add h1 (by rw [e]; exact hm)
    rwa [e] at this
  have h3 := clamp1_is h2
  have h4 := clamp1_is (add_zero' h3 (mul_zero' hx hz))
  rwa [clampQ_of_range (clampQ_range _).1 (clampQ_range _).2] at h4

theorem boosted_unit (x : c.T) {u z : F64} {N : Nat} (h1 : 1 ≤ N) (hN : N ≤ 2 ^ 24) (hu : u.Is (N:ℚ)) (hz : z.Is 0) :
    Boosted N c x (c.add (c.add c.dflt (c.mul x (c.ofF64 u))) (c.mul x (c.ofF64 z))) := by
  have hN1 : (1:ℚ) ≤ N := by exact_mod_cast h1
  have hc : (clamp1 u).Is 1 := by
    have := clamp1_is hu
    rwa [show clampQ (N:ℚ) = 1 by simp only [clampQ, max_def, min_def]; split_ifs <;> linarith] at this
  cases c with
  | ch8 =>
    have := arrives_unit (c := .ch8) x hc hz
    have e : ChTy.ch8.ofF64 (clamp1 u) = ChTy.ch8.ofF64 u := by
      rw [(ofF64_one_zero hc hz).1]
      apply BitVec.eq_of_toInt_eq
      rw [ofF64_ch8_is hu, show clampQ (N:ℚ) = 1 by simp only [clampQ, max_def, min_def]; split_ifs <;> linarith]
      decide +kernel
    rw [e] at this; exact this
  | ch16 =>
    have := arrives_unit (c := .ch16) x hc hz
    have e : ChTy.ch16.ofF64 (clamp1 u) = ChTy.ch16.ofF64 u := by
      rw [(ofF64_one_zero hc hz).2.2.1]
      apply BitVec.eq_of_toInt_eq
      rw [ofF64_ch16_is hu, show clampQ (N:ℚ) = 1 by simp only [clampQ, max_def, min_def]; split_ifs <;> linarith]
      decide +kernel
    rw [e] at this; exact this
  | ch32 =>
    intro p hx hp
    have hr : binary32.Rep (N:ℚ) := by
      rcases Nat.lt_or_eq_of_le hN with h | rfl
      · have := rep_int (f := binary32) (n := N) (by rw [abs_of_nonneg (by omega)]; exact_mod_cast h)
        simpa using this
      · exact rep_dyadic 1 24 (by norm_num) (by decide) (by decide) (by decide)
    have hu' : (Fl.cast binary32 u).Is (N:ℚ) := by
      have := hu.cast binary32 (by rw [rnd_of_rep hr]; exact hr.le_maxF)
      rwa [rnd_of_rep hr] at this
    have hz' : (Fl.cast binary32 z).Is 0 := by
      have := hz.cast binary32 (by rw [rnd_zero]; simpa using maxF_pos.le)
      rwa [rnd_zero] at this
    exact boosted_float hN hu' hz' hx hp
  | ch64 =>
    intro p hx hp
    exact boosted_float hN hu hz hx hp

section
variable {q : F64} {N : Nat}

theorem posOf_int (hq : q.Is (N:ℚ)) {i : Nat} (hi : i ≤ 2 ^ 53) (h : N * i ≤ 2 ^ 53) :
    (posOf q (lit 0) i).Is ((N * i : Nat) : ℚ) := by
  have h1 : (q.mul (f64OfUsize i)).Is ((N * i : Nat) : ℚ) := by
    have e : binary64.rnd ((N:ℚ) * i) = ((N * i : Nat) : ℚ) := by push_cast; exact_mod_cast rnd_of_rep (rep_nat53 h)
    have := hq.mul (is_usize hi) (by rw [e]; exact (rep_nat53 h).le_maxF)
    rwa [e] at this
  exact add_zero' h1 is_zero

theorem hiWeight_int (hq : q.Is (N:ℚ)) {i : Nat} (hi : i ≤ 2 ^ 53) (h : N * i ≤ 2 ^ 53) : (hiWeight q (lit 0) i).Is 0 := by
  have hr := (posOf_int hq hi h).rem_one (by positivity)
  rw [Int.floor_natCast, Int.cast_natCast, sub_self] at hr
  have := hr.min hq
  rwa [min_eq_left (by positivity)] at this

theorem loWeight_int (hq : q.Is (N:ℚ)) {i : Nat} (hi : i ≤ 2 ^ 53) (h : N * i ≤ 2 ^ 53) :
    (loWeight q (lit 0) i).Is (N:ℚ) := by
  have e : binary64.rnd ((N:ℚ) - 0) = N := by rw [sub_zero]; exact rnd_of_rep hq.rep
  have := hq.sub (hiWeight_int hq hi h) (by rw [e]; exact hq.rep.le_maxF)
  rwa [e] at this

theorem hiSlot_int {x : F64} {n : Nat} (h : x.Is (n:ℚ)) : hiSlot x = x.toUsize := by
  unfold hiSlot
  rw [if_neg]
  rintro ⟨p, hp, hlt⟩
  rw [hp.unique h, truncQ_nonneg (by positivity), Int.floor_natCast, Int.cast_natCast, sub_self] at hlt
  exact absurd hlt (not_lt.mpr (two_zpow_pos _).le)

/-- The slots after `n` frames. -/
theorem mixed_int (hq : q.Is (N:ℚ)) (h1 : 1 ≤ N) (g : Nat → Frame k c) (s n : Nat) (hn : ∀ j, j < n → N * j ≤ 2 ^ 53)
    (b : Frame k c) :
    mixed q (lit 0) g s n b = if N ∣ s ∧ s / N < n then
      (b.add ((g (s / N)).mul (Frame.ofF64 (loWeight q (lit 0) (s / N))))).add
        ((g (s / N)).mul (Frame.ofF64 (hiWeight q (lit 0) (s / N)))) else b := by
  induction n with
  | zero => simp [mixed]
  | succ n ih =>
    have hN := hn n (by omega)
    have hn' : n ≤ 2 ^ 53 := le_trans (Nat.le_mul_of_pos_left n h1) hN
    have hp := posOf_int hq hn' hN
    have ht : (posOf q (lit 0) n).toUsize = N * n := toUsize_nat hp (by omega)
    simp only [mixed]
    rw [ih (fun j hj => hn j (by omega)), hiSlot_int hp, ht]
    by_cases hs : N * n = s
    · subst hs
      have hd : N * n / N = n := Nat.mul_div_cancel_left n h1
      rw [if_pos rfl, if_pos rfl, hd, if_neg (by omega), if_pos ⟨Nat.dvd_mul_right _ _, by omega⟩]
    · rw [if_neg hs, if_neg hs]
      by_cases hc : N ∣ s ∧ s / N < n
      · rw [if_pos hc, if_pos ⟨hc.1, by omega⟩]
      · rw [if_neg hc, if_neg]
        rintro ⟨⟨m, rfl⟩, h2⟩
        rw [Nat.mul_div_cancel_left m h1] at h2 hc
        exact hc ⟨Nat.dvd_mul_right _ _, by
          rcases Nat.lt_or_eq_of_le (Nat.lt_succ_iff.mp h2) with h | h
          · exact h
          · subst h; exact absurd rfl hs⟩

end

/-- What upsampling by a whole factor `N` does: every `N`-th slot of the destination range gets a source frame,
multiplied by `N` in the float formats, and the slots between are silent. -/
theorem C78_actual (fuel N : Nat) (s s' : Sink k c) (st : Src k' c') (it : It k' c')
    (h : s.stream fuel st = .ok (s', it)) (ho : s.res.offseti = lit 0) (hq : (ratioOf s.rate st.rate).Is (N:ℚ))
    (h1 : 1 ≤ N) (hN : N ≤ 2 ^ 24) (hb : s.buf.length ≤ 2 ^ 52) (x : Nat)
    (hx : InDst (ratioOf s.rate st.rate) st.len s.buf.length x) :
    ∃ y, s'.buf[x]? = some y ∧ (¬ N ∣ x → y = Frame.dflt) ∧
      (N ∣ x → ∃ (src : Frame k' c') (f : Frame k c), st.nth (x / N) = .ok (some src) ∧ src.convert c = .ok f ∧
        ∀ i (hi : i < k.chans), Boosted N c f[i] y[i]) := by
  obtain ⟨n, g, a1, a2, a3, _⟩ := C58_mix fuel s s' st it h
  rw [ho] at a1 a3
  generalize ratioOf s.rate st.rate = q at *
  have down : ∀ i j, InDst q st.len s.buf.length j → i ≤ j → InDst q st.len s.buf.length i := fun i j hj hij =>
    ⟨lt_of_le_of_lt hij hj.1, fun l hl => lt_of_le_of_lt hij (hj.2 l hl)⟩
  have key : ∀ j, j < n → N * j < s.buf.length := by
    intro j hj
    by_contra hc
    push Not at hc
    obtain ⟨m, hm1, hm2, hm3⟩ : ∃ m, m ≤ j ∧ s.buf.length ≤ N * m ∧ N * m ≤ 2 ^ 53 := by
      refine ⟨(s.buf.length + N - 1) / N, ?_, ?_, ?_⟩
      · rw [Nat.div_le_iff_le_mul_add_pred (by omega)]; omega
      · have := Nat.lt_div_mul_add (a := s.buf.length + N - 1) (b := N) (by omega)
        rw [Nat.mul_comm]; omega
      · have := Nat.mul_div_le (s.buf.length + N - 1) N; omega
    have hm4 : m ≤ 2 ^ 53 := le_trans (Nat.le_mul_of_pos_left m h1) hm3
    have := (a1.1 m (by omega)).1
    rw [toUsize_nat (posOf_int hq hm4 hm3) (by omega)] at this
    omega
  have key' : ∀ j, j < n → N * j ≤ 2 ^ 53 := fun j hj => by have := key j hj; omega
  have hex := a3 x hx
  rw [mixed_int hq h1 g x n key'] at hex
  refine ⟨_, hex, fun hd => if_neg (fun hh => hd hh.1), fun hd => ?_⟩
  have hxn : x / N < n := by
    by_contra hc
    push Not at hc
    have hle : N * n ≤ x := by
      have := Nat.mul_le_mul_left N hc
      rwa [Nat.mul_div_cancel' hd] at this
    have hxb := hx.1
    have hn53 : n ≤ 2 ^ 53 := by
      have := Nat.le_mul_of_pos_left n h1; omega
    have hp : (posOf q (lit 0) n).toUsize = N * n := toUsize_nat (posOf_int hq hn53 (by omega)) (by omega)
    rcases a1.2.2 with hl | hl
    · have := hx.2 n hl
      have e : binary64.rnd ((N:ℚ) * n) = ((N * n : Nat) : ℚ) := by
        push_cast; exact_mod_cast rnd_of_rep (rep_nat53 (n := N * n) (by omega))
      have hm := hq.mul (is_usize hn53) (by rw [e]; exact (rep_nat53 (by omega)).le_maxF)
      rw [e] at hm
      rw [toUsize_nat hm (by omega)] at this
      omega
    · rw [hp] at hl
      exact hl (down _ _ hx hle)
  obtain ⟨src, e1, e2⟩ := a2 _ hxn
  refine ⟨src, _, e1, e2, fun i hi => ?_⟩
  have hk1 := key' _ hxn
  have hk2 : x / N ≤ 2 ^ 53 := le_trans (Nat.le_mul_of_pos_left _ h1) hk1
  have := boosted_unit (c := c) (g (x / N))[i] h1 hN (loWeight_int hq hk2 hk1) (hiWeight_int hq hk2 hk1)
  rw [if_pos ⟨hd, hxn⟩]
  simpa [Frame.add, Frame.mul, Frame.ofF64, Frame.dflt] using this

example := C78_actual 6 3 (exSink 15 24) _ (.audio (exAudio 8)) _
  (R.returns₂ (x := (exSink 15 24).stream 6 (.audio (exAudio 8))) (by decide +kernel)) rfl (by decide +kernel) (by decide)
  (by decide) (by decide +kernel) 6 (by decide +kernel)

/-- C78 holds for the source frames in the integer formats: they are found at every `N`-th slot.  It is false for the
slots between (`C78_false`). -/
theorem C78_partial (fuel N : Nat) (s s' : Sink k c) (st : Src k' c') (it : It k' c') (hc : c = .ch8 ∨ c = .ch16)
    (h : s.stream fuel st = .ok (s', it)) (ho : s.res.offseti = lit 0) (hq : (ratioOf s.rate st.rate).Is (N:ℚ))
    (h1 : 1 ≤ N) (hN : N ≤ 2 ^ 24) (hb : s.buf.length ≤ 2 ^ 52) (x : Nat)
    (hx : InDst (ratioOf s.rate st.rate) st.len s.buf.length (N * x)) :
    ∃ src f, st.nth x = .ok (some src) ∧ src.convert c = .ok f ∧ s'.buf[N * x]? = some f := by
  obtain ⟨y, e1, _, e2⟩ := C78_actual fuel N s s' st it h ho hq h1 hN hb (N * x) hx
  obtain ⟨src, f, g1, g2, g3⟩ := e2 (Nat.dvd_mul_right _ _)
  rw [Nat.mul_div_cancel_left x h1] at g1
  refine ⟨src, f, g1, g2, ?_⟩
  rw [e1]; congr 1
  apply Vector.ext
  intro i hi
  have := g3 i hi
  rcases hc with rfl | rfl <;> exact this

example := C78_partial 6 3 (exSink 15 24) _ (.audio (exAudio 8)) _ (.inl rfl)
  (R.returns₂ (x := (exSink 15 24).stream 6 (.audio (exAudio 8))) (by decide +kernel)) rfl (by decide +kernel) (by decide)
  (by decide) (by decide +kernel) 2 (by decide +kernel)

/-- C78 is false, by example: a constant signal upsampled by 3 has silence in the slots between, and in a float
format the source frames are found multiplied by 3 and clamped. -/
theorem C78_false :
    ((exSink 6 24).stream 9 (.audio (k := .mono) (c := .ch8) ⟨lit 8, [#v[100#8], #v[100#8]]⟩)).map
      (fun r => r.1.buf) = .ok [#v[100#8], #v[0#8], #v[0#8], #v[100#8], #v[0#8], #v[0#8]] ∧
    ((⟨lit 24, Resampler.dflt, List.replicate 6 #v[lit 0]⟩ : Sink .mono .ch64).stream 9
      (.audio (k := .mono) (c := .ch64) ⟨lit 8, [#v[lit 0.25], #v[lit 0.5]]⟩)).map (fun r => r.1.buf) =
      .ok [#v[lit 0.75], #v[lit 0], #v[lit 0], #v[lit 1], #v[lit 0], #v[lit 0]] := by
  constructor <;> decide +kernel

example : (ratioOf (lit 24) (some (lit 8))).Is ((3:Nat):ℚ) := by
  have h24 : (lit 24 : F64).Is 24 := is_lit (by exact_mod_cast rep_nat53 (n := 24) (by norm_num))
  have h8 : (lit 8 : F64).Is 8 := is_lit (by exact_mod_cast rep_nat53 (n := 8) (by norm_num))
  have h3 : binary64.rnd (24 / 8) = 3 := by
    rw [show (24 / 8 : ℚ) = ((3:Nat):ℚ) by norm_num]; exact_mod_cast rnd_of_rep (rep_nat53 (n := 3) (by norm_num))
  have := h24.div h8 (by norm_num) (small (by norm_num))
  rw [h3] at this; exact_mod_cast this

end Fon
