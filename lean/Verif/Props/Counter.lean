import Verif.Model.Counter
import Verif.Props.Sink

/-!
# The loop counter of `Sink::stream`
-/

namespace Fon
variable {k k' : Kind} {c c' : ChTy}
open Fl Sink Fmt

theorem loopC_agree (rel : Bool) (q : F64) (d : Nat) (sl : Option Nat) (fuel i : Nat) (s : Sink k c) (it : It k' c')
    (h : i + fuel < 2 ^ 64) : loopC rel q d sl fuel i s it = loop q d sl fuel i s it := by
  induction fuel generalizing i s it with
  | zero => rfl
  | succ fuel ih =>
    rw [loop, loopC, if_neg (by rintro ⟨_, h'⟩; omega), Nat.mod_eq_of_lt (by omega)]
    simp only [ih (i + 1) _ _ (by omega)]
    rfl

theorem loopC_fuel (rel : Bool) (q : F64) (d : Nat) (sl : Option Nat) (fuel i : Nat) (s : Sink k c) (it : It k' c')
    (h : loopC rel q d sl fuel i s it ≠ .error .outOfFuel) :
    loopC rel q d sl (fuel + 1) i s it = loopC rel q d sl fuel i s it := by
  induction fuel generalizing i s it with
  | zero => exact absurd rfl h
  | succ fuel ih =>
    rw [loopC] at h
    rw [loopC, loopC]
    split
    · rfl
    rename_i hov
    rw [if_neg hov] at h
    dsimp only at h ⊢
    rw [ceilUsize_ok] at h ⊢
    simp only at h ⊢
    split
    · rfl
    · rename_i hfl
      rw [if_neg hfl] at h
      split
      · rfl
      · rfl
      · rename_i src it' hn
        rw [hn] at h
        simp only at h ⊢
        split
        · rfl
        · rename_i x hx
          rw [hx] at h
          simp only at h ⊢
          split
          · rfl
          · rename_i b hb
            rw [hb] at h
            simp only at h
            split
            · rename_i hce
              rw [if_pos hce] at h
              split
              · rfl
              · rename_i b' hb'
                rw [hb'] at h
                exact ih _ _ _ h
            · rename_i hce
              rw [if_neg hce] at h
              exact ih _ _ _ h

/-- C119: a result does not depend on the bound on the number of iterations. -/
theorem C119_fuel (rel : Bool) (fuel m : Nat) (s : Sink k c) (st : Src k' c')
    (h : s.streamC rel fuel st ≠ .error .outOfFuel) : s.streamC rel (fuel + m) st = s.streamC rel fuel st := by
  induction m with
  | zero => rfl
  | succ m ih =>
    rw [← ih] at h ⊢
    unfold streamC at h ⊢
    cases hq : s.ratio st with
    | error e => rfl
    | ok p =>
      rw [hq] at h
      dsimp only at h ⊢
      rw [← Nat.add_assoc, loopC_fuel]
      intro he
      rw [he] at h
      exact h rfl

example (m : Nat) := C119_fuel true 6 m (exSink 3 8) (.audio (exAudio 12)) (by
  rw [R.returns (x := (exSink 3 8).streamC true 6 (.audio (exAudio 12))) (by decide +kernel)]; simp)

/-- C119: both builds do the same as the model without limit for the first `2^64 - 1` iterations. -/
theorem C119_agree (rel : Bool) (fuel : Nat) (s : Sink k c) (st : Src k' c') (h : fuel < 2 ^ 64) :
    s.streamC rel fuel st = s.stream fuel st := by
  unfold streamC Sink.stream
  simp only [loopC_agree rel _ _ _ fuel 0 _ _ (by omega : 0 + fuel < 2 ^ 64)]
  rfl

example := C119_agree false 6 (exSink 3 8) (.audio (exAudio 12)) (by norm_num)

/-- C119: streams of less than `2^64 - 1` frames do not make the counter overflow. -/
theorem C119_finite_partial (rel : Bool) (fuel l : Nat) (s : Sink k c) (st : Src k' c') (hl : st.len = some l)
    (hl' : l < 2 ^ 64 - 1) (hk : k.builtin = true) (hk' : k'.builtin = true) (hs : st.safe = true) (hp : st.playable) (hf : l < fuel) :
    s.streamC rel fuel st = s.stream fuel st ∧ ∃ r, s.streamC rel fuel st = .ok r := by
  obtain ⟨r, hr⟩ := C37_finite s st l hl hk hk' hs hp
  have h1 : s.streamC rel (l + 1) st = .ok r := by rw [C119_agree rel _ s st (by omega), hr]
  obtain ⟨m, rfl⟩ : ∃ m, fuel = l + 1 + m := ⟨fuel - (l + 1), by omega⟩
  rw [C119_fuel rel _ m s st (by rw [h1]; simp), C37_fuel _ m s st (by rw [hr]; simp), h1, hr]
  exact ⟨rfl, r, rfl⟩

example := C119_finite_partial false (2 ^ 70) 5 (exSink 3 8) (.audio (exAudio 12)) rfl (by norm_num) rfl rfl rfl
  (.inl (by simp [Src.rate])) (by norm_num)

/-- C119: nor does any stream, endless ones included, if the ratio is at least the length of the buffer over `2^63`. -/
theorem C119_ratio_partial (rel : Bool) (fuel : Nat) (s : Sink k c) (st : Src k' c') (hk : k.builtin = true)
    (hk' : k'.builtin = true) (hs : st.safe = true) (hp : st.playable) (r o : ℚ) (hq : (ratioOf s.rate st.rate).Is r) (hr : 0 < r)
    (ho : s.res.offseti.Is o) (ho' : 0 ≤ o) (hb : s.buf.length < 2 ^ 64) (h : (s.buf.length : ℚ) ≤ r * 2 ^ 63)
    (hf : 2 ^ 63 < fuel) :
    s.streamC rel fuel st = s.stream fuel st ∧ ∃ r, s.streamC rel fuel st = .ok r := by
  obtain ⟨t, ht⟩ := C57_partial s st hk hk' hs hp r o 63 hq hr ho ho' hb (by norm_num) h
  have h1 : s.streamC rel (2 ^ 63 + 1) st = .ok t := by rw [C119_agree rel _ s st (by omega), ht]
  obtain ⟨m, rfl⟩ : ∃ m, fuel = 2 ^ 63 + 1 + m := ⟨fuel - (2 ^ 63 + 1), by omega⟩
  rw [C119_fuel rel _ m s st (by rw [h1]; simp), C37_fuel _ m s st (by rw [ht]; simp), h1, ht]
  exact ⟨rfl, t, rfl⟩

example := C119_ratio_partial false (2 ^ 70) (exSink 3 8)
  (.user (k := .mono) (c := .ch8) (some (lit 12)) true none (fun _ => #v[1#8])) rfl rfl rfl (.inl (by simp [Src.rate]))
  (binary64.rnd (2 / 3)) 0 (by decide +kernel) (by decide +kernel) (by decide +kernel) (by norm_num) (by decide +kernel)
  (by decide +kernel) (by norm_num)

theorem loopC_diverges (rel : Bool) (q : F64) (d : Nat) (sl : Option Nat) (st : Src k' c') (fuel i p : Nat) (s : Sink k c)
    (hi : i < 2 ^ 64) (hb : d ≤ s.buf.length) (hp : ∀ j, j < 2 ^ 64 → (Sink.pos q s.res.offseti j).toUsize < d)
    (hn : ∀ j, ∃ (f : Frame k' c') (x : Frame k c), st.nth j = .ok (some f) ∧ f.convert c = .ok x) :
    loopC rel q d sl fuel i s (st.iterAt p) =
      .error (if rel = true ∨ fuel + i < 2 ^ 64 then .outOfFuel else .overflow) := by
  induction fuel generalizing i p s with
  | zero => rw [if_pos (.inr (by omega))]; rfl
  | succ fuel ih =>
    unfold loopC
    by_cases hov : rel = false ∧ i = 2 ^ 64 - 1
    · rw [if_pos hov, if_neg]
      rintro (h | h)
      · rw [hov.1] at h; cases h
      · omega
    rw [if_neg hov]
    dsimp only
    rw [ceilUsize_ok]
    simp only
    have hfl' : ((q.mul (f64OfUsize i)).add s.res.offseti).toUsize < d := hp i hi
    rw [if_neg (not_not.mpr hfl')]
    obtain ⟨f, x, hf, hx⟩ := hn p
    rw [st.next_some p f hf]
    simp only
    rw [hx]
    simp only
    rw [show modAt s.buf ((q.mul (f64OfUsize i)).add s.res.offseti).toUsize _ = .ok _ from
      if_pos (by omega)]
    simp only
    have hc : (if rel = true ∨ fuel + (i + 1) % 2 ^ 64 < 2 ^ 64 then Panic.outOfFuel else .overflow) =
        if rel = true ∨ fuel + 1 + i < 2 ^ 64 then Panic.outOfFuel else .overflow := by
      cases rel with
      | true => simp
      | false =>
        rw [Nat.mod_eq_of_lt (by simp at hov; omega), show fuel + (i + 1) = fuel + 1 + i by omega]
    rw [← hc]
    split
    · rename_i hce
      rw [show modAt (s.buf.modify _ _) (ceilU ((q.mul (f64OfUsize i)).add s.res.offseti)) _
        = .ok _ from if_pos (by simp; omega)]
      exact ih _ (p + 1) _ (Nat.mod_lt _ (by norm_num)) (by simpa using hb) hp
    · exact ih _ (p + 1) _ (Nat.mod_lt _ (by norm_num)) (by simpa using hb) hp

/-- C119: if an endless stream does not fill the buffer in `2^64 - 1` frames, the debug build panics after that, and the
release build starts to count at 0 again, over and over, and never returns. -/
theorem C119_overflow (rel : Bool) (fuel : Nat) (s : Sink k c) (st : Src k' c') (hl : st.len = none)
    (hk : k.builtin = true) (hk' : k'.builtin = true) (hs : st.safe = true) (hp : st.playable)
    (h : ∀ j, j < 2 ^ 64 → (posOf (ratioOf s.rate st.rate) s.res.offseti j).toUsize < s.buf.length) :
    s.streamC rel fuel st = .error (if rel = true ∨ fuel < 2 ^ 64 then .outOfFuel else .overflow) := by
  obtain ⟨st', hq⟩ := ratio_ok (s := s) hp
  obtain ⟨e1, e2, e3⟩ := ratio_same hq
  unfold streamC
  rw [hq]
  simp only [e2, hl, ← Src.iterAt_zero]
  have hd : dstEnd (ratioOf s.rate st.rate) none s.buf.length = s.buf.length := rfl
  rw [hd, loopC_diverges rel _ _ _ st' fuel 0 0 _ (by norm_num)]
  · rfl
  · rw [prepare_length]
  · exact h
  · intro j
    rw [e1]
    obtain ⟨o, ho⟩ := st.safe_nth hs j
    cases o with
    | none =>
      obtain ⟨n, hn, _⟩ := (st.nth_len j _ ho).mp rfl
      rw [hl] at hn; cases hn
    | some f =>
      obtain ⟨x, hx⟩ := C25_builtin hk' hk f
      exact ⟨f, x, ho, hx⟩

/-- An endless stream of a rate of `2^70` Hz. -/
def exSwift (f : Frame .mono .ch8) : Src .mono .ch8 := .user (some (lit (2 ^ 70))) true none (fun _ => f)

theorem exSwift_pos (f : Frame .mono .ch8) (j : Nat) (hj : j < 2 ^ 64) :
    (posOf (ratioOf (exSink 1 1).rate (exSwift f).rate) (exSink 1 1).res.offseti j).toUsize < (exSink 1 1).buf.length := by
  have hq : (ratioOf (exSink 1 1).rate (exSwift f).rate).Is (2 ^ (-70 : ℤ)) := by
    have : (ratioOf (lit 1) (some (lit (2 ^ 70)))).Is (2 ^ (-70 : ℤ)) := by decide +kernel
    exact this
  have hj' : |((j:ℤ):ℚ)| ≤ 2 ^ (64:ℤ) := by
    rw [abs_of_nonneg (by positivity)]
    have : ((j:ℤ):ℚ) ≤ ((2 ^ 64 : ℕ) : ℚ) := by exact_mod_cast hj.le
    calc ((j:ℤ):ℚ) ≤ ((2 ^ 64 : ℕ) : ℚ) := this
      _ = 2 ^ (64:ℤ) := by norm_num
  have small : ∀ (x : ℚ) (e : ℤ), -149 ≤ e → e ≤ 104 → |x| ≤ 2 ^ e →
      |binary64.rnd x| ≤ 2 ^ e ∧ |binary64.rnd x| ≤ binary64.maxF := fun x e h1 h2 h3 => by
    have := abs_rnd_le_of_rep (rep_pow (f := binary64) e h1 h2) h3
    refine ⟨this, this.trans ?_⟩
    have := (rep_pow (f := binary64) e h1 h2).le_maxF
    rwa [abs_of_nonneg (two_zpow_pos e).le] at this
  obtain ⟨h1, h2⟩ := small _ 64 (by norm_num) (by norm_num) hj'
  have hn : (f64OfUsize j).Is (binary64.rnd ((j:ℤ):ℚ)) := is_ofQ h2
  have hn0 : 0 ≤ binary64.rnd ((j:ℤ):ℚ) := rnd_nonneg (by positivity)
  generalize binary64.rnd ((j:ℤ):ℚ) = p at *
  have h3 : |2 ^ (-70 : ℤ) * p| ≤ 2 ^ (-6 : ℤ) := by
    rw [abs_mul, abs_of_nonneg (two_zpow_pos _).le]
    calc (2:ℚ) ^ (-70 : ℤ) * |p| ≤ 2 ^ (-70 : ℤ) * 2 ^ (64 : ℤ) := by gcongr
      _ = 2 ^ (-6 : ℤ) := by norm_num
  obtain ⟨h4, h5⟩ := small _ (-6) (by norm_num) (by norm_num) h3
  have h6 : 0 ≤ binary64.rnd (2 ^ (-70 : ℤ) * p) := rnd_nonneg (mul_nonneg (two_zpow_pos _).le hn0)
  have h7 : (posOf (ratioOf (exSink 1 1).rate (exSwift f).rate) (exSink 1 1).res.offseti j).Is
      (binary64.rnd (2 ^ (-70 : ℤ) * p)) := add_zero' (hq.mul hn h5) is_zero
  have h8 : binary64.rnd (2 ^ (-70 : ℤ) * p) < 1 := by
    rw [abs_of_nonneg h6] at h4
    exact lt_of_le_of_lt h4 (by norm_num)
  rw [toUsize_is h7 h6 (h8.trans (by norm_num)), Int.floor_eq_zero_iff.mpr ⟨h6, h8⟩]
  decide

example := C119_overflow false (2 ^ 64) (exSink 1 1) (exSwift #v[1#8]) rfl rfl rfl rfl (.inl (by simp [exSwift, Src.rate]))
  (exSwift_pos _)

/-- C119 is false: an endless stream of 2^70 Hz does not fill one slot of a sink of 1 Hz in 2^64 frames.  The debug build
panics then, the release build never returns. -/
theorem C119_false (f : Frame .mono .ch8) :
    (∀ fuel, 2 ^ 64 ≤ fuel → (exSink 1 1).streamC false fuel (exSwift f) = .error .overflow) ∧
    ∀ fuel, (exSink 1 1).streamC true fuel (exSwift f) = .error .outOfFuel := by
  have hp : (exSwift f).playable := .inl (by simp [exSwift, Src.rate])
  constructor
  · intro fuel hf
    rw [C119_overflow false fuel _ _ rfl rfl rfl rfl hp (exSwift_pos f), if_neg (by simp; omega)]
  · intro fuel
    rw [C119_overflow true fuel _ _ rfl rfl rfl rfl hp (exSwift_pos f), if_pos (.inl rfl)]

end Fon
