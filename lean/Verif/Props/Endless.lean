import Verif.Spec.Endless
import Verif.Props.Counter
import Verif.Props.Ieee

/-!
# Endless streams: exactly when a sink is full
-/

namespace Fon
open Fl Fmt Sink
variable {k k' : Kind} {c c' : ChTy}

theorem reaches_iff {x : F64} {n : Nat} (h0 : 0 < n) (hn : n < 2 ^ 64) : n ≤ x.toUsize ↔ x.Reaches n := by
  constructor
  · intro h
    rcases x with _ | (_ | _) | ⟨q, b, hq⟩
    · simp [Fl.toUsize, Fl.toIntSat] at h; omega
    · exact .inl rfl
    · simp [Fl.toUsize, Fl.toIntSat] at h; omega
    · refine .inr ⟨q, is_fin, ?_⟩
      by_contra hlt
      have : truncQ q < n := by
        rcases lt_or_ge q 0 with h' | h'
        · rw [truncQ_neg h']
          have : 0 ≤ ⌊-q⌋ := Int.floor_nonneg.mpr (by linarith)
          omega
        · rw [truncQ_nonneg h', Int.floor_lt]
          push_cast; linarith
      simp only [Fl.toUsize, Fl.toIntSat] at h
      omega
  · rintro (rfl | ⟨p, hp, h⟩)
    · simp only [Fl.toUsize, Fl.toIntSat, usizeMax_eq]; norm_num; omega
    · exact le_toUsize hp h hn

theorem not_reaches_nan {n : Nat} : ¬ (nan : F64).Reaches n := by
  rintro (h | ⟨p, h, _⟩)
  · cases h
  · exact not_nan_is h

theorem not_reaches_neg {n : Nat} : ¬ (inf true : F64).Reaches n := by
  rintro (h | ⟨p, h, _⟩)
  · cases h
  · exact not_inf_is h

theorem not_reaches_ninf {x : F64} {n : Nat} :
    ¬ (x.add (inf true)).Reaches n := by
  rcases x with _ | (_ | _) | _ <;> first | exact not_reaches_nan | exact not_reaches_neg

theorem not_reaches_add_nan {x : F64} {n : Nat} : ¬ (x.add nan).Reaches n := by
  rcases x with _ | _ | _ <;> exact not_reaches_nan

theorem ofQ_cases {f : Fmt} (s : Bool) (q : ℚ) : (ofQ f s q).Is (f.rnd q) ∨ ofQ f s q = inf (decide (q < 0)) := by
  by_cases h : |f.rnd q| ≤ f.maxF
  · exact .inl (is_ofQ h)
  · right; unfold ofQ; rw [dif_neg h]

theorem f64OfUsize_cases (i : Nat) : f64OfUsize i = inf false ∨ ∃ a, (f64OfUsize i).Is a ∧ 0 ≤ a := by
  have h0 : (0:ℚ) ≤ ((i:ℤ):ℚ) := by positivity
  rcases ofQ_cases (f := binary64) false ((i:ℤ):ℚ) with h | h
  · exact .inr ⟨_, h, rnd_nonneg h0⟩
  · left
    unfold f64OfUsize Fl.ofInt
    rw [h, decide_eq_false (not_lt.mpr h0)]

/-- A product with a ratio that is not positive. -/
theorem mul_nonpos' {q : F64} {r : ℚ} (hq : q.Is r) (hr : r ≤ 0) (i : Nat) :
    (q.mul (f64OfUsize i)) = nan ∨ (q.mul (f64OfUsize i)) = inf true ∨ ∃ a, (q.mul (f64OfUsize i)).Is a ∧ a ≤ 0 := by
  obtain ⟨b, h, rfl⟩ := hq
  rcases f64OfUsize_cases i with e | ⟨a, ⟨b', h', e⟩, ha⟩
  · rw [e]
    rcases lt_or_eq_of_le hr with h1 | rfl
    · right; left; simp [Fl.mul, h1, h1.ne]
    · left; simp [Fl.mul]
  · rw [e]
    have hra : r * a ≤ 0 := mul_nonpos_of_nonpos_of_nonneg hr ha
    rcases ofQ_cases (f := binary64) (xor (decide (r < 0) || b) (decide (a < 0) || b')) (r * a) with h1 | h1
    · exact .inr (.inr ⟨_, h1, rnd_nonpos hra⟩)
    · right; left
      simp only [Fl.mul]
      rw [h1]
      rcases lt_or_eq_of_le hra with h2 | h2
      · simp [h2]
      · exfalso
        rw [h2] at h1
        obtain ⟨_, _, e⟩ := is_ofQ_rep (f := binary64) (s := xor (decide (r < 0) || b) (decide (a < 0) || b')) rep_zero
        rw [e] at h1; cases h1

theorem pos_reaches_iff (q o : F64) {n : Nat} (h0 : 0 < n) (hn : n < 2 ^ 64) :
    (∃ j, n ≤ (Sink.pos q o j).toUsize) ↔
    (q = inf false ∨ ∃ r, q.Is r ∧ 0 < r) ∧ (o = inf false ∨ ∃ p, o.Is p) ∨ (∃ r, q.Is r) ∧ o.Reaches n := by
  have hz : (f64OfUsize 0).Is 0 := is_ofInt (f := binary64) (n := 0) (by simpa using rep_zero)
  constructor
  · rintro ⟨j, hj⟩
    rw [reaches_iff h0 hn, Sink.pos] at hj
    rcases o with _ | (_ | _) | ⟨p, b, hp⟩
    · exact absurd hj not_reaches_add_nan
    · rcases q with _ | (_ | _) | ⟨r, b', hr⟩
      · exact absurd hj not_reaches_nan
      · exact .inl ⟨.inl rfl, .inl rfl⟩
      · exfalso
        rcases f64OfUsize_cases j with e | ⟨a, ⟨b', h', e⟩, ha⟩
        · rw [e] at hj; exact not_reaches_nan hj
        · rw [e] at hj
          simp only [Fl.mul] at hj
          split at hj
          · exact not_reaches_nan hj
          · have : b' = false := by
              cases b'
              · rfl
              · rename_i h; exact absurd (h'.2 rfl) h
            subst this
            rw [decide_eq_false (not_lt.mpr ha)] at hj
            exact not_reaches_nan hj
      · exact .inr ⟨⟨_, is_fin⟩, .inl rfl⟩
    · exact absurd hj (not_reaches_ninf)
    · rcases q with _ | (_ | _) | ⟨r, b', hr⟩
      · exact absurd hj not_reaches_nan
      · exact .inl ⟨.inl rfl, .inr ⟨p, is_fin⟩⟩
      · exfalso
        rcases f64OfUsize_cases j with e | ⟨a, ⟨b', h', e⟩, ha⟩
        · rw [e] at hj; exact not_reaches_neg hj
        · rw [e] at hj
          simp only [Fl.mul] at hj
          split at hj
          · exact not_reaches_nan hj
          · have : b' = false := by
              cases b'
              · rfl
              · rename_i h; exact absurd (h'.2 rfl) h
            subst this
            rw [decide_eq_false (not_lt.mpr ha)] at hj
            exact not_reaches_neg hj
      · rcases lt_or_ge 0 r with h1 | h1
        · exact .inl ⟨.inr ⟨r, is_fin, h1⟩, .inr ⟨p, is_fin⟩⟩
        · refine .inr ⟨⟨r, is_fin⟩, .inr ⟨p, is_fin, ?_⟩⟩
          rcases mul_nonpos' (is_fin (h := hr)) h1 j with e | e | ⟨a, ⟨b2, h2, e⟩, ha⟩
          · rw [e] at hj; exact absurd hj not_reaches_nan
          · rw [e] at hj; exact absurd hj not_reaches_neg
          · rw [e] at hj
            simp only [Fl.add] at hj
            rcases ofQ_cases (f := binary64) (b2 && b) (a + p) with h3 | h3
            · rcases hj with hj | ⟨v, hv, hle⟩
              · rw [hj] at h3; exact absurd h3 not_inf_is
              · have e1 := hv.unique h3
                have e2 : binary64.rnd (a + p) ≤ binary64.rnd p := rnd_mono (by linarith)
                rw [rnd_of_rep hp.1] at e2
                linarith
            · rw [h3] at hj
              rcases hj with hj | ⟨v, hv, hle⟩
              · injection hj with hj
                simp only [decide_eq_false_iff_not, not_lt] at hj
                have e2 : binary64.rnd (a + p) ≤ binary64.rnd p := rnd_mono (by linarith)
                rw [rnd_of_rep hp.1] at e2
                have e3 : |binary64.rnd (a + p)| ≤ binary64.maxF := by
                  rw [abs_of_nonneg (rnd_nonneg hj)]
                  exact e2.trans ((le_abs_self p).trans hp.1.le_maxF)
                have := is_ofQ (s := b2 && b) e3
                rw [h3] at this
                exact absurd this not_inf_is
              · exact absurd hv not_inf_is
  · rintro (⟨hq, ho⟩ | ⟨⟨r, hq⟩, ho⟩)
    · have key : ∀ x, x = (inf false : F64) → n ≤ (x.add o).toUsize := by
        rintro x rfl
        rw [reaches_iff h0 hn]
        rcases ho with rfl | ⟨p, b, h, rfl⟩ <;> exact .inl rfl
      rcases hq with rfl | ⟨r, ⟨b, h, rfl⟩, hr⟩
      · refine ⟨1, key _ ?_⟩
        decide +kernel
      · refine ⟨2 ^ 1024, key _ ?_⟩
        have : f64OfUsize (2 ^ 1024) = inf false := by decide +kernel
        rw [this]
        have hb : b = false := by
          cases b
          · rfl
          · exact absurd (h.2 rfl) hr.ne'
        simp [Fl.mul, hb, hr.ne', not_lt.mpr hr.le]
    · refine ⟨0, ?_⟩
      rw [reaches_iff h0 hn, Sink.pos]
      have hm := mul_zero' hq hz
      rcases ho with rfl | ⟨p, hp, hle⟩
      · obtain ⟨_, _, e⟩ := hm
        rw [e]; exact .inl rfl
      · refine .inr ⟨p, ?_, hle⟩
        rw [Fl.add_comm']
        exact add_zero' hp hm

/-- C57, exactly: a call with an endless stream returns if there is nothing to fill, if the ratio is positive and the
offset a number or infinite, or if the offset is past the end. -/
theorem C57_iff (s : Sink k c) (st : Src k' c') (hk : k.builtin = true) (hk' : k'.builtin = true) (hs : st.safe = true)
    (hp : st.playable) (hl : st.len = none) (hb : s.buf.length < 2 ^ 64) :
    (∃ fuel t, s.stream fuel st = .ok t) ↔ s.buf = [] ∨
      (ratioOf s.rate st.rate = inf false ∨ ∃ r, (ratioOf s.rate st.rate).Is r ∧ 0 < r) ∧
        (s.res.offseti = inf false ∨ ∃ p, s.res.offseti.Is p) ∨
      (∃ r, (ratioOf s.rate st.rate).Is r) ∧ s.res.offseti.Reaches s.buf.length := by
  obtain ⟨st', hq⟩ := ratio_ok (s := s) hp
  obtain ⟨e1, e2, e3⟩ := ratio_same hq
  have hd : dstEnd (ratioOf s.rate st.rate) st.len s.buf.length = s.buf.length := by rw [hl]; rfl
  have ret : ∀ j, s.buf.length ≤ (Sink.pos (ratioOf s.rate st.rate) s.res.offseti j).toUsize →
      ∃ fuel t, s.stream fuel st = .ok t := fun j h =>
    ⟨j + 1, stream_ok (j + 1) j s st st' _ hq (by omega) (fun i _ _ => st.safe_nth hs i)
      (fun i f _ _ _ => C25_builtin hk' hk f) (.inl (by rw [hd]; omega))⟩
  constructor
  · rintro ⟨fuel, t, h⟩
    by_cases he : s.buf = []
    · exact .inl he
    · have h0 : 0 < s.buf.length := List.length_pos_iff.mpr he
      right
      rw [← pos_reaches_iff _ _ h0 hb]
      by_contra hn
      push Not at hn
      have := loop_diverges (ratioOf s.rate st.rate) s.buf.length none st' fuel 0 (s.prepare s.buf.length)
        (by rw [prepare_length]) (fun j _ => hn j) (fun j => by
          obtain ⟨o, ho⟩ := st.safe_nth hs j
          cases o with
          | none =>
            obtain ⟨n, h1, _⟩ := (st.nth_len j none ho).mp rfl
            rw [hl] at h1; cases h1
          | some f =>
            obtain ⟨x, hx⟩ := C25_builtin (d := c) hk' hk f
            exact ⟨f, x, by rw [e1]; exact ho, hx⟩)
      unfold Sink.stream at h
      rw [hq] at h
      simp only [e2, hl, ← Src.iterAt_zero] at h
      rw [show dstEnd (ratioOf s.rate st.rate) none s.buf.length = s.buf.length from rfl, this] at h
      cases h
  · rintro (he | h)
    · exact ret 0 (by rw [he]; exact Nat.zero_le _)
    · by_cases he : s.buf = []
      · exact ret 0 (by rw [he]; exact Nat.zero_le _)
      · obtain ⟨j, hj⟩ := (pos_reaches_iff _ _ (List.length_pos_iff.mpr he) hb).mpr h
        exact ret j hj

/-- An endless stream of ones at rate 8. -/
def exEndless : Src .mono .ch8 := .user (some (lit 8)) true none (fun _ => #v[1#8])

example : ∃ fuel t, (exSink 3 12).stream fuel exEndless = .ok t :=
  (C57_iff (exSink 3 12) exEndless rfl rfl rfl (.inl (by simp [exEndless, Src.rate])) rfl (by decide)).mpr
    (.inr (.inl ⟨.inr ⟨1.5, by decide +kernel, by norm_num⟩, .inr ⟨0, by decide +kernel⟩⟩))

/-- A negative rate never fills a sink, nor does NaN. -/
example : (¬ ∃ fuel t, (exSink 3 (-12)).stream fuel exEndless = .ok t) ∧
    ¬ ∃ fuel t, ({ exSink 3 8 with rate := nan } : Sink .mono .ch8).stream fuel exEndless = .ok t := by
  rw [C57_iff (exSink 3 (-12)) exEndless rfl rfl rfl (.inl (by simp [exEndless, Src.rate])) rfl (by decide),
    C57_iff { exSink 3 8 with rate := nan } exEndless rfl rfl rfl (.inl (by simp [exEndless, Src.rate])) rfl (by decide)]
  have h1 : (ratioOf (exSink 3 (-12)).rate exEndless.rate).Is (-1.5) := by decide +kernel
  have h2 : (exSink 3 (-12)).res.offseti.Is 0 := by decide +kernel
  refine ⟨?_, ?_⟩
  · rintro (h | ⟨h | ⟨r, h, hr⟩, -⟩ | ⟨-, h | ⟨p, h, hp⟩⟩)
    · exact absurd h (by decide)
    · rw [h] at h1; exact not_inf_is h1
    · have := h1.unique h; subst this; norm_num at hr
    · rw [h] at h2; exact not_inf_is h2
    · have := h2.unique h; subst this
      exact absurd hp (by decide +kernel)
  · have e : ratioOf (nan : F64) exEndless.rate = nan := rfl
    rintro (h | ⟨h | ⟨r, h, hr⟩, -⟩ | ⟨⟨r, h⟩, -⟩)
    · exact absurd h (by decide)
    · rw [e] at h; cases h
    · rw [e] at h; exact not_nan_is h
    · rw [e] at h; exact not_nan_is h

/-! ## The counter -/

theorem ofQ_nonneg {f : Fmt} (s : Bool) {q : ℚ} (h : 0 ≤ q) :
    (ofQ f s q).Is (f.rnd q) ∧ f.rnd q ≤ f.maxF ∨ ofQ f s q = inf false ∧ f.maxF < f.rnd q := by
  by_cases h' : |f.rnd q| ≤ f.maxF
  · exact .inl ⟨is_ofQ h', (le_abs_self _).trans h'⟩
  · right
    refine ⟨?_, ?_⟩
    · unfold ofQ; rw [dif_neg h', decide_eq_false (not_lt.mpr h)]
    · rw [abs_of_nonneg (rnd_nonneg h)] at h'; exact not_le.mp h'

theorem len_le_maxF {n : Nat} (hn : n < 2 ^ 64) : (n:ℚ) ≤ binary64.maxF := by
  have h1 : (n:ℚ) ≤ 2 ^ 64 := by exact_mod_cast hn.le
  exact h1.trans (by decide +kernel)

theorem gen_scale {r : ℚ} (h : binary64.Rep r) : binary64.rnd (r * 2 ^ 64) = r * 2 ^ 64 := by
  obtain ⟨m, e, h1, h2, -, rfl⟩ := h
  refine rnd_of_gen ⟨m, e + 64, h1, by omega, ?_⟩
  rw [zpow_add₀ (by norm_num)]; norm_num; ring

/-- Where the counter ends. -/
theorem pos_end {q off : F64} {r o : ℚ} {n : Nat} (hq : q.Is r) (hr : 0 < r) (ho : off.Is o) (ho' : 0 ≤ o) (hn : n < 2 ^ 64)
    (h0 : 0 < n) :
    ((n:ℚ) ≤ binary64.rnd (r * 2 ^ 64 + o) → n ≤ (Sink.pos q off (2 ^ 64 - 2)).toUsize) ∧
    ∀ j, j < 2 ^ 64 → n ≤ (Sink.pos q off j).toUsize → (n:ℚ) ≤ binary64.rnd (r * 2 ^ 64 + o) := by
  have hrr := hq.rep
  have hor := ho.rep
  obtain ⟨b, h, rfl⟩ := hq
  obtain ⟨b', h', rfl⟩ := ho
  constructor
  · intro hle
    have hj : (f64OfUsize (2 ^ 64 - 2)).Is (2 ^ 64) := by decide +kernel
    obtain ⟨b2, h2, e⟩ := hj
    rw [reaches_iff h0 hn, Sink.pos, e]
    simp only [Fl.mul]
    rcases ofQ_nonneg (f := binary64) (xor (decide (r < 0) || b) (decide ((2:ℚ) ^ 64 < 0) || b2))
      (by positivity : 0 ≤ r * 2 ^ 64) with ⟨⟨b3, h3, e3⟩, _⟩ | ⟨e3, _⟩
    · rw [e3]
      simp only [Fl.add, gen_scale hrr]
      rcases ofQ_nonneg (f := binary64) (b3 && b') (by positivity : 0 ≤ r * 2 ^ 64 + o) with ⟨h4, _⟩ | ⟨e4, _⟩
      · exact .inr ⟨_, h4, hle⟩
      · exact .inl e4
    · rw [e3]; exact .inl rfl
  · intro j hj hle
    rw [reaches_iff h0 hn, Sink.pos] at hle
    have hj' : ((j:ℤ):ℚ) ≤ 2 ^ 64 := by exact_mod_cast hj.le
    have hj0 : (0:ℚ) ≤ ((j:ℤ):ℚ) := by positivity
    have h64 : binary64.rnd (2 ^ 64) = 2 ^ 64 := by decide +kernel
    have hjr : binary64.rnd ((j:ℤ):ℚ) ≤ 2 ^ 64 := by rw [← h64]; exact rnd_mono hj'
    have hj0' := rnd_nonneg (f := binary64) hj0
    obtain ⟨b2, h2, e⟩ : (f64OfUsize j).Is (binary64.rnd ((j:ℤ):ℚ)) :=
      is_ofQ (by rw [abs_of_nonneg hj0']; exact hjr.trans (by decide +kernel))
    generalize binary64.rnd ((j:ℤ):ℚ) = a at *
    rw [e] at hle
    simp only [Fl.mul] at hle
    have hm : binary64.rnd (r * a) ≤ r * 2 ^ 64 := by
      rw [← gen_scale hrr]; exact rnd_mono (by gcongr)
    have hm0 : 0 ≤ r * a := by positivity
    have big : binary64.maxF < r * 2 ^ 64 → (n:ℚ) ≤ binary64.rnd (r * 2 ^ 64 + o) := by
      intro hh
      have : binary64.rnd (r * 2 ^ 64) ≤ binary64.rnd (r * 2 ^ 64 + o) := rnd_mono (by linarith)
      rw [gen_scale hrr] at this
      linarith [len_le_maxF hn]
    rcases ofQ_nonneg (f := binary64) (xor (decide (r < 0) || b) (decide (a < 0) || b2)) hm0 with ⟨⟨b3, h3, e3⟩, _⟩ | ⟨e3, g3⟩
    · rw [e3] at hle
      simp only [Fl.add] at hle
      have hs : binary64.rnd (binary64.rnd (r * a) + o) ≤ binary64.rnd (r * 2 ^ 64 + o) := rnd_mono (by linarith)
      rcases ofQ_nonneg (f := binary64) (b3 && b') (by have := rnd_nonneg (f := binary64) hm0; positivity :
        0 ≤ binary64.rnd (r * a) + o) with ⟨h4, _⟩ | ⟨e4, g4⟩
      · rcases hle with hle | ⟨p, hp, hle⟩
        · rw [hle] at h4; exact absurd h4 not_inf_is
        · rw [hp.unique h4] at hle; exact hle.trans hs
      · linarith [len_le_maxF hn]
    · exact big (lt_of_lt_of_le g3 hm)

/-- C119, exactly, for endless streams: both builds return if the position of frame `2^64` is past the end. -/
theorem C119_iff (rel : Bool) (s : Sink k c) (st : Src k' c') (hk : k.builtin = true) (hk' : k'.builtin = true)
    (hs : st.safe = true) (hp : st.playable) (hl : st.len = none) (hb : s.buf.length < 2 ^ 64) (r o : ℚ)
    (hq : (ratioOf s.rate st.rate).Is r) (hr : 0 < r) (ho : s.res.offseti.Is o) (ho' : 0 ≤ o) :
    (∃ fuel t, s.streamC rel fuel st = .ok t) ↔ (s.buf.length : ℚ) ≤ binary64.rnd (r * 2 ^ 64 + o) := by
  have h0 : (0:ℚ) ≤ binary64.rnd (r * 2 ^ 64 + o) := rnd_nonneg (by positivity)
  obtain ⟨st', hq'⟩ := ratio_ok (s := s) hp
  have hd : dstEnd (ratioOf s.rate st.rate) st.len s.buf.length = s.buf.length := by rw [hl]; rfl
  have ret : ∀ j, j < 2 ^ 64 - 1 → s.buf.length ≤ (Sink.pos (ratioOf s.rate st.rate) s.res.offseti j).toUsize →
      ∃ fuel t, s.streamC rel fuel st = .ok t := fun j hj h => by
    refine ⟨j + 1, ?_⟩
    rw [C119_agree rel _ s st (by omega)]
    exact stream_ok (j + 1) j s st st' _ hq' (by omega) (fun i _ _ => st.safe_nth hs i)
      (fun i f _ _ _ => C25_builtin hk' hk f) (.inl (by rw [hd]; omega))
  rcases Nat.eq_zero_or_pos s.buf.length with hz | hpos
  · rw [hz]
    exact ⟨fun _ => by simpa using h0, fun _ => ret 0 (by norm_num) (by omega)⟩
  · obtain ⟨h1, h2⟩ := pos_end hq hr ho ho' hb hpos
    constructor
    · rintro ⟨fuel, t, h⟩
      by_contra hn
      rw [C119_overflow rel fuel s st hl hk hk' hs hp (fun j hj => by
        by_contra hh
        exact hn (h2 j hj (not_lt.mp hh)))] at h
      cases h
    · intro h
      exact ret _ (by norm_num) (h1 h)

example : (∃ fuel t, (exSink 3 12).streamC false fuel exEndless = .ok t) ∧
    ¬ ∃ fuel t, (exSink 1 1).streamC true fuel (exSwift #v[1#8]) = .ok t := by
  rw [C119_iff false (exSink 3 12) exEndless rfl rfl rfl (.inl (by simp [exEndless, Src.rate])) rfl (by decide) 1.5 0
      (by decide +kernel) (by norm_num) (by decide +kernel) (by norm_num),
    C119_iff true (exSink 1 1) (exSwift #v[1#8]) rfl rfl rfl (.inl (by simp [exSwift, Src.rate])) rfl (by decide)
      (2 ^ (-70 : ℤ)) 0 (by decide +kernel) (two_zpow_pos _) (by decide +kernel) (by norm_num)]
  decide +kernel

end Fon
