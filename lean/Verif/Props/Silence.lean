import Verif.Spec.Silence
import Verif.Props.Endless

/-!
# C44: exactly when silence stays silence
-/

namespace Fon
open Fl Fmt Sink
variable {k k' : Kind} {c c' : ChTy}

/-- Numbers of at least `2^98` are multiples of `2^46`. -/
theorem mult_of_big {x : ℚ} (h : binary64.Gen x) (hx : 2 ^ (98:ℤ) ≤ |x|) : ∃ n : ℤ, x = n * 2 ^ (46:ℤ) := by
  obtain ⟨m, e, h1, -, rfl⟩ := h
  have he : 46 ≤ e := by
    by_contra hlt
    have h2 : (|m| : ℚ) ≤ 2 ^ (53:ℤ) := by
      have : |m| ≤ 2 ^ 53 := h1.le
      exact_mod_cast this
    rw [abs_mul, abs_of_pos (two_zpow_pos e)] at hx
    have h3 : (2:ℚ) ^ e ≤ 2 ^ (45:ℤ) := zpow_le_zpow_right₀ (by norm_num) (by omega)
    have h4 : (|m| : ℚ) * 2 ^ e ≤ 2 ^ (53:ℤ) * 2 ^ (45:ℤ) := mul_le_mul h2 h3 (two_zpow_pos e).le (by norm_num)
    have h5 : |(m:ℚ)| * 2 ^ e < 2 ^ (98:ℤ) := by
      have : |m| < 2 ^ 53 := h1
      have h6 : (|m| : ℚ) < 2 ^ (53:ℤ) := by exact_mod_cast this
      calc |(m:ℚ)| * 2 ^ e < 2 ^ (53:ℤ) * 2 ^ e := mul_lt_mul_of_pos_right h6 (two_zpow_pos e)
        _ ≤ 2 ^ (53:ℤ) * 2 ^ (45:ℤ) := by gcongr
        _ = 2 ^ (98:ℤ) := by norm_num
    linarith
  refine ⟨m * 2 ^ (e - 46).toNat, ?_⟩
  rw [Int.cast_mul, Int.cast_pow, Int.cast_ofNat, mul_assoc, ← zpow_natCast (2:ℚ), ← zpow_add₀ (by norm_num), Int.toNat_of_nonneg (by omega)]
  congr 2; omega

/-- Large numbers absorb a difference of at most 1. -/
theorem rnd_absorb {r a : ℚ} (h : binary64.Rep r) (hr : 2 ^ (99:ℤ) ≤ |r|) (ha : |a| ≤ 1) :
    binary64.rnd (r - a) = r := by
  have h1 := rnd_nearest (f := binary64) (r - a) r h.gen
  have h2 : |binary64.rnd (r - a) - r| ≤ 2 := by
    have e : binary64.rnd (r - a) - r = (binary64.rnd (r - a) - (r - a)) + (- a) := by ring
    have e' : r - (r - a) = a := by ring
    rw [e'] at h1
    rw [e]
    calc _ ≤ |binary64.rnd (r - a) - (r - a)| + |-a| := abs_add_le _ _
      _ ≤ 2 := by rw [abs_neg]; linarith
  have h3 : 2 ^ (98:ℤ) ≤ |binary64.rnd (r - a)| := by
    have := abs_sub_abs_le_abs_sub r (binary64.rnd (r - a))
    rw [abs_sub_comm] at this
    have h4 : (2:ℚ) ^ (98:ℤ) ≤ 2 ^ (99:ℤ) - 2 := by norm_num
    linarith
  obtain ⟨m, hm⟩ := mult_of_big (gen_rnd (f := binary64) (r - a)) h3
  obtain ⟨n, hn⟩ := mult_of_big h.gen ((by norm_num : (2:ℚ) ^ (98:ℤ) ≤ 2 ^ (99:ℤ)).trans hr)
  have h5 : m = n := by
    rw [hm] at h2
    nth_rewrite 1 [hn] at h2
    rw [← sub_mul, abs_mul] at h2
    by_contra hne
    have h6 : (1:ℚ) ≤ |(m:ℚ) - n| := by
      have : 1 ≤ |m - n| := Int.one_le_abs (sub_ne_zero.mpr hne)
      exact_mod_cast this
    have h7 : (4:ℚ) ≤ |(2:ℚ) ^ (46:ℤ)| := by norm_num
    nlinarith
  rw [hm, h5, ← hn]

theorem cast_small {w : F64} {r : ℚ} (hw : w.Is r) (hr : |r| ≤ 2 ^ (100:ℤ)) : ∃ p, (w.cast binary32).Is p :=
  ⟨_, hw.cast binary32 (small hr)⟩

theorem wCeil_fin {q : F64} {r : ℚ} (hq : q.Is r) (off : F64) (i : Nat) :
    ∃ a, (wCeil q off i).Is a ∧ (a = r ∨ |a| ≤ 1) := by
  unfold wCeil
  cases hp : Sink.pos q off i with
  | nan => exact ⟨r, hq, .inl rfl⟩
  | inf s => rw [lit_one_eq]; exact ⟨r, hq, .inl rfl⟩
  | fin p nz h =>
    obtain ⟨p', h1, h2⟩ := rem_one_lt (x := .fin p nz h) is_fin
    refine ⟨_, h1.min hq, ?_⟩
    rcases min_choice p' r with h3 | h3 <;> rw [h3]
    · exact .inr h2.le
    · exact .inl rfl

theorem sub_absorb {q w : F64} {r a : ℚ} (hq : q.Is r) (hw : w.Is a) (ha : a = r ∨ |a| ≤ 1) :
    (q.sub w).Is r ∨ ∃ b, (q.sub w).Is b ∧ |b| ≤ 2 ^ (100:ℤ) := by
  rcases ha with rfl | ha
  · right
    refine ⟨_, hq.sub hw (by rw [sub_self, rnd_zero, abs_zero]; exact maxF_pos.le), ?_⟩
    rw [sub_self, rnd_zero, abs_zero]; norm_num
  · rcases le_or_gt (2 ^ (99:ℤ)) |r| with h | h
    · left
      have e := rnd_absorb hq.rep h ha
      have := hq.sub hw (by rw [e]; exact hq.rep.le_maxF)
      rwa [e] at this
    · right
      have hb : |r - a| ≤ 2 ^ (100:ℤ) := by
        have : (2:ℚ) ^ (99:ℤ) + 1 ≤ 2 ^ (100:ℤ) := by norm_num
        linarith [abs_sub r a]
      exact ⟨_, hq.sub hw (small hb), abs_rnd_le_of_rep (rep_pow 100 (by norm_num) (by norm_num)) hb⟩

/-- If the format can hold the ratio, it can hold the weights. -/
theorem weights_bear {q : F64} (h : Bears c q) (off : F64) (i : Nat) :
    Bears c (wCeil q off i) ∧ Bears c (wFloor q off i) := by
  cases c with
  | ch8 => exact ⟨trivial, trivial⟩
  | ch16 => exact ⟨trivial, trivial⟩
  | ch64 =>
    obtain ⟨r, hr⟩ := h
    obtain ⟨a, ha, ha'⟩ := wCeil_fin hr off i
    refine ⟨⟨a, ha⟩, ?_⟩
    rcases sub_absorb hr ha ha' with h | ⟨b, h, _⟩ <;> exact ⟨_, h⟩
  | ch32 =>
    have hfin : ∃ r, q.Is r := by
      obtain ⟨p, hp⟩ := h
      rcases q with _ | s | ⟨r, b, hb⟩
      · exact absurd hp not_nan_is
      · exact absurd hp not_inf_is
      · exact ⟨r, is_fin⟩
    obtain ⟨r, hr⟩ := hfin
    have same : ∀ w : F64, w.Is r → ∃ p, (w.cast binary32).Is p := by
      intro w hw
      obtain ⟨p, hp⟩ := h
      obtain ⟨b, hb, rfl⟩ := hr
      obtain ⟨b', hb', rfl⟩ := hw
      simp only [Fl.cast] at hp ⊢
      rcases ofQ_cases (f := binary32) b' r with h1 | h1
      · exact ⟨_, h1⟩
      · exfalso
        by_cases hm : |binary32.rnd r| ≤ binary32.maxF
        · have := is_ofQ (s := b') hm
          rw [h1] at this; exact not_inf_is this
        · unfold ofQ at hp
          rw [dif_neg hm] at hp
          exact not_inf_is hp
    have small' : ∀ (w : F64) a, w.Is a → |a| ≤ 2 ^ (100:ℤ) → ∃ p, (w.cast binary32).Is p :=
      fun w a hw ha => cast_small hw ha
    obtain ⟨a, ha, ha'⟩ := wCeil_fin hr off i
    refine ⟨?_, ?_⟩
    · rcases ha' with rfl | h1
      · exact same _ ha
      · exact small' _ _ ha (h1.trans (by norm_num))
    · rcases sub_absorb hr ha ha' with h | ⟨b, h, hb⟩
      · exact same _ h
      · exact small' _ _ h hb

theorem add_mul_zero {f : Fmt} {u : Fl f} {p : ℚ} (hu : u.Is p) : ChF.add (lit 0) (ChF.mul (lit 0) u) = lit 0 := by
  have h1 : ∀ z : Fl f, z.Is 0 → ChF.add (lit 0) z = lit 0 := by
    rintro z ⟨nz, hz, rfl⟩
    have : Fl.add (lit 0) (Fl.fin 0 nz hz) = (lit 0 : Fl f) := by
      rw [lit_zero_eq]; simp only [Fl.add, Bool.false_and, add_zero]; exact lit_zero_eq
    unfold ChF.add
    rw [this]
    exact clamp1_of_inRange inRange_zero
  exact h1 _ (by unfold ChF.mul; rw [Fl.mul_comm']; exact mul_zero' hu is_zero)

theorem silent_bear {w : F64} (h : Bears c w) : c.add c.dflt (c.mul c.dflt (c.ofF64 w)) = c.dflt := by
  cases c with
  | ch8 =>
    have h2 : ChTy.ch8.mul 0#8 (ChTy.ch8.ofF64 w) = 0#8 := (C02_ch8_zero _).2
    change ChTy.ch8.add 0#8 (ChTy.ch8.mul 0#8 _) = 0#8
    rw [h2]; decide
  | ch16 =>
    have h2 : ChTy.ch16.mul 0#16 (ChTy.ch16.ofF64 w) = 0#16 := (C02_ch16_zero _).2
    change ChTy.ch16.add 0#16 (ChTy.ch16.mul 0#16 _) = 0#16
    rw [h2]; decide
  | ch32 => exact add_mul_zero h.choose_spec
  | ch64 => exact add_mul_zero h.choose_spec

/-- The destination range of a silent stream. -/
theorem stream_silent {fuel : Nat} {s s' : Sink k c} {st : Src k' c} {it : It k' c} (h : s.stream fuel st = .ok (s', it))
    (hk : k.builtin = true) (hk' : k'.builtin = true) (hsil : ∀ i f, st.nth i = .ok (some f) → f = Frame.dflt) :
    ∃ n, Takes (ratioOf s.rate st.rate) s.res.offseti st.len s.buf.length n ∧
      s'.buf = (placeN (ratioOf s.rate st.rate) s.res.offseti
        (dstEnd (ratioOf s.rate st.rate) st.len s.buf.length) (fun _ => Frame.dflt) 0 n
        ((s.prepare (dstEnd (ratioOf s.rate st.rate) st.len s.buf.length)).buf, s.res.partial_)).1 := by
  obtain ⟨_, n, g, _, _, a3, a4, a5, _⟩ := stream_takes fuel s s' _ it h
  have h5 := congrArg Prod.fst a5
  simp only at h5
  have hg : ∀ j, 0 ≤ j → j < 0 + n → g j = (fun _ => Frame.dflt : Nat → Frame k c) j := by
    intro j _ hj
    obtain ⟨f, e1, e2⟩ := a4 j (by omega)
    rw [hsil j f e1, convert_dflt hk hk'] at e2
    exact (Except.ok.inj e2).symm
  rw [placeN_congr _ _ _ g _ _ _ _ hg] at h5
  exact ⟨n, a3, h5⟩

/-- C44: silence stays silence if the format can hold the ratio: always for the integers, for finite ratios in `Ch64`, and
in `Ch32` if the ratio is not too large for an `f32`. -/
theorem C44_holds (fuel : Nat) (s s' : Sink k c) (st : Src k' c) (it : It k' c) (h : s.stream fuel st = .ok (s', it))
    (hk : k.builtin = true) (hk' : k'.builtin = true) (hq : Bears c (ratioOf s.rate st.rate))
    (hsil : ∀ i f, st.nth i = .ok (some f) → f = Frame.dflt) (i : Nat)
    (hi : InDst (ratioOf s.rate st.rate) st.len s.buf.length i) : s'.buf[i]? = some Frame.dflt := by
  obtain ⟨n, _, h5⟩ := stream_silent h hk hk' hsil
  have hlen := (C36_stream _ _ _ _ _ h).1
  have hlt : i < s'.buf.length := by rw [hlen]; exact hi.1
  obtain ⟨y, hy⟩ : ∃ y, s'.buf[i]? = some y := ⟨_, List.getElem?_eq_getElem hlt⟩
  rw [hy]
  congr 1
  rw [h5] at hy
  refine placeN_slots _ _ _ _ (fun b => b = Frame.dflt) ?_ _ _ _ ?_ i _ (inDst_iff.mp hi) hy
  · rintro j b rfl
    obtain ⟨h1, h2⟩ := weights_bear hq s.res.offseti j
    constructor
    · ext x hx
      simpa [Frame.add, Frame.mul, Frame.ofF64, Frame.dflt] using silent_bear (c := c) h2
    · ext x hx
      simpa [Frame.add, Frame.mul, Frame.ofF64, Frame.dflt] using silent_bear (c := c) h1
  · intro x y hx hy
    simp only at hy
    rw [prepare_in _ _ _ hx (dstEnd_le _ _ _)] at hy
    exact (Option.some.inj hy).symm

/-- A silent stream. -/
def exSilent (c : ChTy) : Src .stereo c := .audio ⟨lit 1, [Frame.dflt, Frame.dflt]⟩

theorem exSilent_dflt (c : ChTy) (i : Nat) (f) (h : (exSilent c).nth i = .ok (some f)) : f = Frame.dflt := by
  match i, h with
  | 0, h => cases h; rfl
  | 1, h => cases h; rfl
  | n + 2, h => cases h

/-- A sink of an extreme rate. -/
def exExtreme (c : ChTy) : Sink .mono c := ⟨lit (2 ^ 1000), ⟨Frame.ofF64 (lit 1), lit 2⟩, List.replicate 4 (Frame.ofF64 (lit 1))⟩

example := C44_holds 3 (exExtreme .ch64) _ (exSilent .ch64) _
  (R.returns₂ (x := Sink.stream 3 (exExtreme .ch64) (exSilent .ch64)) (by decide +kernel)) rfl rfl
  ⟨2 ^ 1000, by decide +kernel⟩ (exSilent_dflt _) 2 (by decide +kernel)

example : ((exExtreme .ch64).stream 3 (exSilent .ch64)).map (fun r => r.1.buf) =
    .ok (List.replicate 4 Frame.dflt) := by decide +kernel

/-! ## The other ratios -/

theorem cast_fin {w : F64} {r : ℚ} (hw : w.Is r) : (∃ p, (w.cast binary32).Is p) ↔ |binary32.rnd r| ≤ binary32.maxF := by
  constructor
  · rintro ⟨p, hp⟩
    by_contra hm
    obtain ⟨b, hb, rfl⟩ := hw
    simp only [Fl.cast] at hp
    unfold ofQ at hp
    rw [dif_neg hm] at hp
    exact not_inf_is hp
  · exact fun h => ⟨_, hw.cast binary32 h⟩

theorem add_nan {f : Fmt} (x : Fl f) : ChF.add x nan = lit 1 := by
  unfold ChF.add
  rw [Fl.add_comm']
  exact clamp1_nan

theorem mul_zero_inf {f : Fmt} {u : Fl f} (hu : ¬ ∃ p, u.Is p) : ChF.mul (lit 0) u = nan := by
  unfold ChF.mul
  rcases u with _ | a | ⟨p, a, h⟩
  · rw [lit_zero_eq]; rfl
  · rw [lit_zero_eq]; simp [Fl.mul]
  · exact absurd ⟨p, is_fin⟩ hu

theorem one_keeps {f : Fmt} (u : Fl f) : ChF.add (lit 1) (ChF.mul (lit 0) u) = lit 1 := by
  by_cases h : ∃ p, u.Is p
  · obtain ⟨p, hp⟩ := h
    have h0 : (ChF.mul (lit 0) u).Is 0 := by unfold ChF.mul; rw [Fl.mul_comm']; exact mul_zero' hp is_zero
    unfold ChF.add
    obtain ⟨nz, hz, e⟩ := h0
    rw [e]
    have : Fl.add (lit 1) (Fl.fin 0 nz hz) = (lit 1 : Fl f) := by
      have h1 : ((lit 1 : Fl f).add (Fl.fin 0 nz hz)).Is 1 := add_zero' is_one is_fin
      refine is_ext h1 is_one ?_
      obtain ⟨b, h2, e⟩ := h1
      rw [e, lit_one_eq, isNeg_fin, isNeg_fin]
      have : b = false := by
        cases b
        · rfl
        · exact absurd (h2.2 rfl) (by norm_num)
      rw [this]
    rw [this]
    exact clamp1_of_inRange inRange_one
  · rw [mul_zero_inf h, add_nan]

theorem ofF64_one (hc : c = .ch32 ∨ c = .ch64) : Bears c (lit 1) := by
  rcases hc with rfl | rfl
  · exact cast_small is_one (by norm_num)
  · exact ⟨1, is_one⟩

theorem loud_chan (hc : c = .ch32 ∨ c = .ch64) {w : F64} (h : ¬ Bears c w) (x : c.T) :
    c.add x (c.mul c.dflt (c.ofF64 w)) = c.ofF64 (lit 1) := by
  have e1 : Fl.cast binary32 (lit 1 : F64) = lit 1 := by decide +kernel
  rcases hc with rfl | rfl
  · change ChF.add x (ChF.mul (lit 0) (Fl.cast binary32 w)) = Fl.cast binary32 (lit 1)
    rw [mul_zero_inf h, add_nan, e1]
  · change ChF.add x (ChF.mul (lit 0) w) = lit 1
    rw [mul_zero_inf h, add_nan]

theorem loud_keeps (hc : c = .ch32 ∨ c = .ch64) (w : F64) :
    c.add (c.ofF64 (lit 1)) (c.mul c.dflt (c.ofF64 w)) = c.ofF64 (lit 1) := by
  have e1 : Fl.cast binary32 (lit 1 : F64) = lit 1 := by decide +kernel
  rcases hc with rfl | rfl
  · change ChF.add (Fl.cast binary32 (lit 1)) (ChF.mul (lit 0) (Fl.cast binary32 w)) = Fl.cast binary32 (lit 1)
    rw [e1]; exact one_keeps _
  · exact one_keeps _

/-- The weight of the first frame is no better than the ratio. -/
theorem first_weight {q off : F64} {o : ℚ} (hq : q = inf false ∨ ∃ r, q.Is r ∧ 0 < r) (ho : off.Is o) (h : ¬ Bears c q) :
    ¬ Bears c (wFloor q off 0) := by
  have hz : (f64OfUsize 0).Is 0 := is_ofInt (f := binary64) (n := 0) (by simpa using rep_zero)
  have hc : c = .ch32 ∨ c = .ch64 := by
    cases c
    · exact absurd trivial h
    · exact absurd trivial h
    · exact .inl rfl
    · exact .inr rfl
  rcases hq with rfl | ⟨r, hq, hr⟩
  · have e : wFloor (inf false) off 0 = nan := by
      obtain ⟨b, h1, e⟩ := hz
      unfold wFloor wCeil Sink.pos
      rw [e]
      simp [Fl.mul, Fl.add, Fl.rem, Fl.min, Fl.sub, Fl.neg]
    rw [e]
    rcases hc with rfl | rfl
    · exact fun ⟨p, hp⟩ => not_nan_is hp
    · exact fun ⟨p, hp⟩ => not_nan_is hp
  · rcases hc with rfl | rfl
    · have hbig : 2 ^ (99:ℤ) ≤ |r| := by
        by_contra hlt
        exact h (cast_small hq (le_trans (not_le.mp hlt).le (by norm_num)))
      have hp : (Sink.pos q off 0).Is o := by
        unfold Sink.pos; rw [Fl.add_comm']; exact add_zero' ho (mul_zero' hq hz)
      obtain ⟨a, ha, ha'⟩ := rem_one_lt hp
      have hw : (wCeil q off 0).Is a := by
        have := ha.min hq
        rwa [min_eq_left] at this
        rw [abs_of_pos hr] at hbig
        have : (1:ℚ) ≤ 2 ^ (99:ℤ) := by norm_num
        linarith [(abs_lt.mp ha').2]
      have hf : (wFloor q off 0).Is r := by
        have e := rnd_absorb hq.rep hbig ha'.le
        have := hq.sub hw (by rw [e]; exact hq.rep.le_maxF)
        rwa [e] at this
      intro hb
      exact h ((cast_fin hq).mpr ((cast_fin hf).mp hb))
    · exact absurd ⟨r, hq⟩ h

theorem placeN_slot (q off : F64) (d : Nat) (g : Nat → Frame k c) (P : Frame k c → Prop)
    (hP : ∀ i b, P b → P (b.add ((g i).mul (Frame.ofF64 (wFloor q off i)))) ∧
      P (b.add ((g i).mul (Frame.ofF64 (wCeil q off i))))) (x i n : Nat) (st)
    (h : ∃ y, st.1[x]? = some y ∧ P y) :
    ∃ y, (placeN q off d g i n st).1[x]? = some y ∧ P y := by
  have mod : ∀ (l : List (Frame k c)) m (F : Frame k c → Frame k c), (∀ b, P b → P (F b)) →
      (∃ y, l[x]? = some y ∧ P y) → ∃ y, (l.modify m F)[x]? = some y ∧ P y := by
    rintro l m F hF ⟨y, h1, h2⟩
    rw [List.getElem?_modify, h1]
    by_cases hm : m = x
    · exact ⟨F y, by simp [hm], hF y h2⟩
    · exact ⟨y, by simp [hm], h2⟩
  induction n generalizing i st with
  | zero => exact h
  | succ n ih =>
    rw [placeN]
    apply ih
    unfold place
    dsimp only
    have h1 := mod _ (Sink.pos q off i).toUsize _ (fun b hb => (hP i b hb).1) h
    split
    · exact mod _ (ceilU (Sink.pos q off i)) _ (fun b hb => (hP i b hb).2) h1
    · exact h1

/-- C44: otherwise the first frame makes its slot full scale. -/
theorem C44_loud (fuel : Nat) (s s' : Sink k c) (st : Src k' c) (it : It k' c) (h : s.stream fuel st = .ok (s', it))
    (hk : k.builtin = true) (hk' : k'.builtin = true) (hb : ¬ Bears c (ratioOf s.rate st.rate))
    (hq : ratioOf s.rate st.rate = inf false ∨ ∃ r, (ratioOf s.rate st.rate).Is r ∧ 0 < r) (o : ℚ) (ho : s.res.offseti.Is o)
    (hsil : ∀ i f, st.nth i = .ok (some f) → f = Frame.dflt)
    (hi : InDst (ratioOf s.rate st.rate) st.len s.buf.length (posOf (ratioOf s.rate st.rate) s.res.offseti 0).toUsize) :
    s'.buf[(posOf (ratioOf s.rate st.rate) s.res.offseti 0).toUsize]? = some (Frame.ofF64 (lit 1)) := by
  have hc : c = .ch32 ∨ c = .ch64 := by
    cases c
    · exact absurd trivial hb
    · exact absurd trivial hb
    · exact .inl rfl
    · exact .inr rfl
  obtain ⟨n, hn, h5⟩ := stream_silent h hk hk' hsil
  have hz : (f64OfUsize 0).Is 0 := is_ofInt (f := binary64) (n := 0) (by simpa using rep_zero)
  have hn0 : 0 < n := by
    rcases Nat.eq_zero_or_pos n with rfl | h'
    · exfalso
      rcases hn.2.2 with h1 | h1
      · have := hi.2 0 h1
        have h2 : ((ratioOf s.rate st.rate).mul (f64OfUsize 0)).toUsize = 0 := by
          rcases hq with e | ⟨r, hq, _⟩
          · rw [e]
            obtain ⟨b, h1, e⟩ := hz
            rw [e]
            simp [Fl.mul, Fl.toUsize, Fl.toIntSat]
          · exact toUsize_nat (n := 0) (by simpa using mul_zero' hq hz) (by norm_num)
        omega
      · exact h1 hi
    · exact h'
  obtain ⟨m, rfl⟩ : ∃ m, n = m + 1 := ⟨n - 1, by omega⟩
  have hlt := inDst_iff.mp hi
  rw [h5, placeN]
  set x0 := (posOf (ratioOf s.rate st.rate) s.res.offseti 0).toUsize with hx0
  have keep : ∀ w, (Frame.ofF64 (lit 1) : Frame k c).add ((Frame.dflt : Frame k c).mul (Frame.ofF64 w)) = Frame.ofF64 (lit 1) := by
    intro w
    ext x hx
    simpa [Frame.add, Frame.mul, Frame.ofF64, Frame.dflt] using loud_keeps hc w
  obtain ⟨y, hy, rfl⟩ := placeN_slot (ratioOf s.rate st.rate) s.res.offseti
    (dstEnd (ratioOf s.rate st.rate) st.len s.buf.length) (fun _ => (Frame.dflt : Frame k c))
    (fun b => b = Frame.ofF64 (lit 1)) (by rintro j b rfl; exact ⟨keep _, keep _⟩) x0 (0 + 1) m
    (place (ratioOf s.rate st.rate) s.res.offseti (dstEnd (ratioOf s.rate st.rate) st.len s.buf.length) 0 Frame.dflt
      ((s.prepare (dstEnd (ratioOf s.rate st.rate) st.len s.buf.length)).buf, s.res.partial_)) (by
    have hlen : x0 < (s.prepare (dstEnd (ratioOf s.rate st.rate) st.len s.buf.length)).buf.length := by
      rw [prepare_length]; exact hi.1
    have h1 : ((s.prepare (dstEnd (ratioOf s.rate st.rate) st.len s.buf.length)).buf.modify
        (Sink.pos (ratioOf s.rate st.rate) s.res.offseti 0).toUsize
        (fun b => b.add ((Frame.dflt : Frame k c).mul (Frame.ofF64 (wFloor (ratioOf s.rate st.rate) s.res.offseti 0)))))[x0]?
        = some (Frame.ofF64 (lit 1)) := by
      rw [List.getElem?_modify, List.getElem?_eq_getElem hlen]
      simp only [Option.map_eq_map, Option.map_some]
      rw [if_pos (by rw [hx0]; rfl)]
      congr 1
      ext x hx
      have := loud_chan hc (first_weight hq ho hb)
      simpa [Frame.add, Frame.mul, Frame.ofF64, Frame.dflt] using this _
    refine ⟨_, ?_, rfl⟩
    unfold place
    dsimp only
    split
    · rw [List.getElem?_modify, h1]
      split
      · simp only [Option.map_eq_map, Option.map_some]
        rw [keep]
      · rfl
    · exact h1)
  exact hy

theorem extreme_pos : ∃ r, (ratioOf (exExtreme .ch32).rate (exSilent .ch32).rate).Is r ∧ 0 < r :=
  ⟨2 ^ 1000, by decide +kernel, by norm_num⟩

theorem extreme_loud : ¬ Bears .ch32 (ratioOf (exExtreme .ch32).rate (exSilent .ch32).rate) := by
  rintro ⟨p, hp⟩
  have : (ratioOf (exExtreme .ch32).rate (exSilent .ch32).rate).cast binary32 = inf false := by decide +kernel
  rw [this] at hp
  exact not_inf_is hp

example := C44_loud 3 (exExtreme .ch32) _ (exSilent .ch32) _
  (R.returns₂ (x := Sink.stream 3 (exExtreme .ch32) (exSilent .ch32)) (by decide +kernel)) rfl rfl
  extreme_loud (.inr extreme_pos) 2 (by decide +kernel) (exSilent_dflt _) (by decide +kernel)

example : ((exExtreme .ch32).stream 3 (exSilent .ch32)).map (fun r => r.1.buf) =
    .ok [#v[lit 0], #v[lit 0], #v[lit 1], #v[lit 0]] := by decide +kernel

/-- C44, exactly, if the first frame falls into the destination range. -/
theorem C44_iff (fuel : Nat) (s s' : Sink k c) (st : Src k' c) (it : It k' c) (h : s.stream fuel st = .ok (s', it))
    (hk : k.builtin = true) (hk' : k'.builtin = true)
    (hq : ratioOf s.rate st.rate = inf false ∨ ∃ r, (ratioOf s.rate st.rate).Is r ∧ 0 < r) (o : ℚ) (ho : s.res.offseti.Is o)
    (hsil : ∀ i f, st.nth i = .ok (some f) → f = Frame.dflt)
    (hi : InDst (ratioOf s.rate st.rate) st.len s.buf.length (posOf (ratioOf s.rate st.rate) s.res.offseti 0).toUsize) :
    (∀ i, InDst (ratioOf s.rate st.rate) st.len s.buf.length i → s'.buf[i]? = some Frame.dflt) ↔
      Bears c (ratioOf s.rate st.rate) := by
  constructor
  · intro hall
    by_contra hb
    have h1 := C44_loud fuel s s' st it h hk hk' hb hq o ho hsil hi
    rw [hall _ hi] at h1
    have h2 : (Frame.dflt : Frame k c) = Frame.ofF64 (lit 1) := Option.some.inj h1
    have hn : 0 < k.chans := by
      cases k with
      | custom n cfg => cases hk
      | _ => decide
    have h3 : (Frame.dflt : Frame k c)[0] = (Frame.ofF64 (lit 1) : Frame k c)[0] := by rw [h2]
    simp only [Frame.dflt, Frame.ofF64, Vector.getElem_replicate, Vector.getElem_map] at h3
    cases c with
    | ch8 => exact hb trivial
    | ch16 => exact hb trivial
    | ch32 => exact absurd h3 (by decide +kernel)
    | ch64 => exact absurd h3 (by decide +kernel)
  · exact fun hb i => C44_holds fuel s s' st it h hk hk' hb hsil i

example := C44_iff 3 (exExtreme .ch32) _ (exSilent .ch32) _
  (R.returns₂ (x := Sink.stream 3 (exExtreme .ch32) (exSilent .ch32)) (by decide +kernel)) rfl rfl
  (.inr extreme_pos) 2 (by decide +kernel) (exSilent_dflt _) (by decide +kernel)

example := C44_iff 3 (exExtreme .ch64) _ (exSilent .ch64) _
  (R.returns₂ (x := Sink.stream 3 (exExtreme .ch64) (exSilent .ch64)) (by decide +kernel)) rfl rfl
  (.inr extreme_pos) 2 (by decide +kernel) (exSilent_dflt _) (by decide +kernel)

end Fon
