import Verif.Props.Movement
import Verif.Props.Tone

/-!
# C155: resampling to a lower rate adds no crossings

A signal crosses a level if it is first above and then below it, or the other way round.
-/

namespace Fon
open Fon.Fl hiding min max
open Fon.Fmt Fon.Sink
variable {k k' : Kind} {c c' : ChTy}

/-- C155: when the rate does not go up, and the slots `x 0 < x 1 < … < x m` are in turn above and below the level `θ` (the sign says
with which of the two it begins) by more than the accuracy of the box filter, then so are frames `j 0 < j 1 < … < j m` of the stream,
each of them played during its slot.  So the slots cross no level more often than the frames.  The first slot is left out. -/
theorem C155_partial (fuel : Nat) (s s' : Sink k c) (st : Src k' c') (it : It k' c')
    (h : s.stream fuel st = .ok (s', it)) (ho : s.res.offseti = lit 0) (r : ℚ)
    (hq : (ratioOf s.rate st.rate).Is r) (hr : 0 < r) (hr1 : r ≤ 1) (hb : (s.buf.length : ℚ) + 1 ≤ r * 2 ^ 52)
    (i : Nat) (hi : i < k.chans) (w : Nat → ℚ)
    (hw : ∀ j f, st.nth j = .ok (some f) → ∀ g : Frame k c, f.convert c = .ok g → SampleVal c g[i] (w j) ∧ |w j| ≤ 1)
    (θ : ℚ) (hθ : |θ| ≤ 1) (m p : Nat) (x : Nat → Nat) (hx0 : 1 ≤ x 0) (hxx : ∀ t, t < m → x t < x (t + 1))
    (hx : InDst (ratioOf s.rate st.rate) st.len s.buf.length (x m)) (v : Nat → ℚ)
    (hv : ∀ t, t ≤ m → ∃ y : Frame k c, s'.buf[x t]? = some y ∧ SampleVal c y[i] (v t))
    (hc : ∀ t, t ≤ m → boxErr c r s.buf.length < (-1) ^ (t + p) * (v t - θ)) :
    ∃ j : Nat → Nat, (∀ t, t < m → j t < j (t + 1)) ∧ ∀ t, t ≤ m → (x t:ℚ) - 1 < r * j t ∧ r * j t < x t + r ∧
      (∃ f, st.nth (j t) = .ok (some f)) ∧ 0 < (-1) ^ (t + p) * (w (j t) - θ) := by
  have hθ' := abs_le.mp hθ
  have hle : ∀ t, t ≤ m → 1 ≤ x t ∧ x t ≤ x m := by
    have up : ∀ d t, t + d = m → x t ≤ x m := by
      intro d
      induction d with
      | zero => intro t ht; rw [show t = m by omega]
      | succ d ih => intro t ht; exact (hxx t (by omega)).le.trans (ih (t + 1) (by omega))
    intro t ht
    refine ⟨?_, up (m - t) t (by omega)⟩
    induction t with
    | zero => exact hx0
    | succ t ih => have := hxx t (by omega); have := ih (by omega); omega
  -- a frame for every slot
  have key : ∀ t, ∃ j : Nat, t ≤ m → (x t:ℚ) - 1 < r * j ∧ r * j < x t + r ∧
      (∃ f, st.nth j = .ok (some f)) ∧ 0 < (-1) ^ (t + p) * (w j - θ) := by
    intro t
    by_cases ht : t ≤ m
    swap
    · exact ⟨0, fun h => absurd h ht⟩
    by_contra hno
    have hno : ∀ j f, st.nth j = .ok (some f) → (x t:ℚ) - 1 < r * j → r * j < x t + r → (-1) ^ (t + p) * (w j - θ) ≤ 0 := by
      intro j f hf h1 h2
      by_contra h3
      exact hno ⟨j, fun _ => ⟨h1, h2, ⟨f, hf⟩, not_le.mp h3⟩⟩
    obtain ⟨l1, l2⟩ := hle t ht
    have hin : InDst (ratioOf s.rate st.rate) st.len s.buf.length (x t) :=
      ⟨by have := hx.1; omega, fun l hl => by have := hx.2 l hl; omega⟩
    obtain ⟨y, y1, y2⟩ := hv t ht
    have hct := hc t ht
    rcases neg_one_pow_eq_or ℚ (t + p) with e | e <;> rw [e] at hct hno
    · obtain ⟨y', b, b1, b2, _, b3⟩ := C95_local fuel s s' st it h ho r hq hr hr1 hb i hi (-1) θ (by norm_num) hθ'.1 (x t) hin l1
        (fun j f hf g hg => ⟨w j, (hw j f hf g hg).1, (hw j f hf g hg).2, fun h1 h2 =>
          ⟨(abs_le.mp (hw j f hf g hg).2).1, by have := hno j f hf h1 h2; linarith⟩⟩)
      obtain rfl : y = y' := Option.some.inj (y1.symm.trans b1)
      have := val_unique y2 b2
      linarith
    · obtain ⟨y', b, b1, b2, b3, _⟩ := C95_local fuel s s' st it h ho r hq hr hr1 hb i hi θ 1 hθ'.2 (by norm_num) (x t) hin l1
        (fun j f hf g hg => ⟨w j, (hw j f hf g hg).1, (hw j f hf g hg).2, fun h1 h2 =>
          ⟨by have := hno j f hf h1 h2; linarith, (abs_le.mp (hw j f hf g hg).2).2⟩⟩)
      obtain rfl : y = y' := Option.some.inj (y1.symm.trans b1)
      have := val_unique y2 b2
      linarith
  choose j hj using key
  refine ⟨j, fun t ht => ?_, hj⟩
  obtain ⟨_, a2, _, a4⟩ := hj t (by omega)
  obtain ⟨b1, _, _, b4⟩ := hj (t + 1) (by omega)
  have hxq : (x t:ℚ) + 1 ≤ x (t + 1) := by exact_mod_cast hxx t ht
  have hge : j t ≤ j (t + 1) := by
    by_contra hlt
    push Not at hlt
    have : (j (t + 1):ℚ) + 1 ≤ j t := by exact_mod_cast hlt
    nlinarith
  refine lt_of_le_of_ne hge fun heq => ?_
  rw [← heq, show t + 1 + p = t + p + 1 by ring, pow_succ] at b4
  linarith

/-- C155 for `Audio::with_stream`, for whole rates, without the last slot. -/
theorem C155_withStream {rate sr : F64} {b : Audio k c} {st : Src k' c'} {dst src l : Nat} (h : Audio.withStream rate st = .ok b)
    (hl : st.len = some l) (hd : rate.Is (dst:ℚ)) (hsr : st.rate = some sr) (hs : sr.Is (src:ℚ)) (hd0 : 0 < dst) (hle : dst ≤ src)
    (hs' : src ≤ 2 ^ 51) (hN : dst * l < 2 ^ 51) (hb : dst * l + 2 * src ≤ dst * 2 ^ 51)
    (i : Nat) (hi : i < k.chans) (w : Nat → ℚ)
    (hw : ∀ j f, st.nth j = .ok (some f) → ∀ g : Frame k c, f.convert c = .ok g → SampleVal c g[i] (w j) ∧ |w j| ≤ 1)
    (θ : ℚ) (hθ : |θ| ≤ 1) (m p : Nat) (x : Nat → Nat) (hx0 : 1 ≤ x 0) (hxx : ∀ t, t < m → x t < x (t + 1)) (hx : x m + 1 < b.len)
    (v : Nat → ℚ) (hv : ∀ t, t ≤ m → ∃ y : Frame k c, b.get (x t) = some y ∧ SampleVal c y[i] (v t))
    (hc : ∀ t, t ≤ m → boxErr c (binary64.rnd ((dst:ℚ) / src)) b.len < (-1) ^ (t + p) * (v t - θ)) :
    ∃ j : Nat → Nat, (∀ t, t < m → j t < j (t + 1)) ∧ ∀ t, t ≤ m →
      (∃ f, st.nth (j t) = .ok (some f)) ∧ 0 < (-1) ^ (t + p) * (w (j t) - θ) := by
  have h0 : 0 < src := by omega
  have hsq : (0:ℚ) < src := by exact_mod_cast h0
  have hdq : (0:ℚ) < dst := by exact_mod_cast hd0
  have hl51 : l ≤ 2 ^ 51 := le_trans (Nat.le_mul_of_pos_left _ hd0) hN.le
  have hlen := C49_partial rate sr dst src l hd hs h0 (by omega) (by omega) hs' st hl hsr b h
  obtain ⟨hratio, hpos⟩ := pos_int hd hs h0 hd0 hs' (hle.trans hs')
  have hrlo : (dst:ℚ) / src * (1 / 2) ≤ binary64.rnd ((dst:ℚ) / src) := by
    obtain ⟨_, _, _, g4, _⟩ := hpos 1 (by omega)
    rw [Nat.cast_one, mul_one, mul_one, Fmt.rnd_of_rep hratio.rep] at g4
    have : (0:ℚ) < (dst:ℚ) / src := by positivity
    nlinarith
  have hr0 : 0 < binary64.rnd ((dst:ℚ) / src) := lt_of_lt_of_le (by positivity) hrlo
  have hr1 : binary64.rnd ((dst:ℚ) / src) ≤ 1 := by
    have e0 : binary64.rnd 1 = 1 := Fmt.rnd_of_rep (by simpa using rep_nat53 (n := 1) (by norm_num))
    rw [← e0]
    refine Fmt.rnd_mono ?_
    rw [div_le_one hsq]; exact_mod_cast hle
  have hBup : (b.len:ℚ) < dst * l / src + 1 := by rw [hlen]; exact Nat.ceil_lt_add_one (by positivity)
  have hBq : (b.len:ℚ) + 1 ≤ binary64.rnd ((dst:ℚ) / src) * 2 ^ 52 := by
    have e1 : (dst * l / src + 2 : ℚ) ≤ dst / src * 2 ^ 51 := by
      rw [div_add' _ _ _ hsq.ne', div_mul_eq_mul_div]
      refine div_le_div_of_nonneg_right ?_ hsq.le
      exact_mod_cast hb
    linarith
  have hq : (ratioOf rate st.rate).Is (binary64.rnd ((dst:ℚ) / src)) := by rw [hsr]; exact hratio
  obtain ⟨s, it, e1, e2⟩ := with_slots h hq hr0 hl
  have hin : ∀ x, x + 1 < b.len → InDst (ratioOf rate st.rate) st.len b.len x ∧ b.get x = s.buf[x]? := fun x hx =>
    e2 x (by omega) (by rw [hsr]; exact before_last hd hs h0 hd0 hs' (hle.trans hs') hN (by rwa [← hlen]))
  have len : (List.replicate b.len (Frame.dflt : Frame k c)).length = b.len := List.length_replicate
  have up : ∀ t, t ≤ m → x t ≤ x m := by
    have up : ∀ d t, t + d = m → x t ≤ x m := by
      intro d
      induction d with
      | zero => intro t ht; rw [show t = m by omega]
      | succ d ih => intro t ht; exact (hxx t (by omega)).le.trans (ih (t + 1) (by omega))
    exact fun t ht => up (m - t) t (by omega)
  obtain ⟨j, j1, j2⟩ := C155_partial (l + 1) _ s st it e1 rfl _ hq hr0 hr1 (by rw [len]; exact hBq) i hi w hw θ hθ m p x hx0 hxx
    (by rw [len]; exact (hin _ hx).1) v (fun t ht => by
      obtain ⟨y, y1, y2⟩ := hv t ht
      exact ⟨y, by rw [← (hin (x t) (by have := up t ht; omega)).2]; exact y1, y2⟩) (by rw [len]; exact hc)
  exact ⟨j, j1, fun t ht => (j2 t ht).2.2⟩

/-! ## Examples -/

/-- Eight frames at 2 Hz that are above 0, below it, and above it again. -/
def exCross : Audio .mono .ch64 :=
  ⟨lit 2, [#v[lit 0.5], #v[lit 0.5], #v[lit 0.5], #v[lit (-0.5)], #v[lit (-0.5)], #v[lit 0.5], #v[lit 0.5], #v[lit 0.5]]⟩

def exCrossW (j : Nat) : ℚ := if j = 3 ∨ j = 4 then -1 / 2 else 1 / 2

theorem exCross_val (j : Nat) (f : Frame .mono .ch64) (hf : (Src.audio exCross).nth j = .ok (some f)) (g : Frame .mono .ch64)
    (hg : f.convert .ch64 = .ok g) : SampleVal .ch64 g[0] (exCrossW j) ∧ |exCrossW j| ≤ 1 := by
  match j with
  | 0 | 1 | 2 | 3 | 4 | 5 | 6 | 7 => cases hf; cases hg; decide +kernel
  | j + 8 => cases hf

example := C155_partial 9 ⟨lit 1, .dflt, List.replicate 4 (Frame.dflt : Frame .mono .ch64)⟩ _ (.audio exCross) _
  (R.returns₂ (x := Sink.stream 9 ⟨lit 1, .dflt, List.replicate 4 (Frame.dflt : Frame .mono .ch64)⟩ (.audio exCross)) (by decide +kernel)) rfl
  (1 / 2) (by decide +kernel) (by norm_num) (by norm_num) (by decide +kernel) 0 (by decide) exCrossW exCross_val 0 (by norm_num)
  2 0 (fun t => t + 1) le_rfl (fun t _ => by omega) (by decide +kernel) (fun t => if t = 1 then -1 / 2 else 1 / 2)
  (fun t ht => by
    match t with
    | 0 => exact ⟨#v[lit 0.5], by decide +kernel, by decide +kernel⟩
    | 1 => exact ⟨#v[lit (-0.5)], by decide +kernel, by decide +kernel⟩
    | 2 => exact ⟨#v[lit 0.5], by decide +kernel, by decide +kernel⟩
    | t + 3 => omega)
  (fun t ht => by
    match t with
    | 0 | 1 | 2 => decide +kernel
    | t + 3 => omega)

/-- The same frames made into audio at 1 Hz. -/
example := C155_withStream (k := .mono) (c := .ch64) (dst := 1) (src := 2) (l := 8) (rate := lit 1) (sr := lit 2)
  (b := ⟨lit 1, [#v[lit 0.25], #v[lit 0.5], #v[lit (-0.5)], #v[lit 0.5]]⟩) (st := .audio exCross) (by decide +kernel) rfl
  (by decide +kernel) rfl (by decide +kernel) (by decide) (by decide) (by decide) (by decide) (by decide) 0 (by decide) exCrossW
  exCross_val 0 (by norm_num) 1 0 (fun t => t + 1) le_rfl (fun t _ => by omega) (by decide)
  (fun t => if t = 1 then -1 / 2 else 1 / 2)
  (fun t ht => by
    match t with
    | 0 => exact ⟨#v[lit 0.5], by decide +kernel, by decide +kernel⟩
    | 1 => exact ⟨#v[lit (-0.5)], by decide +kernel, by decide +kernel⟩
    | t + 2 => omega)
  (fun t ht => by
    match t with
    | 0 | 1 => decide +kernel
    | t + 2 => omega)

/-- C155 is false for a rate that goes up: a signal that is always above 1/8 gives slots that are 3/4 and 0 in turn. -/
theorem C155_false :
    (Audio.withStream (lit 3) (.audio (k := .mono) (c := .ch64) ⟨lit 1, [#v[lit 0.25], #v[lit 0.25]]⟩) :
      R (Audio .mono .ch64)).map (·.frames) =
      .ok [#v[lit 0.75], #v[lit 0], #v[lit 0], #v[lit 0.75], #v[lit 0], #v[lit 0]] := by
  decide +kernel

end Fon
