import Verif.Spec.Sink
import Verif.Proofs.Sink

/-!
# Streaming with ratio 1
-/

namespace Fon
open Fmt Fl Sink
variable {k k' : Kind} {c c' : ChTy}

/-- Integers up to 2^53 are floats. -/
theorem rep_nat53 {n : Nat} (h : n ≤ 2 ^ 53) : binary64.Rep (n:ℚ) := by
  rcases Nat.lt_or_eq_of_le h with h | rfl
  · have := rep_int (f := binary64) (n := n) (by
      rw [abs_of_nonneg (by omega)]; exact_mod_cast h)
    simpa using this
  · exact rep_dyadic 1 53 (by norm_num) (by decide) (by decide) (by decide)

theorem is_usize {n : Nat} (h : n ≤ 2 ^ 53) : (f64OfUsize n).Is (n:ℚ) := by
  have := is_ofInt (f := binary64) (n := n) (by simpa using rep_nat53 h)
  simpa [f64OfUsize] using this

theorem toUsize_is {f : Fmt} {x : Fl f} {q : ℚ} (h : x.Is q) (h0 : 0 ≤ q) (h1 : q < 2 ^ 64) :
    x.toUsize = ⌊q⌋.toNat := by
  obtain ⟨_, _, rfl⟩ := h
  have : ⌊q⌋ < 2 ^ 64 := by
    have := lt_of_le_of_lt (Int.floor_le q) h1
    exact_mod_cast this
  have h2 : 0 ≤ ⌊q⌋ := Int.floor_nonneg.mpr h0
  unfold Fl.toUsize Fl.toIntSat
  simp only
  rw [truncQ_nonneg h0, usizeMax_eq]
  norm_num at this
  omega

theorem toUsize_nat {x : F64} {n : Nat} (h : x.Is (n:ℚ)) (hn : n < 2 ^ 64) : x.toUsize = n := by
  rw [toUsize_is h (by positivity) (by exact_mod_cast hn)]; simp

theorem le_toUsize {f : Fmt} {x : Fl f} {q : ℚ} (h : x.Is q) {m : Nat} (hm : (m:ℚ) ≤ q) (h1 : m < 2 ^ 64) :
    m ≤ x.toUsize := by
  obtain ⟨_, _, rfl⟩ := h
  have h0 : 0 ≤ q := le_trans (by positivity) hm
  have : (m:ℤ) ≤ ⌊q⌋ := Int.le_floor.mpr (by simpa using hm)
  unfold Fl.toUsize Fl.toIntSat
  simp only
  rw [truncQ_nonneg h0, usizeMax_eq]
  omega

theorem ceilU_nat {x : F64} {n : Nat} (h : x.Is (n:ℚ)) : ceilU x = x.toUsize := by
  have hr := h.rem_one (by positivity)
  rw [Int.floor_natCast, Int.cast_natCast, sub_self] at hr
  unfold ceilU
  rw [is_epsilon.lt hr, if_neg]
  simp only [decide_eq_true_eq, not_lt]
  exact (two_zpow_pos _).le

/-- Position of frame `i` at ratio 1. -/
theorem pos_one {q off : F64} {o i : Nat} (hq : q.Is 1) (ho : off.Is (o:ℚ)) (hi : i ≤ 2 ^ 53)
    (h : i + o ≤ 2 ^ 53 ∨ i = 0) : (Sink.pos q off i).Is ((i + o : Nat) : ℚ) := by
  unfold Sink.pos
  have h1 : (q.mul (f64OfUsize i)).Is (i:ℚ) := by
    have e : binary64.rnd (1 * (i:ℚ)) = i := by rw [one_mul]; exact rnd_of_rep (rep_nat53 hi)
    have := hq.mul (is_usize hi) (by rw [e]; exact (rep_nat53 hi).le_maxF)
    rwa [e] at this
  have hr : binary64.Rep ((i:ℚ) + o) := by
    rcases h with h | rfl
    · have := rep_nat53 h; push_cast at this; exact this
    · simpa using ho.rep
  have e := rnd_of_rep hr
  have := h1.add ho (by rw [e]; exact hr.le_maxF)
  rw [e] at this
  push_cast; exact this

theorem wCeil_one {q off : F64} {o i : Nat} (hq : q.Is 1) (ho : off.Is (o:ℚ)) (hi : i ≤ 2 ^ 53)
    (h : i + o ≤ 2 ^ 53 ∨ i = 0) : (wCeil q off i).Is 0 := by
  unfold wCeil
  have hr := (pos_one hq ho hi h).rem_one (by positivity)
  rw [Int.floor_natCast, Int.cast_natCast, sub_self] at hr
  have := hr.min hq
  rwa [min_eq_left (by norm_num)] at this

theorem wFloor_one {q off : F64} {o i : Nat} (hq : q.Is 1) (ho : off.Is (o:ℚ)) (hi : i ≤ 2 ^ 53)
    (h : i + o ≤ 2 ^ 53 ∨ i = 0) : (wFloor q off i).Is 1 := by
  unfold wFloor
  have e : binary64.rnd (1 - 0) = 1 := by rw [sub_zero]; exact rnd_of_rep rep_one
  have := hq.sub (wCeil_one hq ho hi h) (by rw [e]; simpa using one_le_maxF)
  rwa [e] at this

theorem ofF64_one_zero {u z : F64} (hu : u.Is 1) (hz : z.Is 0) :
    ChTy.ch8.ofF64 u = 127#8 ∧ ChTy.ch8.ofF64 z = 0#8 ∧ ChTy.ch16.ofF64 u = 32767#16 ∧
    ChTy.ch16.ofF64 z = 0#16 := by
  have e1 : (clampQ 1 : ℚ) = 1 := clampQ_of_range (by norm_num) le_rfl
  have e0 : (clampQ 0 : ℚ) = 0 := clampQ_of_range (by norm_num) (by norm_num)
  refine ⟨?_, ?_, ?_, ?_⟩ <;> apply BitVec.eq_of_toInt_eq
  · rw [ofF64_ch8_is hu, e1]; decide +kernel
  · rw [ofF64_ch8_is hz, e0]; decide +kernel
  · rw [ofF64_ch16_is hu, e1]; decide +kernel
  · rw [ofF64_ch16_is hz, e0]; decide +kernel

theorem mul_unit {f : Fmt} {x u : Fl f} {p : ℚ} (hx : x.Is p) (hu : u.Is 1) : (x.mul u).Is p := by
  have e : f.rnd (p * 1) = p := by rw [mul_one]; exact rnd_of_rep hx.rep
  have := hx.mul hu (by rw [e]; exact hx.rep.le_maxF)
  rwa [e] at this

theorem mul_zero' {f : Fmt} {x z : Fl f} {p : ℚ} (hx : x.Is p) (hz : z.Is 0) : (x.mul z).Is 0 := by
  have := hx.mul hz (by rw [mul_zero, rnd_zero]; simpa using maxF_pos.le)
  rwa [mul_zero, rnd_zero] at this

theorem add_zero' {f : Fmt} {x z : Fl f} {p : ℚ} (hx : x.Is p) (hz : z.Is 0) : (x.add z).Is p := by
  have e : f.rnd (p + 0) = p := by rw [add_zero]; exact rnd_of_rep hx.rep
  have := hx.add hz (by rw [e]; exact hx.rep.le_maxF)
  rwa [e] at this

/-- A float sample put into a cleared slot with weights 1 and 0. -/
theorem arrives_float {f : Fmt} (x u z : Fl f) (hu : u.Is 1) (hz : z.Is 0) :
    (∀ p, x.Is p → (ChF.add (ChF.add (lit 0) (ChF.mul x u)) (ChF.mul x z)).Is (clampQ p)) ∧
    ((∀ p, ¬ x.Is p) → (ChF.add (ChF.add (lit 0) (ChF.mul x u)) (ChF.mul x z)).Is 1) := by
  constructor
  · intro p hx
    have h1 : (Fl.add (lit 0) (x.mul u)).Is p := by
      rw [Fl.add_comm']; exact add_zero' (mul_unit hx hu) is_zero
    have h2 := add_zero' (clamp1_is h1) (mul_zero' hx hz)
    have h3 := clamp1_is h2
    rwa [clampQ_of_range (clampQ_range p).1 (clampQ_range p).2] at h3
  · intro hx
    have hn : ChF.mul x z = .nan := by
      obtain ⟨_, _, rfl⟩ := hz
      cases x with
      | nan => rfl
      | inf s => simp [ChF.mul, Fl.mul]
      | fin p nz h => exact absurd is_fin (hx p)
    rw [hn]
    have : (ChF.add (ChF.add (lit 0) (ChF.mul x u)) .nan) = lit 1 := by
      unfold ChF.add
      rw [Fl.add_comm']; exact clamp1_nan
    rw [this]; exact is_one

theorem arrives_unit (x : c.T) {u z : F64} (hu : u.Is 1) (hz : z.Is 0) :
    Arrives c x (c.add (c.add c.dflt (c.mul x (c.ofF64 u))) (c.mul x (c.ofF64 z))) := by
  obtain ⟨e1, e2, e3, e4⟩ := ofF64_one_zero hu hz
  cases c with
  | ch8 =>
    simp only [Arrives, e1, e2]
    have h1 : ChTy.ch8.mul x 127#8 = x := (C02_ch8_unit x).1
    have h2 : ChTy.ch8.mul x 0#8 = 0#8 := (C02_ch8_zero x).1
    rw [h1, h2]
    apply BitVec.eq_of_toInt_eq
    have hx := i8_range x
    have h0 : (0#8).toInt = 0 := by decide
    have h3 : (ChTy.ch8.add (ChTy.ch8.dflt) x).toInt = x.toInt := by
      rw [C01_ch8_add]; simp only [ChTy.dflt, h0, clampZ]; omega
    rw [C01_ch8_add, h3, h0]; simp only [clampZ]; omega
  | ch16 =>
    simp only [Arrives, e3, e4]
    have h1 : ChTy.ch16.mul x 32767#16 = x := (C02_ch16_unit x).1
    have h2 : ChTy.ch16.mul x 0#16 = 0#16 := (C02_ch16_zero x).1
    rw [h1, h2]
    apply BitVec.eq_of_toInt_eq
    have hx := i16_range x
    have h0 : (0#16).toInt = 0 := by decide
    have h3 : (ChTy.ch16.add (ChTy.ch16.dflt) x).toInt = x.toInt := by
      rw [C01_ch16_add]; simp only [ChTy.dflt, h0, clampZ]; omega
    rw [C01_ch16_add, h3, h0]; simp only [clampZ]; omega
  | ch32 =>
    have hu' : (u.cast binary32).Is 1 := by
      have := hu.cast binary32 (by rw [rnd_of_rep rep_one]; simpa using one_le_maxF)
      rwa [rnd_of_rep rep_one] at this
    have hz' : (z.cast binary32).Is 0 := by
      have := hz.cast binary32 (by rw [rnd_zero]; simpa using maxF_pos.le)
      rwa [rnd_zero] at this
    exact arrives_float x _ _ hu' hz'
  | ch64 => exact arrives_float x u z hu hz

namespace Sink

/-- Both additions of frame `i` to one slot. -/
def put (q off : F64) (i : Nat) (src b : Frame k c) : Frame k c :=
  (b.add (src.mul (Frame.ofF64 (wFloor q off i)))).add (src.mul (Frame.ofF64 (wCeil q off i)))

theorem put_arrives {q off : F64} {i : Nat} (src : Frame k c) (h1 : (wFloor q off i).Is 1)
    (h0 : (wCeil q off i).Is 0) : FrameArrives src (put q off i src Frame.dflt) := by
  intro x hx
  have := arrives_unit (c := c) src[x] h1 h0
  simpa [put, Frame.add, Frame.mul, Frame.ofF64, Frame.dflt] using this

theorem place_one {q off : F64} {o i d : Nat} (src : Frame k c) (st) (hq : q.Is 1) (ho : off.Is (o:ℚ))
    (hi : i ≤ 2 ^ 53) (h : i + o ≤ 2 ^ 53 ∨ i = 0) (hd : i + o < d) (hd' : d < 2 ^ 64) :
    place q off d i src st = (st.1.modify (i + o) (put q off i src), st.2) := by
  have hp := pos_one hq ho hi h
  have hf : (Sink.pos q off i).toUsize = i + o := toUsize_nat hp (by omega)
  unfold place
  dsimp only
  rw [ceilU_nat hp, hf, if_pos hd, List.modify_modify_eq]
  rfl

/-- Placing frames `i .. i + n` at ratio 1: each goes to its own slot, shifted by the offset. -/
theorem placeN_one {q off : F64} {o d : Nat} (g : Nat → Frame k c) (hq : q.Is 1) (ho : off.Is (o:ℚ))
    (hd' : d ≤ 2 ^ 53) (i n : Nat) (st) (hd : i + n + o ≤ d) :
    (placeN q off d g i n st).2 = st.2 ∧
    ∀ x, (placeN q off d g i n st).1[x]? = if i + o ≤ x ∧ x < i + n + o then
      st.1[x]?.map (put q off (x - o) (g (x - o))) else st.1[x]? := by
  induction n generalizing i st with
  | zero => refine ⟨rfl, fun x => ?_⟩; rw [if_neg (by omega)]; rfl
  | succ n ih =>
    have e := place_one (g i) st hq ho (i := i) (by omega) (by omega) (by omega : i + o < d) (by omega)
    obtain ⟨h1, h2⟩ := ih (i + 1) (place q off d i (g i) st) (by omega)
    rw [placeN]
    refine ⟨by rw [h1, e], fun x => ?_⟩
    rw [h2, e]
    dsimp only
    rcases Nat.lt_trichotomy x (i + o) with hx | rfl | hx
    · rw [if_neg (by omega), if_neg (by omega), List.getElem?_modify]
      have : ¬ (i + o = x) := by omega
      simp [this]
    · rw [if_neg (by omega), if_pos (by omega), List.getElem?_modify]
      simp
    · have : ¬ (i + o = x) := by omega
      rw [List.getElem?_modify]
      simp only [this, if_false]
      simp only [Option.map_eq_map, Option.map_id']
      by_cases hh : x < i + (n + 1) + o
      · rw [if_pos (by omega), if_pos (by omega)]
      · rw [if_neg (by omega), if_neg (by omega)]

end Sink

/-- At ratio 1 the destination range is what one expects. -/
theorem dstEnd_one {q : F64} (hq : q.Is 1) (len : Option Nat) (b : Nat) (hb : b ≤ 2 ^ 53) :
    dstEnd q len b = match len with | some l => min l b | none => b := by
  unfold dstEnd
  cases len with
  | none => rfl
  | some l =>
    dsimp only
    rcases Nat.lt_or_ge (2 ^ 53) l with hl | hl
    · have : 2 ^ 53 ≤ (q.mul (f64OfUsize l)).toUsize := by
        have hle : ((2 ^ 53 : Nat) : ℚ) ≤ binary64.rnd ((l:ℤ):ℚ) := by
          rw [← rnd_of_rep (rep_nat53 (le_refl (2 ^ 53)))]
          apply rnd_mono
          exact_mod_cast hl.le
        by_cases hm : |binary64.rnd ((l:ℤ):ℚ)| ≤ binary64.maxF
        · have h1 : (f64OfUsize l).Is (binary64.rnd ((l:ℤ):ℚ)) := is_ofQ hm
          have h2 := mul_unit h1 hq
          rw [Fl.mul_comm'] at h2
          exact le_toUsize h2 hle (by norm_num)
        · have h1 : f64OfUsize l = .inf false := by
            unfold f64OfUsize Fl.ofInt Fl.ofQ
            rw [dif_neg hm]
            have : ¬ (((l:ℤ):ℚ) < 0) := by push_cast; simp
            simp only [this, decide_false]
          obtain ⟨nz, hh, rfl⟩ := hq
          have hnz : nz = false := by
            by_contra hc
            have := hh.2 (by simpa using hc)
            norm_num at this
          subst hnz
          rw [h1]
          simp only [Fl.mul]
          norm_num [Fl.toUsize, Fl.toIntSat, usizeMax_eq]
      omega
    · have h1 := mul_unit (is_usize hl) hq
      rw [Fl.mul_comm'] at h1
      rw [toUsize_nat h1 (by omega)]

end Fon
