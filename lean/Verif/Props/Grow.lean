import Verif.Spec.Grow
import Verif.Props.Chunk

/-!
# C50, C75: what is appended at any equal rates
-/

namespace Fon
open Fmt Fl Sink
variable {k k' : Kind} {c c' : ChTy}

/-- A number of the format above a whole number `l ≥ 2` exceeds it by more than the machine epsilon. -/
theorem gap_of_gen {x : ℚ} (hx : binary64.Gen x) {l : Nat} (h2 : 2 ≤ l) (h : (l:ℚ) < x) : 2 ^ (-52:ℤ) < x - l := by
  obtain ⟨m, e, h3, h4, rfl⟩ := hx
  have he : -51 ≤ e := by
    by_contra hc
    have hm : (m:ℚ) < 2 ^ 53 := by
      have : (|m| : ℤ) < 2 ^ 53 := by simpa [binary64] using h3
      exact_mod_cast lt_of_le_of_lt (le_abs_self m) this
    have hp : (2:ℚ) ^ e ≤ 1 / 2 ^ 52 := by
      rw [show (1:ℚ) / 2 ^ 52 = 2 ^ (-52:ℤ) by norm_num]
      exact zpow_le_zpow_right₀ (by norm_num) (by omega)
    have hp0 := two_zpow_pos e
    have h2q : (2:ℚ) ≤ l := by exact_mod_cast h2
    have : (m:ℚ) * 2 ^ e < 2 := by
      rcases le_or_gt (m:ℚ) 0 with hm0 | hm0
      · nlinarith
      · calc (m:ℚ) * 2 ^ e ≤ m * (1 / 2 ^ 52) := by gcongr
          _ < 2 ^ 53 * (1 / 2 ^ 52) := by gcongr
          _ = 2 := by norm_num
    linarith
  obtain ⟨t, ht⟩ := Int.le.dest he
  have hz : (m:ℚ) * 2 ^ e - l = ((m * 2 ^ t - l * 2 ^ 51 : ℤ) : ℚ) / 2 ^ 51 := by
    rw [← ht, zpow_add₀ (by norm_num)]
    push_cast
    rw [show (2:ℚ) ^ (-51:ℤ) = 1 / 2 ^ 51 by norm_num]
    simp only [zpow_natCast]
    field_simp
    norm_num
    ring
  have hpos : (0:ℚ) < ((m * 2 ^ t - l * 2 ^ 51 : ℤ) : ℚ) / 2 ^ 51 := by rw [← hz]; linarith
  rw [hz]
  rw [lt_div_iff₀ (by norm_num), zero_mul] at hpos
  have h1 : (1:ℚ) ≤ ((m * 2 ^ t - l * 2 ^ 51 : ℤ) : ℚ) := by
    have : 0 < m * 2 ^ t - l * 2 ^ 51 := by exact_mod_cast hpos
    exact_mod_cast this
  rw [lt_div_iff₀ (by norm_num)]
  refine lt_of_lt_of_le ?_ h1
  norm_num

theorem rnd_small {ρ : ℚ} {l : Nat} (h : binary64.Rep ρ) (h0 : 0 < ρ) (hl : l < 2) :
    binary64.rnd (binary64.rnd (ρ * l) / ρ) = l := by
  have hl : l = 0 ∨ l = 1 := by omega
  rcases hl with rfl | rfl
  · simp [rnd_zero]
  · rw [Nat.cast_one, mul_one, rnd_of_rep h, div_self h0.ne']
    exact rnd_of_rep (is_one (f := binary64)).rep

/-- The number of frames at equal rates, exactly. -/
theorem dstLen_equal_iff {rate sr : F64} {ρ : ℚ} {l : Nat} (hr : rate.Is ρ) (hs : sr.Is ρ) (hρ : 2 ^ (-1022 : ℤ) ≤ ρ)
    (hm : ρ * l ≤ binary64.maxF) (hl : l < 2 ^ 51) :
    Audio.dstLen rate l (some sr) = l + if RoundsUp ρ l then 1 else 0 := by
  have hρ0 : 0 < ρ := lt_of_lt_of_le (two_zpow_pos _) hρ
  have hlq : (l:ℚ) ≤ 2 ^ 51 := by exact_mod_cast hl.le
  have hl0 : (0:ℚ) ≤ l := Nat.cast_nonneg l
  have hmax : binary64.Rep binary64.maxF := ⟨2 ^ 53 - 1, binary64.etop, by decide +kernel, by decide, le_rfl, by
    unfold Fmt.maxF; norm_num [binary64]⟩
  have h1 : (rate.mul (f64OfUsize l)).Is (binary64.rnd (ρ * l)) :=
    hr.mul (is_usize (by omega)) (abs_rnd_le_of_rep hmax (by rw [abs_of_nonneg (by positivity)]; exact hm))
  have hP0 : 0 ≤ binary64.rnd (ρ * l) := rnd_nonneg (by positivity)
  have hg : binary64.Gen (ρ * 2 ^ 51) := by
    obtain ⟨m, e, g1, g2, _, g4⟩ := hr.rep
    exact ⟨m, e + 51, g1, by omega, by rw [g4, zpow_add₀ (by norm_num), mul_assoc]; norm_cast⟩
  have h51 : binary64.Rep (2 ^ 51) := by
    exact_mod_cast rep_pow (f := binary64) (k := 51) (by norm_num [binary64]) (by norm_num [binary64])
  have hP1 : binary64.rnd (ρ * l) / ρ ≤ 2 ^ 51 := by
    rw [div_le_iff₀ hρ0, mul_comm (2 ^ 51 : ℚ)]
    exact rnd_le_of_gen hg (by gcongr)
  have hQ0 : 0 ≤ binary64.rnd (ρ * l) / ρ := by positivity
  have hx0 := rnd_nonneg (f := binary64) hQ0
  have hx1 : binary64.rnd (binary64.rnd (ρ * l) / ρ) ≤ 2 ^ 51 := rnd_le_of_gen h51.gen hP1
  have h2 := h1.div hs hρ0.ne' (by
    rw [abs_of_nonneg hx0]
    have := h51.le_maxF
    rw [abs_of_nonneg (by positivity)] at this
    linarith)
  have hR : RoundsUp ρ l ↔ (l:ℚ) < binary64.rnd (binary64.rnd (ρ * l) / ρ) := Iff.rfl
  have hgen := gen_rnd (f := binary64) (binary64.rnd (ρ * l) / ρ)
  have h01 : l < 2 → binary64.rnd (binary64.rnd (ρ * l) / ρ) = l := rnd_small hr.rep hρ0
  generalize binary64.rnd (binary64.rnd (ρ * l) / ρ) = x at *
  obtain ⟨n, hn⟩ : ∃ n : Nat, (n:ℤ) = if 2 ^ (-52 : ℤ) < x - ⌊x⌋ then ⌊x⌋ + 1 else ⌊x⌋ :=
    Int.eq_ofNat_of_zero_le (by have := Int.floor_nonneg.mpr hx0; split <;> omega) |>.imp fun _ h => h.symm
  have hd := dstLen_growth (.rated sr x h2 hx0 (by linarith) n hn)
  rcases dstLen_equal hr hs hρ hm ‹_› with he | he
  · rw [he] at hd ⊢
    subst hd
    rw [if_neg, Nat.add_zero]
    intro hu
    rw [hR] at hu
    rcases Nat.lt_or_ge l 2 with h | h
    · exact absurd (h01 h) hu.ne'
    · have hgap := gap_of_gen hgen h hu
      have hfl : (l:ℤ) ≤ ⌊x⌋ := Int.le_floor.mpr (by exact_mod_cast hu.le)
      split at hn
      · omega
      · have : (⌊x⌋:ℚ) = l := by exact_mod_cast hn.symm
        rename_i hc
        rw [this] at hc
        exact hc hgap
  · rw [he] at hd ⊢
    subst hd
    rw [if_pos]
    by_contra hu
    rw [hR, not_lt] at hu
    have hfl : ⌊x⌋ ≤ (l:ℤ) := by
      have : (⌊x⌋:ℚ) ≤ l := (Int.floor_le x).trans hu
      exact_mod_cast this
    split at hn
    · have : ⌊x⌋ = (l:ℤ) := by push_cast at hn; omega
      have h0 := two_zpow_pos (-52)
      rename_i hc
      rw [this] at hc
      push_cast at hc
      linarith
    · push_cast at hn; omega

/-- C50 at any equal normal rates: what is appended, exactly. -/
theorem C50_iff (a : Audio k c) (st : Src k' c') (l : Nat) (hl : st.len = some l) (hl' : l < 2 ^ 51)
    (hk : k.builtin = true) (hk' : k'.builtin = true) (hs : st.safe = true) (hp : st.playable)
    (hr : ∀ x, st.rate = some x → ∃ ρ : ℚ, a.rate.Is ρ ∧ x.Is ρ ∧ 2 ^ (-1022 : ℤ) ≤ ρ ∧ ρ * l ≤ binary64.maxF)
    (hf : a.Fits (l + 1)) :
    ∃ b it fs, a.extend st = (b, .ok it) ∧ b.rate = a.rate ∧ b.frames = a.frames ++ fs ∧ Appended k c [st] fs ∧
      fs.length ≤ l + 1 := by
  obtain ⟨d, hd, hd1, hup⟩ : ∃ d, Audio.dstLen a.rate l st.rate = d ∧ (d = l ∨ d = l + 1) ∧
      (d = l + 1 ↔ ∃ x ρ, st.rate = some x ∧ x.Is ρ ∧ RoundsUp ρ l) := by
    cases hx : st.rate with
    | none => exact ⟨l, rfl, .inl rfl, by simp⟩
    | some x =>
      obtain ⟨ρ, h1, h2, h3, h4⟩ := hr x hx
      refine ⟨_, dstLen_equal_iff h1 h2 h3 h4 hl', by split <;> simp, ?_⟩
      constructor
      · intro h
        refine ⟨x, ρ, rfl, h2, ?_⟩
        by_contra hc
        rw [if_neg hc] at h
        omega
      · rintro ⟨y, σ, ⟨⟩, g2, g3⟩
        cases h2.unique g2
        rw [if_pos g3]
  have hr' : ∀ x, st.rate = some x → ∃ ρ : ℚ, a.rate.Is ρ ∧ x.Is ρ ∧ ρ ≠ 0 := fun x hx => by
    obtain ⟨ρ, h1, h2, h3, _⟩ := hr x hx
    exact ⟨ρ, h1, h2, (lt_of_lt_of_le (two_zpow_pos _) h3).ne'⟩
  obtain ⟨b, it, h1, h2, h3, h4, h5, h6⟩ := extend_equal a st l d hl hd (by omega) hk hk' hs hp hr'
    (hf.mono (by omega)) (by omega)
  simp only [Audio.len, Audio.get] at h3 h4 h5 h6
  have hl0 : d = l + 1 → 0 < l := by
    intro h
    obtain ⟨x, ρ, g1, g2, g3⟩ := hup.mp h
    rcases Nat.eq_zero_or_pos l with rfl | h0
    · simp [RoundsUp, rnd_zero] at g3
    · exact h0
  have hbl : ((b.frames.drop a.frames.length).take l).length = l := by
    rw [List.length_take, List.length_drop]; omega
  refine ⟨b, it, (b.frames.drop a.frames.length).take l ++ (b.frames.drop a.frames.length).drop l ++ [], h1, h2, ?_,
    .block st _ _ (by rw [hbl]; exact hl) (fun j hj => ?_) ?_ ?_ .none, by simp; omega⟩
  · rw [List.append_nil, List.take_append_drop]
    have : a.frames = b.frames.take a.frames.length := by
      refine List.ext_getElem? fun i => ?_
      rcases Nat.lt_or_ge i a.frames.length with h | h
      · rw [List.getElem?_take_of_lt h, h4 i h]
      · rw [List.getElem?_eq_none h, List.getElem?_eq_none (by simp; omega)]
    conv_rhs => rw [this]
    rw [List.length_take, Nat.min_eq_left (by omega), List.take_append_drop]
  · rw [hbl] at hj
    obtain ⟨src, f, y, g1, g2, g3, g4⟩ := h5 j hj
    refine ⟨src, f, g1, g2, ?_⟩
    have : ((b.frames.drop a.frames.length).take l)[j]? = some y := by
      rw [List.getElem?_take_of_lt hj, List.getElem?_drop]; exact g3
    rw [List.getElem?_eq_some_iff] at this
    obtain ⟨_, e⟩ := this
    rw [e]; exact g4
  · rcases hd1 with hd1 | hd1
    · left
      exact List.eq_nil_of_length_eq_zero (by simp; omega)
    · right
      refine List.ext_getElem? fun i => ?_
      rw [List.drop_drop, List.getElem?_drop]
      cases i with
      | zero =>
        have := h6 (hl0 hd1) l le_rfl (by omega)
        simpa using this
      | succ i => rw [List.getElem?_eq_none (by omega), List.getElem?_eq_none (by simp)]
  · rw [hbl, ← hup, ne_eq, List.eq_nil_iff_length_eq_zero]
    simp only [List.length_drop]
    omega

/-- Three frames at 0.1 Hz: three tenths round up. -/
def exTenth : Audio .mono .ch8 := ⟨lit 0.1, [#v[1#8], #v[2#8], #v[3#8]]⟩

/-- The `f64` next to one tenth. -/
def exTenthQ : ℚ := binary64.rnd 0.1

example : RoundsUp exTenthQ 3 ∧ ¬ RoundsUp exTenthQ 2 ∧ ¬ RoundsUp 44100 3 := by decide +kernel

example := C50_iff exTenth (.audio exTenth) 3 rfl (by norm_num) rfl rfl rfl (by decide)
  (fun x hx => by cases hx; exact ⟨exTenthQ, by decide +kernel, by decide +kernel, by decide +kernel, by decide +kernel⟩)
  (by decide +kernel)

/-- C75 at any equal normal rates: the streams follow one another, with a silent frame after a stream exactly if the
product of rate and length rounds up. -/
theorem C75_any (a : Audio k c) (sts : List (Src k' c')) (ls : List Nat) (hl : sts.map Src.len = ls.map some)
    (hls : ∀ l ∈ ls, l < 2 ^ 51) (hk : k.builtin = true) (hk' : k'.builtin = true)
    (hs : ∀ st ∈ sts, st.safe = true ∧ st.playable)
    (hr : ∀ st ∈ sts, ∀ x, st.rate = some x → ∃ ρ : ℚ, a.rate.Is ρ ∧ x.Is ρ ∧ 2 ^ (-1022 : ℤ) ≤ ρ ∧
      ∀ l ∈ ls, ρ * l ≤ binary64.maxF) (hf : a.Fits (ls.sum + ls.length)) :
    ∃ b fs, a.extendAll sts = .ok b ∧ b.rate = a.rate ∧ b.frames = a.frames ++ fs ∧ Appended k c sts fs := by
  induction sts generalizing a ls with
  | nil => exact ⟨a, [], rfl, rfl, by simp, .none⟩
  | cons st sts ih =>
    cases ls with
    | nil => cases hl
    | cons l ls =>
      simp only [List.map_cons, List.cons.injEq] at hl
      simp only [List.sum_cons, List.length_cons] at hf
      obtain ⟨b, it, fs, e1, e2, e3, e4, e5⟩ := C50_iff a st l hl.1 (hls l (by simp)) hk hk' (hs st (by simp)).1
        (hs st (by simp)).2 (fun x hx => by
          obtain ⟨ρ, h1, h2, h3, h4⟩ := hr st (by simp) x hx
          exact ⟨ρ, h1, h2, h3, h4 l (by simp)⟩) (hf.mono (by omega))
      obtain ⟨d, gs, g1, g2, g3, g4⟩ := ih b ls hl.2 (fun l h => hls l (by simp [h])) (fun st h => hs st (by simp [h]))
        (fun st h x hx => by
          obtain ⟨ρ, h1, h2, h3, h4⟩ := hr st (by simp [h]) x hx
          exact ⟨ρ, by rw [e2]; exact h1, h2, h3, fun l h => h4 l (by simp [h])⟩) (by
          unfold Audio.Fits at *
          rw [e3, List.length_append]
          push_cast at hf ⊢
          refine ⟨by omega, le_trans (Nat.mul_le_mul_right _ (by omega)) hf.2⟩)
      refine ⟨d, fs ++ gs, by simp only [Audio.extendAll, e1]; exact g1, by rw [g2, e2],
        by rw [g3, e3, List.append_assoc], ?_⟩
      cases e4 with
      | block _ body tail q1 q2 q3 q4 q5 =>
        cases q5
        rw [List.append_nil]
        exact .block st body tail q1 q2 q3 q4 g4

example := C75_any exTenth [.audio exTenth, (Src.drain exTenth).mkTake 2] [3, 2] rfl (by decide) rfl rfl (by decide) (by
    intro st hst x hx
    simp only [List.mem_cons, List.not_mem_nil, or_false] at hst
    refine ⟨exTenthQ, by decide +kernel, ?_, by decide +kernel, fun l hl => ?_⟩
    · rcases hst with rfl | rfl <;> cases hx <;> decide +kernel
    · simp only [List.mem_cons, List.not_mem_nil, or_false] at hl
      rcases hl with rfl | rfl <;> decide +kernel) (by decide +kernel)

example : (exTenth.extendAll [.audio exTenth, (Src.drain exTenth).mkTake 2]).map (·.frames) =
    .ok (exTenth.frames ++ exTenth.frames ++ [#v[0#8]] ++ [#v[1#8], #v[2#8]]) := by decide +kernel

end Fon
