import Verif.Spec.Standard
import Verif.Props.Examples

/-!
# C129: converting between the usual sample rates
-/

namespace Fon
open Fmt Fl
variable {k k' : Kind} {c c' : ChTy}

/-- Rounding of a number slightly above a whole number. -/
theorem rnd_slight {D e : Nat} {η : ℚ} (h1 : 2 ^ e ≤ D) (h2 : D < 2 ^ (e + 1)) (he : e ≤ 51) (h0 : 0 ≤ η) (hη : η < 2 ^ ((e : ℤ) - 52)) :
    binary64.rnd (D + η) = if (2:ℚ) ^ ((e : ℤ) - 53) < η then (D:ℚ) + 2 ^ ((e : ℤ) - 52) else (D : ℚ) := by
  have hq1 : (2:ℚ) ^ e ≤ D := by exact_mod_cast h1
  have hq2 : (D:ℚ) + 1 ≤ 2 ^ (e + 1) := by exact_mod_cast h2
  have hD0 : (0:ℚ) < D := lt_of_lt_of_le (by positivity) hq1
  have hη1 : η < 1 := hη.trans_le (zpow_le_one_of_nonpos₀ (by norm_num) (by omega))
  have hlog : Int.log 2 |(D:ℚ) + η| = e := by
    rw [abs_of_nonneg (by positivity)]
    refine le_antisymm ?_ ?_
    · rw [← Int.lt_add_one_iff]
      refine (Int.lt_zpow_iff_log_lt (by norm_num) (by positivity)).mp ?_
      rw [← Nat.cast_one, ← Nat.cast_add, zpow_natCast]
      push_cast; linarith
    · refine (Int.zpow_le_iff_le_log (by norm_num) (by positivity)).mp ?_
      rw [zpow_natCast]; push_cast; linarith
  have hexp : binary64.expo (D + η) = (e:ℤ) - 52 := by
    unfold expo
    rw [hlog]
    simp only [binary64]
    omega
  have hp := two_zpow_pos ((e:ℤ) - 52)
  have hhalf : (2:ℚ) ^ ((e:ℤ) - 53) = 2 ^ ((e:ℤ) - 52) / 2 := by
    rw [show (e:ℤ) - 53 = e - 52 - 1 by ring, zpow_sub_one₀ (by norm_num)]; ring
  -- the significand
  set n : ℤ := (D : ℤ) * 2 ^ (52 - e) with hn
  have hDn : (D:ℚ) = n * 2 ^ ((e:ℤ) - 52) := by
    rw [hn]; push_cast
    rw [← zpow_natCast (2:ℚ) (52 - e), mul_assoc, ← zpow_add₀ (by norm_num)]
    rw [show ((52 - e : ℕ) : ℤ) + ((e:ℤ) - 52) = 0 by omega]; simp
  have heven : n % 2 = 0 := by
    rw [hn, show 52 - e = (51 - e) + 1 by omega, pow_succ, ← mul_assoc]
    exact Int.mul_emod_left _ _
  set t : ℚ := η / 2 ^ ((e:ℤ) - 52) with ht
  have ht0 : 0 ≤ t := by positivity
  have ht1 : t < 1 := by rw [ht, div_lt_one hp]; exact hη
  have hdiv : ((D:ℚ) + η) / 2 ^ ((e:ℤ) - 52) = n + t := by
    rw [add_div, hDn, mul_div_cancel_right₀ _ hp.ne']
  have hfl : ⌊(n:ℚ) + t⌋ = n := by
    rw [Int.floor_intCast_add, Int.floor_eq_zero_iff.mpr ⟨ht0, ht1⟩, add_zero]
  have hiff : 2 ^ ((e : ℤ) - 53) < η ↔ 1 / 2 < t := by
    rw [hhalf, ht, lt_div_iff₀ hp]; constructor <;> intro h <;> linarith
  unfold rnd rne
  rw [hexp, hdiv, hfl, add_sub_cancel_left]
  by_cases h : 1 / 2 < t
  · rw [if_neg (by linarith), if_pos h, if_pos (hiff.mpr h)]
    push_cast
    rw [add_mul, one_mul, ← hDn]
  · rw [if_neg (show ¬ (2:ℚ) ^ ((e : ℤ) - 53) < η from fun h' => h (hiff.mp h'))]
    split
    · exact hDn.symm
    · exact hDn.symm

example : binary64.rnd (((5:ℕ):ℚ) + 1 / 2 ^ 51) = ((5:ℕ):ℚ) := by
  rw [rnd_slight (e := 2) (by norm_num) (by norm_num) (by norm_num) (by norm_num) (by norm_num)]
  norm_num

/-- The condition of `C51_int` in closed form. -/
theorem above_iff {dst src l D : Nat} (h0 : 0 < src) (hd0 : 0 < dst) (hs' : src ≤ 2 ^ 51) (hD : dst * l = src * D)
    (hN : dst * l < 2 ^ 51) :
    (dst * l : ℚ) / src + 2 ^ (-52 : ℤ) < binary64.rnd (binary64.rnd ((dst:ℚ) / src) * l) ↔
      2 ^ ((Nat.log 2 D : ℤ) - 53) < (binary64.rnd ((dst:ℚ) / src) - dst / src) * l := by
  have hsq : (0:ℚ) < src := by exact_mod_cast h0
  have hdq : (0:ℚ) < dst := by exact_mod_cast hd0
  have hDq : (dst * l : ℚ) / src = D := by
    rw [div_eq_iff hsq.ne']; exact_mod_cast hD.trans (Nat.mul_comm _ _)
  have hrl : (dst:ℚ) / src * l = D := by rw [← hDq]; ring
  rcases Nat.eq_zero_or_pos D with rfl | hpos
  · have hl : l = 0 := by
      rcases Nat.eq_zero_or_pos l with h | h
      · exact h
      · have := Nat.mul_pos hd0 h; omega
    subst hl
    simp only [Nat.cast_zero, mul_zero, rnd_zero, zero_div, zero_add]
    have a := two_zpow_pos (-52)
    have b := two_zpow_pos ((Nat.log 2 0 : ℤ) - 53)
    constructor <;> intro h <;> linarith
  set r := binary64.rnd ((dst:ℚ) / src) with hr
  set e := Nat.log 2 D with he
  have e1 : 2 ^ e ≤ D := Nat.pow_log_le_self 2 (by omega)
  have e2 : D < 2 ^ (e + 1) := Nat.lt_pow_succ_log_self (by norm_num) D
  have hDl : D < 2 ^ 51 := lt_of_le_of_lt (Nat.le_mul_of_pos_left D h0) (hD ▸ hN)
  have e3 : e ≤ 51 := by
    by_contra h
    have : (2:ℕ) ^ 51 ≤ 2 ^ e := Nat.pow_le_pow_right (by norm_num) (by omega)
    omega
  have hqpos : (0:ℚ) < dst / src := by positivity
  have hqge : (1:ℚ) / 2 ^ 51 ≤ dst / src := by
    rw [div_le_div_iff₀ (by norm_num) hsq]
    have : (1:ℚ) ≤ dst := by exact_mod_cast hd0
    have : (src:ℚ) ≤ 2 ^ 51 := by exact_mod_cast hs'
    nlinarith
  have tiny : (2:ℚ) ^ (binary64.emin + binary64.prec - 1) ≤ 1 / 2 ^ 52 := by
    rw [show (1:ℚ) / 2 ^ 52 = 2 ^ (-52:ℤ) by norm_num]
    exact zpow_le_zpow_right₀ (by norm_num) (by decide)
  have hrel := rel_err_normal (f := binary64) (q := (dst:ℚ) / src) (by
    rw [abs_of_pos hqpos]
    exact (tiny.trans (by norm_num)).trans hqge)
  have hu : binary64.u = 1 / 2 ^ 53 := by norm_num [Fmt.u, binary64]
  rw [abs_of_pos hqpos, abs_le, hu, ← hr] at hrel
  have hl0 : (0:ℚ) ≤ l := by positivity
  have hDe : (D:ℚ) < 2 ^ (e + 1) := by exact_mod_cast e2
  have hpe : (2:ℚ) ^ ((e:ℤ) - 52) = 2 ^ (e + 1) / 2 ^ 53 := by
    rw [show (e:ℤ) - 52 = (e + 1 : ℕ) - (53 : ℕ) by push_cast; ring, zpow_sub₀ (by norm_num), zpow_natCast, zpow_natCast]
  have hη : (r - dst / src) * l < 2 ^ ((e:ℤ) - 52) := by
    have : (r - dst / src) * l ≤ (dst / src * (1 / 2 ^ 53)) * l := mul_le_mul_of_nonneg_right hrel.2 hl0
    rw [hpe]
    have h3 : (dst:ℚ) / src * (1 / 2 ^ 53) * l = D / 2 ^ 53 := by rw [← hrl]; ring
    rw [h3] at this
    exact this.trans_lt (by gcongr)
  have hsum : r * l = D + (r - dst / src) * l := by rw [← hrl]; ring
  rw [hDq, hsum]
  rcases lt_or_ge ((r - dst / src) * l) 0 with hneg | h0'
  · have : binary64.rnd (D + (r - dst / src) * l) ≤ D :=
      rnd_le_of_gen (rep_nat53 (n := D) (by omega)).gen (by linarith)
    have a := two_zpow_pos (-52)
    have b := two_zpow_pos ((e : ℤ) - 53)
    constructor <;> intro h <;> linarith
  · rw [rnd_slight e1 e2 e3 h0' hη]
    split
    · rename_i h
      refine iff_of_true ?_ h
      rcases Nat.eq_zero_or_pos e with h0e | hpe'
      · -- at length 1 the ratio is not rounded that far
        exfalso
        rw [h0e] at h e2
        have hD1 : D = 1 := by omega
        have : (r - dst / src) * l ≤ (dst / src * (1 / 2 ^ 53)) * l := mul_le_mul_of_nonneg_right hrel.2 hl0
        have h3 : (dst:ℚ) / src * (1 / 2 ^ 53) * l = D / 2 ^ 53 := by rw [← hrl]; ring
        rw [h3, hD1] at this
        norm_num at h this
        linarith
      · have : (2:ℚ) ^ (-52:ℤ) < 2 ^ ((e:ℤ) - 52) := zpow_lt_zpow_right₀ (by norm_num) (by omega)
        linarith
    · rename_i h
      have a := two_zpow_pos (-52)
      exact iff_of_false (by linarith) h

example := above_iff (dst := 48000) (src := 44100) (l := 147) (D := 160) (by norm_num) (by norm_num) (by norm_num) (by norm_num)
  (by norm_num)

/-- C129: between whole rates, `extend` panics exactly if the resampled length `D` is whole and the rounding error of the ratio,
summed over the frames, is more than half of a unit in the last place of `D`. -/
theorem C129_iff (a : Audio k c) (st : Src k' c') (sr : F64) (dst src l : Nat) (hl : st.len = some l)
    (hr : a.rate.Is (dst:ℚ)) (hs : sr.Is (src:ℚ)) (hsr : st.rate = some sr) (h0 : 0 < src) (hd0 : 0 < dst)
    (hs' : src ≤ 2 ^ 51) (hd' : dst ≤ 2 ^ 51) (hN : dst * l < 2 ^ 51)
    (hk : k.builtin = true) (hk' : k'.builtin = true) (hsafe : st.safe = true)
    (hf : a.Fits ⌈(dst * l : ℚ) / src⌉₊) :
    (∃ e, (a.extend st).2 = .error e) ↔
      src ∣ dst * l ∧ 2 ^ ((Nat.log 2 (dst * l / src) : ℤ) - 53) < (binary64.rnd ((dst:ℚ) / src) - dst / src) * l := by
  rw [C51_int a st sr dst src l hl hr hs hsr h0 hd0 hs' hd' hN hk hk' hsafe hf]
  refine and_congr_right fun h => ?_
  exact above_iff h0 hd0 hs' (Nat.mul_div_cancel' h).symm hN

example := C129_iff (exAudio 29) (.audio (k := .mono) (c := .ch8) ⟨lit 7, List.replicate 7 #v[1#8]⟩) (lit 7) 29 7 7 rfl
  (by decide +kernel) (by decide +kernel) rfl (by norm_num) (by norm_num) (by norm_num) (by norm_num) (by norm_num)
  rfl rfl rfl (by decide +kernel)

/-- C129: no length panics if the ratio is rounded down, or up by at most a quarter of a unit. -/
theorem C129_never (a : Audio k c) (st : Src k' c') (sr : F64) (dst src l : Nat) (hl : st.len = some l)
    (hr : a.rate.Is (dst:ℚ)) (hs : sr.Is (src:ℚ)) (hsr : st.rate = some sr) (h0 : 0 < src) (hd0 : 0 < dst)
    (hs' : src ≤ 2 ^ 51) (hd' : dst ≤ 2 ^ 51) (hN : dst * l < 2 ^ 51)
    (hk : k.builtin = true) (hk' : k'.builtin = true) (hsafe : st.safe = true)
    (hf : a.Fits ⌈(dst * l : ℚ) / src⌉₊) (h : binary64.rnd ((dst:ℚ) / src) ≤ dst / src * (1 + 2 ^ (-54 : ℤ))) :
    ∃ it, (a.extend st).2 = .ok it := by
  have hiff := C129_iff a st sr dst src l hl hr hs hsr h0 hd0 hs' hd' hN hk hk' hsafe hf
  cases he : (a.extend st).2 with
  | ok it => exact ⟨it, rfl⟩
  | error e =>
    exfalso
    obtain ⟨h1, h2⟩ := hiff.mp ⟨e, he⟩
    obtain ⟨D, hD⟩ := h1
    rw [hD, Nat.mul_div_cancel_left D h0] at h2
    have hsq : (0:ℚ) < src := by exact_mod_cast h0
    have hrl : (dst:ℚ) / src * l = D := by
      rw [div_mul_eq_mul_div, div_eq_iff hsq.ne']; exact_mod_cast hD.trans (Nat.mul_comm _ _)
    have h3 : (binary64.rnd ((dst:ℚ) / src) - dst / src) * l ≤ (dst / src * 2 ^ (-54 : ℤ)) * l :=
      mul_le_mul_of_nonneg_right (by linarith) (by positivity)
    have h4 : (dst:ℚ) / src * 2 ^ (-54 : ℤ) * l = D * 2 ^ (-54 : ℤ) := by rw [← hrl]; ring
    have h5 : (D:ℚ) < 2 ^ (Nat.log 2 D + 1) := by exact_mod_cast Nat.lt_pow_succ_log_self (by norm_num) D
    have h6 : (2:ℚ) ^ ((Nat.log 2 D : ℤ) - 53) = 2 ^ (Nat.log 2 D + 1) * 2 ^ (-54 : ℤ) := by
      rw [← zpow_natCast, ← zpow_add₀ (by norm_num)]; congr 1; push_cast; ring
    have h7 := mul_lt_mul_of_pos_right h5 (two_zpow_pos (-54))
    rw [h4] at h3
    rw [h6] at h2
    linarith

example := C129_never (exAudio 5) (.audio (k := .mono) (c := .ch8) ⟨lit 7, List.replicate 7 #v[1#8]⟩) (lit 7) 5 7 7 rfl
  (by decide +kernel) (by decide +kernel) rfl (by norm_num) (by norm_num) (by norm_num) (by norm_num) (by norm_num)
  rfl rfl rfl (by decide +kernel) (by decide +kernel)

/-- The rounding of the ratios of the usual rates. -/
theorem usual_good : ∀ src ∈ usualRates, ∀ dst ∈ usualRates, ¬ Bad src dst →
    binary64.rnd ((dst:ℚ) / src) ≤ dst / src * (1 + 2 ^ (-54 : ℤ)) := by
  decide +kernel
theorem usual_bad : ∀ src ∈ usualRates, ∀ dst ∈ usualRates, Bad src dst →
    binary64.rnd ((dst:ℚ) / src) - dst / src = dst / src * (13 / 2 ^ 57) := by
  decide +kernel

/-- The usual rates are small positive numbers. -/
theorem usual_range : ∀ r ∈ usualRates, 0 < r ∧ r ≤ 2 ^ 51 := by decide

/-- C129: between the usual rates, audio of any length is converted without panic, but for the bad directions. -/
theorem C129_partial (a : Audio k c) (st : Src k' c') (sr : F64) (dst src l : Nat) (hl : st.len = some l)
    (hr : a.rate.Is (dst:ℚ)) (hs : sr.Is (src:ℚ)) (hsr : st.rate = some sr) (hsu : src ∈ usualRates) (hdu : dst ∈ usualRates)
    (hN : dst * l < 2 ^ 51) (hk : k.builtin = true) (hk' : k'.builtin = true) (hsafe : st.safe = true)
    (hf : a.Fits ⌈(dst * l : ℚ) / src⌉₊) (hb : ¬ Bad src dst) : ∃ it, (a.extend st).2 = .ok it :=
  C129_never a st sr dst src l hl hr hs hsr (usual_range _ hsu).1 (usual_range _ hdu).1 (usual_range _ hsu).2 (usual_range _ hdu).2 hN hk
    hk' hsafe hf (usual_good _ hsu _ hdu hb)

example := C129_partial (exAudio 44100) (.audio (k := .mono) (c := .ch8) ⟨lit 48000, List.replicate 160 #v[1#8]⟩) (lit 48000)
  44100 48000 160 rfl (by decide +kernel) (by decide +kernel) rfl (by decide) (by decide) (by norm_num) rfl rfl rfl
  (by decide +kernel) (by decide)

/-- C129: in the bad directions it panics exactly if the resampled length is whole and more than 16/13 of the largest power of
two that it reaches. -/
theorem C129_actual (a : Audio k c) (st : Src k' c') (sr : F64) (dst src l : Nat) (hl : st.len = some l)
    (hr : a.rate.Is (dst:ℚ)) (hs : sr.Is (src:ℚ)) (hsr : st.rate = some sr) (hb : Bad src dst)
    (hN : dst * l < 2 ^ 51) (hk : k.builtin = true) (hk' : k'.builtin = true) (hsafe : st.safe = true)
    (hf : a.Fits ⌈(dst * l : ℚ) / src⌉₊) :
    (∃ e, (a.extend st).2 = .error e) ↔ src ∣ dst * l ∧ Long (dst * l / src) := by
  have hsu : src ∈ usualRates := List.mem_append_left _ hb.1
  have hdu : dst ∈ usualRates := by
    have : ∀ d ∈ [48000, 96000, 192000], d ∈ usualRates := by decide
    exact this _ hb.2
  have h0 := (usual_range _ hsu).1
  rw [C129_iff a st sr dst src l hl hr hs hsr h0 (usual_range _ hdu).1 (usual_range _ hsu).2 (usual_range _ hdu).2 hN hk hk' hsafe
    hf, usual_bad _ hsu _ hdu hb]
  refine and_congr_right fun ⟨D, hD⟩ => ?_
  rw [hD, Nat.mul_div_cancel_left D h0]
  have hsq : (0:ℚ) < src := by exact_mod_cast h0
  have hrl : (dst:ℚ) / src * l = D := by
    rw [div_mul_eq_mul_div, div_eq_iff hsq.ne']; exact_mod_cast hD.trans (Nat.mul_comm _ _)
  have h4 : (dst:ℚ) / src * (13 / 2 ^ 57) * l = 13 * D / 2 ^ 57 := by rw [← hrl]; ring
  have h6 : (2:ℚ) ^ ((Nat.log 2 D : ℤ) - 53) = 16 * 2 ^ Nat.log 2 D / 2 ^ 57 := by
    rw [zpow_sub₀ (by norm_num), zpow_natCast]; norm_num; ring
  rw [h4, h6, div_lt_div_iff_of_pos_right (by norm_num)]
  unfold Long
  constructor <;> intro h <;> exact_mod_cast h

example := C129_actual (exAudio 48000) (.audio (k := .mono) (c := .ch8) ⟨lit 44100, List.replicate 147 #v[1#8]⟩) (lit 44100)
  48000 44100 147 rfl (by decide +kernel) (by decide +kernel) rfl (by decide) (by norm_num) rfl rfl rfl (by decide +kernel)

/-- Both cases occur among the whole lengths. -/
example : Long (48000 * 147 / 44100) ∧ ¬ Long (48000 * (147 * 7) / 44100) := by decide

/-- C129: in the bad directions one second, one minute and one hour panic. -/
theorem C129_false (a : Audio k c) (x : Audio k' c') (dst src t : Nat) (hb : Bad src dst) (hr : a.rate.Is (dst:ℚ))
    (hs : x.rate.Is (src:ℚ)) (ht : t = 1 ∨ t = 60 ∨ t = 3600) (hl : x.len = src * t) (hk : k.builtin = true)
    (hk' : k'.builtin = true) (hf : a.Fits (dst * t)) : ∃ e, (a.extend (.audio x)).2 = .error e := by
  have hsm : ∀ s ∈ cdRates, 0 < s ∧ s ≤ 176400 := by decide
  have hdm : ∀ d ∈ [48000, 96000, 192000], 0 < d ∧ d ≤ 192000 ∧ Long (d * 1) ∧ Long (d * 60) ∧ Long (d * 3600) := by decide
  obtain ⟨s0, s1⟩ := hsm _ hb.1
  obtain ⟨-, d1, l1, l2, l3⟩ := hdm _ hb.2
  have ht' : t ≤ 3600 := by omega
  have hlong : Long (dst * t) := by
    rcases ht with h | h | h <;> rw [h] <;> assumption
  have he : dst * (src * t) = src * (dst * t) := by ring
  have hsq : (0:ℚ) < src := by exact_mod_cast s0
  have hc : (dst * (src * t : ℕ) : ℚ) / src = (dst * t : ℕ) := by
    rw [div_eq_iff hsq.ne']; push_cast; ring
  have hlen : (Src.audio x).len = some (src * t) := congrArg some hl
  refine (C129_actual a (.audio x) x.rate dst src (src * t) hlen hr hs rfl hb ?_ hk hk' rfl ?_).mpr ⟨?_, ?_⟩
  · have : dst * (src * t) ≤ 192000 * (176400 * 3600) := Nat.mul_le_mul d1 (Nat.mul_le_mul s1 ht')
    omega
  · rw [hc, Nat.ceil_natCast]; exact hf
  · exact ⟨dst * t, he⟩
  · rw [he, Nat.mul_div_cancel_left _ s0]; exact hlong

example := C129_false (exAudio 48000) (⟨lit 11025, List.replicate 11025 #v[1#8]⟩ : Audio .mono .ch8) 48000 11025 1 (by decide)
  (by decide +kernel) (by decide +kernel) (.inl rfl) (List.length_replicate ..) rfl rfl (by decide +kernel)

/-- C94: the files at which the programs of the example panic, without rounding. -/
theorem C94_closed (file : List (BitVec 8)) (hl : file.length < 2 ^ 37) :
    (∃ e, Example.whole file = .error e) ↔ ¬ 4 ∣ file.length ∨ (147 ∣ file.length / 4 ∧ Long (file.length / 4 / 147 * 160)) := by
  rw [C94_panics_iff file hl]
  refine or_congr_right ?_
  unfold Overshoots
  refine and_congr_right fun ⟨n, hn⟩ => ?_
  rw [hn, Nat.mul_div_cancel_left n (by norm_num)]
  have key := above_iff (dst := 48000) (src := 44100) (l := 147 * n) (D := n * 160) (by norm_num) (by norm_num) (by norm_num)
    (by ring) (by omega)
  have e2 : ((48000:ℕ) * (147 * n : ℕ) : ℚ) / (44100:ℕ) = 160 * (147 * n : ℕ) / 147 := by push_cast; ring
  have e3 : (((48000:ℕ):ℚ) / (44100:ℕ)) = 160 / 147 := by norm_num
  rw [usual_bad 44100 (by decide) 48000 (by decide) (by decide), e2, e3] at key
  rw [key]
  have h4 : (160:ℚ) / 147 * (13 / 2 ^ 57) * (147 * n : ℕ) = 13 * (n * 160 : ℕ) / 2 ^ 57 := by push_cast; ring
  have h6 : (2:ℚ) ^ ((Nat.log 2 (n * 160) : ℤ) - 53) = 16 * 2 ^ Nat.log 2 (n * 160) / 2 ^ 57 := by
    rw [zpow_sub₀ (by norm_num), zpow_natCast]; norm_num; ring
  rw [h4, h6, div_lt_div_iff_of_pos_right (by norm_num)]
  unfold Long
  constructor <;> intro h <;> exact_mod_cast h

example := C94_closed (List.replicate 588 7#8) (by rw [List.length_replicate]; norm_num)

end Fon
