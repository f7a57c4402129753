import Verif.Props.Standard

/-!
# C129: the whole rates between which some length panics
-/

namespace Fon
open Fmt Fl
variable {k k' : Kind} {c c' : ChTy}

/-- If the ratio is rounded up by more than a quarter of a unit, some whole number of seconds is too long. -/
theorem some_seconds {dst src : Nat} (h0 : 0 < src) (hd0 : 0 < dst) (hs : src ≤ 2 ^ 16) (hd : dst ≤ 2 ^ 16)
    (h : dst / src * (1 + 2 ^ (-54 : ℤ)) < binary64.rnd ((dst:ℚ) / src)) :
    ∃ m, 0 < m ∧ dst * m < 2 ^ 34 ∧
      2 ^ ((Nat.log 2 (dst * m) : ℤ) - 53) < (binary64.rnd ((dst:ℚ) / src) - dst / src) * (src * m : ℕ) := by
  have hsq : (0:ℚ) < src := by exact_mod_cast h0
  have hdq : (0:ℚ) < dst := by exact_mod_cast hd0
  have hs1 : (1:ℚ) ≤ src := by exact_mod_cast h0
  set q : ℚ := (dst:ℚ) / src with hq
  have hqpos : 0 < q := by positivity
  set L := Int.log 2 q with hL
  have hlo : (2:ℚ) ^ L ≤ q := Int.zpow_log_le_self (by norm_num) hqpos
  have hhi : q < 2 ^ (L + 1) := Int.lt_zpow_succ_log_self (by norm_num) q
  have hLge : -17 ≤ L := by
    have : (2:ℚ) ^ (-16:ℤ) < 2 ^ (L + 1) := by
      refine lt_of_le_of_lt ?_ hhi
      rw [hq, le_div_iff₀ hsq]
      have a1 : (src:ℚ) ≤ 2 ^ 16 := by exact_mod_cast hs
      have a2 : (1:ℚ) ≤ dst := by exact_mod_cast hd0
      norm_num
      linarith
    have := (zpow_lt_zpow_iff_right₀ (by norm_num : (1:ℚ) < 2)).mp this
    omega
  have hexp : binary64.expo q = L - 52 := by
    unfold expo
    rw [abs_of_pos hqpos, ← hL]
    simp only [binary64]
    omega
  obtain ⟨M, hM⟩ : ∃ M : ℤ, binary64.rnd q = M * 2 ^ (L - 52) := ⟨_, by unfold rnd; rw [hexp]⟩
  -- the least unit
  obtain ⟨t, ht0, ht⟩ : ∃ t : ℕ, 0 ≤ L + 2 + t ∧ 2 ^ t * dst < dst + src + 1 := by
    rcases le_or_gt (-2) L with hc | hc
    · exact ⟨0, by push_cast; omega, by omega⟩
    · refine ⟨(-(L + 2)).toNat, by omega, ?_⟩
      have e : (((-(L + 2)).toNat : ℕ) : ℤ) = -(L + 2) := by omega
      have : ((2 ^ (-(L + 2)).toNat * dst : ℕ) : ℚ) < ((dst + src + 1 : ℕ) : ℚ) := by
        push_cast
        rw [← zpow_natCast, e]
        have h1 : (2:ℚ) ^ (-(L + 2)) * 2 ^ (L + 1) = 1 / 2 := by
          rw [← zpow_add₀ (by norm_num), show -(L + 2) + (L + 1) = -1 by ring]; norm_num
        have h2 : (2:ℚ) ^ (-(L + 2)) * q < 1 / 2 := by
          rw [← h1]; exact mul_lt_mul_of_pos_left hhi (two_zpow_pos _)
        have h3 : (2:ℚ) ^ (-(L + 2)) * dst = 2 ^ (-(L + 2)) * q * src := by rw [hq]; field_simp
        rw [h3]
        nlinarith
      exact_mod_cast this
  set y : ℚ := 2 ^ 54 * (binary64.rnd q * src - dst) with hy
  have hqs : q * src = dst := by rw [hq]; field_simp
  have hgt : (dst:ℚ) < y := by
    have := mul_lt_mul_of_pos_right h hsq
    rw [show q * (1 + 2 ^ (-54:ℤ)) * src = q * src * (1 + 2 ^ (-54:ℤ)) by ring, hqs] at this
    rw [hy]
    norm_num at this ⊢
    linarith
  have hint : ∃ z : ℤ, 2 ^ t * (y - dst) = z := by
    obtain ⟨u, hu⟩ := Int.eq_ofNat_of_zero_le ht0
    refine ⟨M * 2 ^ u * src - 2 ^ t * (2 ^ 54 + 1) * dst, ?_⟩
    have e : (2:ℚ) ^ t * 2 ^ 54 * 2 ^ (L - 52) = 2 ^ u := by
      rw [← zpow_natCast (2:ℚ) t, ← zpow_natCast (2:ℚ) u, show (2:ℚ) ^ 54 = 2 ^ (54:ℤ) by norm_num, ← zpow_add₀ (by norm_num),
        ← zpow_add₀ (by norm_num)]
      congr 1; omega
    rw [hy, hM]
    push_cast
    rw [← e]
    ring
  have hone : 1 ≤ 2 ^ t * (y - dst) := by
    obtain ⟨z, hz⟩ := hint
    have : (0:ℚ) < z := by rw [← hz]; exact mul_pos (by positivity) (by linarith)
    rw [hz]
    have : 0 < z := by exact_mod_cast this
    exact_mod_cast this
  -- the number of seconds
  set m := (2 ^ 34 - 1) / dst with hm
  have m1 : dst * m < 2 ^ 34 := by
    have := Nat.mul_div_le (2 ^ 34 - 1) dst
    rw [← hm] at this
    omega
  have m2 : 2 ^ 34 ≤ dst * m + dst := by
    have := Nat.lt_mul_div_succ (2 ^ 34 - 1) hd0
    rw [← hm, Nat.mul_add, Nat.mul_one] at this
    omega
  have m3 : dst + src + 1 ≤ m := by
    rw [hm, Nat.le_div_iff_mul_le hd0]
    have : (dst + src + 1) * dst ≤ (2 ^ 16 + 2 ^ 16 + 1) * 2 ^ 16 := Nat.mul_le_mul (by omega) hd
    omega
  have hlog : Nat.log 2 (dst * m) = 33 := by
    rw [Nat.log_eq_iff (by norm_num)]
    constructor
    · omega
    · exact m1
  refine ⟨m, by omega, m1, ?_⟩
  rw [hlog]
  have e1 : (binary64.rnd q - q) * (src * m : ℕ) = y * m / 2 ^ 54 := by
    push_cast
    rw [hy, ← hqs]; ring
  rw [e1, lt_div_iff₀ (by norm_num)]
  have hmq : (2:ℚ) ^ t * dst < m := by
    have : 2 ^ t * dst < m := by omega
    exact_mod_cast this
  have hyd : (dst:ℚ) < (y - dst) * m := by
    have a1 : (2:ℚ) ^ t * dst < m * (2 ^ t * (y - dst)) := by
      refine hmq.trans_le ?_
      have : (0:ℚ) ≤ m := by positivity
      nlinarith
    have a2 : (0:ℚ) < 2 ^ t := by positivity
    nlinarith
  have m2q : (2:ℚ) ^ 34 ≤ dst * m + dst := by exact_mod_cast m2
  norm_num at m2q ⊢
  nlinarith

/-- C129: exactly the whole rates up to 2^16 Hz between which some length panics: those with a ratio that is rounded up by more
than a quarter of a unit.  A whole number of seconds is among the lengths then. -/
theorem C129_sharp {dst src : Nat} {rate sr : F64} (hr : rate.Is (dst:ℚ)) (hs : sr.Is (src:ℚ)) (h0 : 0 < src) (hd0 : 0 < dst)
    (hs' : src ≤ 2 ^ 16) (hd' : dst ≤ 2 ^ 16) (hk : k.builtin = true) :
    (∃ x : Audio k c, x.rate = sr ∧ dst * x.len < 2 ^ 51 ∧
        ∃ e, ((Audio.withFrames rate [] : Audio .mono .ch8).extend (.audio x)).2 = .error e) ↔
      dst / src * (1 + 2 ^ (-54 : ℤ)) < binary64.rnd ((dst:ℚ) / src) := by
  have fits : ∀ l : ℕ, dst * l < 2 ^ 51 → (Audio.withFrames rate [] : Audio .mono .ch8).Fits ⌈(dst * l : ℚ) / src⌉₊ := by
    intro l hl
    have : ⌈(dst * l : ℚ) / src⌉₊ ≤ dst * l := by
      rw [Nat.ceil_le, div_le_iff₀ (by exact_mod_cast h0)]
      push_cast
      have : (1:ℚ) ≤ src := by exact_mod_cast h0
      have : (0:ℚ) ≤ dst * l := by positivity
      nlinarith
    refine ⟨?_, ?_⟩
    · simp only [Audio.withFrames, List.length_nil]
      have : usizeMax = 2 ^ 64 - 1 := rfl
      omega
    · simp only [Audio.withFrames, List.length_nil]
      rw [show Kind.mono.size .ch8 = 1 from rfl]
      have : Audio.isizeMax = 2 ^ 63 - 1 := rfl
      omega
  constructor
  · rintro ⟨x, rfl, hN, e, he⟩
    by_contra hle
    obtain ⟨it, hit⟩ := C129_never (Audio.withFrames rate [] : Audio .mono .ch8) (.audio x) x.rate dst src x.len rfl hr hs rfl h0 hd0
      (by omega) (by omega) hN rfl hk rfl (fits _ hN) (not_lt.mp hle)
    rw [hit] at he
    cases he
  · intro h
    obtain ⟨m, _, m1, m2⟩ := some_seconds h0 hd0 hs' hd' h
    have hN : dst * (src * m) < 2 ^ 51 := by
      have : src * (dst * m) ≤ 2 ^ 16 * 2 ^ 34 := Nat.mul_le_mul hs' m1.le
      rw [show dst * (src * m) = src * (dst * m) by ring]
      omega
    refine ⟨⟨sr, List.replicate (src * m) Frame.dflt⟩, rfl, by rw [Audio.len, List.length_replicate]; exact hN, ?_⟩
    have hlen : (Src.audio (⟨sr, List.replicate (src * m) Frame.dflt⟩ : Audio k c)).len = some (src * m) :=
      congrArg some (List.length_replicate ..)
    refine (C129_iff _ _ sr dst src (src * m) hlen hr hs rfl h0 hd0 (by omega) (by omega) hN rfl hk rfl (fits _ hN)).mpr ⟨?_, ?_⟩
    · exact ⟨dst * m, by ring⟩
    · rwa [show dst * (src * m) = src * (dst * m) by ring, Nat.mul_div_cancel_left _ h0]

example := C129_sharp (k := .mono) (c := .ch8) (rate := lit 48000) (sr := lit 44100) (dst := 48000) (src := 44100)
  (by decide +kernel) (by decide +kernel) (by norm_num) (by norm_num) (by norm_num) (by norm_num) rfl

end Fon
