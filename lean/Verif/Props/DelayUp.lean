import Verif.Props.Whole
import Verif.Props.Upmix

/-!
# C101 for whole streams and C114 for upsampling
-/

namespace Fon
open Fon.Fl hiding min max
open Fon.Fmt Fon.Sink
variable {k k' k'' : Kind} {c c' c'' : ChTy}

/-- Frames at later slots have no share in a slot. -/
theorem upShare_late {r p : ℚ} {x : ℕ} (h : (x:ℚ) + 1 ≤ p) : upShare c r x p = 0 := by
  have : ((x + 1 : ℕ):ℤ) ≤ ⌊p⌋ := Int.le_floor.mpr (by push_cast; exact h)
  unfold upShare
  rw [if_neg (by push_cast at this; omega), if_neg (by push_cast at this; omega)]

theorem rnd_ge_nat {q : ℚ} {n : ℕ} (hn : n ≤ 2 ^ 53) (h : (n:ℚ) ≤ q) : (n:ℚ) ≤ binary64.rnd q :=
  le_rnd_of_gen (rep_nat53 hn).gen h

/-- A number half a unit below a power of two is rounded to it. -/
theorem rnd_pow_tie (k : ℕ) : binary64.rnd ((1 - 2 ^ (-54 : ℤ)) * 2 ^ k) = 2 ^ k := by
  have hp : (0:ℚ) < 2 ^ k := by positivity
  have hlog : Int.log 2 |(1 - 2 ^ (-54 : ℤ)) * (2:ℚ) ^ k| = (k:ℤ) - 1 := by
    have h0 : (0:ℚ) < (1 - 2 ^ (-54 : ℤ)) * 2 ^ k := mul_pos (by norm_num) hp
    rw [abs_of_pos h0]
    refine le_antisymm ?_ ?_
    · rw [← Int.lt_add_one_iff]
      refine (Int.lt_zpow_iff_log_lt (by norm_num) h0).mp ?_
      rw [show (k:ℤ) - 1 + 1 = k by ring]
      push_cast
      rw [zpow_natCast]
      exact mul_lt_of_lt_one_left hp (by norm_num)
    · refine (Int.zpow_le_iff_le_log (by norm_num) h0).mp ?_
      push_cast
      rw [zpow_sub_one₀ (by norm_num), zpow_natCast, mul_comm]
      exact mul_le_mul_of_nonneg_right (by norm_num) hp.le
  have hexp : binary64.expo ((1 - 2 ^ (-54 : ℤ)) * 2 ^ k) = (k:ℤ) - 53 := by
    unfold expo
    rw [hlog]
    simp only [binary64]
    omega
  have hdiv : (1 - (2:ℚ) ^ (-54 : ℤ)) * 2 ^ k / 2 ^ ((k:ℤ) - 53) = ((2 ^ 53 - 1 : ℤ) : ℚ) + 1 / 2 := by
    rw [zpow_sub₀ (by norm_num), zpow_natCast]
    field_simp
    norm_num
  have hfl : ⌊((2 ^ 53 - 1 : ℤ) : ℚ) + 1 / 2⌋ = 2 ^ 53 - 1 := by
    rw [Int.floor_intCast_add, Int.floor_eq_zero_iff.mpr ⟨by norm_num, by norm_num⟩, add_zero]
  unfold rnd rne
  rw [hexp, hdiv, hfl, add_sub_cancel_left, if_neg (lt_irrefl _), if_neg (lt_irrefl _), if_neg (by norm_num),
    zpow_sub₀ (by norm_num), zpow_natCast]
  push_cast
  field_simp

/-- A number that is at most the 2^54th part below a whole number is not rounded below it. -/
theorem rnd_near_nat {q : ℚ} {n : ℕ} (hn : n ≤ 2 ^ 53) (h : (1 - 2 ^ (-54 : ℤ)) * (n:ℚ) ≤ q) : (n:ℚ) ≤ binary64.rnd q := by
  refine le_trans ?_ (rnd_mono h)
  by_contra hc
  push Not at hc
  have hn0 : 0 < n := by
    rcases Nat.eq_zero_or_pos n with rfl | h
    · simp [rnd_zero] at hc
    · exact h
  have hnq : (0:ℚ) < n := by exact_mod_cast hn0
  have hnear := rnd_nearest (f := binary64) ((1 - 2 ^ (-54 : ℤ)) * (n:ℚ)) n (rep_nat53 hn).gen
  rw [show (n:ℚ) - (1 - 2 ^ (-54 : ℤ)) * n = 2 ^ (-54:ℤ) * n by ring, abs_of_pos (mul_pos (two_zpow_pos _) hnq)] at hnear
  obtain ⟨m, e, hm, he, hp⟩ := gen_rnd (f := binary64) ((1 - 2 ^ (-54 : ℤ)) * (n:ℚ))
  have hp0 : 0 ≤ binary64.rnd ((1 - 2 ^ (-54 : ℤ)) * (n:ℚ)) := rnd_nonneg (mul_nonneg (by norm_num) hnq.le)
  obtain ⟨p, hpd⟩ : ∃ p, p = binary64.rnd ((1 - 2 ^ (-54 : ℤ)) * (n:ℚ)) := ⟨_, rfl⟩
  rw [← hpd] at hc hnear hp hp0
  have h2 := (abs_le.mp hnear).1
  have gap : (n:ℚ) - p ≤ 2 ^ (-53:ℤ) * n := by
    have e1 : (2:ℚ) ^ (-53:ℤ) = 2 * 2 ^ (-54:ℤ) := by norm_num
    rw [e1]
    generalize (2:ℚ) ^ (-54:ℤ) = u at *
    linarith
  have hm' : m < 2 ^ 53 := lt_of_le_of_lt (le_abs_self m) hm
  rcases le_or_gt e 0 with he0 | he0
  · -- `n` is a multiple of the unit
    obtain ⟨a, ha⟩ : ∃ a : ℕ, e = -(a:ℤ) := ⟨e.natAbs, by omega⟩
    have ep := two_zpow_pos e
    have hpe : (2:ℚ) ^ a * 2 ^ e = 1 := by rw [ha, zpow_neg, zpow_natCast]; field_simp
    have hnm : (n:ℚ) = ((n * 2 ^ a : ℤ):ℚ) * 2 ^ e := by push_cast; rw [mul_assoc, hpe, mul_one]
    obtain ⟨N, hN⟩ : ∃ N : ℤ, N = n * 2 ^ a := ⟨_, rfl⟩
    rw [← hN] at hnm
    have hlt : m < N := by
      have : (m:ℚ) * 2 ^ e < N * 2 ^ e := by rw [← hp, ← hnm]; exact hc
      exact_mod_cast lt_of_mul_lt_mul_right this ep.le
    have hgap : (N:ℚ) - m ≤ 2 ^ (-53:ℤ) * N := by
      have : ((N:ℚ) - m) * 2 ^ e ≤ (2 ^ (-53:ℤ) * N) * 2 ^ e := by
        rw [sub_mul, mul_assoc, ← hp, ← hnm]; exact gap
      exact le_of_mul_le_mul_right this ep
    have hgap' : (N - m) * 2 ^ 53 ≤ N := by
      have : ((N:ℚ) - m) * 2 ^ 53 ≤ N := by
        calc ((N:ℚ) - m) * 2 ^ 53 ≤ 2 ^ (-53:ℤ) * N * 2 ^ 53 := mul_le_mul_of_nonneg_right hgap (by norm_num)
          _ = N := by rw [mul_right_comm, show (2:ℚ) ^ (-53:ℤ) * 2 ^ 53 = 1 by norm_num, one_mul]
      exact_mod_cast this
    have hN53 : N = 2 ^ 53 := by omega
    -- so it is a power of two
    have hpow : n * 2 ^ a = 2 ^ 53 := by
      have : (n * 2 ^ a : ℤ) = 2 ^ 53 := by rw [← hN]; exact hN53
      exact_mod_cast this
    obtain ⟨b, -, hb⟩ := (Nat.dvd_prime_pow Nat.prime_two).mp (Dvd.intro _ hpow)
    have := rnd_pow_tie b
    rw [hpd, hb] at hc
    push_cast at hc
    rw [this] at hc
    exact lt_irrefl _ hc
  · -- whole numbers
    obtain ⟨a, rfl⟩ : ∃ a : ℕ, e = (a:ℤ) := ⟨e.natAbs, by omega⟩
    have hpi : p = ((m * 2 ^ a : ℤ):ℚ) := by rw [hp, zpow_natCast]; push_cast; ring
    obtain ⟨P, hP⟩ : ∃ P : ℤ, P = m * 2 ^ a := ⟨_, rfl⟩
    rw [← hP] at hpi
    have a2 : P % 2 = 0 := by
      rw [hP, show a = (a - 1) + 1 by omega, pow_succ, ← mul_assoc]
      exact Int.mul_emod_left _ _
    have h3 : P + 1 ≤ n := by
      have : (P:ℚ) < n := by rw [← hpi]; exact hc
      have : P < (n:ℤ) := by exact_mod_cast this
      omega
    have h4 : ((n:ℤ) - P) * 2 ^ 53 ≤ n := by
      have : ((n:ℚ) - P) * 2 ^ 53 ≤ n := by
        rw [← hpi]
        calc ((n:ℚ) - p) * 2 ^ 53 ≤ 2 ^ (-53:ℤ) * n * 2 ^ 53 := mul_le_mul_of_nonneg_right gap (by norm_num)
          _ = n := by rw [mul_right_comm, show (2:ℚ) ^ (-53:ℤ) * 2 ^ 53 = 1 by norm_num, one_mul]
      exact_mod_cast this
    omega

/-- A frame whose exact position is not before a slot is not played before it, if the ratio is not rounded down by more than
its 2^54th part. -/
theorem up_ge {ρ r t : ℚ} {n : ℕ} (hge : (1 - 2 ^ (-54 : ℤ)) * ρ ≤ r) (hn : n ≤ 2 ^ 53) (ht : 0 ≤ t) (h : (n:ℚ) ≤ ρ * t) :
    (n:ℚ) ≤ binary64.rnd (r * t) := by
  refine rnd_near_nat hn ?_
  calc (1 - 2 ^ (-54 : ℤ)) * (n:ℚ) ≤ (1 - 2 ^ (-54 : ℤ)) * (ρ * t) := mul_le_mul_of_nonneg_left h (by norm_num)
    _ = (1 - 2 ^ (-54 : ℤ)) * ρ * t := by ring
    _ ≤ r * t := mul_le_mul_of_nonneg_right hge ht

theorem one_le_rnd {ρ : ℚ} (h : 1 ≤ ρ) : 1 ≤ binary64.rnd ρ := le_rnd_of_gen rep_one.gen h

/-- C101 for the whole stream: if the stream has `N` frames, or is infinite and `N` frames reach beyond the slot, then the
slot gets the sum of the shares of these `N` frames, clamped and up to a small error. -/
theorem C101_whole (fuel : Nat) (s s' : Sink k c) (st : Src k' c') (it : It k' c')
    (h : s.stream fuel st = .ok (s', it)) (ho : s.res.offseti = lit 0) (r : ℚ)
    (hq : (ratioOf s.rate st.rate).Is r) (hr : 1 ≤ r) (hr1 : r ≤ 2 ^ 20) (hb : s.buf.length ≤ 2 ^ 52)
    (i : Nat) (hi : i < k.chans) (w : Nat → ℚ)
    (hw : ∀ j f, st.nth j = .ok (some f) → ∀ x : Frame k c, f.convert c = .ok x → SampleVal c x[i] (w j) ∧ |w j| ≤ 1)
    (x : Nat) (hx : InDst (ratioOf s.rate st.rate) st.len s.buf.length x)
    (N : Nat) (hN : st.len = some N ∨ st.len = none ∧ (x:ℚ) + 1 ≤ r * N) :
    ∃ (y : Frame k c) (b : ℚ), s'.buf[x]? = some y ∧ SampleVal c y[i] b ∧
      |b - clampQ (∑ j ∈ Finset.range N, w j * upShare c r x (binary64.rnd (r * j)))| ≤ mixErr c * (r + 5) := by
  obtain ⟨n, a1, hn, _, h2⟩ := C101_mix fuel s s' st it h ho r hq hr hr1 hb i hi w hw
  obtain ⟨y, b, b1, b2, b3⟩ := h2 x hx
  refine ⟨y, b, b1, b2, ?_⟩
  obtain ⟨_, hp, _, _⟩ := up_pos hq hr hr1 hb a1
  have hx52 : x + 1 ≤ 2 ^ 53 := by have := hx.1; omega
  have hr0 : (0:ℚ) ≤ r := by linarith
  -- frames from `m` on are late if frame `m` is
  have late : ∀ m : Nat, (x:ℚ) + 1 ≤ binary64.rnd (r * m) → ∀ j, m ≤ j → upShare c r x (binary64.rnd (r * j)) = 0 := by
    intro m hm j hj
    refine upShare_late (hm.trans (rnd_mono ?_))
    have : (m:ℚ) ≤ j := by exact_mod_cast hj
    exact mul_le_mul_of_nonneg_left this hr0
  have sums : ∀ m m' : Nat, m ≤ m' → (x:ℚ) + 1 ≤ binary64.rnd (r * m) →
      ∑ j ∈ Finset.range m', w j * upShare c r x (binary64.rnd (r * j)) =
        ∑ j ∈ Finset.range m, w j * upShare c r x (binary64.rnd (r * j)) := by
    intro m m' hm hl
    refine (Finset.sum_subset (Finset.range_subset_range.mpr hm) (fun j _ hj => ?_)).symm
    rw [late m hl j (by simpa using hj), mul_zero]
  have e : ∑ j ∈ Finset.range N, w j * upShare c r x (binary64.rnd (r * j)) =
      ∑ j ∈ Finset.range n, w j * upShare c r x (binary64.rnd (r * j)) := by
    obtain ⟨_, t2, t3⟩ := a1
    rcases t3 with t3 | t3
    · rcases hN with hN | ⟨hN, _⟩
      · rw [t3] at hN; cases hN; rfl
      · rw [t3] at hN; cases hN
    have hm : x + 1 ≤ (posOf (ratioOf s.rate st.rate) (lit 0) n).toUsize := by
      by_contra hc
      refine t3 ⟨?_, fun l hl => ?_⟩
      · have := hx.1; omega
      · have := hx.2 l hl; omega
    obtain ⟨_, p1, p0, _⟩ := hp n (by omega)
    have hl : (x:ℚ) + 1 ≤ binary64.rnd (r * n) := by
      by_contra hc
      push Not at hc
      rw [toUsize_is p1 p0 (hc.trans (by
        have : ((x + 1 : ℕ):ℚ) ≤ ((2 ^ 53 : ℕ):ℚ) := by exact_mod_cast hx52
        push_cast at this
        linarith))] at hm
      have : ((x + 1 : ℕ) : ℤ) ≤ ⌊binary64.rnd (r * n)⌋ := by omega
      have := Int.le_floor.mp this
      push_cast at this
      linarith
    rcases le_total n N with hle | hle
    · exact sums n N hle hl
    · rcases hN with hN | ⟨_, hN⟩
      · rw [le_antisymm (t2 N hN) hle]
      · refine (sums N n hle ?_).symm
        have := rnd_ge_nat (n := x + 1) hx52 (q := r * N) (by push_cast; exact hN)
        push_cast at this; exact this
  rw [e]; exact b3

/-- Five samples at 8 Hz, nine slots at 12 Hz. -/
example := C101_whole 6 (exSink 9 12) _ (.audio (exAudio 8)) _
  (R.returns₂ (x := (exSink 9 12).stream 6 (.audio (exAudio 8))) (by decide +kernel)) rfl (3 / 2)
  (by decide +kernel) (by norm_num) (by norm_num) (by decide) 0 (by decide)
  (fun j => if j < 5 then (j + 1) / 127 else 0) (by
    intro j f hf x hx
    match j with
    | 0 | 1 | 2 | 3 | 4 => cases hf; cases hx; decide +kernel
    | j + 5 => cases hf) 6 (by decide +kernel) 5 (.inl rfl)

/-! ## C114 -/

/-- Positions of frames are in the right slot if the ratio is not rounded down by more than its 2^54th part. -/
theorem up_floor {dst src j : ℕ} (hs : 0 < src) (hsd : src ≤ dst) (hs' : src ≤ 2 ^ 53)
    (hge : (1 - 2 ^ (-54 : ℤ)) * ((dst:ℚ) / src) ≤ binary64.rnd ((dst:ℚ) / src)) (hj : 4 * (dst * j) < 2 ^ 53) :
    ⌊binary64.rnd (binary64.rnd ((dst:ℚ) / src) * j)⌋ = ⌊(dst:ℚ) / src * j⌋ ∧
    |binary64.rnd (binary64.rnd ((dst:ℚ) / src) * j) - (dst:ℚ) / src * j| ≤ (dst:ℚ) / src * j * (3 * 2 ^ (-53 : ℤ)) := by
  set ρ : ℚ := (dst:ℚ) / src with hρ
  set r := binary64.rnd ρ with hr
  have hsq : (0:ℚ) < src := by exact_mod_cast hs
  have hu : binary64.u = 2 ^ (-53:ℤ) := rfl
  have hu0 : (0:ℚ) < 2 ^ (-53:ℤ) := two_zpow_pos _
  have hu1 : (2:ℚ) ^ (-53:ℤ) ≤ 1 := by norm_num
  have hue : (2:ℚ) ^ (-53:ℤ) * 2 ^ 53 = 1 := by norm_num
  have hρ1 : 1 ≤ ρ := by rw [hρ, one_le_div hsq]; exact_mod_cast hsd
  have hj0 : (0:ℚ) ≤ j := by positivity
  have e1 : |r - ρ| ≤ ρ * 2 ^ (-53:ℤ) := by
    have hn : (2:ℚ) ^ (binary64.emin + binary64.prec - 1) ≤ |ρ| := by
      rw [abs_of_nonneg (by linarith)]
      refine le_trans ?_ hρ1
      rw [show (1:ℚ) = 2 ^ (0:ℤ) by norm_num]
      exact zpow_le_zpow_right₀ (by norm_num) (by decide)
    have := rel_err_normal hn
    rwa [abs_of_nonneg (by linarith : 0 ≤ ρ), hu] at this
  have hr0 : 0 ≤ r := rnd_nonneg (by linarith)
  have hrrep : binary64.Gen r := gen_rnd _
  have e2 : |binary64.rnd (r * j) - r * j| ≤ r * j * 2 ^ (-53:ℤ) := by
    obtain ⟨m, hm⟩ := gen_mult hrrep
    have := rel_err (f := binary64) (q := r * j) (m * j) (by rw [hm]; push_cast; ring)
    rwa [abs_of_nonneg (mul_nonneg hr0 hj0 : 0 ≤ r * (j:ℚ)), hu] at this
  have e3 : |r * j - ρ * j| ≤ ρ * j * 2 ^ (-53:ℤ) := by
    rw [← sub_mul, abs_mul, abs_of_nonneg hj0]
    calc |r - ρ| * j ≤ ρ * 2 ^ (-53:ℤ) * j := mul_le_mul_of_nonneg_right e1 hj0
      _ = _ := by ring
  have hρj : 0 ≤ ρ * j := by positivity
  have e4 : |binary64.rnd (r * j) - ρ * j| ≤ ρ * j * (3 * 2 ^ (-53:ℤ)) := by
    have h1 : r * j ≤ ρ * j * 2 := by
      have := (abs_le.mp e3).2
      nlinarith
    have h2 : r * j * 2 ^ (-53:ℤ) ≤ ρ * j * 2 * 2 ^ (-53:ℤ) := mul_le_mul_of_nonneg_right h1 hu0.le
    refine (abs_sub_le _ _ _).trans ((add_le_add e2 e3).trans ?_)
    linarith
  refine ⟨?_, e4⟩
  -- the slot
  have hm : ρ * j * src = ((dst * j : ℕ):ℚ) := by
    rw [hρ]; field_simp; push_cast; ring
  set m := dst * j with hmdef
  have hd := Nat.div_add_mod m src
  have hlt := Nat.mod_lt m hs
  set n := m / src with hn
  have n1 : (n:ℚ) ≤ ρ * j := by
    have : ((src * n : ℕ):ℚ) ≤ m := by exact_mod_cast (by omega : src * n ≤ m)
    rw [← hm] at this
    push_cast at this
    nlinarith
  have n2 : ρ * j * src + 1 ≤ (n + 1) * src := by
    have : m + 1 ≤ (n + 1) * src := by rw [add_mul, mul_comm n src]; omega
    rw [hm]; exact_mod_cast this
  have n3 : n ≤ 2 ^ 53 := by
    have := Nat.div_le_self m src
    omega
  have f1 : (n:ℚ) ≤ binary64.rnd (r * j) :=
    up_ge hge n3 hj0 n1
  have f2 : binary64.rnd (r * j) < n + 1 := by
    have h1 := (abs_le.mp e4).2
    have h3 : ρ * j * (3 * 2 ^ (-53:ℤ)) * src < 1 := by
      have h4 : ((4 * m : ℕ):ℚ) < 2 ^ 53 := by exact_mod_cast hj
      push_cast at h4
      have : ρ * j * (3 * 2 ^ (-53:ℤ)) * src = (3 * m) * 2 ^ (-53:ℤ) := by rw [← hm]; ring
      rw [this, ← hue, mul_comm]
      refine mul_lt_mul_of_pos_left ?_ hu0
      have : (0:ℚ) ≤ m := by positivity
      linarith
    by_contra hc
    push Not at hc
    have : (n + 1 : ℚ) * src ≤ (ρ * j + ρ * j * (3 * 2 ^ (-53:ℤ))) * src :=
      mul_le_mul_of_nonneg_right (by linarith) hsq.le
    rw [add_mul] at this
    linarith
  have f3 : ρ * j < n + 1 := by nlinarith
  rw [(Int.floor_eq_iff (z := (n:ℤ))).mpr ⟨by exact_mod_cast f1, by exact_mod_cast f2⟩,
    (Int.floor_eq_iff (z := (n:ℤ))).mpr ⟨by exact_mod_cast n1, by exact_mod_cast f3⟩]

/-- A sum with one term. -/
theorem sum_single_le {g : Nat → ℤ} (hg : Function.Injective g) (x : ℤ) {e : ℚ} (he : 0 ≤ e) (N : Nat) :
    ∑ j ∈ Finset.range N, (if g j = x then e else 0) ≤ e := by
  rw [← Finset.sum_filter, Finset.sum_const, nsmul_eq_mul]
  have : (Finset.filter (fun j => g j = x) (Finset.range N)).card ≤ 1 :=
    Finset.card_le_one.mpr (fun a ha b hb => hg (by
      rw [(Finset.mem_filter.mp ha).2, (Finset.mem_filter.mp hb).2]))
  have : ((Finset.filter (fun j => g j = x) (Finset.range N)).card : ℚ) ≤ 1 := by exact_mod_cast this
  nlinarith

/-- The shares of frames that are `d` frames apart in slots that are `X` slots apart. -/
theorem upShare_moved {dst src d X x B : ℕ} (hs : 0 < src) (hsd : src ≤ dst) (hs' : src ≤ 2 ^ 53)
    (hge : (1 - 2 ^ (-54 : ℤ)) * ((dst:ℚ) / src) ≤ binary64.rnd ((dst:ℚ) / src)) (hd : dst * d = X * src) (hxX : x + X + 1 ≤ B)
    (hb : 4 * (src * B) ≤ 2 ^ 53) (w : ℕ → ℚ) (hw1 : ∀ j, |w j| ≤ 1) (N : ℕ) :
    |∑ j ∈ Finset.range N, w j * upShare c (binary64.rnd ((dst:ℚ) / src)) (x + X)
        (binary64.rnd (binary64.rnd ((dst:ℚ) / src) * ((j + d : ℕ):ℚ))) -
      ∑ j ∈ Finset.range N, w j * upShare c (binary64.rnd ((dst:ℚ) / src)) x
        (binary64.rnd (binary64.rnd ((dst:ℚ) / src) * j))| ≤
      6 * (B * 2 ^ (-53:ℤ)) + 6 * (B * 2 ^ (-53:ℤ)) := by
  set ρ : ℚ := (dst:ℚ) / src with hρ
  set r := binary64.rnd ρ with hr
  have hsq : (0:ℚ) < src := by exact_mod_cast hs
  have hρ1 : 1 ≤ ρ := by rw [hρ, one_le_div hsq]; exact_mod_cast hsd
  have hX : ρ * d = X := by
    rw [hρ, div_mul_eq_mul_div, div_eq_iff hsq.ne']; exact_mod_cast hd
  have hu0 : (0:ℚ) < 2 ^ (-53:ℤ) := two_zpow_pos _
  have hB52 : B ≤ 2 ^ 52 := by
    have := Nat.le_mul_of_pos_left B hs
    omega
  set ε : ℚ := 6 * (B * 2 ^ (-53:ℤ)) with hε
  have hε0 : 0 ≤ ε := by positivity
  have inj : Function.Injective (fun j : Nat => ⌊ρ * j⌋) := by
    refine StrictMono.injective (strictMono_nat_of_lt_succ (fun j => ?_))
    have : ⌊ρ * j⌋ + 1 ≤ ⌊ρ * ((j + 1 : ℕ):ℚ)⌋ := by
      rw [← Int.floor_add_one]
      refine Int.floor_mono ?_
      push_cast; linarith
    omega
  have term : ∀ j : Nat, |w j * upShare c r (x + X) (binary64.rnd (r * ((j + d : ℕ):ℚ))) -
      w j * upShare c r x (binary64.rnd (r * j))| ≤
      (if ⌊ρ * j⌋ = (x:ℤ) then ε else 0) + (if ⌊ρ * j⌋ = (x:ℤ) - 1 then ε else 0) := by
    intro j
    have nn : (0:ℚ) ≤ (if ⌊ρ * j⌋ = (x:ℤ) then ε else 0) + (if ⌊ρ * j⌋ = (x:ℤ) - 1 then ε else 0) :=
      add_nonneg (by split <;> linarith) (by split <;> linarith)
    rw [← mul_sub, abs_mul]
    refine (mul_le_of_le_one_left (abs_nonneg _) (hw1 j)).trans ?_
    rcases lt_or_ge (ρ * j) (x + 1) with hc | hc
    · -- both positions are in the right slots
      have hjd : 4 * (dst * (j + d)) < 2 ^ 53 := by
        have h1 : ((dst * (j + d) : ℕ):ℚ) < ((src * B : ℕ):ℚ) := by
          have e : ((dst * (j + d) : ℕ):ℚ) = src * (ρ * j + X) := by
            rw [← hX, hρ]; field_simp; push_cast; ring
          rw [e]
          push_cast
          refine mul_lt_mul_of_pos_left ?_ hsq
          have : ((x + X + 1 : ℕ):ℚ) ≤ B := by exact_mod_cast hxX
          push_cast at this
          linarith
        have : dst * (j + d) < src * B := by exact_mod_cast h1
        omega
      have hj : 4 * (dst * j) < 2 ^ 53 := by
        have : dst * j ≤ dst * (j + d) := Nat.mul_le_mul_left _ (by omega)
        omega
      obtain ⟨f1, g1⟩ := up_floor hs hsd hs' hge hj
      obtain ⟨f2, g2⟩ := up_floor hs hsd hs' hge hjd
      rw [← hρ, ← hr] at f1 f2 g1 g2
      have e2 : ρ * ((j + d : ℕ):ℚ) = ρ * j + (X:ℤ) := by push_cast; rw [mul_add, hX]
      rw [e2] at f2 g2
      rw [Int.floor_add_intCast] at f2
      have hcl : |binary64.rnd (r * ((j + d : ℕ):ℚ)) - X - binary64.rnd (r * j)| ≤ ε := by
        have hxt : ((x + X + 1 : ℕ):ℚ) ≤ B := by exact_mod_cast hxX
        push_cast at hxt g2
        have hX0 : (0:ℚ) ≤ X := by positivity
        have k1 : ρ * j * (3 * 2 ^ (-53:ℤ)) ≤ B * (3 * 2 ^ (-53:ℤ)) :=
          mul_le_mul_of_nonneg_right (by linarith) (by positivity)
        have k2 : (ρ * j + X) * (3 * 2 ^ (-53:ℤ)) ≤ B * (3 * 2 ^ (-53:ℤ)) :=
          mul_le_mul_of_nonneg_right (by linarith) (by positivity)
        have k3 := g1.trans k1
        have k4 := g2.trans k2
        have : ε = B * (3 * 2 ^ (-53:ℤ)) + B * (3 * 2 ^ (-53:ℤ)) := by rw [hε]; ring
        rw [this]
        push_cast
        rw [abs_le] at *
        constructor <;> linarith [k3.1, k3.2, k4.1, k4.2]
      unfold upShare
      rw [f1, f2]
      push_cast at hcl ⊢
      by_cases c1 : ⌊ρ * j⌋ = (x:ℤ)
      · rw [if_pos (by rw [c1]), if_pos c1, if_pos c1, c1]
        have h2 : |gain c (r - (binary64.rnd (r * (j + d)) - (x + X))) - gain c (r - (binary64.rnd (r * j) - x))| ≤ ε := by
          refine (gain_lip _ _ _).trans ?_
          rw [show r - (binary64.rnd (r * (j + d)) - ((x:ℚ) + X)) - (r - (binary64.rnd (r * j) - x)) =
            -(binary64.rnd (r * (j + d)) - X - binary64.rnd (r * j)) by ring, abs_neg]
          exact hcl
        push_cast
        refine h2.trans (le_add_of_nonneg_right ?_)
        split <;> linarith
      · rw [if_neg (fun h => c1 (by linarith)), if_neg c1, if_neg c1]
        by_cases c2 : ⌊ρ * j⌋ = (x:ℤ) - 1
        · rw [if_pos (by rw [c2]; ring), if_pos (by rw [c2]; ring), if_pos c2, zero_add]
          rw [show binary64.rnd (r * (j + d)) - ((⌊ρ * j⌋:ℚ) + X) - (binary64.rnd (r * j) - ⌊ρ * j⌋) =
            binary64.rnd (r * (j + d)) - X - binary64.rnd (r * j) by ring]
          exact hcl
        · rw [if_neg (fun h => c2 (by linarith)), if_neg (fun h => c2 (by linarith)), if_neg c2]
          simp
    · -- both frames are late
      have hx1 : x + X + 1 ≤ 2 ^ 53 := by omega
      rw [upShare_late, upShare_late]
      · simpa using nn
      · have := up_ge hge (n := x + 1) (t := j) (by omega) (by positivity) (by push_cast; exact hc)
        push_cast at this; exact this
      · have := up_ge hge (n := x + X + 1) (t := ((j + d : ℕ):ℚ)) hx1 (by positivity) (by
          push_cast
          rw [mul_add, hX]
          linarith)
        push_cast at this ⊢; exact this
  have tot : |∑ j ∈ Finset.range N, w j * upShare c r (x + X) (binary64.rnd (r * ((j + d : ℕ):ℚ))) -
      ∑ j ∈ Finset.range N, w j * upShare c r x (binary64.rnd (r * j))| ≤ ε + ε := by
    rw [← Finset.sum_sub_distrib]
    refine (Finset.abs_sum_le_sum_abs _ _).trans ((Finset.sum_le_sum (fun j _ => term j)).trans ?_)
    rw [Finset.sum_add_distrib]
    exact add_le_add (sum_single_le inj _ hε0 N) (sum_single_le inj _ hε0 N)
  exact tot

/-- C114 when the rate goes up, whole rates: if the ratio is not rounded down by more than its 2^54th part, a stream delayed by `d` frames that last `X`
slots gives the same slots delayed by `X`, after silence, up to a small error. For whole streams in any formats. -/
theorem C114_up (fuel fuel' d X dst src : Nat) (s s' t t' : Sink k c) (st : Src k' c') (st' : Src k'' c'') (it : It k' c')
    (it' : It k'' c'') (h : s.stream fuel st = .ok (s', it)) (h' : t.stream fuel' st' = .ok (t', it'))
    (hrt : t.rate = s.rate) (hrt' : st'.rate = st.rate)
    (ho : s.res.offseti = lit 0) (ho' : t.res.offseti = lit 0)
    (hq : (ratioOf s.rate st.rate).Is (binary64.rnd ((dst:ℚ) / src)))
    (hs : 0 < src) (hsd : src ≤ dst) (hs' : src ≤ 2 ^ 53) (h20 : dst ≤ 2 ^ 20 * src)
    (hge : (1 - 2 ^ (-54 : ℤ)) * ((dst:ℚ) / src) ≤ binary64.rnd ((dst:ℚ) / src))
    (hbl : s.buf.length ≤ t.buf.length) (hb : 4 * (src * t.buf.length) ≤ 2 ^ 53)
    (hd : dst * d = X * src) (hl : st'.len = st.len.map (· + d))
    (i : Nat) (hi : i < k.chans) (w : Nat → ℚ) (hw1 : ∀ j, |w j| ≤ 1)
    (hw : ∀ j f, st.nth j = .ok (some f) → ∀ x : Frame k c, f.convert c = .ok x → SampleVal c x[i] (w j))
    (hw' : ∀ j f, st'.nth j = .ok (some f) → ∀ x : Frame k c, f.convert c = .ok x →
      SampleVal c x[i] (if j < d then 0 else w (j - d))) :
    (∀ x, x < X → InDst (ratioOf s.rate st.rate) st'.len t.buf.length x →
      ∃ (y : Frame k c) (b : ℚ), t'.buf[x]? = some y ∧ SampleVal c y[i] b ∧
        |b| ≤ mixErr c * (binary64.rnd ((dst:ℚ) / src) + 5)) ∧
    (∀ x, InDst (ratioOf s.rate st.rate) st.len s.buf.length x →
      InDst (ratioOf s.rate st.rate) st'.len t.buf.length (x + X) →
      ∃ (y z : Frame k c) (a b : ℚ), s'.buf[x]? = some y ∧ t'.buf[x + X]? = some z ∧ SampleVal c y[i] a ∧
        SampleVal c z[i] b ∧
        |b - a| ≤ 2 * (mixErr c * (binary64.rnd ((dst:ℚ) / src) + 5)) + 12 * (t.buf.length * 2 ^ (-53 : ℤ))) := by
  set ρ : ℚ := (dst:ℚ) / src with hρ
  set r := binary64.rnd ρ with hr
  have hsq : (0:ℚ) < src := by exact_mod_cast hs
  have hρ1 : 1 ≤ ρ := by rw [hρ, one_le_div hsq]; exact_mod_cast hsd
  have hr1 : 1 ≤ r := one_le_rnd hρ1
  have hr20 : r ≤ 2 ^ 20 := by
    have e : binary64.rnd (2 ^ 20 : ℚ) = 2 ^ 20 := by decide +kernel
    rw [← e]
    refine rnd_mono ?_
    rw [hρ, div_le_iff₀ hsq]; exact_mod_cast h20
  have hX : ρ * d = X := by
    rw [hρ, div_mul_eq_mul_div, div_eq_iff hsq.ne']; exact_mod_cast hd
  have hu0 : (0:ℚ) < 2 ^ (-53:ℤ) := two_zpow_pos _
  have hbt : t.buf.length ≤ 2 ^ 52 := by
    have := Nat.le_mul_of_pos_left t.buf.length hs
    omega
  set v : Nat → ℚ := fun j => if j < d then 0 else w (j - d) with hv
  have hv1 : ∀ j, |v j| ≤ 1 := by
    intro j
    simp only [hv]
    split
    · simp
    · exact hw1 _
  -- a number of frames that is enough for both
  have hN : ∀ x : Nat, ∃ N : Nat, (st.len = some N ∨ st.len = none ∧ (x:ℚ) + 1 ≤ r * N) ∧
      (st'.len = some (N + d) ∨ st'.len = none ∧ ((x + X : ℕ):ℚ) + 1 ≤ r * ((N + d : ℕ):ℚ)) := by
    intro x
    cases hs : st.len with
    | some l => exact ⟨l, .inl rfl, .inl (by rw [hl, hs]; rfl)⟩
    | none =>
      refine ⟨x + X + 1, .inr ⟨rfl, ?_⟩, .inr ⟨by rw [hl, hs]; rfl, ?_⟩⟩
      · push_cast; nlinarith [(x.cast_nonneg : (0:ℚ) ≤ x), (X.cast_nonneg : (0:ℚ) ≤ X)]
      · push_cast; nlinarith [(x.cast_nonneg : (0:ℚ) ≤ x), (X.cast_nonneg : (0:ℚ) ≤ X), (d.cast_nonneg : (0:ℚ) ≤ d)]
  have hsum : ∀ (x : ℕ) (N : Nat), ∑ j ∈ Finset.range (N + d), v j * upShare c r x (binary64.rnd (r * j)) =
      ∑ j ∈ Finset.range N, w j * upShare c r x (binary64.rnd (r * ((j + d : ℕ):ℚ))) := by
    intro x N
    rw [add_comm N d, Finset.sum_range_add]
    rw [Finset.sum_eq_zero (fun j hj => by simp only [hv, if_pos (Finset.mem_range.mp hj), zero_mul]), zero_add]
    refine Finset.sum_congr rfl (fun j _ => ?_)
    simp only [hv, if_neg (show ¬ d + j < d by omega), Nat.add_sub_cancel_left]
    rw [add_comm d j]
  have hT := fun x (hx : InDst (ratioOf s.rate st.rate) st'.len t.buf.length x) N hN =>
    C101_whole fuel' t t' st' it' h' ho' r (by rwa [hrt, hrt']) hr1 hr20 hbt i hi v
      (fun j f h1 x h2 => ⟨hw' j f h1 x h2, hv1 j⟩) x (by rwa [hrt, hrt']) N hN
  constructor
  · intro x hxX hx
    obtain ⟨N, -, n2⟩ := hN x
    obtain ⟨y, b, b1, b2, b3⟩ := hT x hx (N + d) (by
      refine n2.imp_right (And.imp_right fun h => le_trans ?_ h)
      push_cast
      have : (0:ℚ) ≤ X := by positivity
      linarith)
    refine ⟨y, b, b1, b2, ?_⟩
    rw [hsum, Finset.sum_eq_zero, clampQ_of_range (by norm_num) (by norm_num), sub_zero] at b3
    · exact b3
    · intro j _
      rw [upShare_late, mul_zero]
      have hx1 : x + 1 ≤ 2 ^ 53 := by have := hx.1; omega
      have := up_ge hge (n := x + 1) (t := ((j + d : ℕ):ℚ)) hx1 (by positivity) (by
        push_cast
        have : (x:ℚ) + 1 ≤ X := by exact_mod_cast hxX
        rw [← hX] at this
        nlinarith [(j.cast_nonneg : (0:ℚ) ≤ j), (d.cast_nonneg : (0:ℚ) ≤ d)])
      push_cast at this ⊢
      exact this
  · intro x hx hx'
    obtain ⟨N, n1, n2⟩ := hN x
    obtain ⟨y, a, a1, a2, a3⟩ := C101_whole fuel s s' st it h ho r hq hr1 hr20 (by omega) i hi w
      (fun j f h1 x h2 => ⟨hw j f h1 x h2, hw1 j⟩) x hx N n1
    obtain ⟨z, b, b1, b2, b3⟩ := hT (x + X) hx' (N + d) n2
    refine ⟨y, z, a, b, a1, b1, a2, b2, ?_⟩
    rw [hsum] at b3
    have hxX : x + X + 1 ≤ t.buf.length := hx'.1
    have tot := upShare_moved hs hsd hs' hge hd hxX hb w hw1 N (c := c)
    have cl := (clampQ_lip _ _).trans tot
    generalize clampQ (∑ j ∈ Finset.range N, w j * upShare c r (x + X) (binary64.rnd (r * ((j + d : ℕ):ℚ)))) = A at *
    generalize clampQ (∑ j ∈ Finset.range N, w j * upShare c r x (binary64.rnd (r * j))) = B at *
    rw [abs_le] at *
    constructor <;> linarith [a3.1, a3.2, b3.1, b3.2, cl.1, cl.2]

example := up_floor (dst := 5) (src := 3) (j := 7) (by decide) (by decide) (by decide) (by decide +kernel) (by decide)

example := C114_up 6 9 3 5 5 3 (exSink 9 5) _ (exSink 14 5) _ (.audio (exAudio 3))
  (.audio ⟨(exAudio 3).rate, List.replicate 3 Frame.dflt ++ (exAudio 3).frames⟩) _ _
  (R.returns₂ (x := (exSink 9 5).stream 6 (.audio (exAudio 3))) (by decide +kernel))
  (R.returns₂ (x := (exSink 14 5).stream 9
    (.audio ⟨(exAudio 3).rate, List.replicate 3 Frame.dflt ++ (exAudio 3).frames⟩)) (by decide +kernel))
  rfl rfl rfl rfl (by decide +kernel) (by decide) (by decide) (by decide) (by decide) (by decide +kernel) (by decide)
  (by decide) rfl rfl 0 (by decide) (fun j => if j < 5 then (j + 1) / 127 else 0) (by
    intro j
    split
    · rename_i h
      have : (j:ℚ) < 5 := by exact_mod_cast h
      rw [abs_of_nonneg (by positivity), div_le_one (by norm_num)]; linarith
    · simp) (by
    intro j f hf x hx
    match j with
    | 0 | 1 | 2 | 3 | 4 => cases hf; cases hx; decide +kernel
    | j + 5 => cases hf) (by
    intro j f hf x hx
    match j with
    | 0 | 1 | 2 | 3 | 4 | 5 | 6 | 7 => cases hf; cases hx; decide +kernel
    | j + 8 => cases hf)

/-- C114 is false by far when the ratio is rounded down by more, by example: from rate 11 to rate 15, eleven frames of silence last
fifteen slots.  One frame of 1/4 alone goes to slot 0, where it is about 0.34.  After the silence, its position is
rounded to below 15: about 0.09 of it goes to slot 14 and only 1/4 is in slot 15. -/
theorem C114_up_false :
    binary64.rnd (15 / 11) < (1 - 2 ^ (-54 : ℤ)) * (15 / 11) ∧
    ((⟨lit 15, Resampler.dflt, List.replicate 4 #v[lit 0]⟩ : Sink .mono .ch32).stream 40
      (.audio (k := .mono) (c := .ch32) ⟨lit 11, [#v[lit 0.25]]⟩)).map (fun r => r.1.buf[0]?) =
      .ok (some #v[lit (11439011 / 2 ^ 25)]) ∧
    ((⟨lit 15, Resampler.dflt, List.replicate 19 #v[lit 0]⟩ : Sink .mono .ch32).stream 40
      (.audio (k := .mono) (c := .ch32)
        ⟨lit 11, List.replicate 11 #v[lit 0] ++ [#v[lit 0.25]]⟩)).map (fun r => (r.1.buf[14]?, r.1.buf[15]?)) =
      .ok (some #v[lit (3050403 / 2 ^ 25)], some #v[lit (1 / 4)]) := by
  refine ⟨?_, ?_, ?_⟩ <;> decide +kernel

end Fon
