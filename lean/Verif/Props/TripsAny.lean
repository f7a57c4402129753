import Verif.Props.ThereBackWith
import Verif.Props.WithTwice
import Verif.Props.Standard

/-!
# C158 for factors that are not powers of two
-/

namespace Fon
open Fon.Fl hiding min max
open Fon.Fmt Fon.Sink
variable {k : Kind} {c : ChTy}

theorem tripErr_nonneg (c : ChTy) (N l : Nat) : 0 ≤ tripErr c N l := by
  have := (mixLaw c).nonneg
  unfold tripErr
  positivity

theorem inv_facts {N r ε : ℚ} (hN : 2 ≤ N) (hN20 : N ≤ 2 ^ 20) (hε : 0 ≤ ε) (hε1 : ε * 2 ^ 48 ≤ 1 / 8) (hr : 0 < r)
    (h : |N * r - 1| ≤ ε) : 1 / 2 ≤ N * r ∧ 1 / r ≤ N + 1 ∧ ∀ i l : ℚ, 0 ≤ l → l ≤ 2 ^ 48 → i + 1 ≤ l → i ≤ r * (N * l - 1) := by
  obtain ⟨h1, h2⟩ := abs_le.mp h
  have a1 : ε ≤ 1 / 8 := by linarith
  have a2 : r ≤ 3 / 4 := by
    have := mul_le_mul_of_nonneg_right hN hr.le
    linarith
  have a3 : ε * N ≤ 1 / 8 := by
    have := mul_le_mul_of_nonneg_left hN20 hε
    linarith
  have a4 : ε ≤ r := by
    by_contra hc
    push Not at hc
    have := mul_lt_mul_of_pos_left hc (show (0:ℚ) < N by linarith)
    linarith
  refine ⟨by linarith, ?_, fun i l l0 l1 hi => ?_⟩
  · rw [div_le_iff₀ hr]; linarith
  · have e1 : r * (N * l - 1) = N * r * l - r := by ring
    have e2 : (1 - ε) * l ≤ N * r * l := mul_le_mul_of_nonneg_right (by linarith) l0
    have e3 := mul_le_mul_of_nonneg_left l1 hε
    rw [e1]
    linarith

/-- One trip through any multiple of the rate. -/
theorem C158_trip_near {rate : F64} {lo N l : Nat} {a b e : Audio k c} (hk : k.builtin = true) (hr : rate.Is ((N * lo : Nat):ℚ))
    (ha : a.rate.Is (lo:ℚ)) (h0 : 0 < lo) (hN2 : 2 ≤ N) (hN20 : N ≤ 2 ^ 20) (hl : a.len = l) (hN : N * lo * (l + 1) ≤ 2 ^ 48)
    (hfit : (l:ℚ) ≤ binary64.rnd (binary64.rnd (1 / N) * (N * l)))
    (h : Audio.withStream rate (.audio a) = .ok b) (h' : Audio.withStream a.rate (.audio b) = .ok e)
    {ch : Nat} (hch : ch < k.chans) {w : Nat → ℚ} (hw : ∀ j f, a.get j = some f → SampleVal c f[ch] (w j))
    (hquiet : ∀ j, |w j| * (N + 1) + mixErr c * (N + 5) ≤ 1) (hend : ∀ j, l ≤ j → w j = 0) :
    e.rate = a.rate ∧ e.len = l ∧ ∃ v : Nat → ℚ, (∀ j f, e.get j = some f → SampleVal c f[ch] (v j)) ∧ (∀ j, l ≤ j → v j = 0) ∧
      ∀ j, |v j - w j * (gain c N / N)| ≤ tripErr c N l := by
  have hp : 0 < N := by omega
  have hloN : N * lo ≤ 2 ^ 48 := le_trans (Nat.le_mul_of_pos_right _ (by omega)) hN
  have hlo : lo ≤ 2 ^ 48 := le_trans (Nat.le_mul_of_pos_left _ hp) hloN
  have hNl : N * lo * l < 2 ^ 48 := by
    have : N * lo * (l + 1) = N * lo * l + N * lo := by ring
    have : 0 < N * lo := by positivity
    omega
  have hml : N * l ≤ N * lo * l := by rw [mul_right_comm]; exact Nat.le_mul_of_pos_right _ h0
  have hll : l ≤ N * l := Nat.le_mul_of_pos_left _ hp
  have hlq : (0:ℚ) < lo := by exact_mod_cast h0
  have hNq : (2:ℚ) ≤ N := by exact_mod_cast hN2
  have hq := ratio_multiple hr ha h0 (by omega : N ≤ 2 ^ 24)
  have e1 : (lo:ℚ) / ((N * lo : Nat):ℚ) = 1 / N := by push_cast; field_simp
  obtain ⟨b1, b2, s, it, b3, b4, b5⟩ := with_whole (st := .audio a) (l := l) (D := N * l) hr ha h0 (by omega) (by omega) (by omega)
    (by ring) hq (by positivity) (by push_cast; ring) (by omega) (by rw [← hl]; rfl) rfl h
  have hb : b = ⟨rate, s.buf⟩ := by
    obtain ⟨br, bf⟩ := b
    simp only at b1 b4
    rw [b1, b4]
  -- the way back
  have hbr : (Src.audio b : Src k c).rate = some rate := by rw [← b1]; rfl
  have hbl : (Src.audio b : Src k c).len = some (N * l) := by rw [← b2]; rfl
  have hlen : e.len = l := by
    rw [C49_partial a.rate rate lo (N * lo) (N * l) ha hr (by positivity) (by
      rw [← mul_assoc, mul_comm lo]; omega) (by omega) (by omega) _ hbl hbr e h']
    have : ((lo:ℚ) * (N * l : Nat)) / (N * lo : Nat) = l := by push_cast; field_simp
    rw [this, Nat.ceil_natCast]
  obtain ⟨p1, p2⟩ := pos_int ha hr (by positivity) h0 (by omega) (by omega)
  obtain ⟨hinv, hr'l⟩ := ratios_inverse h0 (Nat.le_mul_of_pos_left lo hp) (by omega : N * lo ≤ 2 ^ 50)
  have eN : binary64.rnd (((N * lo : Nat):ℚ) / lo) = N := by
    have : ((N * lo : Nat):ℚ) / lo = (N:ℕ) := by push_cast; field_simp
    rw [this, Fmt.rnd_of_rep (by simpa using rep_nat53 (n := N) (by omega))]
  rw [eN, e1] at hinv
  rw [e1] at hr'l p1 p2
  obtain ⟨r', hr'⟩ : ∃ r', r' = binary64.rnd (1 / (N:ℚ)) := ⟨_, rfl⟩
  rw [← hr'] at hinv hr'l p1 p2 hfit
  have hr'0 : 0 < r' := lt_of_lt_of_le (mul_pos (by positivity) (by norm_num)) hr'l
  have hr'1 : r' ≤ 1 := by
    have : binary64.rnd (1 / (N:ℚ)) ≤ binary64.rnd 1 := rnd_mono (by rw [div_le_one (by positivity)]; linarith)
    rwa [← hr', show binary64.rnd 1 = 1 by decide +kernel] at this
  obtain ⟨m1, _, _, m4, m5⟩ := p2 (N * l) (by rw [← mul_assoc, mul_comm lo]; omega)
  have hlq' : (l:ℚ) ≤ 2 ^ 48 := by exact_mod_cast (by omega : l ≤ 2 ^ 48)
  have hfloor : l ≤ ((ratioOf a.rate (some rate)).mul (f64OfUsize (N * l))).toUsize := by
    have hfit' : (l:ℚ) ≤ binary64.rnd (r' * ((N * l : Nat):ℚ)) := by push_cast; exact hfit
    rw [toUsize_is m1 (le_trans l.cast_nonneg hfit') (by
      refine lt_of_le_of_lt m5 ?_
      have : ((lo:ℚ) * (N * l : Nat)) / (N * lo : Nat) = l := by push_cast; field_simp
      rw [this]
      have : (1 + 1 / 2 ^ 53 : ℚ) ^ 2 ≤ 2 := by norm_num
      nlinarith [(Nat.cast_nonneg l : (0:ℚ) ≤ l)])]
    have : ((l : ℕ) : ℤ) ≤ ⌊binary64.rnd (r' * ((N * l : Nat):ℚ))⌋ := Int.le_floor.mpr (by exact_mod_cast hfit')
    omega
  obtain ⟨t, it', c3, c4⟩ := with_slots h' (by rw [hbr]; exact p1) hr'0 hbl
  rw [hbr, hlen] at c4
  rw [hlen] at c3
  refine ⟨(C48_withStream _ _ _ h').1, hlen, ?_⟩
  have len : ∀ n, (List.replicate n (Frame.dflt : Frame k c)).length = n := fun n => List.length_replicate
  -- both ways together
  have key : ∀ i, i < l → ∃ (y : Frame k c) (v : ℚ), e.get i = some y ∧ SampleVal c y[ch] v ∧
      |v - w i * (gain c N / N)| ≤ tripErr c N l := by
    intro i hi
    obtain ⟨d1, d2⟩ := c4 i hi (by omega)
    subst hb
    have hil : (i:ℚ) + 1 ≤ l := by exact_mod_cast hi
    obtain ⟨a1, a2, a3⟩ := inv_facts hNq (by exact_mod_cast hN20) (by positivity) (by norm_num) hr'0 hinv
    obtain ⟨y, v, y1, y2, y3⟩ := C102_multiple (l + 1) (N * l + 1) N _ s _ t (.audio a) it it' hk b3 c3 rfl rfl r' hq hp hN20 p1 hr'0 hr'1
      hinv (by rw [len]; omega) (by
        rw [len]
        have f1 : (N:ℚ) * (l + 1) ≤ 2 ^ 48 := by
          have : N * (l + 1) ≤ N * lo * (l + 1) := by
            rw [mul_right_comm]; exact Nat.le_mul_of_pos_right _ h0
          exact_mod_cast this.trans hN
        have f2 : (N:ℚ) * (l + 1) ≤ N * (r' * 2 ^ 52) := by
          rw [← mul_assoc]
          have : (1 / 2 : ℚ) * 2 ^ 52 ≤ N * r' * 2 ^ 52 := mul_le_mul_of_nonneg_right a1 (by positivity)
          linarith
        exact le_of_mul_le_mul_left f2 (by linarith))
      (fun x hx => by rw [len] at hx ⊢; exact b5 x hx) ch hch w
      (fun j f hf x hx => by
        rw [C21_id hk] at hx
        cases hx
        exact hw j f (by injection hf)) hquiet (fun l' hl' j hj => hend j (by
          have : some a.len = some l' := hl'
          cases this
          omega)) i
      (by rw [len, len]; rw [hbl] at d1; exact d1)
      (by
        rw [len]; push_cast
        exact a3 i l l.cast_nonneg hlq' hil)
    refine ⟨y, v, by rw [d2]; exact y1, y2, y3.trans ?_⟩
    rw [len]
    unfold tripErr
    have hm := (mixLaw c).nonneg
    have g1 : (mixErr c + 5 * 2 ^ (-53 : ℤ) + 2 * (((l:ℚ) + 1) * 2 ^ (-53 : ℤ))) * (1 / r' + 3) ≤
        (mixErr c + 5 * 2 ^ (-53 : ℤ) + 2 * ((l + 1) * 2 ^ (-53 : ℤ))) * (N + 4) :=
      mul_le_mul_of_nonneg_left (by linarith only [a2]) (by positivity)
    have g2 : ((i:ℚ) + 3) * 2 ^ (-46 : ℤ) ≤ (l + 3) * 2 ^ (-46 : ℤ) := mul_le_mul_of_nonneg_right (by linarith) (by positivity)
    linarith
  choose! Y V k1 k2 k3 using key
  refine ⟨fun j => if j < l then V j else 0, fun j f hf => ?_, fun j hj => if_neg (by omega), fun j => ?_⟩
  · have hj : j < l := by rw [← hlen]; exact (List.getElem?_eq_some_iff.mp hf).1
    rw [k1 j hj] at hf
    cases hf
    simp only [hj, if_true]
    exact k2 j hj
  · by_cases hj : j < l
    · simp only [hj, if_true]; exact k3 j hj
    · simp only [hj, if_false]
      rw [hend j (by omega), zero_mul, sub_zero, abs_zero]
      exact tripErr_nonneg c N l

/-- C158 for all whole factors: every trip of a quiet signal changes float samples by no more than `tripErr`.  Integer samples are
divided by `N` every time. -/
theorem C158_near {rate : F64} {lo N l n : Nat} {a e : Audio k c} (hk : k.builtin = true) (hr : rate.Is ((N * lo : Nat):ℚ))
    (ha : a.rate.Is (lo:ℚ)) (h0 : 0 < lo) (hN2 : 2 ≤ N) (hN20 : N ≤ 2 ^ 20) (hl : a.len = l) (hN : N * lo * (l + 1) ≤ 2 ^ 48)
    (hfit : (l:ℚ) ≤ binary64.rnd (binary64.rnd (1 / N) * (N * l))) (h : Trips rate n a e)
    {ch : Nat} (hch : ch < k.chans) {w : Nat → ℚ} (hw : ∀ j f, a.get j = some f → SampleVal c f[ch] (w j))
    (hquiet : ∀ j, (|w j| + n * tripErr c N l) * (N + 1) + mixErr c * (N + 5) ≤ 1) (hend : ∀ j, l ≤ j → w j = 0) :
    e.rate = a.rate ∧ e.len = l ∧ ∃ v : Nat → ℚ, (∀ j f, e.get j = some f → SampleVal c f[ch] (v j)) ∧ (∀ j, l ≤ j → v j = 0) ∧
      ∀ j, |v j - w j * (gain c N / N) ^ n| ≤ n * tripErr c N l := by
  have hE := tripErr_nonneg c N l
  have hNq : (2:ℚ) ≤ N := by exact_mod_cast hN2
  have hg0 : 0 ≤ gain c N / N := by cases c <;> simp [gain] <;> positivity
  have hg1 : gain c N / N ≤ 1 := by
    rw [div_le_one (by linarith)]
    cases c <;> simp only [gain] <;> first | exact le_rfl | exact min_le_left _ _
  induction h with
  | none => exact ⟨rfl, hl, w, hw, hend, fun j => by simp⟩
  | @more n a e b e' _ h1 h2 ih =>
    obtain ⟨i1, i2, v, i3, i4, i5⟩ := ih ha hl hw (fun j => by
      refine le_trans ?_ (hquiet j)
      push_cast
      have : 0 ≤ tripErr c N l * ((N:ℚ) + 1) := by positivity
      linarith)
    rw [← i1] at ha
    have hv : ∀ j, |v j| ≤ |w j| + n * tripErr c N l := fun j => by
      have t1 := abs_sub_abs_le_abs_sub (v j) (w j * (gain c N / N) ^ n)
      have t2 : |w j * (gain c N / N) ^ n| ≤ |w j| := by
        rw [abs_mul, abs_of_nonneg (pow_nonneg hg0 n)]
        exact mul_le_of_le_one_right (abs_nonneg _) (pow_le_one₀ hg0 hg1)
      have := i5 j
      linarith
    obtain ⟨t1, t2, u, t3, t4, t5⟩ := C158_trip_near hk hr ha h0 hN2 hN20 i2 hN hfit h1 h2 hch i3 (fun j => by
      refine le_trans ?_ (hquiet j)
      have : |v j| * ((N:ℚ) + 1) ≤ (|w j| + n * tripErr c N l) * (N + 1) := mul_le_mul_of_nonneg_right (hv j) (by linarith)
      push_cast
      have : 0 ≤ tripErr c N l * ((N:ℚ) + 1) := by positivity
      linarith) i4
    refine ⟨t1.trans i1, t2, u, t3, t4, fun j => ?_⟩
    have s1 : |v j * (gain c N / N) - w j * (gain c N / N) ^ (n + 1)| ≤ n * tripErr c N l := by
      rw [show v j * (gain c N / N) - w j * (gain c N / N) ^ (n + 1) = (v j - w j * (gain c N / N) ^ n) * (gain c N / N) by ring,
        abs_mul, abs_of_nonneg hg0]
      exact (mul_le_of_le_one_right (abs_nonneg _) hg1).trans (i5 j)
    have s2 := abs_sub_le (u j) (v j * (gain c N / N)) (w j * (gain c N / N) ^ (n + 1))
    have := t5 j
    push_cast
    linarith

/-- Making audio of one rate into audio of another does not panic if the ratio is not rounded up by more than its 2^54th part. -/
theorem with_ok_near {a : Audio k c} {rate : F64} {dst src : Nat} (hk : k.builtin = true) (hr : rate.Is (dst:ℚ)) (ha : a.rate.Is (src:ℚ))
    (h0 : 0 < src) (hd0 : 0 < dst) (hs' : src ≤ 2 ^ 51) (hd' : dst ≤ 2 ^ 51) (hN : dst * a.len < 2 ^ 51)
    (hup : binary64.rnd ((dst:ℚ) / src) ≤ dst / src * (1 + 2 ^ (-54 : ℤ))) : ∃ b : Audio k c, Audio.withStream rate (.audio a) = .ok b := by
  have hf : (Audio.withFrames rate [] : Audio k c).Fits ⌈(dst * a.len : ℚ) / src⌉₊ := by
    have hn : ⌈(dst * a.len : ℚ) / src⌉₊ < 2 ^ 51 + 1 := by
      refine Nat.lt_succ_of_le (Nat.ceil_le.mpr ?_)
      have h1 : (1:ℚ) ≤ src := by exact_mod_cast h0
      have h2 : (dst * a.len : ℚ) ≤ 2 ^ 51 := by exact_mod_cast hN.le
      rw [div_le_iff₀ (by linarith)]
      push_cast
      nlinarith
    generalize ⌈(dst * a.len : ℚ) / src⌉₊ = n at *
    have hs : k.size c ≤ 48 := by
      cases k with
      | custom => cases hk
      | mono => cases c <;> decide
      | stereo => cases c <;> decide
      | surround => cases c <;> decide
    refine ⟨?_, ?_⟩
    · have : usizeMax = 2 ^ 64 - 1 := rfl
      simp only [Audio.withFrames, List.length_nil]; omega
    · have : Audio.isizeMax = 2 ^ 63 - 1 := rfl
      simp only [Audio.withFrames, List.length_nil]
      have : (0 + n) * k.size c ≤ (2 ^ 51 + 1) * 48 := Nat.mul_le_mul (by omega) hs
      omega
  obtain ⟨it, hit⟩ := C129_never (Audio.withFrames rate [] : Audio k c) (.audio a) a.rate dst src a.len rfl hr ha rfl h0 hd0 hs' hd' hN hk hk
    rfl hf hup
  unfold Audio.withStream
  cases he : (Audio.withFrames rate [] : Audio k c).extend (.audio a) with
  | mk x y =>
    rw [he] at hit
    cases hit
    exact ⟨x, rfl⟩

/-- None of the trips panics, if the ratio of the way back is not rounded up by more than its 2^54th part. -/
theorem C158_ok_near {rate : F64} {lo N l : Nat} {a : Audio k c} (hk : k.builtin = true) (hr : rate.Is ((N * lo : Nat):ℚ))
    (ha : a.rate.Is (lo:ℚ)) (h0 : 0 < lo) (hN1 : 1 ≤ N) (hl : a.len = l) (hN : N * lo * (l + 1) ≤ 2 ^ 51) (hN24 : N ≤ 2 ^ 24)
    (hup : binary64.rnd (1 / N) ≤ 1 / N * (1 + 2 ^ (-54 : ℤ))) (n : Nat) :
    ∃ e, Trips rate n a e ∧ e.rate = a.rate ∧ e.len = l := by
  have hp : 0 < N := hN1
  have hloN : N * lo ≤ 2 ^ 51 := le_trans (Nat.le_mul_of_pos_right _ (by omega)) hN
  have hlo51 : lo ≤ 2 ^ 51 := le_trans (Nat.le_mul_of_pos_left _ hp) hloN
  have hNl : N * lo * l < 2 ^ 51 := by
    have : N * lo * (l + 1) = N * lo * l + N * lo := by ring
    have : 0 < N * lo := by positivity
    omega
  have hlq : (lo:ℚ) ≠ 0 := by exact_mod_cast h0.ne'
  have hNq : (N:ℚ) ≠ 0 := by exact_mod_cast hp.ne'
  have hml : N * l ≤ N * lo * l := by rw [mul_right_comm]; exact Nat.le_mul_of_pos_right _ h0
  have hll : l ≤ N * l := Nat.le_mul_of_pos_left _ hp
  have u1 : binary64.rnd (((N * lo : Nat):ℚ) / lo) ≤ ((N * lo : Nat):ℚ) / lo * (1 + 2 ^ (-54 : ℤ)) := by
    have e1 : ((N * lo : Nat):ℚ) / lo = (N:ℕ) := by push_cast; field_simp
    rw [e1, rnd_of_rep (rep_nat53 (by omega))]
    exact le_mul_of_one_le_right N.cast_nonneg (by norm_num)
  have u2 : binary64.rnd ((lo:ℚ) / ((N * lo : Nat):ℚ)) ≤ (lo:ℚ) / ((N * lo : Nat):ℚ) * (1 + 2 ^ (-54 : ℤ)) := by
    have e1 : (lo:ℚ) / ((N * lo : Nat):ℚ) = 1 / N := by push_cast; field_simp
    rw [e1]; exact hup
  induction n with
  | zero => exact ⟨a, .none a, rfl, hl⟩
  | succ n ih =>
    obtain ⟨e, he, e1, e2⟩ := ih
    rw [← e1] at ha
    obtain ⟨b, hb⟩ := with_ok_near hk hr ha h0 (by positivity) hlo51 hloN (by rw [e2]; exact hNl) u1
    obtain ⟨b1, -⟩ := C48_withStream _ _ _ hb
    have hb2 : b.len = N * l := by
      rw [C49_partial rate e.rate (N * lo) lo l hr ha h0 (by omega) (by omega) hlo51 (.audio e) (by rw [← e2]; rfl) rfl b hb]
      have e1 : (((N * lo : Nat):ℚ) * l) / lo = ((N * l : Nat):ℚ) := by push_cast; field_simp
      rw [e1, Nat.ceil_natCast]
    have hc : lo * (N * l) = N * lo * l := by ring
    obtain ⟨e', he'⟩ := with_ok_near (a := b) (rate := e.rate) hk ha (by rw [b1]; exact hr) (by positivity) h0 hloN hlo51
      (by rw [hb2, hc]; exact hNl) u2
    refine ⟨e', he.more hb he', (C48_withStream _ _ _ he').1.trans e1, ?_⟩
    rw [C49_partial e.rate rate lo (N * lo) (N * l) ha hr (by positivity) (by omega) (by omega) hloN (.audio b) (by rw [← hb2]; rfl)
      (by rw [← b1]; rfl) e' he']
    have e3 : ((lo:ℚ) * (N * l : Nat)) / (N * lo : Nat) = l := by push_cast; field_simp
    rw [e3, Nat.ceil_natCast]

/-! ## Examples -/

/-- Two quiet frames at 8 Hz. -/
def exLow : Audio .mono .ch64 := ⟨lit 8, [#v[lit 0.125], #v[lit (-0.1)]]⟩

/-- Their values. -/
def exLowVal (j : Nat) : ℚ := if j = 0 then 1 / 8 else if j = 1 then binary64.rnd (-1 / 10) else 0

theorem exLow_val (j : Nat) (f : Frame .mono .ch64) (h : exLow.get j = some f) : SampleVal .ch64 f[0] (exLowVal j) := by
  match j with
  | 0 | 1 => cases h; decide +kernel
  | j + 2 => cases h

theorem exLow_le (j : Nat) : |exLowVal j| ≤ 1 / 8 := by
  match j with
  | 0 | 1 => decide +kernel
  | j + 2 => simp [exLowVal]

theorem exLow_end (j : Nat) (h : 2 ≤ j) : exLowVal j = 0 := by
  unfold exLowVal
  rw [if_neg (by omega), if_neg (by omega)]

/-- Its trip through 24 Hz. -/
theorem exLow_trip (a : Audio .mono .ch64) (h : ((Audio.withStream (lit 24) (.audio a) : R (Audio .mono .ch64)).bind
    (fun b => (Audio.withStream a.rate (.audio b) : R (Audio .mono .ch64)))).isOk = true) :
    ∃ b e : Audio .mono .ch64, Audio.withStream (lit 24) (.audio a) = .ok b ∧ Audio.withStream a.rate (.audio b) = .ok e := by
  cases h1 : (Audio.withStream (lit 24) (.audio a) : R (Audio .mono .ch64)) with
  | error e => rw [h1] at h; cases h
  | ok b =>
    rw [h1] at h
    change (Audio.withStream a.rate (.audio b) : R (Audio .mono .ch64)).isOk = true at h
    cases h2 : (Audio.withStream a.rate (.audio b) : R (Audio .mono .ch64)) with
    | error e => rw [h2] at h; cases h
    | ok e => exact ⟨b, e, rfl, h2⟩

example : ∃ b e : Audio .mono .ch64, Audio.withStream (lit 24) (.audio exLow) = .ok b ∧ Audio.withStream (lit 8) (.audio b) = .ok e ∧
    ∃ v : Nat → ℚ, (∀ j f, e.get j = some f → SampleVal .ch64 f[0] (v j)) ∧
      ∀ j, |v j - exLowVal j * (gain .ch64 (3 : Nat) / (3 : Nat))| ≤ tripErr .ch64 3 2 := by
  obtain ⟨b, e, h1, h2⟩ := exLow_trip exLow (by decide +kernel)
  obtain ⟨_, _, v, v1, _, v2⟩ := C158_trip_near (lo := 8) (N := 3) (l := 2) rfl (by decide +kernel) (by decide +kernel) (by decide) (by decide)
    (by decide) rfl (by decide) (by decide +kernel) h1 h2 (ch := 0) (by decide) exLow_val
    (fun j => by have := exLow_le j; unfold mixErr; norm_num at this ⊢; linarith) exLow_end
  exact ⟨b, e, h1, h2, v, v1, v2⟩

theorem exLow_up : (Audio.withStream (lit 24) (.audio exLow) : R (Audio .mono .ch64)).toBool = true := by decide +kernel

theorem exLow_down : (Audio.withStream (lit 8) (.audio (R.out _ exLow_up)) : R (Audio .mono .ch64)).toBool = true := by decide +kernel

/-- Two trips. -/
theorem exLow_two : ∃ e, Trips (lit 24) 2 exLow e := by
  obtain ⟨b, e, h3, h4⟩ := exLow_trip (R.out _ exLow_down) (by decide +kernel)
  exact ⟨e, .more (.more (.none _) (R.returns exLow_up) (R.returns exLow_down)) h3 h4⟩

example : ∃ (e : Audio .mono .ch64) (v : Nat → ℚ), Trips (lit 24) 2 exLow e ∧ (∀ j f, e.get j = some f → SampleVal .ch64 f[0] (v j)) ∧
    ∀ j, |v j - exLowVal j * (gain .ch64 (3 : Nat) / (3 : Nat)) ^ 2| ≤ (2 : Nat) * tripErr .ch64 3 2 := by
  obtain ⟨e, h⟩ := exLow_two
  obtain ⟨_, _, v, v1, _, v2⟩ := C158_near (lo := 8) (N := 3) (l := 2) rfl (by decide +kernel) (by decide +kernel) (by decide) (by decide)
    (by decide) rfl (by decide) (by decide +kernel) h (ch := 0) (by decide) exLow_val
    (fun j => (add_le_add (mul_le_mul_of_nonneg_right (add_le_add (exLow_le j) le_rfl) (by norm_num)) le_rfl).trans (by decide +kernel)) exLow_end
  exact ⟨e, v, h, v1, v2⟩

/-- A hundred trips change the samples by less than 10^-9. -/
example : ∃ (e : Audio .mono .ch64) (v : Nat → ℚ), Trips (lit 24) 100 exLow e ∧ (∀ j f, e.get j = some f → SampleVal .ch64 f[0] (v j)) ∧
    ∀ j, |v j - exLowVal j| ≤ 1 / 10 ^ 9 := by
  obtain ⟨e, h, -, -⟩ := C158_ok_near (rate := lit 24) (lo := 8) (N := 3) (l := 2) (a := exLow) rfl (by decide +kernel) (by decide +kernel)
    (by decide) (by decide) rfl (by decide) (by decide) (by decide +kernel) 100
  have hE : ((100 : Nat) : ℚ) * tripErr .ch64 3 2 ≤ 1 / 10 ^ 9 := by decide +kernel
  obtain ⟨_, _, v, v1, _, v2⟩ := C158_near (lo := 8) (N := 3) (l := 2) rfl (by decide +kernel) (by decide +kernel) (by decide) (by decide)
    (by decide) rfl (by decide) (by decide +kernel) h (ch := 0) (by decide) exLow_val
    (fun j => by
      have := exLow_le j
      have h4 : (|exLowVal j| + (100 : Nat) * tripErr .ch64 3 2) * ((3 : Nat) + 1) ≤ (1 / 8 + 1 / 10 ^ 9) * ((3 : Nat) + 1) :=
        mul_le_mul_of_nonneg_right (add_le_add this hE) (by norm_num)
      have h5 : (1 / 8 + 1 / 10 ^ 9 : ℚ) * ((3 : Nat) + 1) + mixErr .ch64 * ((3 : Nat) + 5) ≤ 1 := by decide +kernel
      exact (add_le_add h4 le_rfl).trans h5) exLow_end
  refine ⟨e, v, h, v1, fun j => le_trans ?_ hE⟩
  have := v2 j
  rwa [show gain .ch64 ((3 : Nat) : ℚ) / ((3 : Nat) : ℚ) = 1 by norm_num [gain], one_pow, mul_one] at this

/-- Why the frames have to fit: 49 times the 49th part is a little less than 1 in `f64`, so on the way back no slot is
filled and nothing is played (C159). -/
theorem C158_last : Trips (lit 49) 1 (⟨lit 1, [#v[lit 0.0078125]]⟩ : Audio .mono .ch64) ⟨lit 1, [#v[lit 0]]⟩ ∧
    ¬ ((1 : Nat) : ℚ) ≤ binary64.rnd (binary64.rnd (1 / (49 : Nat)) * ((49 : Nat) * (1 : Nat))) :=
  ⟨.more (k := .mono) (c := .ch64) (e := ⟨lit 1, [#v[lit 0.0078125]]⟩) (b := ⟨lit 49, #v[lit 0.3828125] :: List.replicate 48 #v[lit 0]⟩)
    (.none _) (by decide +kernel) (by decide +kernel), by decide +kernel⟩

end Fon
