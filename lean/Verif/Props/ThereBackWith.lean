import Verif.Props.ThereBack
import Verif.Props.ExtendUp

/-!
# C102: what comes back from a buffer of a higher rate

The claim is stated for a stream that `Audio::with_stream` puts into a buffer of a higher rate, and for the buffer of the old
rate that `Audio::with_stream` makes of it.
-/

namespace Fon
open Fon.Fl hiding min max
open Fon.Fmt Fon.Sink
variable {k k' : Kind} {c c' : ChTy}

/-- The rounded ratios of two rates are nearly inverse to each other. -/
theorem ratios_inverse {hi lo : ℕ} (h0 : 0 < lo) (hle : lo ≤ hi) (hb : hi ≤ 2 ^ 50) :
    |binary64.rnd ((hi:ℚ) / lo) * binary64.rnd ((lo:ℚ) / hi) - 1| ≤ 2 ^ (-51 : ℤ) ∧
    (lo:ℚ) / hi * (1 - 2 ^ (-53:ℤ)) ≤ binary64.rnd ((lo:ℚ) / hi) := by
  have hl : (0:ℚ) < lo := by exact_mod_cast h0
  have hh : (0:ℚ) < hi := by exact_mod_cast (by omega : 0 < hi)
  have hbq : (hi:ℚ) ≤ 2 ^ 50 := by exact_mod_cast hb
  have hleq : (lo:ℚ) ≤ hi := by exact_mod_cast hle
  have hl1 : (1:ℚ) ≤ lo := by exact_mod_cast h0
  have p1 : (0:ℚ) < hi / lo := by positivity
  have p2 : (0:ℚ) < lo / hi := by positivity
  have n1 : (2:ℚ) ^ (-50:ℤ) ≤ hi / lo := by
    have : (1:ℚ) ≤ hi / lo := (one_le_div hl).mpr hleq
    refine le_trans (by norm_num) this
  have n2 : (2:ℚ) ^ (-50:ℤ) ≤ lo / hi := by
    rw [le_div_iff₀ hh]
    calc (2:ℚ) ^ (-50:ℤ) * hi ≤ 2 ^ (-50:ℤ) * 2 ^ 50 := mul_le_mul_of_nonneg_left hbq (two_zpow_pos _).le
      _ = 1 := by norm_num
      _ ≤ lo := hl1
  have nn : (2:ℚ) ^ (binary64.emin + binary64.prec - 1) ≤ 2 ^ (-50:ℤ) := by decide +kernel
  have e1 := rel_err_normal (f := binary64) (q := (hi:ℚ) / lo) (by rw [abs_of_pos p1]; exact nn.trans n1)
  have e2 := rel_err_normal (f := binary64) (q := (lo:ℚ) / hi) (by rw [abs_of_pos p2]; exact nn.trans n2)
  rw [abs_of_pos p1] at e1
  rw [abs_of_pos p2] at e2
  have hu : binary64.u = 2 ^ (-53:ℤ) := by decide +kernel
  rw [hu] at e1 e2
  have u0 : (0:ℚ) < 2 ^ (-53:ℤ) := two_zpow_pos _
  have u1 : (2:ℚ) ^ (-53:ℤ) ≤ 1 / 100 := by norm_num
  have u2 : (2:ℚ) ^ (-51:ℤ) = 4 * 2 ^ (-53:ℤ) := by norm_num
  rw [u2]
  generalize (2:ℚ) ^ (-53:ℤ) = u at *
  have hp : (hi:ℚ) / lo * (lo / hi) = 1 := by field_simp
  generalize (hi:ℚ) / lo = a at *
  generalize (lo:ℚ) / hi = b at *
  generalize binary64.rnd a = A at *
  generalize binary64.rnd b = B at *
  refine ⟨?_, by linarith [(abs_le.mp e2).1]⟩
  have d1 : A * B - 1 = (A - a) * b + a * (B - b) + (A - a) * (B - b) := by rw [← hp]; ring
  have t1 : |(A - a) * b| ≤ u := by
    rw [abs_mul, abs_of_pos p2]
    calc _ ≤ a * u * b := mul_le_mul_of_nonneg_right e1 p2.le
      _ = u * (a * b) := by ring
      _ = u := by rw [hp, mul_one]
  have t2 : |a * (B - b)| ≤ u := by
    rw [abs_mul, abs_of_pos p1]
    calc _ ≤ a * (b * u) := mul_le_mul_of_nonneg_left e2 p1.le
      _ = u * (a * b) := by ring
      _ = u := by rw [hp, mul_one]
  have t3 : |(A - a) * (B - b)| ≤ u * u := by
    rw [abs_mul]
    calc _ ≤ a * u * (b * u) := mul_le_mul e1 e2 (abs_nonneg _) (by positivity)
      _ = u * u * (a * b) := by ring
      _ = u * u := by rw [hp, mul_one]
  have t4 : u * u ≤ u := by nlinarith
  rw [d1]
  have := abs_add_le ((A - a) * b + a * (B - b)) ((A - a) * (B - b))
  have := abs_add_le ((A - a) * b) (a * (B - b))
  linarith

/-- C102 for buffers: a quiet stream that is put into a buffer of a higher rate, which is put into a buffer of the old rate,
comes back with part of every frame in its own place and the rest in the places beside it.  The last two frames are left out:
when the rate goes down the end is cut off (C86). -/
theorem C102_with (rate sr : F64) (hi lo l : Nat) (hr : rate.Is (hi:ℚ)) (hs : sr.Is (lo:ℚ)) (h0 : 0 < lo)
    (hle : lo ≤ hi) (h20 : hi ≤ 2 ^ 20 * lo) (hN : hi * l + lo ≤ 2 ^ 48)
    (st : Src k' c') (hl : st.len = some l) (hsr : st.rate = some sr) (b e : Audio k c) (hk : k.builtin = true)
    (h : Audio.withStream rate st = .ok b) (h' : Audio.withStream sr (.audio b) = .ok e)
    (ch : Nat) (hch : ch < k.chans) (w : Nat → ℚ)
    (hw : ∀ j f, st.nth j = .ok (some f) → ∀ x : Frame k c, f.convert c = .ok x → SampleVal c x[ch] (w j))
    (hquiet : ∀ j, |w j| * (binary64.rnd ((hi:ℚ) / lo) + 1) + mixErr c * (binary64.rnd ((hi:ℚ) / lo) + 5) ≤ 1)
    (hend : ∀ j, l ≤ j → w j = 0)
    (φ : Nat → ℚ) (hφ : ∀ j : ℕ, φ j = Int.fract (binary64.rnd (binary64.rnd ((hi:ℚ) / lo) * j)))
    (i : Nat) (hi3 : i + 3 ≤ l) :
    let r := binary64.rnd ((hi:ℚ) / lo)
    let r' := binary64.rnd ((lo:ℚ) / hi)
    ∃ (y : Frame k c) (v : ℚ), e.frames[i]? = some y ∧ SampleVal c y[ch] v ∧
      |v - (w (i - 1) * backNext r (φ (i - 1)) + w i * backOwn c r (φ i) + w (i + 1) * backPrev c r (φ (i + 1)))| ≤
        (mixErr c + 5 * 2 ^ (-53 : ℤ) + 2 * ((e.frames.length + 1) * 2 ^ (-53 : ℤ))) * (1 / r' + 3) +
          mixErr c * (r + 5) + (i + 3) * 2 ^ (-46 : ℤ) := by
  classical
  intro r r'
  have hhl : hi ≤ hi * l := Nat.le_mul_of_pos_right _ (by omega)
  have hh0 : 0 < hi := by omega
  have hlq : (0:ℚ) < lo := by exact_mod_cast h0
  have hhq : (0:ℚ) < hi := by exact_mod_cast hh0
  have hleq : (lo:ℚ) ≤ hi := by exact_mod_cast hle
  obtain ⟨hrr, hr'l⟩ := ratios_inverse h0 hle (by omega)
  have g1 : binary64.rnd 1 = 1 := by decide +kernel
  have hr1 : 1 ≤ r := by
    have : binary64.rnd 1 ≤ r := rnd_mono ((one_le_div hlq).mpr hleq)
    rwa [g1] at this
  have hr20 : r ≤ 2 ^ 20 := by
    refine (rnd_mono ((div_le_iff₀ hlq).mpr (show (hi:ℚ) ≤ 2 ^ 20 * lo by exact_mod_cast h20))).trans_eq ?_
    decide +kernel
  have v0 : (0:ℚ) < 1 - 2 ^ (-53:ℤ) := by norm_num
  have hr'0 : 0 < r' := lt_of_lt_of_le (mul_pos (by positivity) v0) hr'l
  have hr'1 : r' ≤ 1 := (rnd_mono ((div_le_one hhq).mpr hleq)).trans_eq g1
  have hm0 : 0 ≤ mixErr c * (r + 5) := mul_nonneg (mixLaw c).nonneg (by linarith)
  have hquiet' : ∀ j, |w j| * (r + 1) + mixErr c * (r + 5) ≤ 1 := hquiet
  have hwr : ∀ j, |w j| * (r + 1) ≤ 1 := fun j => by have := hquiet' j; linarith
  have hw1 : ∀ j, |w j| ≤ 1 := fun j => by
    have h1 := hwr j
    have h2 := mul_le_mul_of_nonneg_left (show (1:ℚ) ≤ r + 1 by linarith) (abs_nonneg (w j))
    linarith
  -- the fast buffer
  obtain ⟨hlen, a1, ha⟩ := C104_up rate sr hi lo l hr hs h0 (by omega) (by omega) hle h20 (by omega) st hl hsr b h ch hch w
    (fun j f h1 x h2 => ⟨hw j f h1 x h2, hw1 j⟩)
  obtain ⟨D, hD⟩ : ∃ D, D = b.frames.length := ⟨_, rfl⟩
  rw [← hD] at hlen a1 ha
  have hDlo : (hi * l : ℚ) / lo ≤ D := by rw [hlen]; exact Nat.le_ceil _
  have hDhi : (D:ℚ) < (hi * l : ℚ) / lo + 1 := by rw [hlen]; exact Nat.ceil_lt_add_one (by positivity)
  have hloD : lo * D < hi * l + lo := by
    have : (lo:ℚ) * D < lo * ((hi * l : ℚ) / lo + 1) := mul_lt_mul_of_pos_left hDhi hlq
    have e1 : (lo:ℚ) * ((hi * l : ℚ) / lo + 1) = hi * l + lo := by field_simp
    rw [e1] at this
    exact_mod_cast this
  have hD48 : D ≤ 2 ^ 48 := le_trans (Nat.le_mul_of_pos_left _ h0) (by omega)
  have hq : (ratioOf rate (some sr)).Is r := hr.div hs hlq.ne' (small (by
    refine (abs_of_nonneg (by positivity)).le.trans ?_
    refine ((div_le_iff₀ hlq).mpr (show (hi:ℚ) ≤ 2 ^ 20 * lo by exact_mod_cast h20)).trans ?_
    norm_num))
  let U : ℕ → ℚ := fun x => ∑ j ∈ Finset.range l, w j * upShare c r x (binary64.rnd (r * j))
  have hU : ∀ x, |U x| + mixErr c * (r + 5) ≤ 1 := quiet_sum hq hr1 hr20 hD48 a1 w hquiet'
  have mid : ∀ x, ∃ v : ℚ, |v| ≤ 1 ∧ (x < D → |v - U x| ≤ mixErr c * (r + 5)) ∧
      ∀ z, b.frames[x]? = some z → SampleVal c z[ch] v := by
    intro x
    by_cases hx : x < D
    · obtain ⟨y, v, b1, b2, b3⟩ := ha x hx
      have hUx := hU x
      have hU' := abs_le.mp (show |U x| ≤ 1 by linarith)
      have b4 : |v - clampQ (U x)| ≤ mixErr c * (r + 5) := b3
      rw [clampQ_of_range hU'.1 hU'.2] at b4
      refine ⟨v, ?_, fun _ => b4, fun z hz => ?_⟩
      · have := abs_sub_abs_le_abs_sub v (U x)
        linarith
      · rw [b1] at hz; cases hz; exact b2
    · refine ⟨0, by simp, fun h => absurd h hx, fun z hz => ?_⟩
      have := (List.getElem?_eq_some_iff.mp hz).1
      omega
  choose v hv1 hv2 hv3 using mid
  -- the buffer that comes back
  have hbr : b.rate = rate := (C48_withStream rate b st h).1
  have hbl : (Src.audio b : Src k c).len = some D := by rw [hD]; rfl
  have hbs : (Src.audio b : Src k c).rate = some rate := by rw [← hbr]; rfl
  have hlo51 : lo * D < 2 ^ 51 := by omega
  have hBB : lo * D + 2 * hi ≤ lo * 2 ^ 51 := by
    have e1 : 2 * hi ≤ lo * 2 ^ 21 := by omega
    have e2 : lo * D ≤ lo * 2 ^ 48 := Nat.mul_le_mul_left _ hD48
    omega
  have hel := C49_partial sr rate lo hi D hs hr hh0 (by omega) (by omega) (by omega) (.audio b) hbl hbs e h'
  obtain ⟨n, -, hn, hnD, h2⟩ := C89_partial sr rate lo hi D hs hr hh0 h0 (by omega) hle hlo51 hBB (.audio b) hbl hbs e h' ch hch v
    (fun j f hf x hx => by
      have hf' : b.frames[j]? = some f := by
        injection hf
      rw [C21_id hk] at hx
      cases hx
      exact ⟨hv3 j f hf', hv1 j⟩)
  have hlD : (l:ℚ) ≤ (lo * D : ℚ) / hi := by
    rw [le_div_iff₀ hhq]
    have := (div_le_iff₀ hlq).mp hDlo
    linarith
  have hil : (i:ℚ) + 3 ≤ l := by exact_mod_cast hi3
  have hie : i < e.frames.length := by
    have e1 : e.frames.length = e.len := rfl
    rw [e1, hel]
    have : (i:ℚ) < (⌈(lo * D : ℚ) / hi⌉₊ : ℚ) := by
      have := Nat.le_ceil ((lo * D : ℚ) / hi)
      linarith
    exact_mod_cast this
  obtain ⟨y, y1, y2⟩ := h2 i hie
  have hl48' : l ≤ 2 ^ 48 := le_trans (Nat.le_mul_of_pos_left l hh0) (by omega)
  have hl48 : (l:ℚ) ≤ 2 ^ 48 := by exact_mod_cast hl48'
  have u3 : (2:ℚ) ^ 48 * 2 ^ (-53:ℤ) ≤ 1 / 2 := by norm_num
  have u0 : (0:ℚ) < 2 ^ (-53:ℤ) := two_zpow_pos _
  have hlu : (l:ℚ) * 2 ^ (-53:ℤ) ≤ 1 / 2 := (mul_le_mul_of_nonneg_right hl48 u0.le).trans u3
  rw [if_neg] at y2
  · obtain ⟨x, x1, x2⟩ := y2
    refine ⟨y, x, y1, x1, ?_⟩
    -- replace the values by the exact ones
    have c1 : |∑ x ∈ Finset.range n, v x * overlap (r' * x - r') (r' * x) (i - 1) i -
        ∑ x ∈ Finset.range n, U x * overlap (r' * x - r') (r' * x) (i - 1) i| ≤ mixErr c * (r + 5) := by
      rw [← Finset.sum_sub_distrib]
      refine (Finset.abs_sum_le_sum_abs _ _).trans ?_
      calc _ ≤ ∑ x ∈ Finset.range n, mixErr c * (r + 5) * overlap (r' * x - r') (r' * x) (i - 1) i := by
            refine Finset.sum_le_sum fun x hx => ?_
            rw [← sub_mul, abs_mul, abs_of_nonneg (overlap_nonneg _ _ _ _)]
            exact mul_le_mul_of_nonneg_right (hv2 x ((Finset.mem_range.mp hx).trans_le hn)) (overlap_nonneg _ _ _ _)
        _ ≤ mixErr c * (r + 5) * 1 := by
            rw [← Finset.mul_sum]
            exact mul_le_mul_of_nonneg_left (sum_share_le hr'0.le _ _) hm0
        _ = _ := mul_one _
    have hin : (i:ℚ) ≤ r' * (n - 1) := by
      have e1 : (lo:ℚ) * (D - n) ≤ hi := by
        have : ((D - n : ℕ):ℚ) = D - n := by push_cast [hn]; ring
        rw [← this]; exact_mod_cast hnD
      have e2 : (hi * l : ℚ) ≤ D * lo := (div_le_iff₀ hlq).mp hDlo
      have e3 : (hi:ℚ) * (l - 1) ≤ lo * n := by linarith
      have e4 : (lo:ℚ) / hi * n ≥ l - 1 := by
        rw [ge_iff_le, div_mul_eq_mul_div, le_div_iff₀ hhq]; linarith
      have e5 : (lo:ℚ) / hi * (1 - 2 ^ (-53:ℤ)) * n ≤ r' * n := mul_le_mul_of_nonneg_right hr'l n.cast_nonneg
      have e6 : ((l:ℚ) - 1) * (1 - 2 ^ (-53:ℤ)) ≤ (lo:ℚ) / hi * n * (1 - 2 ^ (-53:ℤ)) :=
        mul_le_mul_of_nonneg_right e4 v0.le
      nlinarith
    have c2 := back_sum c hq.rep.gen hr1 hr'0 hr'1 hrr n l i (by omega) (by
      exact le_trans (Nat.le_mul_of_pos_left l hh0) (by omega)) w hwr (fun j hj => .inl (hend j hj)) φ hφ hin
    have t1 := abs_sub_le x (∑ x ∈ Finset.range n, v x * overlap (r' * x - r') (r' * x) (i - 1) i)
      (w (i - 1) * backNext r (φ (i - 1)) + w i * backOwn c r (φ i) + w (i + 1) * backPrev c r (φ (i + 1)))
    have t2 := abs_sub_le (∑ x ∈ Finset.range n, v x * overlap (r' * x - r') (r' * x) (i - 1) i)
      (∑ x ∈ Finset.range n, U x * overlap (r' * x - r') (r' * x) (i - 1) i)
      (w (i - 1) * backNext r (φ (i - 1)) + w i * backOwn c r (φ i) + w (i + 1) * backPrev c r (φ (i + 1)))
    calc _ ≤ _ := t1
      _ ≤ _ := add_le_add x2 (t2.trans (add_le_add c1 c2))
      _ = _ := by ring
  · rintro ⟨hf, -⟩
    have e1 : ((i + 1 : ℕ):ℚ) ≤ binary64.rnd (r' * D) := by
      refine rnd_ge_nat (by omega) ?_
      have e5 : (lo:ℚ) / hi * (1 - 2 ^ (-53:ℤ)) * D ≤ r' * D := mul_le_mul_of_nonneg_right hr'l D.cast_nonneg
      have e6 : (l:ℚ) * (1 - 2 ^ (-53:ℤ)) ≤ (lo * D : ℚ) / hi * (1 - 2 ^ (-53:ℤ)) :=
        mul_le_mul_of_nonneg_right hlD v0.le
      have e7 : (lo:ℚ) / hi * (1 - 2 ^ (-53:ℤ)) * D = (lo * D : ℚ) / hi * (1 - 2 ^ (-53:ℤ)) := by ring
      push_cast
      linarith
    have : ((i + 1 : ℕ):ℤ) ≤ ⌊binary64.rnd (r' * D)⌋ := Int.le_floor.mpr (by exact_mod_cast e1)
    have hf' : ⌊binary64.rnd (r' * D)⌋ ≤ (i:ℤ) := hf
    push_cast at this
    omega

/-- Five quiet frames at 8 Hz. -/
def exMurmur : Audio .mono .ch64 := ⟨lit 8, [#v[lit 0.25], #v[lit (-0.25)], #v[lit 0.375], #v[lit 0.125], #v[lit (-0.125)]]⟩
/-- The values of the frames. -/
def exMurmurVal : Nat → ℚ
  | 0 => 1 / 4
  | 1 => -1 / 4
  | 2 => 3 / 8
  | 3 => 1 / 8
  | 4 => -1 / 8
  | _ => 0

example := C102_with (lit 12) (lit 8) 12 8 5 (by decide +kernel) (by decide +kernel) (by decide) (by decide) (by decide)
  (by decide) (.audio exMurmur) rfl rfl _ _ rfl
  (R.returns (x := Audio.withStream (k := .mono) (c := .ch64) (lit 12) (.audio exMurmur)) (by decide +kernel))
  (R.returns (x := Audio.withStream (k := .mono) (c := .ch64) (lit 8)
    (.audio (R.out (Audio.withStream (k := .mono) (c := .ch64) (lit 12) (.audio exMurmur)) (by decide +kernel)))) (by decide +kernel))
  0 (by decide) exMurmurVal (by
    intro j f hf x hx
    match j with
    | 0 | 1 | 2 | 3 | 4 => cases hf; cases hx; decide +kernel
    | j + 5 => cases hf) (by
    intro j
    match j with
    | 0 | 1 | 2 | 3 | 4 => decide +kernel
    | j + 5 =>
      exact (show |(0:ℚ)| * (binary64.rnd ((12:ℕ) / (8:ℕ)) + 1) + mixErr .ch64 * (binary64.rnd ((12:ℕ) / (8:ℕ)) + 5) ≤ 1 by
        decide +kernel)) (by
    intro j hj
    match j, hj with
    | j + 5, _ => rfl) _ (fun _ => rfl) 2 (by decide)

end Fon
