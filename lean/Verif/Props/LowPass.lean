import Verif.Props.Pieces

/-!
# C141: downsampling takes fast oscillations away
-/

namespace Fon
open Fon.Fl hiding min max
open Fon.Fmt Fon.Sink
variable {k k' : Kind} {c c' : ChTy}

/-! ## Sums with weights that rise and fall -/

/-- Weights that rise: a weighted sum is bounded by the sums of the last terms. -/
theorem sum_rise {w o : Nat → ℚ} {M r : ℚ} {p : Nat} (hM : 0 ≤ M) (h0 : ∀ j, j < p → 0 ≤ o j) (hr : ∀ j, j < p → o j ≤ r)
    (hr0 : 0 ≤ r) (ho : ∀ j, j + 1 < p → o j ≤ o (j + 1)) (hS : ∀ a, a ≤ p → ∑ j ∈ Finset.Ico a p, w j ≤ M) :
    ∑ j ∈ Finset.range p, w j * o j ≤ r * M := by
  have key : ∀ m, m + 1 ≤ p →
      ∑ j ∈ Finset.range (m + 1), w j * o j + (∑ j ∈ Finset.Ico (m + 1) p, w j) * o m ≤ M * o m := by
    intro m
    induction m with
    | zero =>
      intro hm
      have h1 := hS 0 (by omega)
      rw [Finset.sum_eq_sum_Ico_succ_bot (by omega)] at h1
      have h2 := mul_le_mul_of_nonneg_right h1 (h0 0 (by omega))
      simp only [Finset.sum_range_one, zero_add] at *
      linarith
    | succ m ih =>
      intro hm
      have h1 := ih (by omega)
      have h2 := hS (m + 1) (by omega)
      have h3 := mul_le_mul_of_nonneg_right h2 (sub_nonneg.mpr (ho m (by omega)))
      rw [Finset.sum_eq_sum_Ico_succ_bot (by omega)] at h1 h3
      rw [Finset.sum_range_succ]
      linarith
  rcases p with _ | p
  · simpa using mul_nonneg hr0 hM
  · have h1 := key p le_rfl
    rw [Finset.Ico_self, Finset.sum_empty, zero_mul, add_zero] at h1
    rw [mul_comm r]
    exact h1.trans (mul_le_mul_of_nonneg_left (hr p (by omega)) hM)

/-- Weights that fall: a weighted sum is bounded by the sums of the first terms. -/
theorem sum_fall {w o : Nat → ℚ} {M r : ℚ} {p n : Nat} (hM : 0 ≤ M) (hpn : p ≤ n) (h0 : ∀ j, p ≤ j → j < n → 0 ≤ o j)
    (hr : ∀ j, p ≤ j → j < n → o j ≤ r) (hr0 : 0 ≤ r) (ho : ∀ j, p ≤ j → j + 1 < n → o (j + 1) ≤ o j)
    (hS : ∀ b, p ≤ b → b ≤ n → ∑ j ∈ Finset.Ico p b, w j ≤ M) : ∑ j ∈ Finset.Ico p n, w j * o j ≤ r * M := by
  have key : ∀ m, p + m + 1 ≤ n → ∑ j ∈ Finset.Ico p (p + m + 1), w j * o j - (∑ j ∈ Finset.Ico p (p + m + 1), w j) * o (p + m) ≤
      M * (o p - o (p + m)) := by
    intro m
    induction m with
    | zero => intro hm; simp
    | succ m ih =>
      intro hm
      have h1 := ih (by omega)
      have h2 := hS (p + m + 1) (by omega) (by omega)
      have h3 := mul_le_mul_of_nonneg_right h2 (sub_nonneg.mpr (ho (p + m) (by omega) (by omega)))
      rw [show p + (m + 1) = p + m + 1 by ring, Finset.sum_Ico_succ_top (b := p + m + 1) (by omega) (fun j => w j * o j),
        Finset.sum_Ico_succ_top (b := p + m + 1) (by omega) w]
      linarith
  rcases Nat.eq_or_lt_of_le hpn with h | h
  · subst h; simpa using mul_nonneg hr0 hM
  · obtain ⟨m, rfl⟩ : ∃ m, n = p + m + 1 := ⟨n - p - 1, by omega⟩
    have h1 := key m le_rfl
    have h2 := mul_le_mul_of_nonneg_right (hS (p + m + 1) (by omega) le_rfl) (h0 (p + m) (by omega) (by omega))
    have h3 := mul_le_mul_of_nonneg_left (hr p le_rfl (by omega)) hM
    linarith

/-- Weights that rise to at most `r` and fall again: the weighted sum is at most `r` times the largest sum of consecutive
terms. -/
theorem sum_hill {w o : Nat → ℚ} {S r : ℚ} {p n : Nat} (hpn : p ≤ n) (h0 : ∀ j, j < n → 0 ≤ o j)
    (hr : ∀ j, j < n → o j ≤ r) (hr0 : 0 ≤ r) (h1 : ∀ j, j + 1 < p → o j ≤ o (j + 1))
    (h2 : ∀ j, p ≤ j → j + 1 < n → o (j + 1) ≤ o j)
    (hS : ∀ a b, a ≤ b → b ≤ n → ∑ j ∈ Finset.Ico a b, w j ≤ S) : ∑ j ∈ Finset.range n, w j * o j ≤ r * S := by
  obtain ⟨a, ha, hmax⟩ := Finset.exists_max_image (Finset.range (p + 1)) (fun a => ∑ j ∈ Finset.Ico a p, w j) ⟨0, by simp⟩
  have ha' : a ≤ p := by have := Finset.mem_range.mp ha; omega
  have hM0 : 0 ≤ ∑ j ∈ Finset.Ico a p, w j := by
    have := hmax p (by simp)
    simpa using this
  have hM : ∀ b, p ≤ b → b ≤ n → ∑ j ∈ Finset.Ico p b, w j ≤ S - ∑ j ∈ Finset.Ico a p, w j := by
    intro b hb hb'
    have := hS a b (by omega) hb'
    rw [← Finset.sum_Ico_consecutive _ ha' hb] at this
    linarith
  have e1 := sum_rise (w := w) (o := o) (M := ∑ j ∈ Finset.Ico a p, w j) (r := r) (p := p) hM0 (fun j hj => h0 j (by omega))
    (fun j hj => hr j (by omega)) hr0 h1 (fun b hb => hmax b (by simp; omega))
  have e2 := sum_fall (w := w) (o := o) (r := r) (by have := hM p le_rfl hpn; simpa using this) hpn (fun j _ hj => h0 j hj)
    (fun j _ hj => hr j hj) hr0 h2 hM
  rw [Finset.range_eq_Ico, ← Finset.sum_Ico_consecutive _ (Nat.zero_le p) hpn, ← Finset.range_eq_Ico]
  linarith

/-- The shares of the frames in a slot rise and fall. -/
theorem overlap_hill {r : ℚ} (hr : 0 < r) (x n : Nat) {w : Nat → ℚ} {S : ℚ}
    (hS : ∀ a b, |∑ j ∈ Finset.Ico a b, w j| ≤ S) :
    |∑ j ∈ Finset.range n, w j * overlap (r * j - r) (r * j) (x - 1) x| ≤ r * S := by
  have hle : ∀ j : Nat, overlap (r * j - r) (r * j) (x - 1) x ≤ r := by
    intro j
    unfold overlap
    have h1 := min_le_left (r * j) (x:ℚ)
    have h2 := le_max_left (r * j - r) ((x:ℚ) - 1)
    exact max_le hr.le (by linarith)
  have key : ∀ v : Nat → ℚ, (∀ a b, ∑ j ∈ Finset.Ico a b, v j ≤ S) →
      ∑ j ∈ Finset.range n, v j * overlap (r * j - r) (r * j) (x - 1) x ≤ r * S := by
    intro v hv
    refine sum_hill (p := min n (⌊(x:ℚ) / r⌋₊ + 1)) (min_le_left _ _) (fun j _ => overlap_nonneg _ _ _ _) (fun j _ => hle j)
      hr.le ?_ ?_ (fun a b _ _ => hv a b)
    · intro j hj
      have h1 : j + 1 ≤ ⌊(x:ℚ) / r⌋₊ := by have := min_le_right n (⌊(x:ℚ) / r⌋₊ + 1); omega
      have h2 := (Nat.le_floor_iff (by positivity)).mp h1
      rw [le_div_iff₀ hr] at h2
      push_cast at h2 ⊢
      unfold overlap
      refine max_le_max le_rfl ?_
      rw [min_eq_left (by linarith), min_eq_left (by linarith)]
      rcases max_cases (r * (j + 1) - r) ((x:ℚ) - 1) with ⟨e, _⟩ | ⟨e, _⟩ <;> rw [e]
      · have := le_max_left (r * j - r) ((x:ℚ) - 1); linarith
      · have := le_max_right (r * j - r) ((x:ℚ) - 1); linarith
    · intro j hj hjn
      have h1 : ⌊(x:ℚ) / r⌋₊ < j := by
        rcases min_choice n (⌊(x:ℚ) / r⌋₊ + 1) with e | e <;> rw [e] at hj <;> omega
      have h2 := Nat.lt_of_floor_lt h1
      rw [div_lt_iff₀ hr] at h2
      push_cast
      unfold overlap
      refine max_le_max le_rfl ?_
      rw [min_eq_right (by linarith), min_eq_right (by linarith)]
      have := max_le_max (show r * (j:ℚ) - r ≤ r * (j + 1) - r by linarith) (le_refl ((x:ℚ) - 1))
      linarith
  rw [abs_le]
  constructor
  · have h1 := key (fun j => - w j) (fun a b => by
      rw [Finset.sum_neg_distrib]
      have := (abs_le.mp (hS a b)).1
      linarith)
    simp only [neg_mul, Finset.sum_neg_distrib] at h1
    linarith
  · exact key w (fun a b => (abs_le.mp (hS a b)).2)

/-! ## C141 -/

/-- C141: if no run of consecutive samples of the stream sums up to more than `S`, then no sample of the downsampled signal
exceeds `r * S`, up to the error of C59. -/
theorem C141_stream (fuel : Nat) (s s' : Sink k c) (st : Src k' c') (it : It k' c')
    (h : s.stream fuel st = .ok (s', it)) (ho : s.res.offseti = lit 0) (r : ℚ)
    (hq : (ratioOf s.rate st.rate).Is r) (hr : 0 < r) (hr1 : r ≤ 1) (hb : (s.buf.length : ℚ) + 1 ≤ r * 2 ^ 52)
    (i : Nat) (hi : i < k.chans) (w : Nat → ℚ) (S : ℚ)
    (hw : ∀ j f, st.nth j = .ok (some f) → ∀ x : Frame k c, f.convert c = .ok x → SampleVal c x[i] (w j) ∧ |w j| ≤ 1)
    (hS : ∀ a b, |∑ j ∈ Finset.Ico a b, w j| ≤ S)
    (x : Nat) (hx : InDst (ratioOf s.rate st.rate) st.len s.buf.length x) :
    ∃ (y : Frame k c) (v : ℚ), s'.buf[x]? = some y ∧ SampleVal c y[i] v ∧
      |v| ≤ r * S + (mixErr c + 5 * 2 ^ (-53 : ℤ) + 2 * ((s.buf.length + 1) * 2 ^ (-53 : ℤ))) * (1 / r + 3) := by
  obtain ⟨n, -, -, h2⟩ := C59_box fuel s s' st it h ho r hq hr hr1 hb i hi w hw
  obtain ⟨y, v, y1, y2, y3⟩ := h2 x hx
  refine ⟨y, v, y1, y2, ?_⟩
  have h3 := overlap_hill hr x n hS
  have h4 := abs_sub_abs_le_abs_sub v (∑ j ∈ Finset.range n, w j * overlap (r * j - r) (r * j) (x - 1) x)
  linarith

/-- C141 for `with_stream` (whole rates), every frame of the result. -/
theorem C141_with (rate sr : F64) (dst src l : Nat) (hr : rate.Is (dst:ℚ)) (hs : sr.Is (src:ℚ)) (h0 : 0 < src)
    (hd0 : 0 < dst) (hs' : src ≤ 2 ^ 51) (hle : dst ≤ src) (hN : dst * l < 2 ^ 51)
    (hB : dst * l + 2 * src ≤ dst * 2 ^ 51)
    (st : Src k' c') (hl : st.len = some l) (hsr : st.rate = some sr) (b : Audio k c)
    (h : Audio.withStream rate st = .ok b) (i : Nat) (hi : i < k.chans) (w : Nat → ℚ) (S : ℚ)
    (hw : ∀ j f, st.nth j = .ok (some f) → ∀ x : Frame k c, f.convert c = .ok x → SampleVal c x[i] (w j) ∧ |w j| ≤ 1)
    (hS : ∀ a b, |∑ j ∈ Finset.Ico a b, w j| ≤ S) (x : Nat) (hx : x < b.frames.length) :
    let r := binary64.rnd ((dst:ℚ) / src)
    ∃ (y : Frame k c) (v : ℚ), b.frames[x]? = some y ∧ SampleVal c y[i] v ∧
      |v| ≤ r * S + (mixErr c + 5 * 2 ^ (-53 : ℤ) + 2 * ((b.frames.length + 1) * 2 ^ (-53 : ℤ))) * (1 / r + 3) := by
  intro r
  obtain ⟨n, -, -, -, h2⟩ := C89_partial rate sr dst src l hr hs h0 hd0 hs' hle hN hB st hl hsr b h i hi w hw
  obtain ⟨y, y1, y2⟩ := h2 x hx
  have hr0 : 0 < r := by
    obtain ⟨hratio, hpos⟩ := pos_int hr hs h0 hd0 hs' (by omega)
    obtain ⟨_, _, _, g4, _⟩ := hpos 1 (by omega)
    rw [Nat.cast_one, mul_one, mul_one, Fmt.rnd_of_rep hratio.rep] at g4
    have h1 : (0:ℚ) < (dst:ℚ) / src := by
      have h2 : (0:ℚ) < src := by exact_mod_cast h0
      have h3 : (0:ℚ) < dst := by exact_mod_cast hd0
      positivity
    exact lt_of_lt_of_le (by positivity) g4
  have hS0 : 0 ≤ S := (abs_nonneg _).trans (hS 0 0)
  have hu0 : (0:ℚ) < 2 ^ (-53:ℤ) := two_zpow_pos _
  have hE : 0 ≤ r * S + (mixErr c + 5 * 2 ^ (-53 : ℤ) + 2 * ((b.frames.length + 1) * 2 ^ (-53 : ℤ))) * (1 / r + 3) := by
    have := mixErr_pos c
    positivity
  split_ifs at y2 with hc
  · refine ⟨y, 0, y1, ?_, by rwa [abs_zero]⟩
    rw [y2.2]
    simpa [Frame.dflt] using of_val (mixLaw c).dflt
  · obtain ⟨v, v1, v2⟩ := y2
    refine ⟨y, v, y1, v1, ?_⟩
    have h3 := overlap_hill hr0 x n hS
    have h4 := abs_sub_abs_le_abs_sub v (∑ j ∈ Finset.range n, w j * overlap (r * j - r) (r * j) (x - 1) x)
    linarith

/-- Runs of samples that alternate. -/
theorem sum_alternate (A : ℚ) (a b : Nat) : |∑ j ∈ Finset.Ico a b, (-1) ^ j * A| ≤ |A| := by
  have h1 : ∀ n : Nat, ∑ j ∈ Finset.range n, (-1) ^ j * A = (1 - (-1) ^ n) / 2 * A := by
    intro n
    induction n with
    | zero => simp
    | succ n ih => rw [Finset.sum_range_succ, ih, pow_succ]; ring
  rcases le_total a b with h | h
  · rw [Finset.sum_Ico_eq_sub _ h, h1, h1, ← sub_mul, abs_mul]
    refine mul_le_of_le_one_left (abs_nonneg _) ?_
    rcases neg_one_pow_eq_or ℚ a with e | e <;> rcases neg_one_pow_eq_or ℚ b with e' | e' <;> rw [e, e'] <;> norm_num
  · rw [Finset.Ico_eq_empty (by omega), Finset.sum_empty, abs_zero]; exact abs_nonneg _

/-- Samples that alternate, at 12 Hz. -/
def exZigzag : Audio .mono .ch8 := ⟨lit 12, [#v[100#8], #v[-100#8], #v[100#8], #v[-100#8], #v[100#8], #v[-100#8]]⟩

example := C141_stream 7 (exSink 2 5) _ (.audio exZigzag) _
  (R.returns₂ (x := (exSink 2 5).stream 7 (.audio exZigzag)) (by decide +kernel)) rfl (binary64.rnd (5 / 12))
  (by decide +kernel) (by decide +kernel) (by decide +kernel) (by decide +kernel) 0 (by decide)
  (fun j => (-1) ^ j * (100 / 127)) |100 / 127| (by
    intro j f hf x hx
    match j with
    | 0 | 1 | 2 | 3 | 4 | 5 => cases hf; cases hx; decide +kernel
    | j + 6 => cases hf) (sum_alternate _) 1 (by decide +kernel)

example := C141_with (lit 5) (lit 12) 5 12 6 (by decide +kernel) (by decide +kernel) (by decide) (by decide) (by decide)
  (by decide) (by decide) (by decide) (.audio exZigzag) rfl rfl _
  (R.returns (x := (Audio.withStream (lit 5) (.audio exZigzag) : R (Audio .mono .ch8))) (by decide +kernel)) 0 (by decide)
  (fun j => (-1) ^ j * (100 / 127)) |100 / 127| (by
    intro j f hf x hx
    match j with
    | 0 | 1 | 2 | 3 | 4 | 5 => cases hf; cases hx; decide +kernel
    | j + 6 => cases hf) (sum_alternate _) 2 (by decide +kernel)

/-- Upsampling does not: the same tone is as loud as before (and the repetition of its spectrum is as well). -/
theorem C141_up : (Audio.withStream (lit 24) (.audio ⟨lit 12, [#v[lit 0.25], #v[lit (-0.25)], #v[lit 0.25]]⟩ : Src .mono .ch64) :
    R (Audio .mono .ch64)).map (·.frames) =
      .ok [#v[lit 0.5], #v[lit 0], #v[lit (-0.5)], #v[lit 0], #v[lit 0.5], #v[lit 0]] := by
  decide +kernel

/-! ## Whole factors -/

/-- Where the ratio is about `1 / N`, slot `x` is the mean of the frames after `N (x - 1)` up to `N x`. -/
theorem sum_block {r ε : ℚ} (hr : 0 < r) {N x n : Nat} (hx : 1 ≤ x) (hn : N * x + 1 ≤ n) (hε : |r * N - 1| ≤ ε)
    {w : Nat → ℚ} (hw : ∀ j, |w j| ≤ 1) :
    |∑ j ∈ Finset.range n, w j * share r x (r * j) - r * ∑ j ∈ Finset.Ico (N * (x - 1) + 1) (N * x + 1), w j| ≤ 4 * x * ε := by
  obtain ⟨y, rfl⟩ : ∃ y, x = y + 1 := ⟨x - 1, by omega⟩
  rw [Nat.add_sub_cancel]
  have hε0 : 0 ≤ ε := (abs_nonneg _).trans hε
  have hnn : ∀ j : Nat, 0 ≤ share r ((y + 1 : ℕ):ℚ) (r * j) := fun j => share_nonneg hr.le
  have htel : ∀ a b : Nat, a ≤ b → ∑ j ∈ Finset.Ico a b, share r ((y + 1 : ℕ):ℚ) (r * j) =
      ramp ((y + 1 : ℕ):ℚ) (r * b - r) - ramp ((y + 1 : ℕ):ℚ) (r * a - r) := by
    intro a b hab
    have h1 : ∀ m : Nat, ∑ j ∈ Finset.range m, share r ((y + 1 : ℕ):ℚ) (r * j) =
        ramp ((y + 1 : ℕ):ℚ) (r * m - r) - ramp ((y + 1 : ℕ):ℚ) (0 - r) := by
      intro m
      have := sum_share r 0 ((y + 1 : ℕ):ℚ) m
      simpa only [zero_add] using this
    rw [Finset.sum_Ico_eq_sub _ hab, h1, h1]; ring
  have hab : ∀ a b : Nat, |∑ j ∈ Finset.Ico a b, w j * share r ((y + 1 : ℕ):ℚ) (r * j)| ≤
      ∑ j ∈ Finset.Ico a b, share r ((y + 1 : ℕ):ℚ) (r * j) := by
    intro a b
    refine (Finset.abs_sum_le_sum_abs _ _).trans (Finset.sum_le_sum (fun j _ => ?_))
    rw [abs_mul, abs_of_nonneg (hnn j)]
    exact mul_le_of_le_one_left (hnn j) (hw j)
  have hA : N * y + 1 ≤ N * (y + 1) + 1 := by
    rw [Nat.mul_succ]; omega
  -- the ends of the block
  have k1 : ramp ((y + 1 : ℕ):ℚ) (r * (N * y)) ≤ y * ε := by
    have h1 := ramp_lip ((y + 1 : ℕ):ℚ) (r * (N * y)) y
    rw [ramp_lo (x := (y:ℚ)) (by push_cast; linarith), sub_zero, show r * (N * y) - y = (r * N - 1) * y by ring,
      abs_mul (r * N - 1) y, abs_of_nonneg (Nat.cast_nonneg (α := ℚ) y)] at h1
    have h2 := le_abs_self (ramp ((y + 1 : ℕ):ℚ) (r * (N * y)))
    have h3 := mul_le_mul_of_nonneg_right hε (Nat.cast_nonneg (α := ℚ) y)
    linarith
  have k2 : 1 - ramp ((y + 1 : ℕ):ℚ) (r * (N * (y + 1))) ≤ (y + 1) * ε := by
    have h1 := ramp_lip ((y + 1 : ℕ):ℚ) ((y + 1 : ℕ):ℚ) (r * (N * (y + 1)))
    rw [ramp_hi le_rfl, show ((y + 1 : ℕ):ℚ) - r * (N * (y + 1)) = -((r * N - 1) * (y + 1)) by push_cast; ring, abs_neg, abs_mul,
      abs_of_nonneg (by positivity : (0:ℚ) ≤ y + 1)] at h1
    have h2 := le_abs_self (1 - ramp ((y + 1 : ℕ):ℚ) (r * (N * (y + 1))))
    have h3 := mul_le_mul_of_nonneg_right hε (by positivity : (0:ℚ) ≤ y + 1)
    linarith
  have e1 : r * ((N * y + 1 : ℕ):ℚ) - r = r * (N * y) := by push_cast; ring
  have e2 : r * ((N * (y + 1) + 1 : ℕ):ℚ) - r = r * (N * (y + 1)) := by push_cast; ring
  -- before
  have b1 := hab 0 (N * y + 1)
  rw [htel _ _ (Nat.zero_le _), e1] at b1
  have b1' := (ramp_range ((y + 1 : ℕ):ℚ) (r * ((0 : ℕ):ℚ) - r)).1
  -- after
  have b2 := hab (N * (y + 1) + 1) n
  rw [htel _ _ hn, e2] at b2
  have b2' := (ramp_range ((y + 1 : ℕ):ℚ) (r * n - r)).2
  -- the block
  have b3 : |∑ j ∈ Finset.Ico (N * y + 1) (N * (y + 1) + 1), w j * share r ((y + 1 : ℕ):ℚ) (r * j) -
      r * ∑ j ∈ Finset.Ico (N * y + 1) (N * (y + 1) + 1), w j| ≤
      r * N - (ramp ((y + 1 : ℕ):ℚ) (r * (N * (y + 1))) - ramp ((y + 1 : ℕ):ℚ) (r * (N * y))) := by
    have h1 : ∑ j ∈ Finset.Ico (N * y + 1) (N * (y + 1) + 1), w j * share r ((y + 1 : ℕ):ℚ) (r * j) -
        r * ∑ j ∈ Finset.Ico (N * y + 1) (N * (y + 1) + 1), w j =
        - ∑ j ∈ Finset.Ico (N * y + 1) (N * (y + 1) + 1), w j * (r - share r ((y + 1 : ℕ):ℚ) (r * j)) := by
      simp only [mul_sub, Finset.sum_sub_distrib]
      rw [← Finset.sum_mul]; ring
    have hle : ∀ j : Nat, 0 ≤ r - share r ((y + 1 : ℕ):ℚ) (r * j) := by
      intro j
      have h2 := ramp_lip ((y + 1 : ℕ):ℚ) (r * j) (r * j - r)
      rw [show r * (j:ℚ) - (r * j - r) = r by ring, abs_of_pos hr] at h2
      have h3 := le_abs_self (ramp ((y + 1 : ℕ):ℚ) (r * j) - ramp ((y + 1 : ℕ):ℚ) (r * j - r))
      unfold share
      linarith
    rw [h1, abs_neg]
    have h2 : |∑ j ∈ Finset.Ico (N * y + 1) (N * (y + 1) + 1), w j * (r - share r ((y + 1 : ℕ):ℚ) (r * j))| ≤
        ∑ j ∈ Finset.Ico (N * y + 1) (N * (y + 1) + 1), (r - share r ((y + 1 : ℕ):ℚ) (r * j)) := by
      refine (Finset.abs_sum_le_sum_abs _ _).trans (Finset.sum_le_sum (fun j _ => ?_))
      rw [abs_mul, abs_of_nonneg (hle j)]
      exact mul_le_of_le_one_left (hle j) (hw j)
    rw [Finset.sum_sub_distrib, htel _ _ hA, e1, e2, Finset.sum_const, Nat.card_Ico,
      show N * (y + 1) + 1 - (N * y + 1) = N by rw [Nat.mul_succ]; omega, nsmul_eq_mul] at h2
    linarith
  have h4 := (abs_le.mp hε).2
  rw [Finset.range_eq_Ico, ← Finset.sum_Ico_consecutive _ (Nat.zero_le (N * y + 1)) (hA.trans hn),
    ← Finset.sum_Ico_consecutive _ hA hn]
  generalize ∑ j ∈ Finset.Ico (N * y + 1) (N * (y + 1) + 1), w j * share r ((y + 1 : ℕ):ℚ) (r * j) = S1 at *
  generalize ∑ j ∈ Finset.Ico 0 (N * y + 1), w j * share r ((y + 1 : ℕ):ℚ) (r * j) = S0 at *
  generalize ∑ j ∈ Finset.Ico (N * (y + 1) + 1) n, w j * share r ((y + 1 : ℕ):ℚ) (r * j) = S2 at *
  rw [show 4 * ((y + 1 : ℕ):ℚ) * ε = 4 * y * ε + 4 * ε by push_cast; ring]
  have g1 := abs_le.mp b1
  have g2 := abs_le.mp b2
  have g3 := abs_le.mp b3
  rw [abs_le]
  constructor <;> linarith

/-- C59 for whole factors: when the rate is divided by `N`, slot `x` (but the first) is the mean of the `N` frames after
`N (x - 1)`. -/
theorem C59_mean (fuel : Nat) (s s' : Sink k c) (st : Src k' c') (it : It k' c')
    (h : s.stream fuel st = .ok (s', it)) (ho : s.res.offseti = lit 0) (N : Nat) (hN : 0 < N) (hN' : N ≤ 2 ^ 51) (r : ℚ)
    (hr' : r = binary64.rnd (1 / N)) (hq : (ratioOf s.rate st.rate).Is r) (hb : (s.buf.length : ℚ) + 1 ≤ r * 2 ^ 52)
    (i : Nat) (hi : i < k.chans) (w : Nat → ℚ)
    (hw : ∀ j f, st.nth j = .ok (some f) → ∀ x : Frame k c, f.convert c = .ok x → SampleVal c x[i] (w j))
    (hw1 : ∀ j, |w j| ≤ 1)
    (x : Nat) (hx0 : 1 ≤ x) (hx : InDst (ratioOf s.rate st.rate) st.len s.buf.length x) :
    ∃ (y : Frame k c) (v : ℚ), s'.buf[x]? = some y ∧ SampleVal c y[i] v ∧
      |v - (∑ j ∈ Finset.Ico (N * (x - 1) + 1) (N * x + 1), w j) / N| ≤
        (mixErr c + 5 * 2 ^ (-53 : ℤ) + 7 * ((s.buf.length + 1) * 2 ^ (-53 : ℤ))) * (1 / r + 3) := by
  have hNq : (0:ℚ) < N := by exact_mod_cast hN
  have hu : binary64.u = 2 ^ (-53:ℤ) := rfl
  have hu0 : (0:ℚ) < 2 ^ (-53:ℤ) := two_zpow_pos _
  have hN51 : (N:ℚ) ≤ 2 ^ 51 := by exact_mod_cast hN'
  have hrel := rel_err_normal (f := binary64) (q := (1:ℚ) / N) (by
    rw [abs_of_pos (by positivity), le_div_iff₀ hNq]
    have h1 : (2:ℚ) ^ (binary64.emin + binary64.prec - 1) ≤ 1 / 2 ^ 51 := by
      rw [show (1:ℚ) / 2 ^ 51 = 2 ^ (-51:ℤ) by norm_num]
      exact zpow_le_zpow_right₀ (by norm_num) (by decide)
    calc _ ≤ (1:ℚ) / 2 ^ 51 * 2 ^ 51 := mul_le_mul h1 hN51 hNq.le (by positivity)
      _ = 1 := by norm_num)
  rw [← hr', hu, abs_of_pos (by positivity : (0:ℚ) < 1 / N)] at hrel
  have hε : |r * N - 1| ≤ 2 ^ (-53:ℤ) := by
    have h1 : r * N - 1 = (r - 1 / N) * N := by field_simp
    rw [h1, abs_mul, abs_of_pos hNq]
    have h2 := mul_le_mul_of_nonneg_right hrel hNq.le
    rwa [mul_right_comm, one_div_mul_cancel hNq.ne', one_mul] at h2
  have hr0 : 0 < r := by
    have h1 := (abs_le.mp hε).1
    have h2 : (2:ℚ) ^ (-53:ℤ) < 1 := by norm_num
    have h3 : 0 < r * N := by linarith
    exact (pos_iff_pos_of_mul_pos h3).mpr hNq
  have hr1 : r ≤ 1 := by
    have e0 : binary64.rnd 1 = 1 := Fmt.rnd_of_rep (by simpa using rep_nat53 (n := 1) (by norm_num))
    rw [hr']
    refine (Fmt.rnd_mono ((div_le_one hNq).mpr ?_)).trans_eq e0
    exact_mod_cast hN
  obtain ⟨n, t, hn, h2⟩ := C59_box fuel s s' st it h ho r hq hr0 hr1 hb i hi w (fun j f hf y hy => ⟨hw j f hf y hy, hw1 j⟩)
  obtain ⟨y, v, y1, y2, y3⟩ := h2 x hx
  refine ⟨y, v, y1, y2, ?_⟩
  have hrd := reach_down hq hr0 hr1 hn t hx
  have hlate := sum_late (x := (x:ℚ)) hr0 (le_max_left n (N * x + 1)) (by positivity) hrd w hw1
  have hc := sum_block hr0 hx0 (le_max_right n (N * x + 1)) hε hw1
  have hS : |∑ j ∈ Finset.Ico (N * (x - 1) + 1) (N * x + 1), w j| ≤ N := by
    refine (Finset.abs_sum_le_sum_abs _ _).trans ((Finset.sum_le_sum (fun j _ => hw1 j)).trans_eq ?_)
    rw [Finset.sum_const, Nat.card_Ico, nsmul_eq_mul, mul_one]
    obtain ⟨z, rfl⟩ : ∃ z, x = z + 1 := ⟨x - 1, by omega⟩
    rw [Nat.add_sub_cancel, Nat.mul_succ]
    congr 1; omega
  have hm : |r * ∑ j ∈ Finset.Ico (N * (x - 1) + 1) (N * x + 1), w j -
      (∑ j ∈ Finset.Ico (N * (x - 1) + 1) (N * x + 1), w j) / N| ≤ 2 ^ (-53:ℤ) := by
    rw [div_eq_mul_one_div _ (N:ℚ), mul_comm _ (1 / (N:ℚ)), ← sub_mul, abs_mul]
    calc _ ≤ 1 / (N:ℚ) * 2 ^ (-53:ℤ) * N := mul_le_mul hrel hS (abs_nonneg _) (by positivity)
      _ = 2 ^ (-53:ℤ) := by field_simp
  have hxB : (x:ℚ) + 1 ≤ s.buf.length := by have := hx.1; exact_mod_cast this
  simp only [← share_overlap hr0.le] at y3
  have hr3 : 1 ≤ 1 / r + 3 := by have : 0 < 1 / r := by positivity
                                 linarith
  generalize hη : (2:ℚ) ^ (-53:ℤ) = η at *
  generalize (∑ j ∈ Finset.Ico (N * (x - 1) + 1) (N * x + 1), w j) / N = m at *
  have g1 := abs_le.mp y3
  have g2 := abs_le.mp hlate
  have g3 := abs_le.mp hc
  have g3' := abs_le.mp hm
  have g4 : 4 * (x:ℚ) * η + η ≤ 4 * ((s.buf.length + 1) * η) := by nlinarith
  have g5 : 0 ≤ ((s.buf.length:ℚ) + 1) * η := by positivity
  have g6 : 5 * (((s.buf.length:ℚ) + 1) * η) ≤ 5 * ((s.buf.length + 1) * η) * (1 / r + 3) :=
    le_mul_of_one_le_right (by linarith) hr3
  rw [abs_le]
  constructor <;> linarith

/-- From 12 Hz to 6 Hz: slot 1 is the mean of frames 1 and 2. -/
example := C59_mean 7 (exSink 3 6) _ (.audio exZigzag) _
  (R.returns₂ (x := (exSink 3 6).stream 7 (.audio exZigzag)) (by decide +kernel)) rfl 2 (by decide) (by decide) (1 / 2)
  (by decide +kernel) (by decide +kernel) (by decide +kernel) 0 (by decide)
  (fun j => (-1) ^ j * (100 / 127)) (by
    intro j f hf x hx
    match j with
    | 0 | 1 | 2 | 3 | 4 | 5 => cases hf; cases hx; decide +kernel
    | j + 6 => cases hf) (by
    intro j
    rcases neg_one_pow_eq_or ℚ j with e | e <;> rw [e] <;> norm_num [abs_le]) 1 le_rfl (by decide +kernel)

/-- C141, whole factors: a signal of which any `N` samples in a row sum up to 0 (such as all tones that fit a whole number of
times into `N` samples) vanishes when it is downsampled by the factor `N`, apart from the first slot. -/
theorem C141_cancel (fuel : Nat) (s s' : Sink k c) (st : Src k' c') (it : It k' c')
    (h : s.stream fuel st = .ok (s', it)) (ho : s.res.offseti = lit 0) (N : Nat) (hN : 0 < N) (hN' : N ≤ 2 ^ 51) (r : ℚ)
    (hr' : r = binary64.rnd (1 / N)) (hq : (ratioOf s.rate st.rate).Is r) (hb : (s.buf.length : ℚ) + 1 ≤ r * 2 ^ 52)
    (i : Nat) (hi : i < k.chans) (w : Nat → ℚ)
    (hw : ∀ j f, st.nth j = .ok (some f) → ∀ x : Frame k c, f.convert c = .ok x → SampleVal c x[i] (w j))
    (hw1 : ∀ j, |w j| ≤ 1) (hz : ∀ a, ∑ j ∈ Finset.Ico a (a + N), w j = 0)
    (x : Nat) (hx0 : 1 ≤ x) (hx : InDst (ratioOf s.rate st.rate) st.len s.buf.length x) :
    ∃ (y : Frame k c) (v : ℚ), s'.buf[x]? = some y ∧ SampleVal c y[i] v ∧
      |v| ≤ (mixErr c + 5 * 2 ^ (-53 : ℤ) + 7 * ((s.buf.length + 1) * 2 ^ (-53 : ℤ))) * (1 / r + 3) := by
  obtain ⟨y, v, y1, y2, y3⟩ := C59_mean fuel s s' st it h ho N hN hN' r hr' hq hb i hi w hw hw1 x hx0 hx
  have hz' : ∑ j ∈ Finset.Ico (N * (x - 1) + 1) (N * x + 1), w j = 0 := by
    obtain ⟨z, rfl⟩ : ∃ z, x = z + 1 := ⟨x - 1, by omega⟩
    rw [Nat.add_sub_cancel, show N * (z + 1) + 1 = N * z + 1 + N by ring]
    exact hz _
  rw [hz', zero_div, sub_zero] at y3
  exact ⟨y, v, y1, y2, y3⟩

example := C141_cancel 7 (exSink 3 6) _ (.audio exZigzag) _
  (R.returns₂ (x := (exSink 3 6).stream 7 (.audio exZigzag)) (by decide +kernel)) rfl 2 (by decide) (by decide) (1 / 2)
  (by decide +kernel) (by decide +kernel) (by decide +kernel) 0 (by decide)
  (fun j => (-1) ^ j * (100 / 127)) (by
    intro j f hf x hx
    match j with
    | 0 | 1 | 2 | 3 | 4 | 5 => cases hf; cases hx; decide +kernel
    | j + 6 => cases hf) (by
    intro j
    rcases neg_one_pow_eq_or ℚ j with e | e <;> rw [e] <;> norm_num [abs_le]) (by
    intro a
    rw [Finset.sum_Ico_succ_top (by omega), Finset.sum_Ico_succ_top (by omega), Finset.Ico_self, Finset.sum_empty, pow_succ]
    ring) 1 le_rfl (by decide +kernel)

/-- The first slot keeps its share of the first frame. -/
theorem C141_first : ((exSink 3 6).stream 7 (.audio exZigzag)).map (fun r => r.1.buf.map (fun f => f[0].toInt)) =
    .ok [49, 0, 0] := by
  decide +kernel

end Fon
