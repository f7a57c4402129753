import Verif.Props.ExtendUp

/-!
# C153: upsampling keeps signals that change slowly

The claim: when the rate goes up by less than a factor of two, every slot has the value of the frames next to it, up to
the difference between neighbouring frames.

This is so in every slot that a frame has its position in: the weights of the two frames that reach it add up to one. The
other slots get a part of one frame only, and in the float formats the slot after such a slot is too loud.
-/

namespace Fon
open Fmt Fl Sink
variable {k k' : Kind} {c c' : ChTy}

/-- The frames that reach a slot with a frame `j` of its own: `j` and maybe the one before. -/
theorem own_sum {r η : ℚ} {w P : ℕ → ℚ} {n x j : ℕ} (hw : ∀ i, |w i| ≤ 1) (hη : 0 ≤ η) (hj : j < n)
    (hP : ∀ i, i ≤ j → |P i - r * i| ≤ η) (hmono : ∀ i i', i < i' → i' < n → ⌊P i⌋ < ⌊P i'⌋)
    (hx : ⌊P j⌋ = x) (hg : gain c (r - (P j - x)) ≤ 1) (h0 : j = 0 → gain c (r - (P j - x)) = 1) :
    |∑ i ∈ Finset.range n, w i * upShare c r x (P i) - w j| ≤ |w j - w (j - 1)| + 2 * η := by
  have hz : ∀ i, i < n → i ≠ j → i + 1 ≠ j → upShare c r x (P i) = 0 := by
    intro i hi h1 h2
    have : ⌊P i⌋ ≠ x ∧ ⌊P i⌋ + 1 ≠ x := by
      rcases Nat.lt_or_gt_of_ne h1 with h | h
      · have i1 := hmono i (i + 1) (by omega) (by omega)
        have i2 := hmono (i + 1) j (by omega) (by omega)
        omega
      · have := hmono j i h hi
        omega
    rw [upShare, if_neg this.1, if_neg this.2]
  have hown : upShare c r x (P j) = gain c (r - (P j - x)) := by
    rw [upShare, if_pos hx, hx, Int.cast_natCast]
  cases j with
  | zero =>
    rw [Finset.sum_eq_single 0 (fun i hi hi0 => by
      rw [hz i (Finset.mem_range.mp hi) hi0 (by omega), mul_zero]) (fun hb => absurd (Finset.mem_range.mpr hj) hb),
      hown, h0 rfl, mul_one, sub_self, abs_zero]
    positivity
  | succ j =>
    rw [Finset.sum_eq_add j (j + 1) (by omega) (fun i hi hi' => by
        rw [hz i (Finset.mem_range.mp hi) hi'.2 (by have := hi'.1; omega), mul_zero])
      (fun hb => absurd (Finset.mem_range.mpr (by omega)) hb) (fun hb => absurd (Finset.mem_range.mpr hj) hb), hown,
      Nat.add_sub_cancel]
    have q1 := abs_le.mp (hP j (by omega))
    have q2 := abs_le.mp (hP (j + 1) le_rfl)
    push_cast at q2
    have hlt := hmono j (j + 1) (by omega) hj
    have f1 := Int.floor_le (P j)
    have f2 := Int.lt_floor_add_one (P j)
    have gl := gain_le c (r - (P (j + 1) - x))
    have gcase : gain c (r - (P (j + 1) - x)) = r - (P (j + 1) - x) ∨ 1 ≤ gain c (r - (P (j + 1) - x)) := by
      rcases le_total (r - (P (j + 1) - x)) 1 with h | h
      · exact .inl (gain_of_le c h)
      · have := gain_mono c h
        rw [gain_of_le c le_rfl] at this
        exact .inr this
    obtain ⟨φ, hφ, p0, p1, p2⟩ : ∃ φ, upShare c r x (P j) = φ ∧ 0 ≤ φ ∧ φ ≤ 1 ∧
        |gain c (r - (P (j + 1) - x)) + φ - 1| ≤ 2 * η := by
      refine ⟨_, rfl, ?_⟩
      rw [upShare, if_neg (by omega), abs_le]
      split_ifs with h
      · have : ((⌊P j⌋ : ℤ):ℚ) + 1 = x := by exact_mod_cast congrArg (Int.cast : ℤ → ℚ) h
        refine ⟨by linarith, by linarith, ?_⟩
        rcases gcase with h | h
        · constructor <;> linarith
        · constructor <;> linarith
      · have : ((⌊P j⌋ : ℤ):ℚ) + 1 + 1 ≤ x := by
          have : ⌊P j⌋ + 1 + 1 ≤ (x:ℤ) := by omega
          exact_mod_cast this
        refine ⟨le_rfl, zero_le_one, ?_⟩
        rcases gcase with h | h
        · constructor <;> linarith
        · constructor <;> linarith
    rw [hφ]
    generalize gain c (r - (P (j + 1) - x)) = g at *
    have e : w j * φ + w (j + 1) * g - w (j + 1) = φ * (w j - w (j + 1)) + w (j + 1) * (g + φ - 1) := by ring
    rw [e]
    refine (abs_add_le _ _).trans (add_le_add ?_ ?_)
    · rw [abs_mul, abs_of_nonneg p0, abs_sub_comm (w (j + 1))]
      exact mul_le_of_le_one_left (abs_nonneg _) p1
    · rw [abs_mul]
      exact (mul_le_of_le_one_left (abs_nonneg _) (hw _)).trans p2

/-- C153: audio made by `with_stream` from a stream of a lower rate. A slot that frame `j` has its position in differs from
frame `j` by no more than frame `j` from the one before. In the float formats only if the frame comes at least `r - 1`
after the beginning of the slot. -/
theorem C153_partial (rate sr : F64) (dst src l : Nat) (hr : rate.Is (dst:ℚ)) (hs : sr.Is (src:ℚ)) (h0 : 0 < src)
    (hs' : src ≤ 2 ^ 50) (hd' : dst ≤ 2 ^ 51) (hle : src ≤ dst) (h20 : dst ≤ 2 ^ 20 * src) (hN : dst * l < 2 ^ 51)
    (st : Src k' c') (hl : st.len = some l) (hsr : st.rate = some sr) (b : Audio k c)
    (h : Audio.withStream rate st = .ok b) (i : Nat) (hi : i < k.chans) (w : Nat → ℚ) (hw1 : ∀ j, |w j| ≤ 1)
    (hw : ∀ j f, st.nth j = .ok (some f) → ∀ x : Frame k c, f.convert c = .ok x → SampleVal c x[i] (w j))
    (x j : Nat) (hx : x < b.frames.length) (hj : j < l) :
    let r := binary64.rnd ((dst:ℚ) / src)
    ⌊binary64.rnd (r * j)⌋ = x → (c = .ch8 ∨ c = .ch16 ∨ r - 1 ≤ binary64.rnd (r * j) - x) →
    ∃ (y : Frame k c) (v : ℚ), b.frames[x]? = some y ∧ SampleVal c y[i] v ∧
      |v - w j| ≤ |w j - w (j - 1)| + mixErr c * (r + 5) + (x + 2) * 2 ^ (-52 : ℤ) := by
  intro r hxj hc
  obtain ⟨a1, a2, a3⟩ := C104_up rate sr dst src l hr hs h0 hs' hd' hle h20 hN st hl hsr b h i hi w
    (fun j f hf y hy => ⟨hw j f hf y hy, hw1 j⟩)
  obtain ⟨y, v, y1, y2, y3⟩ := a3 x hx
  refine ⟨y, v, y1, y2, ?_⟩
  have hsq : (0:ℚ) < src := by exact_mod_cast h0
  have hd0 : 0 < dst := by omega
  have hu0 : (0:ℚ) < 2 ^ (-53:ℤ) := two_zpow_pos _
  obtain ⟨hq, -⟩ := pos_int hr hs h0 hd0 (by omega) hd'
  have hr1 : 1 ≤ r := by
    have e0 : binary64.rnd 1 = 1 := Fmt.rnd_of_rep (by simpa using rep_nat53 (n := 1) (by norm_num))
    rw [← e0]
    refine Fmt.rnd_mono ?_
    rw [one_le_div hsq]; exact_mod_cast hle
  have hr20 : r ≤ 2 ^ 20 := by
    have e0 : binary64.rnd (2 ^ 20) = 2 ^ 20 := Fmt.rnd_of_rep (by exact_mod_cast rep_nat53 (n := 2 ^ 20) (by norm_num))
    rw [← e0]
    refine Fmt.rnd_mono ?_
    rw [div_le_iff₀ hsq]; exact_mod_cast h20
  have hB51 : b.frames.length ≤ 2 ^ 51 := by
    rw [a1]
    refine Nat.ceil_le.mpr ?_
    rw [div_le_iff₀ hsq]
    have e1 : (dst * l : ℚ) ≤ 2 ^ 51 := by exact_mod_cast hN.le
    have e2 : (1:ℚ) ≤ src := by exact_mod_cast h0
    push_cast
    nlinarith
  obtain ⟨-, hp, -, hmono⟩ := up_pos hq hr1 hr20 (by omega) a2
  have hxq : (x:ℚ) + 2 ≤ 2 ^ 52 := by
    have : x + 2 ≤ 2 ^ 52 := by omega
    exact_mod_cast this
  -- accuracy of the positions
  have hrel : ∀ j : ℕ, |binary64.rnd (r * j) - r * j| ≤ r * j * 2 ^ (-53:ℤ) := by
    intro j
    obtain ⟨m, hm⟩ := gen_mult hq.rep.gen
    have := rel_err (f := binary64) (q := r * j) (m * j) (by rw [show r = _ from hm]; push_cast; ring)
    rwa [abs_of_nonneg (show (0:ℚ) ≤ r * j from mul_nonneg (by linarith) j.cast_nonneg)] at this
  have hfl := Int.lt_floor_add_one (binary64.rnd (r * j))
  rw [hxj, Int.cast_natCast] at hfl
  have hrj : r * j ≤ x + 2 := by
    have h2 := (abs_le.mp (hrel j)).1
    by_contra hc
    push Not at hc
    have h3 : (x + 2 : ℚ) * (1 - 2 ^ (-53:ℤ)) < r * j * (1 - 2 ^ (-53:ℤ)) := mul_lt_mul_of_pos_right hc (by norm_num)
    have h4 : (x + 2 : ℚ) * 2 ^ (-53:ℤ) ≤ 2 ^ 52 * 2 ^ (-53:ℤ) := mul_le_mul_of_nonneg_right hxq hu0.le
    have h5 : ((2:ℚ) ^ 52) * 2 ^ (-53:ℤ) ≤ 1 := by norm_num
    nlinarith
  have hP : ∀ i : ℕ, i ≤ j → |binary64.rnd (r * i) - r * i| ≤ (x + 2) * 2 ^ (-53:ℤ) := by
    intro i hij
    refine (hrel i).trans (mul_le_mul_of_nonneg_right (le_trans ?_ hrj) hu0.le)
    exact mul_le_mul_of_nonneg_left (by exact_mod_cast hij) (by linarith)
  have hg : gain c (r - (binary64.rnd (r * j) - x)) ≤ 1 := by
    rcases hc with rfl | rfl | hc
    · exact min_le_right _ _
    · exact min_le_right _ _
    · exact (gain_le c _).trans (by linarith)
  have hg0 : j = 0 → gain c (r - (binary64.rnd (r * j) - x)) = 1 := by
    intro hj0
    have e0 : binary64.rnd (r * j) = 0 := by rw [hj0, Nat.cast_zero, mul_zero, rnd_zero]
    rw [e0] at hxj
    have e1 : (x:ℚ) = 0 := by rw [Int.floor_zero] at hxj; exact_mod_cast hxj.symm
    refine le_antisymm hg ?_
    have := gain_mono c (show 1 ≤ r - (binary64.rnd (r * j) - x) by rw [e0, e1]; linarith)
    rwa [gain_of_le c le_rfl] at this
  have key := own_sum (P := fun j => binary64.rnd (r * j)) hw1 (by positivity) hj hP
    (fun i i' h1 h2 => hmono i i' h1 h2.le) hxj hg hg0
  have hw := abs_le.mp (hw1 j)
  have near := (clampQ_near (s := ∑ i ∈ Finset.range l, w i * upShare c r x (binary64.rnd (r * i))) hw.1 hw.2).trans key
  have e2 : (2:ℚ) * ((x + 2) * 2 ^ (-53:ℤ)) = (x + 2) * 2 ^ (-52:ℤ) := by
    rw [show (2:ℚ) ^ (-52:ℤ) = 2 * 2 ^ (-53:ℤ) by norm_num]; ring
  rw [e2] at near
  calc |v - w j| = |(v - clampQ (∑ i ∈ Finset.range l, w i * upShare c r x (binary64.rnd (r * i)))) +
        (clampQ (∑ i ∈ Finset.range l, w i * upShare c r x (binary64.rnd (r * i))) - w j)| := by rw [sub_add_sub_cancel]
    _ ≤ mixErr c * (r + 5) + (|w j - w (j - 1)| + (x + 2) * 2 ^ (-52:ℤ)) :=
      (abs_add_le _ _).trans (add_le_add y3 near)
    _ = _ := by ring

/-- The values of three frames. -/
def exOwn (j : Nat) : ℚ := if j = 0 then 50 / 127 else if j = 1 then 40 / 127 else 60 / 127

theorem exOwn_le (j : Nat) : |exOwn j| ≤ 1 := by
  unfold exOwn
  split_ifs <;> norm_num [abs_le]

theorem exOwn_val (j : Nat) (f : Frame .mono .ch8) (hf : (Src.audio exUp).nth j = .ok (some f)) (g : Frame .mono .ch8)
    (hg : f.convert .ch8 = .ok g) : SampleVal .ch8 g[0] (exOwn j) := by
  match j with
  | 0 | 1 | 2 => cases hf; cases hg; decide +kernel
  | j + 3 => cases hf

/-- Three frames from 4 to 5 Hz: frame 2 is in slot 2. -/
example := C153_partial (lit 5) (lit 4) 5 4 3 (is_lit (rep_nat53 (n := 5) (by norm_num)))
  (is_lit (rep_nat53 (n := 4) (by norm_num))) (by norm_num) (by norm_num) (by norm_num) (by norm_num) (by norm_num)
  (by norm_num) (.audio exUp) rfl rfl _
  (R.returns (x := (Audio.withStream (lit 5) (.audio exUp) : R (Audio .mono .ch8))) (by decide +kernel))
  0 (by decide) exOwn exOwn_le exOwn_val 2 2 (by decide +kernel) (by norm_num) (by decide +kernel) (.inl rfl)

/-- C153: a slot without a frame of its own gets a part of the frame in the slot before: so much of it as its position is
behind the beginning of its slot. -/
theorem C153_gap (rate sr : F64) (dst src l : Nat) (hr : rate.Is (dst:ℚ)) (hs : sr.Is (src:ℚ)) (h0 : 0 < src)
    (hs' : src ≤ 2 ^ 50) (hd' : dst ≤ 2 ^ 51) (hle : src ≤ dst) (h20 : dst ≤ 2 ^ 20 * src) (hN : dst * l < 2 ^ 51)
    (st : Src k' c') (hl : st.len = some l) (hsr : st.rate = some sr) (b : Audio k c)
    (h : Audio.withStream rate st = .ok b) (i : Nat) (hi : i < k.chans) (w : Nat → ℚ) (hw1 : ∀ j, |w j| ≤ 1)
    (hw : ∀ j f, st.nth j = .ok (some f) → ∀ x : Frame k c, f.convert c = .ok x → SampleVal c x[i] (w j))
    (x j : Nat) (hx : x < b.frames.length) (hj : j < l) :
    let r := binary64.rnd ((dst:ℚ) / src)
    ⌊binary64.rnd (r * j)⌋ + 1 = x → (∀ j', j' < l → ⌊binary64.rnd (r * j')⌋ ≠ x) →
    ∃ (y : Frame k c) (v : ℚ), b.frames[x]? = some y ∧ SampleVal c y[i] v ∧
      |v - w j * (binary64.rnd (r * j) - ⌊binary64.rnd (r * j)⌋)| ≤ mixErr c * (r + 5) := by
  intro r hxj hno
  obtain ⟨a1, a2, a3⟩ := C104_up rate sr dst src l hr hs h0 hs' hd' hle h20 hN st hl hsr b h i hi w
    (fun j f hf y hy => ⟨hw j f hf y hy, hw1 j⟩)
  obtain ⟨y, v, y1, y2, y3⟩ := a3 x hx
  refine ⟨y, v, y1, y2, ?_⟩
  have hsq : (0:ℚ) < src := by exact_mod_cast h0
  have hd0 : 0 < dst := by omega
  obtain ⟨hq, -⟩ := pos_int hr hs h0 hd0 (by omega) hd'
  have hr1 : 1 ≤ r := by
    have e0 : binary64.rnd 1 = 1 := Fmt.rnd_of_rep (by simpa using rep_nat53 (n := 1) (by norm_num))
    rw [← e0]
    refine Fmt.rnd_mono ?_
    rw [one_le_div hsq]; exact_mod_cast hle
  have hr20 : r ≤ 2 ^ 20 := by
    have e0 : binary64.rnd (2 ^ 20) = 2 ^ 20 := Fmt.rnd_of_rep (by exact_mod_cast rep_nat53 (n := 2 ^ 20) (by norm_num))
    rw [← e0]
    refine Fmt.rnd_mono ?_
    rw [div_le_iff₀ hsq]; exact_mod_cast h20
  have hB51 : b.frames.length ≤ 2 ^ 51 := by
    rw [a1]
    refine Nat.ceil_le.mpr ?_
    rw [div_le_iff₀ hsq]
    have e1 : (dst * l : ℚ) ≤ 2 ^ 51 := by exact_mod_cast hN.le
    have e2 : (1:ℚ) ≤ src := by exact_mod_cast h0
    push_cast
    nlinarith
  obtain ⟨-, -, -, hmono⟩ := up_pos hq hr1 hr20 (by omega) a2
  have hsum : ∑ i ∈ Finset.range l, w i * upShare c r x (binary64.rnd (r * i)) =
      w j * (binary64.rnd (r * j) - ⌊binary64.rnd (r * j)⌋) := by
    rw [Finset.sum_eq_single j (fun i hi' hij => ?_) (fun hb => absurd (Finset.mem_range.mpr hj) hb), upShare,
      if_neg (hno j hj), if_pos hxj]
    have hi'' := Finset.mem_range.mp hi'
    have : ⌊binary64.rnd (r * i)⌋ + 1 ≠ x := by
      rcases Nat.lt_or_gt_of_ne hij with h | h
      · have : ⌊binary64.rnd (r * i)⌋ < ⌊binary64.rnd (r * j)⌋ := hmono i j h hj.le
        omega
      · have : ⌊binary64.rnd (r * j)⌋ < ⌊binary64.rnd (r * i)⌋ := hmono j i h hi''.le
        omega
    rw [upShare, if_neg (hno i hi''), if_neg this, mul_zero]
  have f1 := Int.floor_le (binary64.rnd (r * j))
  have f2 := Int.lt_floor_add_one (binary64.rnd (r * j))
  have hle1 : |w j * (binary64.rnd (r * j) - ⌊binary64.rnd (r * j)⌋)| ≤ 1 := by
    rw [abs_mul, abs_of_nonneg (by linarith : (0:ℚ) ≤ binary64.rnd (r * j) - ⌊binary64.rnd (r * j)⌋)]
    exact mul_le_one₀ (hw1 j) (by linarith) (by linarith)
  have y3 : |v - clampQ (∑ i ∈ Finset.range l, w i * upShare c r x (binary64.rnd (r * i)))| ≤ mixErr c * (r + 5) := y3
  rwa [hsum, clampQ_of_range (abs_le.mp hle1).1 (abs_le.mp hle1).2] at y3

/-- Four equal frames from 8 to 12 Hz: slot 2 has no frame. Frame 1 is at 1.5, so slot 2 gets half of it. -/
example := C153_gap (lit 12) (lit 8) 12 8 4 (is_lit (rep_nat53 (n := 12) (by norm_num)))
  (is_lit (rep_nat53 (n := 8) (by norm_num))) (by norm_num) (by norm_num) (by norm_num) (by norm_num) (by norm_num)
  (by norm_num) (.audio exEven) rfl rfl _
  (R.returns (x := (Audio.withStream (lit 12) (.audio exEven) : R (Audio .mono .ch8))) (by decide +kernel))
  0 (by decide) (fun _ => 50 / 127) (fun _ => by norm_num [abs_le]) (by
    intro j f hf x hx
    match j with
    | 0 | 1 | 2 | 3 => cases hf; cases hx; decide +kernel
    | j + 4 => cases hf) 2 1 (by decide +kernel) (by norm_num) (by decide +kernel) (by decide +kernel)

/-- Four equal frames do not stay equal at one and a half times their rate: slot 2 is less than half as loud. -/
theorem C153_false : ∃ b : Audio .mono .ch8, Audio.withStream (lit 12) (.audio exEven) = .ok b ∧
    b.frames = [#v[50#8], #v[50#8], #v[24#8], #v[50#8], #v[50#8], #v[24#8]] := by
  have h : (Audio.withStream (lit 12) (.audio exEven) : R (Audio .mono .ch8)).map (·.frames) =
    .ok [#v[50#8], #v[50#8], #v[24#8], #v[50#8], #v[50#8], #v[24#8]] := by decide +kernel
  cases hb : (Audio.withStream (lit 12) (.audio exEven) : R (Audio .mono .ch8)) with
  | error e => rw [hb] at h; cases h
  | ok b => rw [hb] at h; exact ⟨b, rfl, Except.ok.inj h⟩

end Fon
