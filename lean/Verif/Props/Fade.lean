import Verif.Props.Effect
import Verif.Props.Mixer
import Verif.Props.Local
import Verif.Props.DelayUp

/-!
# C145: a volume that changes slowly, before or after resampling
-/

namespace Fon
open Fon.Fl hiding min max
open Fon.Fmt Fon.Sink
variable {k k' : Kind} {c c' : ChTy}

/-- Frames of a stream with changed volume. -/
theorem blend_amplify_inv {a b : Src k c} (hk : k.builtin = true) {j : Nat} {f : Frame k c}
    (h : (Src.blend a b .amplify).nth j = .ok (some f)) :
    ∃ x y, a.nth j = .ok (some x) ∧ b.nth j = .ok (some y) ∧ f = x.mul y := by
  cases ha : a.nth j with
  | error e => simp [Src.nth, ha, bind, Except.bind] at h
  | ok x =>
    cases x with
    | none => simp [Src.nth, ha, bind, Except.bind, pure, Except.pure] at h
    | some x =>
      cases hb : b.nth j with
      | error e => simp [Src.nth, ha, hb, bind, Except.bind] at h
      | ok y =>
        rw [blend_amplify_nth hk ha hb] at h
        cases y with
        | none => simp at h
        | some y =>
          simp only [Option.bind, Option.map, Except.ok.injEq, Option.some.injEq] at h
          exact ⟨x, y, rfl, rfl, h.symm⟩

/-- Levels of a stream with changed volume. -/
theorem fade_values {a b : Src k c} (hk : k.builtin = true) {i : Nat} (hi : i < k.chans) {u v : Nat → ℚ}
    (hu : ∀ j f, a.nth j = .ok (some f) → SampleVal c f[i] (u j)) (hu1 : ∀ j, |u j| ≤ 1)
    (hv : ∀ j f, b.nth j = .ok (some f) → SampleVal c f[i] (v j)) (hv1 : ∀ j, |v j| ≤ 1) :
    ∃ z : Nat → ℚ, (∀ j, |z j - u j * v j| ≤ mixErr c) ∧
      ∀ j f, (Src.blend a b .amplify).nth j = .ok (some f) → SampleVal c f[i] (z j) ∧ |z j| ≤ 1 := by
  have : ∀ j, ∃ z : ℚ, |z - u j * v j| ≤ mixErr c ∧
      ∀ f, (Src.blend a b .amplify).nth j = .ok (some f) → SampleVal c f[i] z ∧ |z| ≤ 1 := by
    intro j
    by_cases h : ∃ f, (Src.blend a b .amplify).nth j = .ok (some f)
    · obtain ⟨f, hf⟩ := h
      obtain ⟨x, y, hx, hy, rfl⟩ := blend_amplify_inv hk hf
      obtain ⟨m, m1, m2, m3⟩ := mul_val (hu j x hx) (hv j y hy) (valid_of (hu j x hx) (hu1 j)) (hv1 j)
      refine ⟨m, m2, fun f' hf' => ?_⟩
      rw [hf] at hf'
      cases hf'
      exact ⟨by simpa [Frame.mul] using m1, m3 (hu1 j)⟩
    · exact ⟨u j * v j, by rw [sub_self, abs_zero]; exact (mixErr_pos c).le, fun f hf => absurd ⟨f, hf⟩ h⟩
  choose z h1 h2 using this
  exact ⟨z, h1, h2⟩

/-- Volumes that are close to `G` wherever they count. -/
theorem fade_sum {n : Nat} {o u v : Nat → ℚ} {G δ T : ℚ} (ho : ∀ j, j < n → 0 ≤ o j) (hδ : 0 ≤ δ)
    (hT : ∑ j ∈ Finset.range n, |u j| * o j ≤ T) (h : ∀ j, j < n → o j ≠ 0 → |v j - G| ≤ δ) :
    |∑ j ∈ Finset.range n, u j * v j * o j - (∑ j ∈ Finset.range n, u j * o j) * G| ≤ δ * T := by
  rw [Finset.sum_mul, ← Finset.sum_sub_distrib]
  refine (Finset.abs_sum_le_sum_abs _ _).trans (le_trans ?_ (mul_le_mul_of_nonneg_left hT hδ))
  rw [Finset.mul_sum]
  refine Finset.sum_le_sum fun j hj => ?_
  have hj := Finset.mem_range.mp hj
  rw [show u j * v j * o j - u j * o j * G = (v j - G) * (u j * o j) by ring, abs_mul, abs_mul, abs_of_nonneg (ho j hj)]
  by_cases h0 : o j = 0
  · simp [h0]
  · exact mul_le_mul_of_nonneg_right (h j hj h0) (mul_nonneg (abs_nonneg _) (ho j hj))

/-- There is a volume for each frame that is taken. -/
theorem fade_some (hk : k.builtin = true) {fuel : Nat} {s s' : Sink k c} {sa sb : Src k c} {it : It k c}
    (h : s.stream fuel (.blend sa sb .amplify) = .ok (s', it)) (ho : s.res.offseti = lit 0) {n : Nat}
    (hn : Takes (ratioOf s.rate sa.rate) (lit 0) (Src.blend sa sb .amplify).len s.buf.length n) :
    ∀ j, j < n → ∃ f, sb.nth j = .ok (some f) := by
  obtain ⟨m, _, a1, a2, _⟩ := C58_mix fuel s s' _ it h
  rw [ho] at a1
  cases takes_unique a1 hn
  intro j hj
  obtain ⟨f, hf, _⟩ := a2 j hj
  obtain ⟨_, y, _, hy, _⟩ := blend_amplify_inv hk hf
  exact ⟨y, hy⟩

/-- C145 for a volume that is level around a slot, when the rate does not go up: if the volumes of the frames that are
played during slot `x` are within `δ` of `G`, then the slot has `G` times the level it has without the volume, up to `δ`
and the errors of resampling. -/
theorem C145_down (hk : k.builtin = true) {fuel fuel' : Nat} {s s' t t' : Sink k c} {sa sb : Src k c} {it it' : It k c}
    (h : s.stream fuel (.blend sa sb .amplify) = .ok (s', it)) (h' : t.stream fuel' sa = .ok (t', it'))
    (hrt : t.rate = s.rate) (hbt : t.buf.length = s.buf.length) (hl : (Src.blend sa sb .amplify).len = sa.len)
    (ho : s.res.offseti = lit 0) (ho' : t.res.offseti = lit 0) {r : ℚ} (hq : (ratioOf s.rate sa.rate).Is r)
    (hr : 0 < r) (hr1 : r ≤ 1) (hb : (s.buf.length : ℚ) + 1 ≤ r * 2 ^ 52) {i : Nat} (hi : i < k.chans) {u v : Nat → ℚ}
    (hu : ∀ j f, sa.nth j = .ok (some f) → SampleVal c f[i] (u j)) (hu1 : ∀ j, |u j| ≤ 1)
    (hv : ∀ j f, sb.nth j = .ok (some f) → SampleVal c f[i] (v j)) (hv1 : ∀ j, |v j| ≤ 1)
    {x : Nat} (hx : InDst (ratioOf s.rate sa.rate) sa.len s.buf.length x) {G δ : ℚ} (hG : |G| ≤ 1) (hδ : 0 ≤ δ)
    (hvG : ∀ j f, sb.nth j = .ok (some f) → (x:ℚ) - 1 < r * j → r * j < x + r → |v j - G| ≤ δ) :
    ∃ (y z : Frame k c) (p q : ℚ), s'.buf[x]? = some y ∧ t'.buf[x]? = some z ∧ SampleVal c y[i] p ∧ SampleVal c z[i] q ∧
      |p - q * G| ≤ δ + mixErr c +
        2 * ((mixErr c + 5 * 2 ^ (-53 : ℤ) + 2 * ((s.buf.length + 1) * 2 ^ (-53 : ℤ))) * (1 / r + 3)) := by
  obtain ⟨z, z1, z2⟩ := fade_values hk hi hu hu1 hv hv1
  obtain ⟨n, a1, _, a2⟩ := C59_box fuel s s' _ it h ho r hq hr hr1 hb i hi z
    (fun j f hf x hx => by rw [C21_id hk] at hx; cases hx; exact z2 j f hf)
  obtain ⟨n', b1, _, b2⟩ := C59_box fuel' t t' _ it' h' ho' r (by rw [hrt]; exact hq) hr hr1 (by rw [hbt]; exact hb) i hi u
    (fun j f hf x hx => by rw [C21_id hk] at hx; cases hx; exact ⟨hu j f hf, hu1 j⟩)
  rw [hrt, hbt] at b1 b2
  rw [hl] at a1 a2
  cases takes_unique b1 a1
  have hsome : ∀ j, j < n → ∃ f, sb.nth j = .ok (some f) := fade_some hk h ho (by rw [hl]; exact a1)
  obtain ⟨y, p, p1, p2, p3⟩ := a2 x hx
  obtain ⟨w, q, q1, q2, q3⟩ := b2 x hx
  refine ⟨y, w, p, q, p1, q1, p2, q2, ?_⟩
  set o : Nat → ℚ := fun j => overlap (r * j - r) (r * j) (x - 1) x with hoo
  have hS : ∑ j ∈ Finset.range n, o j ≤ 1 := sum_share_le hr.le n x
  have hnn : ∀ j, j < n → 0 ≤ o j := fun j _ => overlap_nonneg _ _ _ _
  have h1 := weighted_near hnn hS (mixErr_pos c).le (fun j _ => z1 j)
  have h2 := fade_sum (u := u) (v := v) (G := G) hnn hδ (T := 1) (le_trans (Finset.sum_le_sum fun j hj =>
    mul_le_of_le_one_left (hnn j (Finset.mem_range.mp hj)) (hu1 j)) hS) (fun j hj h0 => by
      obtain ⟨f, hf⟩ := hsome j hj
      have : ¬ (r * j ≤ x - 1 ∨ x + r ≤ r * j) := fun hc => h0 (by
        rw [hoo]; dsimp only; rw [← share_overlap hr.le]; exact share_far hr hc)
      push Not at this
      exact hvG j f hf this.1 this.2)
  generalize (mixErr c + 5 * 2 ^ (-53 : ℤ) + 2 * ((s.buf.length + 1 : ℚ) * 2 ^ (-53 : ℤ))) * (1 / r + 3) = E at *
  have h3 : |q * G - (∑ j ∈ Finset.range n, u j * o j) * G| ≤ E := by
    rw [← sub_mul, abs_mul]
    exact (mul_le_of_le_one_right (abs_nonneg _) hG).trans q3
  rw [abs_le] at *
  constructor <;> linarith

/-- C145 for a volume that is level around a slot, when the rate goes up, for streams that are quiet enough not to clip. -/
theorem C145_up (hk : k.builtin = true) {fuel fuel' : Nat} {s s' t t' : Sink k c} {sa sb : Src k c} {it it' : It k c}
    (h : s.stream fuel (.blend sa sb .amplify) = .ok (s', it)) (h' : t.stream fuel' sa = .ok (t', it'))
    (hrt : t.rate = s.rate) (hbt : t.buf.length = s.buf.length) (hl : (Src.blend sa sb .amplify).len = sa.len)
    (ho : s.res.offseti = lit 0) (ho' : t.res.offseti = lit 0) {r : ℚ} (hq : (ratioOf s.rate sa.rate).Is r)
    (hr : 1 ≤ r) (hr1 : r ≤ 2 ^ 20) (hb : s.buf.length ≤ 2 ^ 51) {i : Nat} (hi : i < k.chans) {u v : Nat → ℚ}
    (hu : ∀ j f, sa.nth j = .ok (some f) → SampleVal c f[i] (u j)) (hu1 : ∀ j, |u j| * (r + 1) ≤ 1)
    (hv : ∀ j f, sb.nth j = .ok (some f) → SampleVal c f[i] (v j)) (hv1 : ∀ j, |v j| ≤ 1)
    {x : Nat} (hx : InDst (ratioOf s.rate sa.rate) sa.len s.buf.length x) {G δ : ℚ} (hG : |G| ≤ 1) (hδ : 0 ≤ δ)
    (hvG : ∀ j f, sb.nth j = .ok (some f) → (x:ℚ) - 2 < r * j → r * j < x + 2 → |v j - G| ≤ δ) :
    ∃ (y z : Frame k c) (p q : ℚ), s'.buf[x]? = some y ∧ t'.buf[x]? = some z ∧ SampleVal c y[i] p ∧ SampleVal c z[i] q ∧
      |p - q * G| ≤ δ + mixErr c * (r + 1) + 2 * (mixErr c * (r + 5)) := by
  have hu2 : ∀ j, |u j| ≤ 1 / (r + 1) := fun j => by rw [le_div_iff₀ (by linarith)]; exact hu1 j
  have hu3 : ∀ j, |u j| ≤ 1 := fun j => (hu2 j).trans (by rw [div_le_one (by linarith)]; linarith)
  obtain ⟨z, z1, z2⟩ := fade_values hk hi hu hu3 hv hv1
  obtain ⟨n, a1, _, hmono, a2⟩ := C101_mix fuel s s' _ it h ho r hq hr hr1 (by omega) i hi z
    (fun j f hf x hx => by rw [C21_id hk] at hx; cases hx; exact z2 j f hf)
  obtain ⟨n', b1, _, _, b2⟩ := C101_mix fuel' t t' _ it' h' ho' r (by rw [hrt]; exact hq) hr hr1 (by omega) i hi u
    (fun j f hf x hx => by rw [C21_id hk] at hx; cases hx; exact ⟨hu j f hf, hu3 j⟩)
  rw [hrt, hbt] at b1 b2
  rw [hl] at a1 a2
  cases takes_unique b1 a1
  have hsome : ∀ j, j < n → ∃ f, sb.nth j = .ok (some f) := fade_some hk h ho (by rw [hl]; exact a1)
  obtain ⟨y, p, p1, p2, p3⟩ := a2 x hx
  obtain ⟨w, q, q1, q2, q3⟩ := b2 x hx
  refine ⟨y, w, p, q, p1, q1, p2, q2, ?_⟩
  have hu0 : (0:ℚ) < 2 ^ (-53:ℤ) := two_zpow_pos _
  have hacc := fun j hj => up_acc hq hr hr1 hb a1 j hj
  have hS := share_le c hr (η := (s.buf.length + 1) * 2 ^ (-53 : ℤ))
    (mul_nonneg (by positivity) hu0.le) (fun j => binary64.rnd (r * j)) n x hacc (fun j j' h1 h2 => hmono j j' h1 h2.le)
  have h6 : (s.buf.length + 1 : ℚ) * 2 ^ (-53:ℤ) ≤ 1 / 2 := by
    have hBq : (s.buf.length:ℚ) ≤ 2 ^ 51 := by exact_mod_cast hb
    have h4 : (s.buf.length + 1 : ℚ) * 2 ^ (-53:ℤ) ≤ (2 ^ 51 + 1) * 2 ^ (-53:ℤ) :=
      mul_le_mul_of_nonneg_right (by linarith) hu0.le
    exact h4.trans (by norm_num)
  set o : Nat → ℚ := fun j => upShare c r x (binary64.rnd (r * j)) with hoo
  have hS1 : ∑ j ∈ Finset.range n, o j ≤ r + 1 := by
    refine hS.trans ?_
    generalize ((s.buf.length:ℚ) + 1) * 2 ^ (-53:ℤ) = η at h6 ⊢
    linarith
  have hnn : ∀ j, j < n → 0 ≤ o j := fun j _ => upShare_nonneg c hr x _
  have hT : ∑ j ∈ Finset.range n, |u j| * o j ≤ 1 := by
    calc _ ≤ ∑ j ∈ Finset.range n, 1 / (r + 1) * o j := Finset.sum_le_sum fun j hj =>
          mul_le_mul_of_nonneg_right (hu2 j) (hnn j (Finset.mem_range.mp hj))
      _ ≤ 1 / (r + 1) * (r + 1) := by
          rw [← Finset.mul_sum]; exact mul_le_mul_of_nonneg_left hS1 (by positivity)
      _ = 1 := one_div_mul_cancel (by linarith)
  have hcl : ∀ t : Nat → ℚ, (∀ j, |t j| ≤ |u j|) → clampQ (∑ j ∈ Finset.range n, t j * o j) = ∑ j ∈ Finset.range n, t j * o j := by
    intro t ht
    have : |∑ j ∈ Finset.range n, t j * o j| ≤ 1 := by
      refine (Finset.abs_sum_le_sum_abs _ _).trans (le_trans (Finset.sum_le_sum fun j hj => ?_) hT)
      rw [abs_mul, abs_of_nonneg (hnn j (Finset.mem_range.mp hj))]
      exact mul_le_mul_of_nonneg_right (ht j) (hnn j (Finset.mem_range.mp hj))
    exact clampQ_of_range (abs_le.mp this).1 (abs_le.mp this).2
  have h1 := (clampQ_lip _ _).trans (weighted_near hnn hS1 (mixErr_pos c).le (fun j _ => z1 j))
  rw [hcl (fun j => u j * v j) (fun j => by rw [abs_mul]; exact mul_le_of_le_one_right (abs_nonneg _) (hv1 j))] at h1
  rw [hcl u (fun j => le_refl _)] at q3
  have h2 := fade_sum (u := u) (v := v) (G := G) hnn hδ hT (fun j hj h0 => by
      have ha := abs_le.mp (hacc j hj)
      generalize ((s.buf.length:ℚ) + 1) * 2 ^ (-53:ℤ) = η at h6 ha
      obtain ⟨f, hf⟩ := hsome j hj
      refine hvG j f hf ?_ ?_
      · by_contra hc
        refine h0 ?_
        have : ⌊binary64.rnd (r * j)⌋ < (x:ℤ) - 1 := by
          rw [Int.floor_lt]; push_cast; linarith
        rw [hoo]
        dsimp only
        unfold upShare
        rw [if_neg (by omega), if_neg (by omega)]
      · by_contra hc
        exact h0 (upShare_late (by linarith)))
  generalize mixErr c * (r + 5) = E at *
  have h3 : |q * G - (∑ j ∈ Finset.range n, u j * o j) * G| ≤ E := by
    rw [← sub_mul, abs_mul]
    exact (mul_le_of_le_one_right (abs_nonneg _) hG).trans q3
  generalize mixErr c * (r + 1) = F at *
  rw [abs_le] at *
  constructor <;> linarith

/-- Multiplying two samples, -1.008 included. -/
theorem mul_any {x y : c.T} {u v : ℚ} (hx : SampleVal c x u) (hy : SampleVal c y v) (vx : Valid c x) (vy : Valid c y) :
    ∃ m, SampleVal c (c.mul x y) m ∧ |m - u * v| ≤ 3 * mixErr c := by
  have hE := mixErr_pos c
  by_cases h : |v| ≤ 1
  · obtain ⟨m, m1, m2, -⟩ := mul_val hx hy vx h
    exact ⟨m, m1, by linarith⟩
  · cases c
    · have hv : v = (BitVec.toInt y : ℚ) / 127 := hy
      have hu : u = (BitVec.toInt x : ℚ) / 127 := hx
      have r1 := i8_range y
      have r2 := i8_range x
      have hb : BitVec.toInt y = -127 - 1 := by
        by_contra hc
        refine h ?_
        rw [hv, abs_div, abs_of_pos (by norm_num : (0:ℚ) < 127), div_le_one (by norm_num)]
        have : |BitVec.toInt y| ≤ 127 := by rw [abs_le]; omega
        exact_mod_cast this
      refine ⟨_, rfl, ?_⟩
      have h1 := int_mul_min (a := BitVec.toInt x) (M := 127) (by norm_num) (by rw [abs_le]; omega)
      have h2 : |(BitVec.toInt x : ℚ)| ≤ 128 := by
        have : |BitVec.toInt x| ≤ 128 := by rw [abs_le]; omega
        exact_mod_cast this
      rw [C02_ch8 x y |>.2, hv, hb, hu]
      rw [show (-127 - 1 : ℤ) = -128 from rfl] at h1 ⊢
      generalize clampZ (-128) 127 ((BitVec.toInt x * -128).tdiv 127) = m at h1 ⊢
      push_cast at h1 ⊢
      simp only [mixErr]
      rw [abs_le] at *
      constructor <;> linarith
    · have hv : v = (BitVec.toInt y : ℚ) / 32767 := hy
      have hu : u = (BitVec.toInt x : ℚ) / 32767 := hx
      have r1 := i16_range y
      have r2 := i16_range x
      have hb : BitVec.toInt y = -32767 - 1 := by
        by_contra hc
        refine h ?_
        rw [hv, abs_div, abs_of_pos (by norm_num : (0:ℚ) < 32767), div_le_one (by norm_num)]
        have : |BitVec.toInt y| ≤ 32767 := by rw [abs_le]; omega
        exact_mod_cast this
      refine ⟨_, rfl, ?_⟩
      have h1 := int_mul_min (a := BitVec.toInt x) (M := 32767) (by norm_num) (by rw [abs_le]; omega)
      have h2 : |(BitVec.toInt x : ℚ)| ≤ 32768 := by
        have : |BitVec.toInt x| ≤ 32768 := by rw [abs_le]; omega
        exact_mod_cast this
      rw [C02_ch16 x y |>.2, hv, hb, hu]
      rw [show (-32767 - 1 : ℤ) = -32768 from rfl] at h1 ⊢
      generalize clampZ (-32768) 32767 ((BitVec.toInt x * -32768).tdiv 32767) = m at h1 ⊢
      push_cast at h1 ⊢
      simp only [mixErr]
      rw [abs_le] at *
      constructor <;> linarith
    · obtain ⟨q, q1, q2, q3⟩ := vy
      exact absurd (by rw [Is.unique hy q1]; exact abs_le.mpr ⟨q2, q3⟩) h
    · obtain ⟨q, q1, q2, q3⟩ := vy
      exact absurd (by rw [Is.unique hy q1]; exact abs_le.mpr ⟨q2, q3⟩) h

/-- Levels of samples. -/
theorem val_le_two {x : c.T} {u : ℚ} (hx : SampleVal c x u) (vx : Valid c x) : |u| ≤ 2 := by
  cases c
  · have r1 := i8_range x
    rw [show u = (BitVec.toInt x : ℚ) / 127 from hx, abs_div, abs_of_pos (by norm_num : (0:ℚ) < 127), div_le_iff₀ (by norm_num)]
    have : |BitVec.toInt x| ≤ 2 * 127 := by rw [abs_le]; omega
    exact_mod_cast this
  · have r1 := i16_range x
    rw [show u = (BitVec.toInt x : ℚ) / 32767 from hx, abs_div, abs_of_pos (by norm_num : (0:ℚ) < 32767),
      div_le_iff₀ (by norm_num)]
    have : |BitVec.toInt x| ≤ 2 * 32767 := by rw [abs_le]; omega
    exact_mod_cast this
  · obtain ⟨q, q1, q2, q3⟩ := vx
    rw [Is.unique hx q1, abs_le]
    constructor <;> linarith
  · obtain ⟨q, q1, q2, q3⟩ := vx
    rw [Is.unique hx q1, abs_le]
    constructor <;> linarith

/-- C145 for sound and volume that are both resampled, when the rate does not go up: in every slot but the first the two orders
differ by at most how much the volume changes among the frames that are played during the slot, and a small error. -/
theorem C145_partial (hk : k.builtin = true) {fuel fa fb : Nat} {s s' ta ta' tb tb' : Sink k c} {sa sb : Src k c}
    {it ia ib : It k c} (h : s.stream fuel (.blend sa sb .amplify) = .ok (s', it)) (ha : ta.stream fa sa = .ok (ta', ia))
    (hb : tb.stream fb sb = .ok (tb', ib)) (hra : ta.rate = s.rate) (hrb : tb.rate = s.rate)
    (hba : ta.buf.length = s.buf.length) (hbb : tb.buf.length = s.buf.length) (hrs : sb.rate = sa.rate) (hls : sb.len = sa.len)
    (ho : s.res.offseti = lit 0) (hoa : ta.res.offseti = lit 0) (hob : tb.res.offseti = lit 0) {r : ℚ}
    (hq : (ratioOf s.rate sa.rate).Is r)
    (hr : 0 < r) (hr1 : r ≤ 1) (hB : (s.buf.length : ℚ) + 1 ≤ r * 2 ^ 52) {i : Nat} (hi : i < k.chans) {u v : Nat → ℚ}
    (hu : ∀ j f, sa.nth j = .ok (some f) → SampleVal c f[i] (u j)) (hu1 : ∀ j, |u j| ≤ 1)
    (hv : ∀ j f, sb.nth j = .ok (some f) → SampleVal c f[i] (v j)) (hv1 : ∀ j, |v j| ≤ 1)
    {x : Nat} (hx : InDst (ratioOf s.rate sa.rate) sa.len s.buf.length x) (hx1 : 1 ≤ x) {lo up : ℚ} (l2 : lo ≤ 1) (u1 : -1 ≤ up)
    (hvG : ∀ j f, sb.nth j = .ok (some f) → (x:ℚ) - 1 < r * j → r * j < x + r → lo ≤ v j ∧ v j ≤ up) :
    ∃ (y m : Frame k c) (p q : ℚ), s'.buf[x]? = some y ∧
      (Src.blend (.audio ⟨s.rate, ta'.buf⟩) (.audio ⟨s.rate, tb'.buf⟩) .amplify).nth x = .ok (some m) ∧
      SampleVal c y[i] p ∧ SampleVal c m[i] q ∧ |p - q| ≤ up - lo + 4 * mixErr c + 4 * boxErr c r s.buf.length := by
  have hl : (Src.blend sa sb .amplify).len = sa.len := by
    simp only [Src.len, hls]; cases sa.len <;> simp
  obtain ⟨n, b1, hn, b2⟩ := C59_box fb tb tb' _ ib hb hob r (by rw [hrb, hrs]; exact hq) hr hr1 (by rw [hbb]; exact hB) i hi v
    (fun j f hf x hx => by rw [C21_id hk] at hx; cases hx; exact ⟨hv j f hf, hv1 j⟩)
  rw [hrb, hbb, hrs, hls] at b1 b2
  obtain ⟨w, b, w1, w2, w3⟩ := b2 x hx
  have hsome : ∀ j, j < n → ∃ f, sb.nth j = .ok (some f) := fade_some hk h ho (by rw [hl]; exact b1)
  have hu0 : (0:ℚ) < 2 ^ (-53:ℤ) := two_zpow_pos _
  have ew : ∑ j ∈ Finset.range n, v j * overlap (r * j - r) (r * j) (x - 1) x =
      ∑ j ∈ Finset.range n, v j * share r x (r * j) :=
    Finset.sum_congr rfl (fun j _ => by rw [share_overlap hr.le])
  obtain ⟨c1, c2⟩ := sum_window hr (by exact_mod_cast hx1) (by positivity) (takes_reach b1 hq hr hr1 hn hx) l2 u1 v
    (fun j hj => by obtain ⟨f, hf⟩ := hsome j hj; exact hvG j f hf)
  rw [← ew] at c1 c2
  set G := ∑ j ∈ Finset.range n, v j * overlap (r * j - r) (r * j) (x - 1) x with hG
  have hG1 : |G| ≤ 1 := by
    have := weighted_near (z := v) (t := fun _ => 0) (e := 1) (fun j (_ : j < n) => overlap_nonneg (r * j - r) (r * j) (x - 1) x)
      (sum_share_le hr.le n x) zero_le_one (fun j _ => by rw [sub_zero]; exact hv1 j)
    simpa using this
  have hη : (0:ℚ) ≤ (s.buf.length + 1) * 2 ^ (-53 : ℤ) := by positivity
  have hlu : ∀ j f, sb.nth j = .ok (some f) → (x:ℚ) - 1 < r * j → r * j < x + r →
      |v j - G| ≤ max 0 (up - lo + (s.buf.length + 1) * 2 ^ (-53 : ℤ)) := fun j f hf h1 h2 => by
    obtain ⟨d1, d2⟩ := hvG j f hf h1 h2
    refine le_max_of_le_right ?_
    generalize ((s.buf.length:ℚ) + 1) * 2 ^ (-53:ℤ) = η at *
    rw [abs_le]
    constructor <;> linarith
  obtain ⟨y, z, p, q, p1, q1, p2, q2, pq⟩ := C145_down hk h ha hra hba hl ho hoa hq hr hr1 hB hi hu hu1 hv hv1 hx hG1
    (le_max_left _ _) hlu
  have vz := (frame_inRange_iff z).mp (C43_range fa ta ta' sa ia ha x z (by rw [hra, hba]; exact hx) q1) i hi
  have vw := (frame_inRange_iff w).mp (C43_range fb tb tb' sb ib hb x w (by rw [hrb, hbb, hrs, hls]; exact hx) w1) i hi
  obtain ⟨m, m1, m2⟩ := mul_any q2 w2 vz vw
  refine ⟨y, z.mul w, p, m, p1, ?_, p2, by simpa [Frame.mul] using m1, ?_⟩
  · rw [blend_amplify_nth hk (x := some z) (y := some w) (by simp [Src.nth, q1]) (by simp [Src.nth, w1])]
    rfl
  · have hq2 := val_le_two q2 vz
    have hlu' : 0 ≤ up - lo + 2 * ((s.buf.length + 1) * 2 ^ (-53 : ℤ)) := by linarith
    unfold boxErr
    have hr3 : 0 < 3 / r + 1 := by positivity
    have hE0 : 0 ≤ (mixErr c + 5 * 2 ^ (-53 : ℤ) + 2 * ((s.buf.length + 1 : ℚ) * 2 ^ (-53 : ℤ))) * (1 / r + 3) := by
      have := mixErr_pos c
      positivity
    generalize (mixErr c + 5 * 2 ^ (-53 : ℤ) + 2 * ((s.buf.length + 1 : ℚ) * 2 ^ (-53 : ℤ))) * (1 / r + 3) = E at *
    generalize ((s.buf.length:ℚ) + 1) * 2 ^ (-53:ℤ) = η at *
    have h3 : |q * b - q * G| ≤ 2 * E := by
      rw [← mul_sub, abs_mul]
      exact mul_le_mul hq2 w3 (abs_nonneg _) (by norm_num)
    have h4 : max 0 (up - lo + η) ≤ up - lo + 2 * η := max_le hlu' (by linarith)
    rw [abs_le] at *
    constructor <;> linarith

/-! ## Examples -/

/-- Four frames of sound at 4 Hz. -/
def exLoud : Audio .mono .ch32 := ⟨lit 4, [#v[lit 0.25], #v[lit (-0.125)], #v[lit 0.25], #v[lit 0.0625]]⟩

/-- A volume that goes down over four frames. -/
def exFade : Audio .mono .ch32 := ⟨lit 4, [#v[lit 1], #v[lit 0.875], #v[lit 0.75], #v[lit 0.625]]⟩

/-- Empty slots. -/
def exRoom (n : Nat) (rate : ℚ) : Sink .mono .ch32 := ⟨lit rate, Resampler.dflt, List.replicate n Frame.dflt⟩

/-- Values of the sound. -/
def exLoudVal (j : Nat) : ℚ := if j = 0 ∨ j = 2 then 1 / 4 else if j = 1 then -1 / 8 else if j = 3 then 1 / 16 else 0

/-- Values of the volume. -/
def exFadeVal (j : Nat) : ℚ := if j < 4 then 1 - j / 8 else 0

theorem exLoud_val (j : Nat) (f : Frame .mono .ch32) (h : (Src.audio exLoud).nth j = .ok (some f)) :
    SampleVal .ch32 f[0] (exLoudVal j) := by
  match j with
  | 0 | 1 | 2 | 3 => cases h; decide +kernel
  | j + 4 => cases h

theorem exFade_val (j : Nat) (f : Frame .mono .ch32) (h : (Src.audio exFade).nth j = .ok (some f)) :
    SampleVal .ch32 f[0] (exFadeVal j) := by
  match j with
  | 0 | 1 | 2 | 3 => cases h; decide +kernel
  | j + 4 => cases h

theorem exLoud_le (j : Nat) : |exLoudVal j| ≤ 1 / 4 := by
  unfold exLoudVal
  split_ifs <;> norm_num [abs_le]

theorem exFade_le (j : Nat) : |exFadeVal j| ≤ 1 := by
  unfold exFadeVal
  split_ifs with h
  · have : (j:ℚ) ≤ 3 := by exact_mod_cast (by omega : j ≤ 3)
    have : (0:ℚ) ≤ j := by positivity
    rw [abs_le]
    constructor <;> linarith
  · norm_num

/-- Slot 1 of the sound, played at half the rate with the volume going down: the volumes of the frames 1 and 2 around it are
3/4 up to 1/8. -/
example := C145_down (k := .mono) rfl (sa := .audio exLoud) (sb := .audio exFade)
  (R.returns₂ (x := (exRoom 2 2).stream 6 (.blend (.audio exLoud) (.audio exFade) .amplify)) (by decide +kernel))
  (R.returns₂ (x := (exRoom 2 2).stream 6 (.audio exLoud)) (by decide +kernel)) rfl rfl rfl rfl rfl (r := 1 / 2)
  (by decide +kernel) (by norm_num) (by norm_num) (by decide +kernel) (i := 0) (by decide) exLoud_val
  (fun j => (exLoud_le j).trans (by norm_num)) exFade_val exFade_le (x := 1) (by decide +kernel) (G := 3 / 4) (δ := 1 / 8)
  (by norm_num [abs_le]) (by norm_num) (fun j f _ h1 h2 => by
    have h3 : j < 3 := by
      have : (j:ℚ) < 3 := by push_cast at h2; linarith
      exact_mod_cast this
    have h4 : 0 < j := by
      have : (0:ℚ) < j := by push_cast at h1; linarith
      exact_mod_cast this
    rw [exFadeVal, if_pos (by omega)]
    interval_cases j <;> norm_num [abs_le])

/-- The same slot, with the volume resampled, too. -/
example := C145_partial (k := .mono) rfl (sa := .audio exLoud) (sb := .audio exFade)
  (R.returns₂ (x := (exRoom 2 2).stream 6 (.blend (.audio exLoud) (.audio exFade) .amplify)) (by decide +kernel))
  (R.returns₂ (x := (exRoom 2 2).stream 6 (.audio exLoud)) (by decide +kernel))
  (R.returns₂ (x := (exRoom 2 2).stream 6 (.audio exFade)) (by decide +kernel)) rfl rfl rfl rfl rfl rfl rfl rfl rfl (r := 1 / 2)
  (by decide +kernel) (by norm_num) (by norm_num) (by decide +kernel) (i := 0) (by decide) exLoud_val
  (fun j => (exLoud_le j).trans (by norm_num)) exFade_val exFade_le (x := 1) (by decide +kernel) (by norm_num) (lo := 3 / 4)
  (up := 7 / 8) (by norm_num) (by norm_num) (fun j f _ h1 h2 => by
    have h3 : j < 3 := by
      have : (j:ℚ) < 3 := by push_cast at h2; linarith
      exact_mod_cast this
    have h4 : 0 < j := by
      have : (0:ℚ) < j := by push_cast at h1; linarith
      exact_mod_cast this
    rw [exFadeVal, if_pos (by omega)]
    interval_cases j <;> norm_num)

/-- Slot 4 of the sound, played at one and a half times the rate. -/
example := C145_up (k := .mono) rfl (sa := .audio exLoud) (sb := .audio exFade)
  (R.returns₂ (x := (exRoom 6 6).stream 6 (.blend (.audio exLoud) (.audio exFade) .amplify)) (by decide +kernel))
  (R.returns₂ (x := (exRoom 6 6).stream 6 (.audio exLoud)) (by decide +kernel)) rfl rfl rfl rfl rfl (r := 3 / 2)
  (by decide +kernel) (by norm_num) (by norm_num) (by decide) (i := 0) (by decide) exLoud_val
  (fun j => by linarith [exLoud_le j]) exFade_val exFade_le (x := 4) (by decide +kernel) (G := 3 / 4) (δ := 1 / 8)
  (by norm_num [abs_le]) (by norm_num) (fun j f _ h1 h2 => by
    have h3 : j < 4 := by
      have : (j:ℚ) < 4 := by push_cast at h2; linarith
      exact_mod_cast this
    have h4 : 1 < j := by
      have : (1:ℚ) < j := by push_cast at h1; linarith
      exact_mod_cast this
    rw [exFadeVal, if_pos (by omega)]
    interval_cases j <;> norm_num [abs_le])

/-- C145 is false in general. A sound of 1/2 with a volume of 1/2, both played at twice the rate, gives 1 in the slots of the
frames if they are multiplied afterwards, and 1/2 if they are multiplied before. A sound and a volume that both change their
sign from frame to frame, played at half the rate, give silence afterwards, and full scale before. -/
theorem C145_false :
    (let a : Src .mono .ch32 := .audio ⟨lit 1, [#v[lit 0.5], #v[lit 0.5]]⟩
     (Audio.withStream (lit 2) a : R (Audio .mono .ch32)).map (·.frames[2]?) = .ok (some #v[lit 1]) ∧
     (Audio.withStream (lit 2) (.blend a a .amplify) : R (Audio .mono .ch32)).map (·.frames[2]?) = .ok (some #v[lit 0.5])) ∧
    (let a : Src .mono .ch32 := .audio ⟨lit 2, [#v[lit 1], #v[lit (-1)], #v[lit 1], #v[lit (-1)]]⟩
     (Audio.withStream (lit 1) a : R (Audio .mono .ch32)).map (·.frames[1]?) = .ok (some #v[lit 0]) ∧
     (Audio.withStream (lit 1) (.blend a a .amplify) : R (Audio .mono .ch32)).map (·.frames[1]?) = .ok (some #v[lit 1])) := by
  decide +kernel

end Fon
