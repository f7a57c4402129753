import Verif.Props.TwoStep

/-!
# C95 and C117, slot by slot

When the rate does not go up, a slot (but the first) stays between the lowest and the highest of the frames that are played
during it, whatever the rest of the signal is.  So any two ways to the same rate are as close as the signal is level.
-/

namespace Fon
open Fon.Fl hiding min max
open Fon.Fmt Fon.Sink
variable {k k' : Kind} {c c' : ChTy}

/-- The frames that are taken reach to the end of each slot of the destination range, but for rounding. -/
theorem takes_reach {q : F64} {len : Option Nat} {B n : Nat} (a1 : Takes q (lit 0) len B n) {r : ℚ} (hq : q.Is r)
    (hr : 0 < r) (hr1 : r ≤ 1) (hn : n ≤ 2 ^ 53) {x : Nat} (hx : InDst q len B x) :
    (x:ℚ) - (B + 1) * 2 ^ (-53 : ℤ) ≤ r * n - r := by
  have hu : binary64.u = 2 ^ (-53:ℤ) := rfl
  have hu0 : (0:ℚ) < 2 ^ (-53:ℤ) := two_zpow_pos _
  obtain ⟨p3, p1, p2⟩ := pos_fresh hq (by rwa [abs_of_pos hr]) hn
  have h0 : 0 ≤ r * n := by positivity
  have p0 : 0 ≤ binary64.rnd (r * n) := rnd_nonneg h0
  have plt : binary64.rnd (r * n) < 2 ^ 64 := by
    have hn' : (n:ℚ) ≤ 2 ^ 53 := by exact_mod_cast hn
    rw [abs_of_nonneg h0, hu, abs_le] at p2
    have : (2:ℚ) ^ (-53:ℤ) ≤ 1 := by norm_num
    have : r * n ≤ 2 ^ 53 := by nlinarith
    nlinarith
  have hm : x + 1 ≤ ⌊binary64.rnd (r * n)⌋.toNat := by
    obtain ⟨_, t2, t3⟩ := a1
    rcases t3 with t3 | t3
    · have := hx.2 n t3
      rwa [toUsize_is p3 p0 plt] at this
    · rw [toUsize_is p1 p0 plt] at t3
      by_contra hc
      refine t3 ⟨?_, fun l hl => ?_⟩
      · have := hx.1; omega
      · have := hx.2 l hl; omega
  have hp : (x:ℚ) + 1 ≤ binary64.rnd (r * n) := by
    have : ((x + 1 : ℕ) : ℤ) ≤ ⌊binary64.rnd (r * n)⌋ := by omega
    have := Int.le_floor.mp this
    push_cast at this; exact this
  have hxB : (x:ℚ) + 1 ≤ B := by have := hx.1; exact_mod_cast this
  rw [abs_of_nonneg h0, hu, abs_le] at p2
  by_contra hc
  push Not at hc
  have h1 : (B + 1 : ℚ) * 2 ^ (-53:ℤ) ≥ 0 := by positivity
  have h2 : r * n * 2 ^ (-53:ℤ) ≤ (B + 1) * 2 ^ (-53:ℤ) := mul_le_mul_of_nonneg_right (by linarith) hu0.le
  linarith [p2.2]

/-- A mean over the time of a slot that is covered but for `e`. -/
theorem sum_window {r x e lo up : ℚ} (hr : 0 < r) (hx : 1 ≤ x) (he : 0 ≤ e) {n : Nat}
    (hn : x - e ≤ r * n - r) (l2 : lo ≤ 1) (u1 : -1 ≤ up) (w : Nat → ℚ)
    (hw : ∀ j : Nat, j < n → x - 1 < r * j → r * j < x + r → lo ≤ w j ∧ w j ≤ up) :
    lo - e ≤ ∑ j ∈ Finset.range n, w j * share r x (r * j) ∧
    ∑ j ∈ Finset.range n, w j * share r x (r * j) ≤ up + e := by
  have tot : ∑ j ∈ Finset.range n, share r x (r * j) = ramp x (r * n - r) := by
    have := sum_share r 0 x n
    simp only [zero_add] at this
    rw [this, ramp_lo (s := x) (x := 0 - r) (by linarith), sub_zero]
  have t1 := (ramp_range x (r * n - r)).2
  have t2 : 1 - e ≤ ramp x (r * n - r) := by
    have := ramp_lip x x (r * n - r)
    rw [ramp_hi (le_refl x)] at this
    rcases le_total x (r * n - r) with h' | h'
    · rw [ramp_hi h']; linarith
    · rw [abs_of_nonneg (by linarith : 0 ≤ x - (r * n - r))] at this
      have := le_abs_self (1 - ramp x (r * n - r))
      linarith
  have pt : ∀ j : Nat, j < n → lo * share r x (r * j) ≤ w j * share r x (r * j) ∧
      w j * share r x (r * j) ≤ up * share r x (r * j) := by
    intro j hj
    have p0 := share_nonneg (s := x) (p := r * j) hr.le
    by_cases h : x - 1 < r * j ∧ r * j < x + r
    · obtain ⟨h1, h2⟩ := hw j hj h.1 h.2
      exact ⟨mul_le_mul_of_nonneg_right h1 p0, mul_le_mul_of_nonneg_right h2 p0⟩
    · have : share r x (r * j) = 0 := by
        refine share_far hr ?_
        by_contra hc
        push Not at hc
        exact h hc
      simp [this]
  constructor
  · calc lo - e ≤ lo * ramp x (r * n - r) := by nlinarith
      _ = ∑ j ∈ Finset.range n, lo * share r x (r * j) := by rw [← tot, Finset.mul_sum]
      _ ≤ _ := Finset.sum_le_sum fun j hj => (pt j (Finset.mem_range.mp hj)).1
  · calc _ ≤ ∑ j ∈ Finset.range n, up * share r x (r * j) := Finset.sum_le_sum fun j hj => (pt j (Finset.mem_range.mp hj)).2
      _ = up * ramp x (r * n - r) := by rw [← tot, Finset.mul_sum]
      _ ≤ up + e := by nlinarith

/-- C95, slot by slot: when the rate does not go up, a slot (but the first) stays between the lowest and the highest of the
frames that are played during it, up to the accuracy of the box filter. The other frames may have any value up to 1. -/
theorem C95_local (fuel : Nat) (s s' : Sink k c) (st : Src k' c') (it : It k' c')
    (h : s.stream fuel st = .ok (s', it)) (ho : s.res.offseti = lit 0) (r : ℚ)
    (hq : (ratioOf s.rate st.rate).Is r) (hr : 0 < r) (hr1 : r ≤ 1) (hb : (s.buf.length : ℚ) + 1 ≤ r * 2 ^ 52)
    (i : Nat) (hi : i < k.chans) (lo up : ℚ) (l2 : lo ≤ 1) (u1 : -1 ≤ up)
    (x : Nat) (hx : InDst (ratioOf s.rate st.rate) st.len s.buf.length x) (hx1 : 1 ≤ x)
    (hw : ∀ j f, st.nth j = .ok (some f) → ∀ g : Frame k c, f.convert c = .ok g →
      ∃ v, SampleVal c g[i] v ∧ |v| ≤ 1 ∧ ((x:ℚ) - 1 < r * j → r * j < x + r → lo ≤ v ∧ v ≤ up)) :
    ∃ (y : Frame k c) (b : ℚ), s'.buf[x]? = some y ∧ SampleVal c y[i] b ∧
      lo - boxErr c r s.buf.length ≤ b ∧ b ≤ up + boxErr c r s.buf.length := by
  obtain ⟨n, g, a1, a2, a0, _⟩ := C58_mix fuel s s' st it h
  rw [ho] at a1 a0
  have hv : ∀ j, ∃ v, j < n → SampleVal c (g j)[i] v ∧ |v| ≤ 1 ∧ ((x:ℚ) - 1 < r * j → r * j < x + r → lo ≤ v ∧ v ≤ up) := by
    intro j
    by_cases hj : j < n
    · obtain ⟨f, f1, f2⟩ := a2 j hj
      obtain ⟨v, hv⟩ := hw j f f1 _ f2
      exact ⟨v, fun _ => hv⟩
    · exact ⟨0, fun hj' => absurd hj' hj⟩
  choose w hw' using hv
  obtain ⟨hn, hbox⟩ := box_any a1 hq hr hr1 hb i hi w g (fun j hj => ⟨(hw' j hj).1, (hw' j hj).2.1⟩)
  obtain ⟨b, b1, b2⟩ := hbox x
  have e : ∑ j ∈ Finset.range n, w j * overlap (r * j - r) (r * j) (x - 1) x =
      ∑ j ∈ Finset.range n, w j * share r x (r * j) :=
    Finset.sum_congr rfl (fun j _ => by rw [share_overlap hr.le])
  rw [e] at b2
  have hu0 : (0:ℚ) < 2 ^ (-53:ℤ) := two_zpow_pos _
  obtain ⟨c1, c2⟩ := sum_window hr (by exact_mod_cast hx1) (by positivity) (takes_reach a1 hq hr hr1 hn hx) l2 u1 w
    (fun j hj => (hw' j hj).2.2)
  refine ⟨_, b, a0 x hx, b1, ?_, ?_⟩
  · have := (abs_le.mp b2).1
    rw [boxErr]
    generalize (2:ℚ) ^ (-53:ℤ) = u at *
    generalize (mixErr c + 5 * u + 2 * ((s.buf.length + 1) * u)) * (1 / r + 3) = E at *
    linarith
  · have := (abs_le.mp b2).2
    rw [boxErr]
    generalize (2:ℚ) ^ (-53:ℤ) = u at *
    generalize (mixErr c + 5 * u + 2 * ((s.buf.length + 1) * u)) * (1 / r + 3) = E at *
    linarith

/-- Slot 2 of five samples at 12 Hz, played at 8 Hz: samples 2 to 4. -/
example := C95_local 6 (exSink 3 8) _ (.audio (exAudio 12)) _
  (R.returns₂ (x := (exSink 3 8).stream 6 (.audio (exAudio 12))) (by decide +kernel)) rfl
  (Fmt.rnd binary64 (2 / 3)) (by decide +kernel) (by decide +kernel) (by decide +kernel) (by decide +kernel)
  0 (by decide) (3 / 127) (5 / 127) (by norm_num) (by norm_num) 2 (by decide +kernel)
  (by norm_num) (by
    intro j f hf x hx
    match j with
    | 0 => cases hf; cases hx; exact ⟨1 / 127, by decide +kernel, by decide +kernel, by decide +kernel⟩
    | 1 => cases hf; cases hx; exact ⟨2 / 127, by decide +kernel, by decide +kernel, by decide +kernel⟩
    | 2 => cases hf; cases hx; exact ⟨3 / 127, by decide +kernel, by decide +kernel, by decide +kernel⟩
    | 3 => cases hf; cases hx; exact ⟨4 / 127, by decide +kernel, by decide +kernel, by decide +kernel⟩
    | 4 => cases hf; cases hx; exact ⟨5 / 127, by decide +kernel, by decide +kernel, by decide +kernel⟩
    | j + 5 => cases hf)

/-- C117 for all second factors: both ways stay between the lowest and the highest of the frames around the slot, so they
differ by no more than the signal does there, up to a small error. The first slot is left out. -/
theorem C117_near (f₁ f₂ f₃ : Nat) (s₁ s₁' s₂ s₂' s₃ s₃' : Sink k c) (st : Src k' c') (it₁ it₃ : It k' c')
    (it₂ : It k c) (hk : k.builtin = true)
    (h₁ : s₁.stream f₁ st = .ok (s₁', it₁)) (h₂ : s₂.stream f₂ (.audio ⟨s₁.rate, s₁'.buf⟩) = .ok (s₂', it₂))
    (h₃ : s₃.stream f₃ st = .ok (s₃', it₃))
    (o₁ : s₁.res.offseti = lit 0) (o₂ : s₂.res.offseti = lit 0) (o₃ : s₃.res.offseti = lit 0) (r₁ r₂ r₃ : ℚ)
    (q₁ : (ratioOf s₁.rate st.rate).Is r₁) (q₂ : (ratioOf s₂.rate (some s₁.rate)).Is r₂)
    (q₃ : (ratioOf s₃.rate st.rate).Is r₃)
    (p₁ : 0 < r₁) (l₁ : r₁ ≤ 1) (p₂ : 0 < r₂) (l₂ : r₂ ≤ 1) (p₃ : 0 < r₃) (l₃ : r₃ ≤ 1)
    (b₁ : (s₁.buf.length : ℚ) + 1 ≤ r₁ * 2 ^ 52) (b₂ : (s₂.buf.length : ℚ) + 1 ≤ r₂ * 2 ^ 52)
    (b₃ : (s₃.buf.length : ℚ) + 1 ≤ r₃ * 2 ^ 52)
    (hin : ∀ y, y < s₁'.buf.length → InDst (ratioOf s₁.rate st.rate) st.len s₁.buf.length y)
    (i : Nat) (hi : i < k.chans) (hmin : c = .ch32 ∨ c = .ch64 ∨ ∀ f ∈ s₁'.buf, f[i] ≠ c.MIN)
    (w : Nat → ℚ) (hw1 : ∀ j, |w j| ≤ 1)
    (hw : ∀ j f, st.nth j = .ok (some f) → ∀ x : Frame k c, f.convert c = .ok x → SampleVal c x[i] (w j))
    (x : Nat) (hx₂ : InDst (ratioOf s₂.rate (some s₁.rate)) (some s₁'.buf.length) s₂.buf.length x)
    (hx₃ : InDst (ratioOf s₃.rate st.rate) st.len s₃.buf.length x) (hx1 : 1 ≤ x)
    (lo up : ℚ) (t2 : lo ≤ 1) (u1 : -1 ≤ up)
    (hn : ∀ j : Nat, (x - 1) / r₂ - 1 < r₁ * j ∧ r₁ * j < x / r₂ + 1 + r₁ ∨ (x:ℚ) - 1 < r₃ * j ∧ r₃ * j < x + r₃ →
      lo ≤ w j ∧ w j ≤ up) :
    ∃ (y z : Frame k c) (a d : ℚ), s₂'.buf[x]? = some y ∧ s₃'.buf[x]? = some z ∧ SampleVal c y[i] a ∧ SampleVal c z[i] d ∧
      |a - d| ≤ up - lo + (boxErr c r₁ s₁.buf.length + boxErr c r₂ s₂.buf.length + boxErr c r₃ s₃.buf.length) := by
  have hx1' : (1:ℚ) ≤ x := by exact_mod_cast hx1
  have bpos : ∀ {r : ℚ} {B : Nat}, 0 < r → 0 ≤ boxErr c r B := by
    intro r B h
    unfold boxErr
    have := mixErr_pos c
    positivity
  obtain ⟨z, d, z1, z2, z3, z4⟩ := C95_local f₃ s₃ s₃' st it₃ h₃ o₃ r₃ q₃ p₃ l₃ b₃ i hi lo up t2 u1 x hx₃ hx1
    (fun j f hf g hg => ⟨w j, hw j f hf g hg, hw1 j, fun ha hb => hn j (.inr ⟨ha, hb⟩)⟩)
  obtain ⟨n, g, a1, a2, m1, -⟩ := C58_mix f₁ s₁ s₁' st it₁ h₁
  rw [o₁] at a1 m1
  obtain ⟨-, hbox⟩ := box_any a1 q₁ p₁ l₁ b₁ i hi w g (fun j hj => by
    obtain ⟨f, f1, f2⟩ := a2 j hj
    exact ⟨hw j f f1 _ f2, hw1 j⟩)
  have e1 := bpos (B := s₁.buf.length) p₁
  obtain ⟨y, a, y1, y2, y3, y4⟩ := C95_local f₂ s₂ s₂' (.audio ⟨s₁.rate, s₁'.buf⟩) it₂ h₂ o₂ r₂ q₂ p₂ l₂ b₂ i hi
    (lo - boxErr c r₁ s₁.buf.length) (up + boxErr c r₁ s₁.buf.length) (by linarith) (by linarith) x hx₂ hx1 (by
      intro j f hf g' hg
      rw [C21_id hk] at hg
      cases hg
      have hf' : s₁'.buf[j]? = some f := Except.ok.inj hf
      have hj : j < s₁'.buf.length := by
        by_contra hc
        rw [List.getElem?_eq_none (by omega)] at hf'; cases hf'
      have hfm := m1 j (hin j hj)
      rw [hf'] at hfm
      have hfm := Option.some.inj hfm
      have hval : Valid c f[i] := by
        rw [hfm]
        exact mixed_valid _ _ _ _ _ _ hi
      have hm := hmin.imp_right (Or.imp_right fun h => h f (List.mem_of_getElem? hf'))
      by_cases hwin : (x:ℚ) - 1 < r₂ * j ∧ r₂ * j < x + r₂
      · have hj1 : 1 ≤ j := by
          rcases Nat.eq_zero_or_pos j with rfl | h
          · have := hwin.1
            push_cast at this
            linarith
          · exact h
        obtain ⟨f', v, v1, v2, v3, v4⟩ := C95_local f₁ s₁ s₁' st it₁ h₁ o₁ r₁ q₁ p₁ l₁ b₁ i hi lo up t2 u1 j (hin j hj) hj1
          (fun j' f hf g hg => ⟨w j', hw j' f hf g hg, hw1 j', fun ha hb => hn j' (.inl ⟨by
              have : ((x:ℚ) - 1) / r₂ < j := by rw [div_lt_iff₀ p₂]; linarith [hwin.1]
              linarith, by
              have : (j:ℚ) < x / r₂ + 1 := by
                rw [← sub_lt_iff_lt_add, lt_div_iff₀ p₂]; linarith [hwin.2]
              linarith⟩)⟩)
        rw [hf'] at v1
        cases v1
        have hv := abs_val v2 hval hm
        exact ⟨v, v2, hv, fun _ _ => ⟨v3, v4⟩⟩
      · obtain ⟨v, v2, -⟩ := hbox j
        rw [← hfm] at v2
        exact ⟨v, v2, abs_val v2 hval hm, fun ha hb => absurd ⟨ha, hb⟩ hwin⟩)
  refine ⟨y, z, a, d, y1, z1, y2, z2, ?_⟩
  have e3 := bpos (B := s₃.buf.length) p₃
  have e2 := bpos (B := s₂.buf.length) p₂
  rw [abs_le]
  constructor <;> linarith

/-- From 12 Hz to 8 Hz and then to 6 Hz. -/
example := C117_near 10 7 10 (exSlots 6 8) exMid (exSlots 4 6) _ (exSlots 4 6) _ (.audio exNine) _ _ _ rfl
  (R.returns₂ (x := (exSlots 6 8).stream 10 (.audio exNine)) (by decide +kernel))
  (R.returns₂ (x := (exSlots 4 6).stream 7 (.audio ⟨lit 8, exMid.buf⟩)) (by decide +kernel))
  (R.returns₂ (x := (exSlots 4 6).stream 10 (.audio exNine)) (by decide +kernel)) rfl rfl rfl
  (binary64.rnd (2 / 3)) (3 / 4) (1 / 2) (by decide +kernel) (by decide +kernel) (by decide +kernel)
  (by decide +kernel) (by decide +kernel) (by decide +kernel) (by decide +kernel) (by decide +kernel) (by decide +kernel)
  (by decide +kernel) (by decide +kernel) (by decide +kernel) (by decide +kernel) 0 (by decide)
  (.inr (.inl rfl)) exNineVal (by
    intro j
    match j with
    | 0 | 1 | 2 | 3 | 4 | 5 | 6 | 7 | 8 => decide +kernel
    | j + 9 => simp [exNineVal]) (by
    intro j f hf x hx
    match j with
    | 0 | 1 | 2 | 3 | 4 | 5 | 6 | 7 | 8 => cases hf; cases hx; decide +kernel
    | j + 9 => cases hf) 1 (by decide +kernel) (by decide +kernel) (by decide)
  (-1 / 4) (3 / 4) (by norm_num) (by norm_num) (by
    intro j
    match j with
    | 0 | 1 | 2 | 3 | 4 | 5 | 6 | 7 | 8 => decide +kernel
    | j + 9 => intro _; simp [exNineVal]; norm_num)

end Fon
