import Verif.Props.TwoStep
import Verif.Props.RoundTrip
import Verif.Props.Upmix

/-!
# C117 for higher rates
-/

namespace Fon
open Fon.Fl hiding min max
open Fon.Fmt Fon.Sink
variable {k k' : Kind} {c c' : ChTy}

theorem rel_nat {f : Fmt} {p : ℚ} (h : f.Gen p) (N : ℕ) : |f.rnd (p * N) - p * N| ≤ |p * N| * f.u := by
  obtain ⟨m, hm⟩ := gen_mult h
  exact rel_err (m * N) (by rw [hm]; push_cast; ring)

theorem gen_pow {f : Fmt} {p : ℚ} (h : f.Gen p) (m : ℕ) : f.Gen (p * ((2 ^ m : ℕ) : ℚ)) := by
  obtain ⟨n, e, h1, h2, h3⟩ := h
  refine ⟨n, e + m, h1, by omega, ?_⟩
  rw [h3, zpow_add₀ (by norm_num)]
  push_cast
  rw [zpow_natCast]; ring

/-- A number that is multiplied by `N`, rounded and clamped, and then by `M`, or by `N * M` at once. -/
theorem boost_twice {f : Fmt} [Std f] {p : ℚ} (hp : f.Rep p) {N M : ℕ} (hN : 1 ≤ N) (hM : 1 ≤ M) :
    |clampQ (f.rnd (clampQ (f.rnd (p * N)) * M)) - clampQ (f.rnd (p * (N * M : ℕ)))| ≤ 8 * f.u ∧
    (∀ m, N = 2 ^ m → clampQ (f.rnd (clampQ (f.rnd (p * N)) * M)) = clampQ (f.rnd (p * (N * M : ℕ)))) := by
  -- positive numbers are enough
  have pos : ∀ p : ℚ, f.Rep p → 0 ≤ p →
      |clampQ (f.rnd (clampQ (f.rnd (p * N)) * M)) - clampQ (f.rnd (p * (N * M : ℕ)))| ≤ 8 * f.u ∧
      (∀ m, N = 2 ^ m → clampQ (f.rnd (clampQ (f.rnd (p * N)) * M)) = clampQ (f.rnd (p * (N * M : ℕ)))) := by
    intro p hp h0
    have hu := u_pos (f := f)
    have hu1 : f.u ≤ 1 / 4 := (u_le (f := f)).trans (by norm_num)
    have hNq : (1:ℚ) ≤ N := by exact_mod_cast hN
    have hMq : (1:ℚ) ≤ M := by exact_mod_cast hM
    have big : ∀ q : ℚ, 1 ≤ q → clampQ (f.rnd q) = 1 := by
      intro q hq
      have : (1:ℚ) ≤ f.rnd q := le_rnd_of_gen rep_one.gen hq
      unfold clampQ; rw [min_eq_left this]; norm_num
    rw [Nat.cast_mul, ← mul_assoc]
    rcases le_or_gt 1 (p * N) with h | h
    · have e : clampQ (f.rnd (clampQ (f.rnd (p * N)) * M)) = clampQ (f.rnd (p * N * M)) := by
        rw [big _ h, one_mul, big _ hMq, big _ (by nlinarith)]
      exact ⟨by rw [e, sub_self, abs_zero]; positivity, fun _ _ => e⟩
    · have hpn : 0 ≤ p * N := by positivity
      have a0 : 0 ≤ f.rnd (p * N) := rnd_nonneg hpn
      have a1 : f.rnd (p * N) ≤ 1 := rnd_le_of_gen rep_one.gen h.le
      rw [clampQ_of_range (by linarith) a1]
      refine ⟨?_, fun m hm => ?_⟩
      · have r1 := rel_nat hp.gen N
        have r2 := rel_nat (gen_rnd (f := f) (p * N)) M
        rw [abs_of_nonneg hpn] at r1
        rw [abs_of_nonneg (mul_nonneg a0 (by linarith))] at r2
        obtain ⟨m, hm⟩ := gen_mult hp.gen
        have r3 := rel_err (f := f) (q := p * N * M) (m * N * M) (by rw [hm]; push_cast; ring)
        rw [abs_of_nonneg (mul_nonneg hpn (by linarith))] at r3
        have r4 : |f.rnd (p * N) * M - p * N * M| ≤ p * N * M * f.u := by
          rw [← sub_mul, abs_mul, abs_of_nonneg (show (0:ℚ) ≤ M by linarith)]
          calc _ ≤ p * N * f.u * M := mul_le_mul_of_nonneg_right r1 (by linarith)
            _ = _ := by ring
        rcases le_or_gt (p * N * M) 2 with ht | ht
        · have b1 : f.rnd (p * N) * M ≤ 5 / 2 := by
            have := (abs_le.mp r4).2
            nlinarith
          have t1 : f.rnd (p * N) * M * f.u ≤ 5 / 2 * f.u := mul_le_mul_of_nonneg_right b1 hu.le
          have t2 : p * N * M * f.u ≤ 2 * f.u := mul_le_mul_of_nonneg_right ht hu.le
          refine (clampQ_lip _ _).trans ?_
          have s1 := abs_le.mp r2
          have s2 := abs_le.mp r3
          have s3 := abs_le.mp r4
          exact abs_le.mpr ⟨by linarith [s1.1, s2.2, s3.1], by linarith [s1.2, s2.1, s3.2]⟩
        · have b1 : 1 ≤ f.rnd (p * N) * M := by
            have := (abs_le.mp r4).1
            nlinarith
          rw [big _ b1, big _ (by linarith), sub_self, abs_zero]; positivity
      · subst hm
        rw [rnd_of_gen (gen_pow hp.gen m)]
  rcases le_total 0 p with h | h
  · exact pos p hp h
  · have hn : f.Rep (-p) := hp.neg
    obtain ⟨h1, h2⟩ := pos (-p) hn (by linarith)
    simp only [neg_mul, rnd_neg, clampQ_neg] at h1 h2
    refine ⟨?_, fun m hm => ?_⟩
    · rwa [← neg_sub_neg, abs_sub_comm]
    · exact neg_injective (h2 m hm)

theorem twice_val {x y z m : c.T} {N M : ℕ} {w : ℚ} (hN : 1 ≤ N) (hM : 1 ≤ M) (hx : val c x w) (h1 : Boosted N c x m)
    (h2 : Boosted M c m y) (h3 : Boosted (N * M) c x z) :
    ∃ a d : ℚ, SampleVal c y a ∧ SampleVal c z d ∧ |a - d| ≤ 2 * mixErr c ∧
      (c = .ch8 ∨ c = .ch16 ∨ (∃ e, N = 2 ^ e) → a = d) := by
  cases c with
  | ch8 =>
    cases h1; cases h2; cases h3
    exact ⟨_, _, of_val hx, of_val hx, by rw [sub_self, abs_zero]; unfold mixErr; norm_num, fun _ => rfl⟩
  | ch16 =>
    cases h1; cases h2; cases h3
    exact ⟨_, _, of_val hx, of_val hx, by rw [sub_self, abs_zero]; unfold mixErr; norm_num, fun _ => rfl⟩
  | ch32 =>
    obtain ⟨b1, b2⟩ := boost_twice (f := binary32) hx.1.rep hN hM
    refine ⟨_, _, h2 _ (h1 w hx.1 hx.2) (abs_le.mpr (clampQ_range _)), h3 w hx.1 hx.2, ?_, ?_⟩
    · refine b1.trans ?_
      unfold mixErr
      have : binary32.u = 2 ^ (-24:ℤ) := by decide +kernel
      rw [this]; norm_num
    · rintro (h | h | ⟨e, h⟩)
      · cases h
      · cases h
      · exact b2 e h
  | ch64 =>
    obtain ⟨b1, b2⟩ := boost_twice (f := binary64) hx.1.rep hN hM
    refine ⟨_, _, h2 _ (h1 w hx.1 hx.2) (abs_le.mpr (clampQ_range _)), h3 w hx.1 hx.2, ?_, ?_⟩
    · refine b1.trans ?_
      unfold mixErr
      have : binary64.u = 2 ^ (-53:ℤ) := by decide +kernel
      rw [this]; norm_num
    · rintro (h | h | ⟨e, h⟩)
      · cases h
      · cases h
      · exact b2 e h

/-- C117 for higher rates: upsampling by the factor `N` and then by `M` gives what upsampling by `N * M` at once gives, up to
rounding.  In the integer formats, and if `N` is a power of two, there is no difference. -/
theorem C117_up (f₁ f₂ f₃ N M : Nat) (s₁ s₁' s₂ s₂' s₃ s₃' : Sink k c) (st : Src k' c') (it₁ it₃ : It k' c') (it₂ : It k c)
    (hk : k.builtin = true) (h₁ : s₁.stream f₁ st = .ok (s₁', it₁))
    (h₂ : s₂.stream f₂ (.audio ⟨s₁.rate, s₁'.buf⟩) = .ok (s₂', it₂)) (h₃ : s₃.stream f₃ st = .ok (s₃', it₃))
    (o₁ : s₁.res.offseti = lit 0) (o₂ : s₂.res.offseti = lit 0) (o₃ : s₃.res.offseti = lit 0)
    (q₁ : (ratioOf s₁.rate st.rate).Is (N:ℚ)) (q₂ : (ratioOf s₂.rate (some s₁.rate)).Is (M:ℚ))
    (q₃ : (ratioOf s₃.rate st.rate).Is ((N * M : ℕ):ℚ)) (hN : 1 ≤ N) (hM : 1 ≤ M) (hNM : N * M ≤ 2 ^ 24)
    (b₁ : s₁.buf.length ≤ 2 ^ 52) (b₂ : s₂.buf.length ≤ 2 ^ 52) (b₃ : s₃.buf.length ≤ 2 ^ 52)
    (hin : ∀ y, y < s₁.buf.length → InDst (ratioOf s₁.rate st.rate) st.len s₁.buf.length y)
    (hv : ∀ j f, st.nth j = .ok (some f) → ∀ x : Frame k c, f.convert c = .ok x → x.InRange) (x : Nat)
    (hx₂ : InDst (ratioOf s₂.rate (some s₁.rate)) (some s₁.buf.length) s₂.buf.length x)
    (hx₃ : InDst (ratioOf s₃.rate st.rate) st.len s₃.buf.length x) :
    ∃ y z : Frame k c, s₂'.buf[x]? = some y ∧ s₃'.buf[x]? = some z ∧ ∀ i (hi : i < k.chans),
      ∃ a d : ℚ, SampleVal c y[i] a ∧ SampleVal c z[i] d ∧ |a - d| ≤ 2 * mixErr c ∧
        (c = .ch8 ∨ c = .ch16 ∨ (∃ e, N = 2 ^ e) → a = d) := by
  have hlen : s₁'.buf.length = s₁.buf.length := (C36_stream f₁ s₁ s₁' st it₁ h₁).1
  have hx' : InDst (ratioOf s₂.rate (Src.audio ⟨s₁.rate, s₁'.buf⟩ : Src k c).rate)
      (Src.audio ⟨s₁.rate, s₁'.buf⟩ : Src k c).len s₂.buf.length x := by
    show InDst _ (some s₁'.buf.length) _ _
    rw [hlen]; exact hx₂
  have hN24 : N ≤ 2 ^ 24 := le_trans (Nat.le_mul_of_pos_right _ (by omega)) hNM
  have hM24 : M ≤ 2 ^ 24 := le_trans (Nat.le_mul_of_pos_left _ (by omega)) hNM
  have hε := (mixLaw c).nonneg
  obtain ⟨y, y1, y2, y3⟩ := C78_actual f₂ M s₂ s₂' _ it₂ h₂ o₂ q₂ hM hM24 b₂ x hx'
  obtain ⟨z, z1, z2, z3⟩ := C78_actual f₃ (N * M) s₃ s₃' st it₃ h₃ o₃ q₃ (Nat.mul_pos hN hM) hNM b₃ x hx₃
  refine ⟨y, z, y1, z1, fun i hi => ?_⟩
  have silent : SampleVal c (Frame.dflt : Frame k c)[i] 0 := by rw [dflt_get]; exact of_val (mixLaw c).dflt
  by_cases hd : M ∣ x
  · obtain ⟨g, g', e1, e2, e3⟩ := y3 hd
    have e1' : s₁'.buf[x / M]? = some g := by injection e1
    rw [C21_id hk] at e2
    cases e2
    have hlt : x / M < s₁.buf.length := by rw [← hlen]; exact (List.getElem?_eq_some_iff.mp e1').1
    obtain ⟨m, m1, m2, m3⟩ := C78_actual f₁ N s₁ s₁' st it₁ h₁ o₁ q₁ hN hN24 b₁ (x / M) (hin _ hlt)
    rw [e1'] at m1
    cases m1
    by_cases hd' : N ∣ x / M
    · have hdd : N * M ∣ x := by
        obtain ⟨a, ha⟩ := hd'
        exact ⟨a, by rw [mul_assoc, mul_comm M a, ← mul_assoc, ← ha, Nat.div_mul_cancel hd]⟩
      obtain ⟨src, fr, t1, t2, t3⟩ := m3 hd'
      obtain ⟨src', fr', u1, u2, u3⟩ := z3 hdd
      rw [mul_comm N M, ← Nat.div_div_eq_div_mul, t1] at u1
      cases u1
      rw [t2] at u2
      cases u2
      obtain ⟨w, hw⟩ := inRange_val (hv _ _ t1 _ t2) hi
      exact twice_val hN hM hw (t3 i hi) (e3 i hi) (u3 i hi)
    · have hdd : ¬ N * M ∣ x := fun ⟨a, ha⟩ => hd' ⟨a, by
        rw [ha, mul_comm N M, mul_assoc, Nat.mul_div_cancel_left _ (by omega)]⟩
      have hz := z2 hdd
      have hg := m2 hd'
      subst hz hg
      have hyv : SampleVal c y[i] 0 := by
        have := e3 i hi
        rw [dflt_get] at this
        have hd0 := (mixLaw c).dflt
        cases c with
        | ch8 => rw [this]; exact of_val hd0
        | ch16 => rw [this]; exact of_val hd0
        | ch32 =>
          have := this 0 hd0.1 hd0.2
          rw [zero_mul, rnd_zero, clampQ_of_range (by norm_num) (by norm_num)] at this
          exact this
        | ch64 =>
          have := this 0 hd0.1 hd0.2
          rw [zero_mul, rnd_zero, clampQ_of_range (by norm_num) (by norm_num)] at this
          exact this
      exact ⟨0, 0, hyv, silent, by rw [sub_self, abs_zero]; linarith, fun _ => rfl⟩
  · have hdd : ¬ N * M ∣ x := fun h => hd ((Nat.dvd_mul_left M N).trans h)
    have hy := y2 hd
    have hz := z2 hdd
    subst hy hz
    exact ⟨0, 0, silent, silent, by rw [sub_self, abs_zero]; linarith, fun _ => rfl⟩

/-- Eighteen slots at 48 Hz. -/
def exSixfold : Sink .mono .ch64 := ⟨lit 48, Resampler.dflt, List.replicate 18 #v[lit 0]⟩

example := C117_up 6 9 6 2 3 exFast _ exSixfold _ exSixfold _ (.audio exSlow) _ _ _ rfl
  (R.returns₂ (x := exFast.stream 6 (.audio exSlow)) (by decide +kernel))
  (R.returns₂ (x := exSixfold.stream 9 (.audio ⟨exFast.rate, (R.out (exFast.stream 6 (.audio exSlow)) (by decide +kernel)).1.buf⟩))
    (by decide +kernel))
  (R.returns₂ (x := exSixfold.stream 6 (.audio exSlow)) (by decide +kernel)) rfl rfl rfl
  (by decide +kernel) (by decide +kernel) (by decide +kernel) (by norm_num) (by norm_num) (by norm_num)
  (by decide +kernel) (by decide +kernel) (by decide +kernel) (by decide +kernel) (by
    intro j f hf x hx
    match j with
    | 0 | 1 | 2 => cases hf; cases hx; decide +kernel
    | j + 3 => cases hf) 6 (by decide +kernel) (by decide +kernel)

/-- C117 is false for other factors above 1, by far: from 4 to 6 to 9 Hz a single frame comes out in other slots than from
4 to 9 Hz. -/
theorem C117_up_false :
    ((⟨lit 6, .dflt, List.replicate 4 #v[0#8]⟩ : Sink .mono .ch8).stream 9
      (.audio (k := .mono) (c := .ch8) ⟨lit 4, [#v[0#8], #v[64#8], #v[0#8]]⟩)).map (fun r => r.1.buf) =
      .ok [#v[0#8], #v[64#8], #v[31#8], #v[0#8]] ∧
    ((⟨lit 9, .dflt, List.replicate 6 #v[0#8]⟩ : Sink .mono .ch8).stream 9
      (.audio (k := .mono) (c := .ch8) ⟨lit 6, [#v[0#8], #v[64#8], #v[31#8], #v[0#8]]⟩)).map (fun r => r.1.buf) =
      .ok [#v[0#8], #v[64#8], #v[31#8], #v[31#8], #v[0#8], #v[0#8]] ∧
    ((⟨lit 9, .dflt, List.replicate 6 #v[0#8]⟩ : Sink .mono .ch8).stream 9
      (.audio (k := .mono) (c := .ch8) ⟨lit 4, [#v[0#8], #v[64#8], #v[0#8]]⟩)).map (fun r => r.1.buf) =
      .ok [#v[0#8], #v[0#8], #v[64#8], #v[15#8], #v[0#8], #v[0#8]] := by
  refine ⟨?_, ?_, ?_⟩ <;> decide +kernel

end Fon
