import Verif.Props.MixOrder

/-!
# C140: changing the volume before or after resampling
-/

namespace Fon
open Fon.Fl hiding min max
open Fon.Fmt Fon.Sink
variable {k k' : Kind} {c c' : ChTy}

theorem tdiv_near {a b M : ℤ} (hM : 0 < M) : |((a * b).tdiv M : ℚ) / M - (a:ℚ) / M * (b / M)| ≤ 1 / M := by
  have hMq : (0:ℚ) < M := by exact_mod_cast hM
  have h1 := Int.tdiv_mul_add_tmod (a * b) M
  have h2 : |(a * b).tmod M| < M := by
    have := Int.natAbs_tmod (a * b) M
    have h5 : (a * b).natAbs % M.natAbs < M.natAbs := Nat.mod_lt _ (by omega)
    rw [Int.abs_eq_natAbs, this]
    omega
  have h3 : (((a * b).tdiv M : ℤ) : ℚ) * M + ((a * b).tmod M : ℤ) = a * b := by exact_mod_cast h1
  have h4 : |(((a * b).tmod M : ℤ) : ℚ)| ≤ M := by exact_mod_cast h2.le
  have e : ((a * b).tdiv M : ℚ) / M - (a:ℚ) / M * (b / M) = -(((a * b).tmod M : ℤ) : ℚ) / M / M := by
    rw [div_mul_div_comm, ← h3]; field_simp; ring
  rw [e, abs_div, abs_div, abs_neg, abs_of_pos hMq]
  exact div_le_div_of_nonneg_right ((div_le_one hMq).mpr h4) hMq.le

theorem clampZ_near {M s : ℤ} (h : |s| ≤ M + 1) (hM : 0 < M) : |(clampZ (-M - 1) M s : ℚ) / M - (s:ℚ) / M| ≤ 1 / M := by
  have hMq : (0:ℚ) < M := by exact_mod_cast hM
  rw [← sub_div, abs_div, abs_of_pos hMq]
  refine div_le_div_of_nonneg_right ?_ hMq.le
  have : |clampZ (-M - 1) M s - s| ≤ 1 := by
    rw [abs_le] at h ⊢
    unfold clampZ; omega
  exact_mod_cast this

theorem tdiv_abs_le {s M K : ℤ} (hM : 0 < M) (h : |s| ≤ K * M) : |s.tdiv M| ≤ K := by
  have h1 : |s.tdiv M| = |s| / M := by
    have := Int.natAbs_tdiv s M
    have e1 : |s.tdiv M| = ((s.tdiv M).natAbs : ℤ) := Int.abs_eq_natAbs _
    have e2 : |s| = (s.natAbs : ℤ) := Int.abs_eq_natAbs _
    rw [e1, e2, this]
    have e3 : M = (M.natAbs : ℤ) := (Int.natAbs_of_nonneg hM.le).symm
    rw [e3, Int.natAbs_natCast]; norm_cast
  rw [h1]
  exact Int.ediv_le_of_le_mul hM h

theorem int_mul {a b M : ℤ} {u v : ℚ} (hM : 0 < M) (ha : |a| ≤ M + 1) (hu : u = (a:ℚ) / M) (hv : v = (b:ℚ) / M) (hv1 : |v| ≤ 1) :
    |(clampZ (-M - 1) M ((a * b).tdiv M) : ℚ) / M - u * v| ≤ 2 / M ∧
      (|u| ≤ 1 → |(clampZ (-M - 1) M ((a * b).tdiv M) : ℚ) / M| ≤ 1) := by
  have hMq : (0:ℚ) < M := by exact_mod_cast hM
  have hb : |b| ≤ M := by
    rw [hv, abs_div, abs_of_pos hMq, div_le_one hMq] at hv1
    exact_mod_cast hv1
  have hab : |a * b| ≤ (M + 1) * M := by
    rw [abs_mul]; exact mul_le_mul ha hb (abs_nonneg _) (by omega)
  refine ⟨?_, fun hu1 => ?_⟩
  · have h1 := clampZ_near (tdiv_abs_le hM hab) hM
    have h2 := tdiv_near (a := a) (b := b) hM
    rw [hu, hv]
    have h3 := abs_sub_le ((clampZ (-M - 1) M ((a * b).tdiv M) : ℚ) / M) (((a * b).tdiv M : ℚ) / M) ((a:ℚ) / M * (b / M))
    have e : (2:ℚ) / M = 1 / M + 1 / M := by ring
    rw [e]; linarith
  · have ha' : |a| ≤ M := by
      rw [hu, abs_div, abs_of_pos hMq, div_le_one hMq] at hu1
      exact_mod_cast hu1
    have hab : |a * b| ≤ M * M := by
      rw [abs_mul]; exact mul_le_mul ha' hb (abs_nonneg _) (by omega)
    have h1 := abs_le.mp (tdiv_abs_le hM hab)
    rw [abs_div, abs_of_pos hMq, div_le_one hMq]
    have : |clampZ (-M - 1) M ((a * b).tdiv M)| ≤ M := by
      rw [abs_le]; unfold clampZ; omega
    exact_mod_cast this

/-- The product of two samples in terms of their values. -/
theorem mul_val {x y : c.T} {u v : ℚ} (hx : SampleVal c x u) (hy : SampleVal c y v) (vx : Valid c x) (hv : |v| ≤ 1) :
    ∃ m, SampleVal c (c.mul x y) m ∧ |m - u * v| ≤ mixErr c ∧ (|u| ≤ 1 → |m| ≤ 1) := by
  cases c
  · have hu' : u = (BitVec.toInt x : ℚ) / (127 : ℤ) := by rw [show u = _ from hx]; norm_num
    have hv' : v = (BitVec.toInt y : ℚ) / (127 : ℤ) := by rw [show v = _ from hy]; norm_num
    refine ⟨_, rfl, ?_, fun hu => ?_⟩
    · rw [C02_ch8 x y |>.2]
      exact (int_mul (by norm_num) (by have := i8_range x; rw [abs_le]; omega) hu' hv' hv).1.trans (by norm_num [mixErr])
    · rw [C02_ch8 x y |>.2]
      exact (int_mul (by norm_num) (by have := i8_range x; rw [abs_le]; omega) hu' hv' hv).2 hu
  · have hu' : u = (BitVec.toInt x : ℚ) / (32767 : ℤ) := by rw [show u = _ from hx]; norm_num
    have hv' : v = (BitVec.toInt y : ℚ) / (32767 : ℤ) := by rw [show v = _ from hy]; norm_num
    refine ⟨_, rfl, ?_, fun hu => ?_⟩
    · rw [C02_ch16 x y |>.2]
      exact (int_mul (by norm_num) (by have := i16_range x; rw [abs_le]; omega) hu' hv' hv).1.trans (by norm_num [mixErr])
    · rw [C02_ch16 x y |>.2]
      exact (int_mul (by norm_num) (by have := i16_range x; rw [abs_le]; omega) hu' hv' hv).2 hu
  all_goals
    obtain ⟨m, m1, m2⟩ := C69_mul vx (valid_of hy hv) hx hy
    obtain ⟨q, q1, q2⟩ := vx.mul (valid_of hy hv)
    refine ⟨m, m1, ?_, fun _ => ?_⟩
    · have : 4 * ulp .ch32 ≤ mixErr .ch32 ∧ 4 * ulp .ch64 ≤ mixErr .ch64 := by norm_num [ulp, mixErr]
      linarith [this.1, this.2]
    · rw [Is.unique m1 q1]; exact abs_le.mpr q2

theorem scale_near {p U E v : ℚ} (h : |p - U| ≤ E) (hv : |v| ≤ 1) : |p * v - U * v| ≤ E := by
  rw [← sub_mul, abs_mul]
  exact (mul_le_of_le_one_right (abs_nonneg _) hv).trans h

/-- Frames of an amplified stream. -/
theorem amplify_nth {sa : Src k c} {f g : Frame k c} {j : Nat} (hk : k.builtin = true)
    (h : (Src.blend sa (.frame g) .amplify).nth j = .ok (some f)) : ∃ x, sa.nth j = .ok (some x) ∧ f = x.mul g := by
  unfold Src.nth at h
  cases ha : sa.nth j with
  | error e => rw [ha] at h; cases h
  | ok o => cases o with
    | none => rw [ha] at h; cases h
    | some x =>
      refine ⟨x, rfl, ?_⟩
      rw [ha] at h
      simp only [Src.nth, bind, Except.bind, C21_id hk, (C26_meaning x g).2.2.2.2, pure, Except.pure] at h
      injection h with h
      injection h with h
      exact h.symm

/-- Values of the frames of an amplified stream. -/
theorem amplify_values (hk : k.builtin = true) (sa : Src k c) (g : Frame k c) (i : Nat) (hi : i < k.chans) (u : Nat → ℚ) (v : ℚ)
    (hu : ∀ j f, sa.nth j = .ok (some f) → SampleVal c f[i] (u j) ∧ |u j| ≤ 1) (hg : SampleVal c g[i] v) (hv : |v| ≤ 1) :
    ∃ z : Nat → ℚ, (∀ j, |z j - u j * v| ≤ mixErr c) ∧
      ∀ j f, (Src.blend sa (.frame g) .amplify).nth j = .ok (some f) → SampleVal c f[i] (z j) ∧ |z j| ≤ 1 := by
  have : ∀ j, ∃ z : ℚ, |z - u j * v| ≤ mixErr c ∧
      ∀ f, (Src.blend sa (.frame g) .amplify).nth j = .ok (some f) → SampleVal c f[i] z ∧ |z| ≤ 1 := by
    intro j
    by_cases h : ∃ f, (Src.blend sa (.frame g) .amplify).nth j = .ok (some f)
    · obtain ⟨f, hf⟩ := h
      obtain ⟨x, h1, rfl⟩ := amplify_nth hk hf
      obtain ⟨a1, a2⟩ := hu j x h1
      obtain ⟨m, m1, m2, m3⟩ := mul_val a1 hg (valid_of a1 a2) hv
      refine ⟨m, m2, fun f hf' => ?_⟩
      rw [hf] at hf'
      cases hf'
      exact ⟨by simpa [Frame.mul] using m1, m3 a2⟩
    · exact ⟨u j * v, by rw [sub_self, abs_zero]; exact (mixErr_pos c).le, fun f hf => absurd ⟨f, hf⟩ h⟩
  choose z h1 h2 using this
  exact ⟨z, h1, h2⟩

/-- C140, downsampling (whole rates): resampling a stream whose volume is changed gives the resampled stream with its volume
changed, up to the errors of C59. -/
theorem C140_down (hk : k.builtin = true) {rate sr : F64} {dst src l : Nat} (hr : rate.Is (dst:ℚ)) (hs : sr.Is (src:ℚ))
    (h0 : 0 < src) (hd0 : 0 < dst) (hs' : src ≤ 2 ^ 51) (hle : dst ≤ src) (hN : dst * l < 2 ^ 51)
    (hB : dst * l + 2 * src ≤ dst * 2 ^ 51) {sa : Src k c} (hla : sa.len = some l) (hra : sa.rate = some sr)
    {g : Frame k c} {b ya : Audio k c} (h : Audio.withStream rate (.blend sa (.frame g) .amplify) = .ok b)
    (ha : Audio.withStream rate sa = .ok ya) {i : Nat} (hi : i < k.chans) {u : Nat → ℚ} {v : ℚ}
    (hu : ∀ j f, sa.nth j = .ok (some f) → SampleVal c f[i] (u j) ∧ |u j| ≤ 1) (hg : SampleVal c g[i] v) (hv : |v| ≤ 1) :
    ya.len = b.len ∧ ∀ x, x < b.len → ∃ (f m : Frame k c) (p q : ℚ), b.get x = some f ∧
      (Src.blend (.audio ya) (.frame g) .amplify).nth x = .ok (some m) ∧ SampleVal c f[i] p ∧ SampleVal c m[i] q ∧
      |p - q| ≤ 2 * ((mixErr c + 5 * 2 ^ (-53 : ℤ) + 2 * ((b.len + 1) * 2 ^ (-53 : ℤ))) *
        (1 / binary64.rnd ((dst:ℚ) / src) + 3)) + 2 * mixErr c := by
  have hl52 : l ≤ 2 ^ 53 := by
    have := Nat.le_mul_of_pos_left l hd0
    omega
  have hlab : (Src.blend sa (.frame g) .amplify).len = some l := by simp [Src.len, hla]
  have k0 := C49_partial rate sr dst src l hr hs h0 (by omega) hl52 hs' _ hlab hra b h
  have k1 := C49_partial rate sr dst src l hr hs h0 (by omega) hl52 hs' sa hla hra ya ha
  have e1 : ya.frames.length = b.frames.length := k1.trans k0.symm
  refine ⟨e1, ?_⟩
  obtain ⟨z, z1, z2⟩ := amplify_values hk sa g i hi u v hu hg hv
  obtain ⟨n, t0, _, _, s0⟩ := C89_partial rate sr dst src l hr hs h0 hd0 hs' hle hN hB _ hlab hra b h i hi z
    (fun j f hf x hx => by rw [C21_id hk] at hx; cases hx; exact z2 j f hf)
  obtain ⟨n1, t1, _, _, s1⟩ := C89_partial rate sr dst src l hr hs h0 hd0 hs' hle hN hB sa hla hra ya ha i hi u
    (fun j f hf x hx => by rw [C21_id hk] at hx; cases hx; exact hu j f hf)
  rw [e1] at t1 s1
  cases takes_unique t1 t0
  intro x hx
  obtain ⟨f, f1, f2⟩ := s0 x hx
  obtain ⟨y, g1, g2⟩ := s1 x hx
  have hr0 : (0:ℚ) ≤ binary64.rnd ((dst:ℚ) / src) := by
    have := Fmt.rnd_mono (f := binary64) (show (0:ℚ) ≤ (dst:ℚ) / src by positivity)
    rwa [Fmt.rnd_zero] at this
  have hE : 0 ≤ (mixErr c + 5 * 2 ^ (-53 : ℤ) + 2 * ((b.len + 1) * 2 ^ (-53 : ℤ))) *
      (1 / binary64.rnd ((dst:ℚ) / src) + 3) := by
    have := mixErr_pos c
    have := two_zpow_pos (-53)
    positivity
  have hnth : (Src.blend (.audio ya) (.frame g) .amplify).nth x = .ok (some (y.mul g)) := by
    simp only [Src.nth, g1, bind, Except.bind, C21_id hk, (C26_meaning y g).2.2.2.2, pure, Except.pure]
  have hv1 := (frame_inRange_iff _).mp (C43_withStream rate ya sa ha x y g1) i hi
  refine ⟨f, y.mul g, ?_⟩
  split at f2
  · rename_i hc
    rw [if_pos hc] at g2
    have hdf : SampleVal c (Frame.dflt : Frame k c)[i] 0 := by
      simpa [Frame.dflt] using of_val (mixLaw c).dflt
    have hy0 : SampleVal c y[i] 0 := by rw [g2.2]; exact hdf
    obtain ⟨m, m1, m2, -⟩ := mul_val hy0 hg hv1 hv
    refine ⟨0, m, f1, hnth, ?_, by simpa [Frame.mul] using m1, ?_⟩
    · rw [f2.2]; exact hdf
    · rw [zero_mul, sub_zero] at m2
      rw [zero_sub, abs_neg]; linarith [mixErr_pos c]
  · rename_i hc
    rw [if_neg hc] at g2
    obtain ⟨p, p1, p2⟩ := f2
    obtain ⟨p', p1', p2'⟩ := g2
    have hS := sum_share_le hr0 n x
    have hnn : ∀ j, j < n → 0 ≤ overlap (binary64.rnd ((dst:ℚ) / src) * j - binary64.rnd ((dst:ℚ) / src))
      (binary64.rnd ((dst:ℚ) / src) * j) (x - 1) x := fun j _ => overlap_nonneg _ _ _ _
    have hd := weighted_near hnn hS (mixErr_pos c).le (fun j _ => z1 j)
    have hsum : ∀ o : Nat → ℚ, ∑ j ∈ Finset.range n, (u j * v) * o j = (∑ j ∈ Finset.range n, u j * o j) * v := by
      intro o
      rw [Finset.sum_mul]
      exact Finset.sum_congr rfl (fun j _ => by ring)
    rw [hsum] at hd
    obtain ⟨m, m1, m2, -⟩ := mul_val p1' hg hv1 hv
    refine ⟨p, m, f1, hnth, p1, by simpa [Frame.mul] using m1, ?_⟩
    have t1 := scale_near p2' hv
    simp only [Audio.len] at *
    rw [abs_le] at *
    constructor <;> linarith

example := C140_down (k := .mono) (c := .ch8) rfl (dst := 1) (src := 2) (l := 4) (sr := lit 2) (by decide +kernel)
  (by decide +kernel) (by decide) (by decide) (by decide) (by decide) (by decide) (by decide) (sa := .audio exMixA) rfl rfl
  (R.returns (x := (Audio.withStream (lit 1) (.blend (.audio exMixA) (.frame (k := .mono) (c := .ch8) #v[60#8]) .amplify) : R (Audio .mono .ch8)))
    (by decide +kernel))
  (R.returns (x := (Audio.withStream (lit 1) (.audio exMixA) : R (Audio .mono .ch8))) (by decide +kernel)) (i := 0)
  (by decide) (u := fun j => if j = 1 then 20 / 127 else if j = 2 then -50 / 127 else 0) (v := 60 / 127) (by
    intro j f hf
    match j with
    | 0 | 1 | 2 | 3 => cases hf; norm_num [SampleVal, abs_le, BitVec.toInt]
    | j + 4 => cases hf) (by decide +kernel) (by norm_num [abs_le])

/-- C140, upsampling (whole rates): the same, if the stream is quiet enough not to clip when it is resampled. -/
theorem C140_up (hk : k.builtin = true) {rate sr : F64} {dst src l : Nat} (hr : rate.Is (dst:ℚ)) (hs : sr.Is (src:ℚ))
    (h0 : 0 < src) (hs' : src ≤ 2 ^ 50) (hd' : dst ≤ 2 ^ 51) (hle : src ≤ dst) (h20 : dst ≤ 2 ^ 20 * src)
    (hN : dst * l < 2 ^ 51) {sa : Src k c} (hla : sa.len = some l) (hra : sa.rate = some sr)
    {g : Frame k c} {b ya : Audio k c} (h : Audio.withStream rate (.blend sa (.frame g) .amplify) = .ok b)
    (ha : Audio.withStream rate sa = .ok ya) {i : Nat} (hi : i < k.chans) {u : Nat → ℚ} {v r : ℚ}
    (hr' : r = binary64.rnd ((dst:ℚ) / src))
    (hu : ∀ j f, sa.nth j = .ok (some f) → SampleVal c f[i] (u j)) (hu' : ∀ j, |u j| * (r + 1) ≤ 1)
    (hg : SampleVal c g[i] v) (hv : |v| ≤ 1) :
    ya.len = b.len ∧ ∀ x, x < b.len → ∃ (f m : Frame k c) (p q : ℚ), b.get x = some f ∧
      (Src.blend (.audio ya) (.frame g) .amplify).nth x = .ok (some m) ∧ SampleVal c f[i] p ∧ SampleVal c m[i] q ∧
      |p - q| ≤ mixErr c * (3 * r + 12) := by
  have hd0 : 0 < dst := by omega
  have hsq : (0:ℚ) < src := by exact_mod_cast h0
  have hr1 : 1 ≤ r := by
    have e0 : binary64.rnd 1 = 1 := Fmt.rnd_of_rep (by simpa using rep_nat53 (n := 1) (by norm_num))
    rw [hr', ← e0]
    refine Fmt.rnd_mono ?_
    rw [le_div_iff₀ hsq, one_mul]; exact_mod_cast hle
  have hr20 : r ≤ 2 ^ 20 := by
    have e0 : binary64.rnd (2 ^ 20) = 2 ^ 20 := Fmt.rnd_of_rep (by exact_mod_cast rep_nat53 (n := 2 ^ 20) (by norm_num))
    rw [hr', ← e0]
    refine Fmt.rnd_mono ?_
    rw [div_le_iff₀ hsq]; exact_mod_cast h20
  have hle1 : ∀ t : ℚ, |t| * (r + 1) ≤ 1 → |t| ≤ 1 := fun t ht => by nlinarith [abs_nonneg t]
  have hleW : ∀ t : ℚ, |t| * (r + 1) ≤ 1 → |t| ≤ 1 / (r + 1) := fun t ht => by rwa [le_div_iff₀ (by linarith)]
  have hlab : (Src.blend sa (.frame g) .amplify).len = some l := by simp [Src.len, hla]
  obtain ⟨z, z1, z2⟩ := amplify_values hk sa g i hi u v (fun j f hf => ⟨hu j f hf, hle1 _ (hu' j)⟩) hg hv
  obtain ⟨k0, t0, s0⟩ := C104_up rate sr dst src l hr hs h0 hs' hd' hle h20 hN _ hlab hra b h i hi z
    (fun j f hf x hx => by rw [C21_id hk] at hx; cases hx; exact z2 j f hf)
  obtain ⟨k1, _, s1⟩ := C104_up rate sr dst src l hr hs h0 hs' hd' hle h20 hN sa hla hra ya ha i hi u
    (fun j f hf x hx => by rw [C21_id hk] at hx; cases hx; exact ⟨hu j f hf, hle1 _ (hu' j)⟩)
  rw [← hr'] at s0 s1
  have e1 : ya.frames.length = b.frames.length := k1.trans k0.symm
  rw [e1] at s1
  refine ⟨e1, fun x hx => ?_⟩
  obtain ⟨f, p, f1, p1, p2⟩ := s0 x hx
  obtain ⟨y, p', g1, p1', p2'⟩ := s1 x hx
  have hnth : (Src.blend (.audio ya) (.frame g) .amplify).nth x = .ok (some (y.mul g)) := by
    simp only [Src.nth, g1, bind, Except.bind, C21_id hk, (C26_meaning y g).2.2.2.2, pure, Except.pure]
  -- the shares
  have hB : b.frames.length ≤ 2 ^ 51 := by
    rw [k0]
    refine Nat.ceil_le.mpr ?_
    rw [div_le_iff₀ hsq]
    have a1 : (dst * l : ℚ) ≤ 2 ^ 51 := by exact_mod_cast hN.le
    have a2 : (1:ℚ) ≤ src := by exact_mod_cast h0
    push_cast
    nlinarith
  obtain ⟨hratio, _⟩ := pos_int hr hs h0 hd0 (by omega) hd'
  rw [← hr'] at hratio
  obtain ⟨_, _, _, hmono⟩ := up_pos hratio hr1 hr20 (by omega) t0
  have hu0 : (0:ℚ) < 2 ^ (-53:ℤ) := two_zpow_pos _
  have hS := share_le c hr1 (η := (b.frames.length + 1) * 2 ^ (-53 : ℤ))
    (mul_nonneg (by positivity) hu0.le) (fun j => binary64.rnd (r * j)) l x
    (fun j hj => up_acc hratio hr1 hr20 hB t0 j hj) (fun j j' h1 h2 => hmono j j' h1 h2.le)
  have hS1 : ∑ j ∈ Finset.range l, upShare c r x (binary64.rnd (r * j)) ≤ r + 1 := by
    have hBq : (b.frames.length:ℚ) ≤ 2 ^ 51 := by exact_mod_cast hB
    have h4 : (b.frames.length + 1 : ℚ) * 2 ^ (-53:ℤ) ≤ (2 ^ 51 + 1) * 2 ^ (-53:ℤ) :=
      mul_le_mul_of_nonneg_right (by linarith) hu0.le
    have h5 : ((2:ℚ) ^ 51 + 1) * 2 ^ (-53:ℤ) ≤ 1 / 2 := by norm_num
    have h6 := h4.trans h5
    refine hS.trans ?_
    generalize ((b.frames.length:ℚ) + 1) * 2 ^ (-53:ℤ) = η at h6 ⊢
    linarith
  have hnn : ∀ j, j < l → 0 ≤ upShare c r x (binary64.rnd (r * j)) := fun j _ => upShare_nonneg c hr1 x _
  have hin : ∀ t : Nat → ℚ, (∀ j, |t j| * (r + 1) ≤ 1) →
      |∑ j ∈ Finset.range l, t j * upShare c r x (binary64.rnd (r * j))| ≤ 1 := by
    intro t ht
    have := share_abs c hr1 _ t l x (by positivity) (fun j _ => hleW _ (ht j)) hS1
    rwa [one_div_mul_cancel (by linarith)] at this
  have hcl : ∀ t : ℚ, |t| ≤ 1 → clampQ t = t := fun t ht => clampQ_of_range (abs_le.mp ht).1 (abs_le.mp ht).2
  rw [hcl _ (hin u hu')] at p2'
  have hd := weighted_near hnn hS1 (mixErr_pos c).le (fun j _ => z1 j)
  have hd := (clampQ_lip _ _).trans hd
  have hA := hin (fun j => u j * v) (fun j => by
    rw [abs_mul]
    have h1 := mul_le_of_le_one_right (abs_nonneg (u j)) hv
    exact (mul_le_mul_of_nonneg_right h1 (by linarith)).trans (hu' j))
  rw [hcl _ hA] at hd
  have hsum : ∀ o : Nat → ℚ, ∑ j ∈ Finset.range l, (u j * v) * o j = (∑ j ∈ Finset.range l, u j * o j) * v := by
    intro o
    rw [Finset.sum_mul]
    exact Finset.sum_congr rfl (fun j _ => by ring)
  rw [hsum] at hd
  have hv1 := (frame_inRange_iff _).mp (C43_withStream rate ya sa ha x y g1) i hi
  obtain ⟨m, m1, m2, -⟩ := mul_val p1' hg hv1 hv
  refine ⟨f, y.mul g, p, m, f1, hnth, p1, by simpa [Frame.mul] using m1, ?_⟩
  have t1 := scale_near p2' hv
  rw [abs_le] at *
  constructor <;> linarith

example := C140_up (k := .mono) (c := .ch8) rfl (dst := 5) (src := 4) (l := 3) (sr := lit 4) (by decide +kernel)
  (by decide +kernel) (by decide) (by decide) (by decide) (by decide) (by decide) (by decide) (sa := .audio exUpA) rfl rfl
  (R.returns (x := (Audio.withStream (lit 5) (.blend (.audio exUpA) (.frame (k := .mono) (c := .ch8) #v[-60#8]) .amplify) : R (Audio .mono .ch8)))
    (by decide +kernel))
  (R.returns (x := (Audio.withStream (lit 5) (.audio exUpA) : R (Audio .mono .ch8))) (by decide +kernel)) (i := 0)
  (by decide) (u := fun j => if j = 0 then 50 / 127 else if j = 1 then 40 / 127 else if j = 2 then 55 / 127 else 0)
  (v := -60 / 127) (r := 5 / 4) (by decide +kernel) (by
    intro j f hf
    match j with
    | 0 | 1 | 2 => cases hf; decide +kernel
    | j + 3 => cases hf) (by
    intro j
    match j with
    | 0 | 1 | 2 => norm_num [abs_le]
    | j + 3 => simp) (by decide +kernel) (by norm_num [abs_le])

/-- Where the resampled stream clips, it makes a difference: a loud frame that is resampled to three times its rate is cut
to the full level, unless its volume is halved before. -/
theorem C140_clips :
    let a : Audio .mono .ch64 := ⟨lit 8, [#v[lit 0.75], #v[lit 0.75]]⟩
    (Audio.withStream (lit 24) (.blend (.audio a) (.frame (k := .mono) (c := .ch64) #v[lit 0.25]) .amplify) : R (Audio .mono .ch64)).map (·.frames[0]?) =
      .ok (some #v[lit 0.5625]) ∧
    (Audio.withStream (lit 24) (.audio a) : R (Audio .mono .ch64)).map (·.frames[0]?) = .ok (some #v[lit 1]) ∧
    Frame.mul (k := .mono) (c := .ch64) #v[lit 1] #v[lit 0.25] = #v[lit 0.25] := by
  decide +kernel

/-- Without clipping there are differences in the last bits, by example. -/
theorem C140_rounding :
    let a : Audio .mono .ch8 := ⟨lit 2, [#v[0#8], #v[21#8], #v[50#8], #v[0#8]]⟩
    (Audio.withStream (lit 1) (.blend (.audio a) (.frame (k := .mono) (c := .ch8) #v[90#8]) .amplify) : R (Audio .mono .ch8)).map (·.frames[1]?) ≠
      (Audio.withStream (lit 1) (.audio a) : R (Audio .mono .ch8)).map (fun y => y.frames[1]?.map (fun f => Frame.mul f (#v[90#8] : Frame .mono .ch8))) := by
  decide +kernel

end Fon
