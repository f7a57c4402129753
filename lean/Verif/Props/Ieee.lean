import Verif.Spec.Ieee
import Verif.Proofs.Floor

/-!
# The floats of the model are those of IEEE 754
-/

namespace Fon
open Fl Fmt
variable {f : Fmt}

theorem rne_half (t : ℚ) (h : t - ⌊t⌋ = 1 / 2) : Even (rne t) := by
  unfold rne
  rw [if_neg (by rw [h]; norm_num), if_neg (by rw [h]; norm_num)]
  split
  · rename_i h'; exact Int.even_iff.mpr h'
  · rename_i h'; rw [Int.even_iff]; omega

theorem abs_rne_lt (t : ℚ) (h : t - ⌊t⌋ ≠ 1 / 2) : |(rne t : ℚ) - t| < 1 / 2 := by
  have h1 := Int.floor_le t
  have h2 := Int.lt_floor_add_one t
  unfold rne
  split_ifs with h3 h4
  · rw [abs_lt]; constructor <;> linarith
  · push_cast; rw [abs_lt]; constructor <;> linarith
  · exact absurd (le_antisymm (not_lt.mp h4) (not_lt.mp h3)) h
  · exact absurd (le_antisymm (not_lt.mp h4) (not_lt.mp h3)) h

theorem abs_rne_le (q : ℚ) : |rne (q / 2 ^ f.expo q)| ≤ 2 ^ f.prec := by
  have hp := two_zpow_pos (f.expo q)
  have hlt := abs_lt_of_expo (f := f) q
  set x := q / 2 ^ f.expo q with hx
  have hxlt : |x| < 2 ^ f.prec := by
    rw [hx, abs_div, abs_of_pos hp, div_lt_iff₀ hp]; exact hlt
  have h2 := abs_rne_sub_le_int x (2 ^ f.prec)
  have h3 := abs_rne_sub_le_int x (-2 ^ f.prec)
  push_cast at h2 h3
  rw [abs_lt] at hxlt
  have hb1 : |(2:ℚ) ^ f.prec - x| = 2 ^ f.prec - x := abs_of_pos (by linarith)
  have hb2 : |-(2:ℚ) ^ f.prec - x| = 2 ^ f.prec + x := by
    rw [abs_of_neg (by linarith)]; ring
  rw [hb1] at h2; rw [hb2] at h3
  rw [abs_le] at h2 h3
  have ha : (rne x : ℚ) ≤ 2 ^ f.prec := by linarith
  have hb : -(2:ℚ) ^ f.prec ≤ rne x := by linarith
  rw [abs_le]; constructor
  · exact_mod_cast hb
  · exact_mod_cast ha

theorem le_abs_rne (q : ℚ) (hq : q ≠ 0) (h : f.emin < f.expo q) : 2 ^ (f.prec - 1) ≤ |rne (q / 2 ^ f.expo q)| := by
  have hp := two_zpow_pos (f.expo q)
  have hle := le_abs_of_expo (f := f) q hq h
  set x := q / 2 ^ f.expo q with hx
  have hxle : 2 ^ (f.prec - 1) ≤ |x| := by
    rw [hx, abs_div, abs_of_pos hp, le_div_iff₀ hp]; exact hle
  have h2 := abs_rne_sub_le_int x (2 ^ (f.prec - 1))
  have h3 := abs_rne_sub_le_int x (-2 ^ (f.prec - 1))
  push_cast at h2 h3
  rcases le_or_gt 0 x with h0 | h0
  · rw [abs_of_nonneg h0] at hxle
    rw [abs_of_nonpos (a := (2:ℚ) ^ (f.prec - 1) - x) (by linarith)] at h2
    rw [abs_le] at h2
    have : (2:ℚ) ^ (f.prec - 1) ≤ rne x := by linarith
    have : (2:ℤ) ^ (f.prec - 1) ≤ rne x := by exact_mod_cast this
    exact le_trans this (le_abs_self _)
  · rw [abs_of_neg h0] at hxle
    rw [abs_of_nonneg (a := -(2:ℚ) ^ (f.prec - 1) - x) (by linarith)] at h3
    rw [abs_le] at h3
    have : (rne x : ℚ) ≤ -2 ^ (f.prec - 1) := by linarith
    have : rne x ≤ -2 ^ (f.prec - 1) := by exact_mod_cast this
    exact le_trans (by omega) (neg_le_abs _)

/-- Another number at the same distance as the rounded one: then the tie is between two multiples of the unit. -/
theorem tie_half (q x : ℚ) (hq : 0 < q) (hx : f.Gen x) (hne : x ≠ f.rnd q) (hd : |x - q| = |f.rnd q - q|) :
    q / 2 ^ f.expo q - ⌊q / 2 ^ f.expo q⌋ = 1 / 2 := by
  by_contra hc
  have hp := two_zpow_pos (f.expo q)
  have hlt := abs_rne_lt _ hc
  set e := f.expo q with he
  set n := rne (q / 2 ^ e) with hn
  have hr : f.rnd q = n * 2 ^ e := rfl
  have hd' : |f.rnd q - q| < 2 ^ e / 2 := by
    have : f.rnd q - q = (n - q / 2 ^ e) * 2 ^ e := by rw [hr]; field_simp
    rw [this, abs_mul, abs_of_pos hp]
    calc |(n:ℚ) - q / 2 ^ e| * 2 ^ e < 1 / 2 * 2 ^ e := mul_lt_mul_of_pos_right hlt hp
      _ = 2 ^ e / 2 := by ring
  -- they are on different sides
  have hs : x - q = -(f.rnd q - q) := by
    rcases abs_eq_abs.mp hd with h | h
    · exact absurd (by linarith) hne
    · exact h
  rw [abs_lt] at hd'
  -- `x` is a multiple of the unit as well
  have hm : ∃ k : ℤ, x = k * 2 ^ e := by
    obtain ⟨m, e1, h1, h2, h3⟩ := hx
    rcases le_or_gt e e1 with hE | hE
    · refine ⟨m * 2 ^ (e1 - e).toNat, ?_⟩
      rw [h3]
      push_cast
      rw [mul_assoc, ← zpow_natCast (2:ℚ), ← zpow_add₀ (by norm_num), Int.toNat_of_nonneg (by omega)]
      congr 2; omega
    · exfalso
      have hbig := le_abs_of_expo q hq.ne' (lt_of_le_of_lt h2 hE)
      rw [abs_of_pos hq, ← he] at hbig
      have hxs : x ≤ 2 ^ (f.prec - 1) * 2 ^ e := by
        have h1' : (m:ℚ) ≤ 2 ^ f.prec := by
          have := (abs_lt.mp h1).2
          exact_mod_cast this.le
        have h4 : (2:ℚ) ^ e1 ≤ 2 ^ (e - 1) := zpow_le_zpow_right₀ (by norm_num) (by omega)
        calc x = m * 2 ^ e1 := h3
          _ ≤ 2 ^ f.prec * 2 ^ e1 := mul_le_mul_of_nonneg_right h1' (two_zpow_pos _).le
          _ ≤ 2 ^ f.prec * 2 ^ (e - 1) := mul_le_mul_of_nonneg_left h4 (by positivity)
          _ = 2 ^ (f.prec - 1) * 2 ^ e := by
            have hpp := f.hprec
            obtain ⟨k, hk⟩ : ∃ k, f.prec = k + 1 := ⟨f.prec - 1, by omega⟩
            rw [hk, zpow_sub₀ (by norm_num)]; simp [pow_succ]; ring
      have hgt : 2 ^ (f.prec - 1) * 2 ^ e < f.rnd q := by
        rcases lt_or_eq_of_le (le_trans hxs hbig) with h | h
        · linarith
        · exact absurd (by linarith) hne
      have h5 : (2:ℤ) ^ (f.prec - 1) < n := by
        rw [hr] at hgt
        have := lt_of_mul_lt_mul_right hgt hp.le
        exact_mod_cast this
      have h6 : (2:ℚ) ^ (f.prec - 1) + 1 ≤ n := by exact_mod_cast h5
      have h7 := mul_le_mul_of_nonneg_right h6 hp.le
      rw [← hr] at h7
      linarith
  obtain ⟨k, hk⟩ := hm
  have h1 : ((k - n : ℤ) : ℚ) * 2 ^ e = x - f.rnd q := by rw [hk, hr]; push_cast; ring
  have h2 : |((k - n : ℤ) : ℚ)| < 1 := by
    have : |((k - n : ℤ) : ℚ) * 2 ^ e| < 1 * 2 ^ e := by
      rw [h1, abs_lt]; constructor <;> linarith
    rw [abs_mul, abs_of_pos hp] at this
    exact lt_of_mul_lt_mul_right this hp.le
  have h3 : |k - n| < 1 := by exact_mod_cast h2
  have h4 : k = n := by have := Int.abs_lt_one_iff.mp h3; omega
  exact hne (by rw [hk, hr, h4])

theorem Fmt.Canon.neg {m e : ℤ} (h : f.Canon m e) : f.Canon (-m) e := by
  unfold Canon at *; rwa [abs_neg]

/-- C122: rounding in the model is IEEE rounding to nearest, ties to even. -/
theorem C122_nearest (f : Fmt) (q : ℚ) : f.Nearest q (f.rnd q) := by
  refine ⟨gen_rnd q, fun x hx => rnd_nearest q x hx, ?_⟩
  have key : ∀ q, 0 < q → ∀ x, f.Gen x → x ≠ f.rnd q → |x - q| = |f.rnd q - q| →
      ∃ m e, f.Canon m e ∧ f.rnd q = m * 2 ^ e ∧ Even m := by
    intro q hq x hx hne hd
    have hev := rne_half _ (tie_half q x hq hx hne hd)
    rcases lt_or_eq_of_le (abs_rne_le (f := f) q) with h | h
    · refine ⟨rne (q / 2 ^ f.expo q), f.expo q, ⟨h, emin_le_expo q, ?_⟩, rfl, hev⟩
      rcases eq_or_lt_of_le (emin_le_expo (f := f) q) with he | he
      · exact .inl he.symm
      · exact .inr (le_abs_rne q hq.ne' he)
    · have hpp := f.hprec
      have hn : rne (q / 2 ^ f.expo q) = 2 ^ f.prec := by
        rcases abs_eq (by positivity) |>.mp h with h' | h'
        · exact h'
        · exfalso
          have h1 : 0 ≤ f.rnd q := rnd_nonneg hq.le
          have h2 : f.rnd q = rne (q / 2 ^ f.expo q) * 2 ^ f.expo q := rfl
          rw [h2, h'] at h1
          push_cast at h1
          have : (0:ℚ) < 2 ^ f.prec * 2 ^ f.expo q := mul_pos (by positivity) (two_zpow_pos _)
          linarith
      obtain ⟨j, hj⟩ : ∃ j, f.prec = j + 2 := ⟨f.prec - 2, by omega⟩
      refine ⟨2 ^ (f.prec - 1), f.expo q + 1, ⟨?_, by have := emin_le_expo (f := f) q; omega, .inr ?_⟩, ?_, ?_⟩
      · rw [abs_of_pos (by positivity)]
        exact pow_lt_pow_right₀ (by norm_num) (by omega)
      · rw [abs_of_pos (by positivity)]
      · show (rne (q / 2 ^ f.expo q) : ℚ) * 2 ^ f.expo q = _
        rw [hn, zpow_add₀ (by norm_num), hj]
        push_cast
        simp [pow_succ]; ring
      · rw [hj]
        exact ⟨2 ^ j, by simp [pow_succ]; ring⟩
  intro x hx hne hd
  rcases lt_trichotomy q 0 with hq | hq | hq
  · obtain ⟨m, e, h1, h2, h3⟩ := key (-q) (by linarith) (-x) hx.neg (by rw [rnd_neg]; simpa using hne) (by
      rw [rnd_neg, show -x - -q = -(x - q) by ring, show -f.rnd q - -q = -(f.rnd q - q) by ring, abs_neg, abs_neg, hd])
    refine ⟨-m, e, Fmt.Canon.neg h1, ?_, h3.neg⟩
    rw [rnd_neg] at h2
    push_cast
    linarith
  · subst hq
    rw [rnd_zero] at hd hne
    simp at hd
    exact absurd hd hne
  · exact key q hq x hx hne hd

/-- Halfway between two numbers, the even one wins: down, then up. -/
example : binary64.Nearest (2 ^ 53 + 1) (2 ^ 53) ∧ binary64.Nearest (2 ^ 53 + 3) (2 ^ 53 + 4) :=
  ⟨by have := C122_nearest binary64 (2 ^ 53 + 1)
      rwa [(by decide +kernel : binary64.rnd (2 ^ 53 + 1) = 2 ^ 53)] at this,
    by have := C122_nearest binary64 (2 ^ 53 + 3)
       rwa [(by decide +kernel : binary64.rnd (2 ^ 53 + 3) = 2 ^ 53 + 4)] at this⟩

theorem gen_step {m e s : ℤ} (h : |m| < 2 ^ f.prec) (he : f.emin ≤ e) (hs : |s| ≤ 1) : f.Gen ((m + s : ℤ) * 2 ^ e) := by
  have h1 : |m + s| ≤ 2 ^ f.prec := by
    have := abs_add_le m s; omega
  rcases lt_or_eq_of_le h1 with h1 | h1
  · exact ⟨m + s, e, h1, he, rfl⟩
  · have hpp := f.hprec
    obtain ⟨j, hj⟩ : ∃ j, f.prec = j + 2 := ⟨f.prec - 2, by omega⟩
    have hlt : |(2:ℤ) ^ (f.prec - 1)| < 2 ^ f.prec := by
      rw [abs_of_pos (by positivity)]; exact pow_lt_pow_right₀ (by norm_num) (by omega)
    have hpow : ((2:ℚ) ^ f.prec) * 2 ^ e = 2 ^ (f.prec - 1) * 2 ^ (e + 1) := by
      rw [zpow_add₀ (by norm_num), hj]; simp [pow_succ]; ring
    rcases abs_eq (by positivity) |>.mp h1 with h' | h'
    · exact ⟨2 ^ (f.prec - 1), e + 1, hlt, by omega, by rw [h']; push_cast; exact hpow⟩
    · exact ⟨-2 ^ (f.prec - 1), e + 1, by rwa [abs_neg], by omega, by rw [h']; push_cast; linarith⟩

/-- C122: the rules determine the result. -/
theorem C122_unique (f : Fmt) (q r : ℚ) (h : f.Nearest q r) : r = f.rnd q := by
  obtain ⟨g1, n1, t1⟩ := h
  obtain ⟨g2, n2, t2⟩ := C122_nearest f q
  by_contra hne
  have hd : |r - q| = |f.rnd q - q| := le_antisymm (n1 _ g2) (n2 _ g1)
  obtain ⟨m1, e1, c1, v1, ev1⟩ := t1 _ g2 (Ne.symm hne) hd.symm
  obtain ⟨m2, e2, c2, v2, ev2⟩ := t2 _ g1 hne hd
  -- the number next to `a` towards `b`
  have key : ∀ (a b : ℚ) (m e m' e' : ℤ), a ≠ b → |a - q| = |b - q| → (∀ x, f.Gen x → |a - q| ≤ |x - q|) →
      f.Canon m e → a = m * 2 ^ e → Even m → b = m' * 2 ^ e' → Even m' → e ≤ e' → False := by
    intro a b m e m' e' hab hdist hnear hc ha hev hb hev' hle
    have hp := two_zpow_pos e
    have hsym : b - q = -(a - q) := by
      rcases abs_eq_abs.mp hdist with h | h
      · exact absurd (by linarith) hab
      · linarith
    have hbk : b = ((m' * 2 ^ (e' - e).toNat : ℤ) : ℚ) * 2 ^ e := by
      rw [hb]
      push_cast
      rw [mul_assoc, ← zpow_natCast (2:ℚ), ← zpow_add₀ (by norm_num), Int.toNat_of_nonneg (by omega)]
      congr 2; omega
    set k := m' * 2 ^ (e' - e).toNat with hk
    have hkev : Even k := hev'.mul_right _
    have hkm : k ≠ m := by
      rintro h; exact hab (by rw [ha, hbk, h])
    rcases lt_or_gt_of_ne hkm with h | h
    · have hg := gen_step (s := -1) hc.1 hc.2.1 (by norm_num)
      have h2 : k + 2 ≤ m := by
        obtain ⟨u, hu⟩ := hkev; obtain ⟨v, hv⟩ := hev; omega
      have h3 : (k:ℚ) + 2 ≤ m := by exact_mod_cast h2
      have h4 := mul_le_mul_of_nonneg_right h3 hp.le
      have h5 := hnear _ hg
      rw [add_mul, ← hbk, ← ha] at h4
      have e1 : (((m + -1 : ℤ)) : ℚ) * 2 ^ e = a - 2 ^ e := by rw [ha]; push_cast; ring
      rw [e1, abs_of_pos (by linarith), le_abs] at h5
      rcases h5 with h5 | h5 <;> linarith
    · have hg := gen_step (s := 1) hc.1 hc.2.1 (by norm_num)
      have h2 : m + 2 ≤ k := by
        obtain ⟨u, hu⟩ := hkev; obtain ⟨v, hv⟩ := hev; omega
      have h3 : (m:ℚ) + 2 ≤ k := by exact_mod_cast h2
      have h4 := mul_le_mul_of_nonneg_right h3 hp.le
      have h5 := hnear _ hg
      rw [add_mul, ← hbk, ← ha] at h4
      have e1 : (((m + 1 : ℤ)) : ℚ) * 2 ^ e = a + 2 ^ e := by rw [ha]; push_cast; ring
      rw [e1, abs_of_neg (by linarith), le_abs] at h5
      rcases h5 with h5 | h5 <;> linarith
  rcases le_total e1 e2 with hle | hle
  · exact key r (f.rnd q) m1 e1 m2 e2 hne hd n1 c1 v1 ev1 v2 ev2 hle
  · exact key (f.rnd q) r m2 e2 m1 e1 (Ne.symm hne) hd.symm n2 c2 v2 ev2 v1 ev1 hle

example : ∃! r, binary32.Nearest (1 / 10) r := ⟨_, C122_nearest _ _, fun r => C122_unique _ _ r⟩

/-! ## Operations -/

theorem rounds_ofQ (s : Bool) (q : ℚ) : (ofQ f s q).Rounds q := by
  refine ⟨f.rnd q, C122_nearest f q, fun h => is_ofQ h.le_maxF, fun h => ?_⟩
  unfold ofQ
  rw [dif_neg (fun hh => h (rep_rnd hh))]

/-- C122: sums, differences, products and quotients are the exact results, rounded. -/
theorem C122_arith (x y : Fl f) (p q : ℚ) (hx : x.Is p) (hy : y.Is q) :
    (x.add y).Rounds (p + q) ∧ (x.sub y).Rounds (p - q) ∧ (x.mul y).Rounds (p * q) ∧
    (q ≠ 0 → (x.div y).Rounds (p / q)) := by
  obtain ⟨a, h, rfl⟩ := hx
  obtain ⟨b, h', rfl⟩ := hy
  refine ⟨rounds_ofQ _ _, ?_, rounds_ofQ _ _, fun hq => ?_⟩
  · rw [sub_eq_add_neg]; exact rounds_ofQ _ _
  · unfold Fl.div; simp only; rw [if_neg hq]; exact rounds_ofQ _ _

example : ((lit (1 / 10) : Fl binary64).add (lit (1 / 5))).Rounds (binary64.rnd (1 / 10) + binary64.rnd (1 / 5)) ∧
    binary64.rnd (binary64.rnd (1 / 10) + binary64.rnd (1 / 5)) ≠ binary64.rnd (3 / 10) :=
  ⟨(C122_arith _ _ _ _ (is_lit_rnd (by decide +kernel)) (is_lit_rnd (by decide +kernel))).1, by decide +kernel⟩

/-- C122: so are conversions from the other format and from integers. -/
theorem C122_convert (g : Fmt) (x : Fl f) (p : ℚ) (hx : x.Is p) (n : ℤ) :
    (x.cast g).Rounds p ∧ (ofInt n : Fl f).Rounds n := by
  obtain ⟨a, h, rfl⟩ := hx
  exact ⟨rounds_ofQ _ _, rounds_ofQ _ _⟩

example : ((lit 16777217 : Fl binary64).cast binary32).Rounds 16777217 ∧
    ((lit 16777217 : Fl binary64).cast binary32).Is 16777216 :=
  ⟨(C122_convert _ _ _ (by decide +kernel) 0).1, by decide +kernel⟩

theorem gen_of_mult {x e : ℚ} {m n : ℤ} {k : ℤ} (h : |m| < 2 ^ f.prec) (hk : f.emin ≤ k) (hx : x = n * 2 ^ k)
    (he : e = m * 2 ^ k) (hle : |x| ≤ |e|) : f.Gen x := by
  refine ⟨n, k, lt_of_le_of_lt ?_ h, hk, hx⟩
  rw [hx, he, abs_mul, abs_mul] at hle
  have := le_of_mul_le_mul_right hle (abs_pos.mpr (two_zpow_pos k).ne')
  exact_mod_cast this

theorem abs_sub_trunc (p q : ℚ) (hq : q ≠ 0) :
    |p - q * truncQ (p / q)| ≤ |p| ∧ |p - q * truncQ (p / q)| < |q| := by
  have e : p - q * truncQ (p / q) = q * (p / q - truncQ (p / q)) := by field_simp
  have e' : p = q * (p / q) := by field_simp
  have key : ∀ t : ℚ, |t - truncQ t| ≤ |t| ∧ |t - truncQ t| < 1 := by
    intro t
    rcases lt_or_ge t 0 with h | h
    · rw [truncQ_neg h]
      have h1 := Int.floor_le (-t)
      have h2 := Int.lt_floor_add_one (-t)
      have h3 : (0:ℚ) ≤ ⌊-t⌋ := by exact_mod_cast Int.floor_nonneg.mpr (by linarith : 0 ≤ -t)
      push_cast
      rw [abs_of_nonpos (by linarith : t - -(⌊-t⌋:ℚ) ≤ 0), abs_of_neg h]
      constructor <;> linarith
    · rw [truncQ_nonneg h]
      have h1 := Int.floor_le t
      have h2 := Int.lt_floor_add_one t
      have h3 : (0:ℚ) ≤ ⌊t⌋ := by exact_mod_cast Int.floor_nonneg.mpr h
      rw [abs_of_nonneg (by linarith : 0 ≤ t - (⌊t⌋:ℚ)), abs_of_nonneg h]
      constructor <;> linarith
  obtain ⟨k1, k2⟩ := key (p / q)
  have hqp : 0 < |q| := abs_pos.mpr hq
  rw [e, abs_mul]
  constructor
  · calc |q| * |p / q - truncQ (p / q)| ≤ |q| * |p / q| := mul_le_mul_of_nonneg_left k1 hqp.le
      _ = |p| := by rw [← abs_mul, ← e']
  · calc |q| * |p / q - truncQ (p / q)| < |q| * 1 := mul_lt_mul_of_pos_left k2 hqp
      _ = |q| := mul_one _

theorem rem_sign (p q : ℚ) (hq : q ≠ 0) : 0 ≤ (p - q * truncQ (p / q)) * p := by
  have e : (p - q * truncQ (p / q)) * p = q ^ 2 * ((p / q - truncQ (p / q)) * (p / q)) := by field_simp
  rw [e]
  refine mul_nonneg (sq_nonneg q) ?_
  generalize p / q = t
  rcases lt_or_ge t 0 with h | h
  · rw [truncQ_neg h]
    have h1 := Int.floor_le (-t)
    push_cast
    exact mul_nonneg_of_nonpos_of_nonpos (by linarith) h.le
  · rw [truncQ_nonneg h]
    exact mul_nonneg (by linarith [Int.floor_le t]) h

/-- C122: remainders are exact. -/
theorem C122_rem (x y : Fl f) (p q : ℚ) (hx : x.Is p) (hy : y.Is q) (hq : q ≠ 0) :
    (x.rem y).Is (p - q * truncQ (p / q)) := by
  obtain ⟨h1, h2⟩ := abs_sub_trunc p q hq
  have hrep : f.Rep (p - q * truncQ (p / q)) := by
    rw [rep_iff_gen]
    refine ⟨?_, le_trans h1 hx.rep.le_maxF⟩
    obtain ⟨m, e, hm, he, -, hp⟩ := hx.rep
    obtain ⟨m', e', hm', he', -, hq'⟩ := hy.rep
    have pw : ∀ (a b : ℤ), a ≤ b → (2:ℚ) ^ b = ((2 ^ (b - a).toNat : ℤ) : ℚ) * 2 ^ a := by
      intro a b hab
      push_cast
      rw [← zpow_natCast (2:ℚ), ← zpow_add₀ (by norm_num), Int.toNat_of_nonneg (by omega)]
      congr 1; omega
    generalize truncQ (p / q) = T at h1 h2 ⊢
    rcases le_total e e' with hle | hle
    · refine gen_of_mult (n := m - m' * 2 ^ (e' - e).toNat * T) hm he ?_ hp h1
      rw [hp, hq', pw e e' hle]
      push_cast; ring
    · refine gen_of_mult (n := m * 2 ^ (e - e').toNat - m' * T) hm' he' ?_ hq' h2.le
      rw [hp, hq', pw e' e hle]
      push_cast; ring
  obtain ⟨a, h, rfl⟩ := hx
  obtain ⟨b, h', rfl⟩ := hy
  unfold Fl.rem
  simp only
  rw [if_neg hq]
  exact is_ofQ_rep hrep

example : ((lit (-7) : Fl binary64).rem (lit (5 / 2))).Is (-7 - 5 / 2 * truncQ (-7 / (5 / 2))) ∧
    (-7 - 5 / 2 * truncQ (-7 / (5 / 2)) : ℚ) = -2 :=
  ⟨C122_rem _ _ _ _ (by decide +kernel) (by decide +kernel) (by norm_num), by decide +kernel⟩

theorem ofQ_ne_nan (s : Bool) (q : ℚ) : ofQ f s q ≠ nan := by unfold ofQ; split <;> simp

theorem is_zero_iff {q : ℚ} {b : Bool} {h : f.Rep q ∧ (b = true → q = 0)} : (fin q b h).Is 0 ↔ q = 0 :=
  ⟨fun hh => (Is.unique hh is_fin).symm, fun hh => hh ▸ is_fin⟩

theorem not_inf_is {a : Bool} {q : ℚ} : ¬ (inf a : Fl f).Is q := fun ⟨_, _, h⟩ => by cases h

theorem not_nan_is {q : ℚ} : ¬ (nan : Fl f).Is q := fun ⟨_, _, h⟩ => by cases h

/-- C122: when the result is not a number. -/
theorem C122_nan (x y : Fl f) :
    (x.add y = nan ↔ x = nan ∨ y = nan ∨ ∃ a, x = inf a ∧ y = inf (!a)) ∧
    (x.mul y = nan ↔ x = nan ∨ y = nan ∨ (∃ a, x = inf a) ∧ y.Is 0 ∨ x.Is 0 ∧ ∃ a, y = inf a) ∧
    (x.div y = nan ↔ x = nan ∨ y = nan ∨ (∃ a b, x = inf a ∧ y = inf b) ∨ x.Is 0 ∧ y.Is 0) ∧
    (x.rem y = nan ↔ x = nan ∨ y = nan ∨ (∃ a, x = inf a) ∨ y.Is 0) := by
  refine ⟨?_, ?_, ?_, ?_⟩
  · rcases x with _ | a | ⟨p, a, h⟩ <;> rcases y with _ | b | ⟨q, b, h'⟩ <;> simp [Fl.add, ofQ_ne_nan]
    cases a <;> cases b <;> simp
  · rcases x with _ | a | ⟨p, a, h⟩ <;> rcases y with _ | b | ⟨q, b, h'⟩ <;>
      simp [Fl.mul, ofQ_ne_nan, is_zero_iff, not_inf_is, not_nan_is]
  · rcases x with _ | a | ⟨p, a, h⟩ <;> rcases y with _ | b | ⟨q, b, h'⟩ <;>
      simp [Fl.div, Fl.zero, is_zero_iff, not_inf_is, not_nan_is]
    by_cases hq : q = 0
    · simp [hq]
    · simp [hq, ofQ_ne_nan]
  · rcases x with _ | a | ⟨p, a, h⟩ <;> rcases y with _ | b | ⟨q, b, h'⟩ <;>
      simp [Fl.rem, ofQ_ne_nan, is_zero_iff, not_inf_is]

example : (inf true : Fl binary64).add (inf false) = nan ∧ (zero true : Fl binary64).mul (inf false) = nan ∧
    (lit 1 : Fl binary64).div (zero false) ≠ nan :=
  ⟨(C122_nan _ _).1.mpr (.inr (.inr ⟨true, rfl, rfl⟩)),
    (C122_nan _ _).2.1.mpr (.inr (.inr (.inr ⟨⟨_, _, rfl⟩, _, rfl⟩))), by decide +kernel⟩

theorem isNeg_ofQ (s : Bool) (q : ℚ) : (ofQ f s q).isNeg = (decide (q < 0) || (decide (q = 0) && s)) := by
  unfold ofQ
  split
  · rename_i h
    simp only [isNeg]
    rcases lt_trichotomy q 0 with hq | hq | hq
    · have := rnd_nonpos (f := f) hq.le
      rcases lt_or_eq_of_le this with h1 | h1
      · simp [h1, hq]
      · simp [h1, hq]
    · subst hq; simp [rnd_zero]
    · have := rnd_nonneg (f := f) hq.le
      simp [not_lt.mpr this, not_lt.mpr hq.le, hq.ne']
  · rename_i h
    simp only [isNeg]
    have : q ≠ 0 := by
      rintro rfl
      rw [rnd_zero, abs_zero] at h
      exact h (maxF_pos (f := f)).le
    simp [this]

theorem isNeg_fin {q : ℚ} {b : Bool} {h : f.Rep q ∧ (b = true → q = 0)} :
    (fin q b h).isNeg = (decide (q < 0) || b) := rfl

/-- C122: signs, of zeros as well. -/
theorem C122_sign (x y : Fl f) :
    (x ≠ nan → x.neg.isNeg = !x.isNeg) ∧
    (x.mul y ≠ nan → (x.mul y).isNeg = xor x.isNeg y.isNeg) ∧ (x.div y ≠ nan → (x.div y).isNeg = xor x.isNeg y.isNeg) ∧
    (x.rem y ≠ nan → (x.rem y).isNeg = x.isNeg) ∧
    ∀ p q, x.Is p → y.Is q → p + q = 0 → (x.add y).isNeg = (x.isNeg && y.isNeg) := by
  have sg : ∀ (q : ℚ) (b : Bool), (b = true → q = 0) →
      (b = false ∧ q < 0 ∧ ¬ 0 < q ∧ q ≠ 0) ∨ q = 0 ∨ (b = false ∧ 0 < q ∧ ¬ q < 0 ∧ q ≠ 0) := by
    intro q b h
    rcases lt_trichotomy q 0 with hq | hq | hq
    · exact .inl ⟨by cases b <;> simp_all, hq, not_lt.mpr hq.le, hq.ne⟩
    · exact .inr (.inl hq)
    · exact .inr (.inr ⟨by cases b <;> simp_all, hq, not_lt.mpr hq.le, hq.ne'⟩)
  refine ⟨?_, ?_, ?_, ?_, ?_⟩
  · rcases x with _ | a | ⟨p, a, h⟩ <;> simp [Fl.neg, isNeg]
    rcases sg p a h.2 with ⟨rfl, h1, h2, h3⟩ | rfl | ⟨rfl, h1, h2, h3⟩ <;> simp [*]
  · rcases x with _ | a | ⟨p, a, h⟩ <;> rcases y with _ | b | ⟨q, b, h'⟩ <;> simp only [Fl.mul, ne_eq, not_true, false_imp_iff]
    · intro; rfl
    · intro hn; rw [if_neg (fun hh => hn (if_pos hh))]; rfl
    · intro hn; rw [if_neg (fun hh => hn (if_pos hh))]; rfl
    · intro
      rw [isNeg_ofQ, isNeg_fin, isNeg_fin]
      rcases sg p a h.2 with ⟨rfl, h1, h2, h3⟩ | rfl | ⟨rfl, h1, h2, h3⟩ <;>
          rcases sg q b h'.2 with ⟨rfl, h4, h5, h6⟩ | rfl | ⟨rfl, h4, h5, h6⟩ <;>
        simp [mul_neg_iff, *]
  · rcases x with _ | a | ⟨p, a, h⟩ <;> rcases y with _ | b | ⟨q, b, h'⟩ <;> simp only [Fl.div, ne_eq, not_true, false_imp_iff]
    · intro; rfl
    · intro; simp [Fl.zero, isNeg]
    · intro hn
      by_cases hq : q = 0
      · rw [if_pos hq] at hn ⊢
        rw [if_neg (fun hh => hn (if_pos hh))]
        simp [isNeg, hq]
      · rw [if_neg hq, isNeg_ofQ, isNeg_fin, isNeg_fin]
        rcases sg p a h.2 with ⟨rfl, h1, h2, h3⟩ | rfl | ⟨rfl, h1, h2, h3⟩ <;>
          rcases sg q b h'.2 with ⟨rfl, h4, h5, h6⟩ | rfl | ⟨rfl, h4, h5, h6⟩ <;>
          first | exact absurd rfl hq | simp [div_neg_iff, *]
  · rcases x with _ | a | ⟨p, a, h⟩ <;> rcases y with _ | b | ⟨q, b, h'⟩ <;> simp only [Fl.rem, ne_eq, not_true, false_imp_iff]
    · intro; trivial
    · intro hn
      by_cases hq : q = 0
      · exact absurd (if_pos hq) hn
      · rw [if_neg hq, isNeg_ofQ, isNeg_fin]
        have hr := rem_sign p q hq
        have h0 := (abs_sub_trunc p q hq).1
        generalize p - q * truncQ (p / q) = r at hr h0
        rcases sg p a h.2 with ⟨rfl, h1, h2, h3⟩ | rfl | ⟨rfl, h1, h2, h3⟩
        · have : r ≤ 0 := nonpos_of_mul_nonneg_left hr h1
          rcases lt_or_eq_of_le this with h4 | h4 <;> simp [h4, h1]
        · rw [abs_zero, abs_nonpos_iff] at h0
          simp [h0]
        · have : 0 ≤ r := nonneg_of_mul_nonneg_left hr h1
          simp [h2, this]
  · rintro p q ⟨a, h, rfl⟩ ⟨b, h', rfl⟩ hpq
    simp only [Fl.add]
    rw [isNeg_ofQ, isNeg_fin, isNeg_fin]
    obtain rfl : q = -p := by linarith
    rcases sg p a h.2 with ⟨rfl, h1, h2, h3⟩ | rfl | ⟨rfl, h1, h2, h3⟩ <;>
      rcases sg _ b h'.2 with ⟨rfl, h4, h5, h6⟩ | h4 | ⟨rfl, h4, h5, h6⟩ <;> simp_all

example : ((zero true : Fl binary64).mul (lit 3)).isNeg = true ∧ ((zero true : Fl binary64).add (zero true)).isNeg = true ∧
    ((lit 3 : Fl binary64).add (lit (-3))).isNeg = false :=
  ⟨((C122_sign (zero true) (lit 3)).2.1 (by decide +kernel)).trans (by decide +kernel), (C122_sign _ _).2.2.2.2 0 0 ⟨_, _, rfl⟩ ⟨_, _, rfl⟩ (by norm_num),
    ((C122_sign (lit 3) (lit (-3))).2.2.2.2 3 (-3) (by decide +kernel) (by decide +kernel) (by norm_num)).trans
      (by decide +kernel)⟩

/-- C122: infinite operands and results. -/
theorem C122_inf (x y : Fl f) (a : Bool) (p q : ℚ) :
    (y ≠ nan → y ≠ inf (!a) → (inf a).add y = inf a ∧ y.add (inf a) = inf a) ∧
    (y ≠ nan → ¬ y.Is 0 → ∃ s, (inf a).mul y = inf s ∧ y.mul (inf a) = inf s) ∧
    (y.Is q → (∃ s, (inf a).div y = inf s) ∧ (y.div (inf a)).Is 0 ∧ y.rem (inf a) = y) ∧
    (x.Is p → p ≠ 0 → y.Is 0 → ∃ s, x.div y = inf s) := by
  refine ⟨?_, ?_, ?_, ?_⟩
  · rcases y with _ | b | ⟨q, b, h'⟩
    · intro h; exact absurd rfl h
    · intro _ h
      obtain rfl : b = a := by cases a <;> cases b <;> simp_all
      simp [Fl.add]
    · intros; exact ⟨rfl, rfl⟩
  · rcases y with _ | b | ⟨q, b, h'⟩
    · intro h; exact absurd rfl h
    · intro _ _; exact ⟨_, rfl, by simp [Fl.mul, Bool.xor_comm]⟩
    · intro _ h
      have hq : q ≠ 0 := fun hh => h (is_zero_iff.mpr hh)
      simp [Fl.mul, hq, Bool.xor_comm]
  · rintro ⟨b, h, rfl⟩
    exact ⟨⟨_, rfl⟩, ⟨_, _, rfl⟩, rfl⟩
  · rintro ⟨b, h, rfl⟩ hp ⟨c, h', rfl⟩
    exact ⟨_, by simp only [Fl.div]; rw [if_pos trivial, if_neg hp]⟩

example : (inf true : Fl binary64).add (lit 5) = inf true ∧ ∃ s, (lit 5 : Fl binary64).div (zero true) = inf s :=
  ⟨((C122_inf (lit 5) (lit 5) true 5 5).1 (by decide +kernel) (by decide +kernel)).1,
    (C122_inf (lit 5) (zero true) true 5 0).2.2.2 (by decide +kernel) (by norm_num) ⟨_, _, rfl⟩⟩

theorem lt_eq_place {x y : Fl f} {u v : WithBot (WithTop ℚ)} (hu : x.Place u) (hv : y.Place v) :
    (x.lt y ↔ u < v) ∧ (x.eq y ↔ u = v) := by
  rcases x with _ | (_ | _) | ⟨p, a, h⟩ <;> rcases y with _ | (_ | _) | ⟨q, b, h'⟩ <;>
    simp only [Fl.Place] at hu hv <;> try contradiction
  all_goals subst hu hv
  all_goals simp [Fl.lt, Fl.eq]
  exact WithBot.coe_lt_coe.mpr (WithTop.coe_lt_top p)

/-- C122: comparisons are those of the number line; NaN compares with nothing. -/
theorem C122_order (x y : Fl f) :
    (∀ u v, x.Place u → y.Place v → (x.lt y ↔ u < v) ∧ (x.eq y ↔ u = v) ∧ (x.le y ↔ u ≤ v) ∧
      (x.min y).Place (min u v) ∧ (x.max y).Place (max u v)) ∧
    (x = nan ∨ y = nan → x.lt y = false ∧ x.eq y = false ∧ x.le y = false) ∧
    (nan : Fl f).min y = y ∧ x.min nan = x ∧ (nan : Fl f).max y = y ∧ x.max nan = x := by
  refine ⟨?_, ?_, rfl, by cases x <;> rfl, rfl, by cases x <;> rfl⟩
  · intro u v hu hv
    obtain ⟨h1, h2⟩ := lt_eq_place hu hv
    have h3 := (lt_eq_place hv hu).1
    refine ⟨h1, h2, ?_, ?_, ?_⟩
    · rw [Fl.le, Bool.or_eq_true, h1, h2, le_iff_lt_or_eq]
    · have e : x.min y = if y.lt x then y else x := by
        rcases x with _ | _ | _ <;> rcases y with _ | _ | _ <;> first | rfl | contradiction
      rw [e]
      split
      · rename_i h; rw [min_eq_right (h3.mp h).le]; exact hv
      · rename_i h; rw [min_eq_left (not_lt.mp (fun hh => h (h3.mpr hh)))]; exact hu
    · have e : x.max y = if x.lt y then y else x := by
        rcases x with _ | _ | _ <;> rcases y with _ | _ | _ <;> first | rfl | contradiction
      rw [e]
      split
      · rename_i h; rw [max_eq_right (h1.mp h).le]; exact hv
      · rename_i h; rw [max_eq_left (not_lt.mp (fun hh => h (h1.mpr hh)))]; exact hu
  · rintro (rfl | rfl)
    · exact ⟨rfl, rfl, rfl⟩
    · cases x <;> exact ⟨rfl, rfl, rfl⟩

example : (inf true : Fl binary32).lt (lit 2) ∧ ((lit 2 : Fl binary32).max (inf true)).Is 2 :=
  ⟨((C122_order (inf true) (lit 2)).1 ⊥ ((2 : ℚ) : WithTop ℚ) rfl
      (by obtain ⟨_, _, h⟩ : (lit 2 : Fl binary32).Is 2 := by decide +kernel
          rw [h]; rfl)).1.mpr (WithBot.bot_lt_coe _), by decide +kernel⟩

/-- C122: truncation is the integer next to the number on the side of zero. -/
theorem C122_trunc (q : ℚ) (z : ℤ) : z = truncQ q ↔ |(z:ℚ)| ≤ |q| ∧ |q - z| < 1 := by
  rcases lt_or_ge q 0 with h | h
  · rw [truncQ_neg h, abs_of_neg h, ← neg_eq_iff_eq_neg, eq_comm, Int.floor_eq_iff, abs_le, abs_lt]
    push_cast
    constructor
    · rintro ⟨h1, h2⟩
      have hz : z < 1 := by
        have : (z:ℚ) < 1 := by linarith
        exact_mod_cast this
      have hz' : (z:ℚ) ≤ 0 := by exact_mod_cast Int.lt_add_one_iff.mp hz
      refine ⟨⟨by linarith, by linarith⟩, by linarith, by linarith⟩
    · rintro ⟨⟨h1, h2⟩, h3, h4⟩
      exact ⟨by linarith, by linarith⟩
  · rw [truncQ_nonneg h, abs_of_nonneg h, eq_comm, Int.floor_eq_iff, abs_le, abs_lt]
    constructor
    · rintro ⟨h1, h2⟩
      have hz : -1 < z := by
        have : (-1:ℚ) < z := by linarith
        exact_mod_cast this
      have hz' : (0:ℚ) ≤ z := by exact_mod_cast (by omega : 0 ≤ z)
      refine ⟨⟨by linarith, by linarith⟩, by linarith, by linarith⟩
    · rintro ⟨⟨h1, h2⟩, h3, h4⟩
      exact ⟨by linarith, by linarith⟩

example : truncQ (-7 / 2) = -3 := ((C122_trunc (-7 / 2) (-3)).mpr (by norm_num)).symm

/-! ## Storage -/

/-- Absolute value stored as `E`, `M`, in units of the smallest. -/
def mag (c : ℤ) (t E M : Nat) : ℚ := if E = 0 then M * 2 ^ c else (2 ^ t + M) * 2 ^ (c + E - 1)

theorem encoded_iff {w t : Nat} (hmin : f.emin = 2 - 2 ^ (w - 1) - t) {x : Fl f} {s : Bool} {E M : Nat}
    (hE : E ≠ 2 ^ w - 1) :
    x.Encoded w t s E M ↔ x.isNeg = s ∧ x.Is ((if s then -1 else 1) * mag f.emin t E M) := by
  unfold Fl.Encoded mag
  rw [if_neg hE, hmin]
  split
  · rfl
  · rw [show (2 - 2 ^ (w - 1) - t + E - 1 : ℤ) = E + 1 - 2 ^ (w - 1) - t by ring]

theorem mag_nonneg (c : ℤ) (t E M : Nat) : 0 ≤ mag c t E M := by
  unfold mag
  split
  · exact mul_nonneg (by positivity) (two_zpow_pos _).le
  · exact mul_nonneg (by positivity) (two_zpow_pos _).le

theorem rep_mag {w t E M : Nat} (hp : f.prec = t + 1) (hmin : f.emin = 2 - 2 ^ (w - 1) - t)
    (htop : f.etop = 2 ^ (w - 1) - 1 - t) (hw : 2 ≤ w) (hE : E < 2 ^ w - 1) (hM : M < 2 ^ t) :
    f.Rep (mag f.emin t E M) := by
  have hw' : (2:ℤ) ^ w = 2 * 2 ^ (w - 1) := by
    obtain ⟨v, rfl⟩ : ∃ v, w = v + 1 := ⟨w - 1, by omega⟩
    simp [pow_succ]; ring
  have hE' : (E:ℤ) + 2 ≤ 2 ^ w := by
    have : E + 2 ≤ 2 ^ w := by omega
    exact_mod_cast this
  have h2 : (2:ℤ) ≤ 2 ^ (w - 1) := by
    calc (2:ℤ) = 2 ^ 1 := by norm_num
      _ ≤ 2 ^ (w - 1) := pow_le_pow_right₀ (by norm_num) (by omega)
  have hMz : (M:ℤ) < 2 ^ t := by exact_mod_cast hM
  unfold mag
  split
  · refine ⟨M, f.emin, ?_, le_rfl, by omega, by push_cast; rfl⟩
    rw [abs_of_nonneg (by positivity), hp, pow_succ]
    linarith [pow_pos (by norm_num : (0:ℤ) < 2) t]
  · refine ⟨2 ^ t + M, f.emin + E - 1, ?_, by omega, by omega, by push_cast; rfl⟩
    rw [abs_of_nonneg (by positivity), hp, pow_succ]
    linarith

theorem mag_lt {c : ℤ} {t E M E' M' : Nat} (hM : M < 2 ^ t) (h : E < E') : mag c t E M < mag c t E' M' := by
  have hMq : (M:ℚ) + 1 ≤ 2 ^ t := by exact_mod_cast hM
  have hM' : (0:ℚ) ≤ M' := by positivity
  unfold mag
  rw [if_neg (by omega : E' ≠ 0)]
  split
  · calc (M:ℚ) * 2 ^ c < (2 ^ t + M') * 2 ^ c := mul_lt_mul_of_pos_right (by linarith) (two_zpow_pos _)
      _ ≤ _ := mul_le_mul_of_nonneg_left (zpow_le_zpow_right₀ (by norm_num) (by omega)) (by positivity)
  · calc ((2:ℚ) ^ t + M) * 2 ^ (c + E - 1) < ((2 ^ t + M') * 2) * 2 ^ (c + E - 1) :=
          mul_lt_mul_of_pos_right (by linarith) (two_zpow_pos _)
      _ = (2 ^ t + M') * 2 ^ (c + E) := by
          rw [mul_assoc, ← zpow_one_add₀ (by norm_num)]; congr 2; ring
      _ ≤ _ := mul_le_mul_of_nonneg_left (zpow_le_zpow_right₀ (by norm_num) (by omega)) (by positivity)

theorem mag_inj {c : ℤ} {t E M E' M' : Nat} (hM : M < 2 ^ t) (hM' : M' < 2 ^ t) (h : mag c t E M = mag c t E' M') :
    E = E' ∧ M = M' := by
  rcases lt_trichotomy E E' with hE | rfl | hE
  · exact absurd h (mag_lt hM hE).ne
  · refine ⟨rfl, ?_⟩
    unfold mag at h
    split at h
    · have := mul_right_cancel₀ (two_zpow_pos _).ne' h
      exact_mod_cast this
    · have := mul_right_cancel₀ (two_zpow_pos _).ne' h
      have := add_left_cancel this
      exact_mod_cast this
  · exact absurd h (mag_lt hM' hE).ne'

theorem mag_surj_aux (c : ℤ) (t k m : Nat) (hm : m < 2 ^ (t + 1)) :
    ∃ E M, E ≤ k + 1 ∧ M < 2 ^ t ∧ (m:ℚ) * 2 ^ (c + k) = mag c t E M := by
  have big : ∀ k : Nat, 2 ^ t ≤ m → (m:ℚ) * 2 ^ (c + k) = mag c t (k + 1) (m - 2 ^ t) := by
    intro k h
    unfold mag
    rw [if_neg (by omega), Nat.cast_sub h]
    push_cast
    congr 1
    · ring
    · congr 1; ring
  induction k generalizing m with
  | zero =>
    rcases Nat.lt_or_ge m (2 ^ t) with h | h
    · exact ⟨0, m, by omega, h, by simp [mag]⟩
    · exact ⟨1, m - 2 ^ t, le_rfl, by rw [pow_succ] at hm; omega, big 0 h⟩
  | succ k ih =>
    rcases Nat.lt_or_ge m (2 ^ t) with h | h
    · obtain ⟨E, M, h1, h2, h3⟩ := ih (2 * m) (by rw [pow_succ]; omega) (by
        intro k h
        unfold mag
        rw [if_neg (by omega), Nat.cast_sub h]
        push_cast
        congr 1
        · ring
        · congr 1; ring)
      refine ⟨E, M, by omega, h2, ?_⟩
      rw [← h3]
      push_cast
      rw [show c + (k + 1 : ℤ) = 1 + (c + k) by ring, zpow_one_add₀ (by norm_num)]
      ring
    · exact ⟨k + 2, m - 2 ^ t, by omega, by rw [pow_succ] at hm; omega, big (k + 1) h⟩

theorem mag_surj {w t : Nat} (hp : f.prec = t + 1) (hmin : f.emin = 2 - 2 ^ (w - 1) - t)
    (htop : f.etop = 2 ^ (w - 1) - 1 - t) (hw : 2 ≤ w) {q : ℚ} (hq : 0 ≤ q) (h : f.Rep q) :
    ∃ E M, E < 2 ^ w - 1 ∧ M < 2 ^ t ∧ q = mag f.emin t E M := by
  obtain ⟨m, e, h1, h2, h3, rfl⟩ := h
  have hm : 0 ≤ m := by
    have := nonneg_of_mul_nonneg_left hq (two_zpow_pos e)
    exact_mod_cast this
  obtain ⟨n, rfl⟩ := Int.eq_ofNat_of_zero_le hm
  obtain ⟨k, hk⟩ := Int.eq_ofNat_of_zero_le (by omega : 0 ≤ e - f.emin)
  rw [abs_of_nonneg hm, hp] at h1
  obtain ⟨E, M, h4, h5, h6⟩ := mag_surj_aux f.emin t k n (by exact_mod_cast h1)
  refine ⟨E, M, ?_, h5, ?_⟩
  · have hw' : 2 ^ w = 2 * 2 ^ (w - 1) := by
      obtain ⟨v, rfl⟩ : ∃ v, w = v + 1 := ⟨w - 1, by omega⟩
      simp [pow_succ]; ring
    have : (k:ℤ) + 3 ≤ 2 * 2 ^ (w - 1) := by omega
    have : k + 3 ≤ 2 * 2 ^ (w - 1) := by exact_mod_cast this
    omega
  · rw [← h6, ← hk]; push_cast; congr 2; ring

theorem is_ext {x y : Fl f} {q : ℚ} (hx : x.Is q) (hy : y.Is q) (h : x.isNeg = y.isNeg) : x = y := by
  obtain ⟨a, h1, rfl⟩ := hx
  obtain ⟨b, h2, rfl⟩ := hy
  rw [isNeg_fin, isNeg_fin] at h
  have : a = b := by
    by_cases hq : q = 0
    · subst hq; simpa using h
    · cases a <;> cases b <;> simp_all
  subst this; rfl

/-- A format stored with `w` bits of exponent and `t` of fraction. -/
def Bits (f : Fmt) (w t : Nat) : Prop :=
  f.prec = t + 1 ∧ f.emin = 2 - 2 ^ (w - 1) - t ∧ f.etop = 2 ^ (w - 1) - 1 - t ∧ 2 ≤ w

theorem bits_pow {w : Nat} (hw : 2 ≤ w) : 4 ≤ 2 ^ w := by
  calc 4 = 2 ^ 2 := by norm_num
    _ ≤ 2 ^ w := Nat.pow_le_pow_right (by norm_num) hw

theorem exists_code {w t : Nat} (h : Bits f w t) (ht : 1 ≤ t) (x : Fl f) :
    ∃ s E M, E < 2 ^ w ∧ M < 2 ^ t ∧ x.Encoded w t s E M := by
  obtain ⟨hp, hmin, htop, hw⟩ := h
  have h4 := bits_pow hw
  have h2 : 2 ≤ 2 ^ t := by
    calc 2 = 2 ^ 1 := by norm_num
      _ ≤ 2 ^ t := Nat.pow_le_pow_right (by norm_num) ht
  rcases x with _ | a | ⟨q, b, hq⟩
  · exact ⟨false, 2 ^ w - 1, 1, by omega, by omega, by simp [Fl.Encoded]⟩
  · exact ⟨a, 2 ^ w - 1, 0, by omega, by omega, by simp [Fl.Encoded]⟩
  · have hr : f.Rep |q| := by
      rcases abs_choice q with e | e <;> rw [e]
      · exact hq.1
      · exact hq.1.neg
    obtain ⟨E, M, hE, hM, e⟩ := mag_surj hp hmin htop hw (abs_nonneg q) hr
    refine ⟨(fin q b hq).isNeg, E, M, by omega, hM, (encoded_iff hmin (by omega)).mpr ⟨rfl, ?_⟩⟩
    rw [← e, isNeg_fin]
    have : (if (decide (q < 0) || b) = true then (-1:ℚ) else 1) * |q| = q := by
      rcases lt_trichotomy q 0 with h | h | h
      · simp [h, abs_of_neg h]
      · simp [h]
      · have : b = false := by
          cases b
          · rfl
          · exact absurd (hq.2 rfl) h.ne'
        simp [this, not_lt.mpr h.le, abs_of_pos h]
    rw [this]
    exact is_fin

theorem exists_unique_float {w t : Nat} (h : Bits f w t) {s : Bool} {E M : Nat} (hE : E < 2 ^ w) (hM : M < 2 ^ t) :
    ∃! x : Fl f, x.Encoded w t s E M := by
  obtain ⟨hp, hmin, htop, hw⟩ := h
  by_cases he : E = 2 ^ w - 1
  · unfold Fl.Encoded
    simp only [he, if_true]
    split
    · exact ⟨_, rfl, fun _ h => h⟩
    · exact ⟨_, rfl, fun _ h => h⟩
  · have hr := rep_mag hp hmin htop hw (by omega : E < 2 ^ w - 1) hM
    have h0 := mag_nonneg f.emin t E M
    set g := mag f.emin t E M with hg
    have hr' : f.Rep ((if s then -1 else 1) * g) := by
      cases s
      · simpa using hr
      · simpa using hr.neg
    refine ⟨fin ((if s then -1 else 1) * g) (s && decide (g = 0)) ⟨hr', by intro hh; simp at hh; simp [hh.2]⟩, ?_, ?_⟩
    · refine (encoded_iff hmin he).mpr ⟨?_, is_fin⟩
      rw [isNeg_fin]
      rcases lt_or_eq_of_le h0 with h | h
      · cases s <;> simp [h, h0]
      · rw [← h]; simp
    · intro y hy
      obtain ⟨h1, h2⟩ := (encoded_iff hmin he).mp hy
      refine is_ext h2 is_fin ?_
      rw [h1, isNeg_fin]
      rcases lt_or_eq_of_le h0 with h | h
      · cases s <;> simp [h, h0]
      · rw [← h]; simp

theorem code_unique {w t : Nat} (h : Bits f w t) {x : Fl f} (hx : x ≠ nan) {s s' : Bool} {E M E' M' : Nat}
    (hM : M < 2 ^ t) (hM' : M' < 2 ^ t)
    (h1 : x.Encoded w t s E M) (h2 : x.Encoded w t s' E' M') : s = s' ∧ E = E' ∧ M = M' := by
  obtain ⟨hp, hmin, htop, hw⟩ := h
  by_cases he : E = 2 ^ w - 1 <;> by_cases he' : E' = 2 ^ w - 1
  · unfold Fl.Encoded at h1 h2
    rw [if_pos he] at h1
    rw [if_pos he'] at h2
    split at h1 <;> [skip; exact absurd h1 hx]
    split at h2 <;> [skip; exact absurd h2 hx]
    rw [h1] at h2
    cases h2
    exact ⟨rfl, by omega, by omega⟩
  · exfalso
    have h3 := ((encoded_iff hmin he').mp h2).2
    unfold Fl.Encoded at h1
    rw [if_pos he] at h1
    split at h1 <;> [skip; exact absurd h1 hx]
    rw [h1] at h3
    exact not_inf_is h3
  · exfalso
    have h3 := ((encoded_iff hmin he).mp h1).2
    unfold Fl.Encoded at h2
    rw [if_pos he'] at h2
    split at h2 <;> [skip; exact absurd h2 hx]
    rw [h2] at h3
    exact not_inf_is h3
  · obtain ⟨a1, a2⟩ := (encoded_iff hmin he).mp h1
    obtain ⟨b1, b2⟩ := (encoded_iff hmin he').mp h2
    obtain rfl : s = s' := a1.symm.trans b1
    refine ⟨rfl, mag_inj (c := f.emin) hM hM' ?_⟩
    have := a2.unique b2
    exact mul_left_cancel₀ (by cases s <;> norm_num) this

theorem bits64 : Bits binary64 11 52 := by unfold Bits; decide

theorem bits32 : Bits binary32 8 23 := by unfold Bits; decide

/-- C122: the values of the model are those of the 64 bits of `f64`. -/
theorem C122_f64 :
    (∀ x : Fl binary64, ∃ s E M, E < 2048 ∧ M < 2 ^ 52 ∧ x.Encoded 11 52 s E M) ∧
    (∀ s E M, E < 2048 → M < 2 ^ 52 → ∃! x : Fl binary64, x.Encoded 11 52 s E M) ∧
    ∀ x : Fl binary64, x ≠ nan → ∀ s E M s' E' M', M < 2 ^ 52 → M' < 2 ^ 52 →
      x.Encoded 11 52 s E M → x.Encoded 11 52 s' E' M' → s = s' ∧ E = E' ∧ M = M' :=
  ⟨exists_code bits64 (by norm_num), fun _ _ _ => exists_unique_float bits64,
    fun _ hx _ _ _ _ _ _ => code_unique bits64 hx⟩

/-- One, the smallest number and minus the largest. -/
example : (lit 1 : Fl binary64).Encoded 11 52 false 1023 0 ∧ (lit (2 ^ (-1074 : ℤ)) : Fl binary64).Encoded 11 52 false 0 1 ∧
    (lit (-binary64.maxF) : Fl binary64).Encoded 11 52 true 2046 (2 ^ 52 - 1) := by
  refine ⟨?_, ?_, ?_⟩ <;> unfold Fl.Encoded <;> decide +kernel

example : ∃! x : Fl binary64, x.Encoded 11 52 true 1024 (2 ^ 51) := C122_f64.2.1 _ _ _ (by norm_num) (by norm_num)

/-- C122: and of the 32 bits of `f32`. -/
theorem C122_f32 :
    (∀ x : Fl binary32, ∃ s E M, E < 256 ∧ M < 2 ^ 23 ∧ x.Encoded 8 23 s E M) ∧
    (∀ s E M, E < 256 → M < 2 ^ 23 → ∃! x : Fl binary32, x.Encoded 8 23 s E M) ∧
    ∀ x : Fl binary32, x ≠ nan → ∀ s E M s' E' M', M < 2 ^ 23 → M' < 2 ^ 23 →
      x.Encoded 8 23 s E M → x.Encoded 8 23 s' E' M' → s = s' ∧ E = E' ∧ M = M' :=
  ⟨exists_code bits32 (by norm_num), fun _ _ _ => exists_unique_float bits32,
    fun _ hx _ _ _ _ _ _ => code_unique bits32 hx⟩

example : (lit 1 : Fl binary32).Encoded 8 23 false 127 0 ∧ (lit (2 ^ (-149 : ℤ)) : Fl binary32).Encoded 8 23 false 0 1 ∧
    (lit (-binary32.maxF) : Fl binary32).Encoded 8 23 true 254 (2 ^ 23 - 1) := by
  refine ⟨?_, ?_, ?_⟩ <;> unfold Fl.Encoded <;> decide +kernel

example : ∃! x : Fl binary32, x.Encoded 8 23 true 128 (2 ^ 22) := C122_f32.2.1 _ _ _ (by norm_num) (by norm_num)

end Fon
