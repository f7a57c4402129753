import Verif.Spec.Mean
import Verif.Props.Quant

/-!
# C22 and C23 exactly: frames of any samples, down-mixed
-/

namespace Fon
open Fl Fmt
variable {c d : ChTy}

theorem neg_inf_le {f : Fmt} {x : Fl f} (h : x ≠ nan) : Fl.le (inf true) x = true := by
  rcases x with _ | a | ⟨p, a, h⟩
  · exact absurd rfl h
  · cases a <;> simp [Fl.le, Fl.lt, Fl.eq]
  · simp [Fl.le, Fl.lt, Fl.eq]

theorem le_inf {f : Fmt} {x : Fl f} (h : x ≠ nan) : Fl.le x (inf false) = true := by
  rcases x with _ | a | ⟨p, a, h⟩
  · exact absurd rfl h
  · cases a <;> simp [Fl.le, Fl.lt, Fl.eq]
  · simp [Fl.le, Fl.lt, Fl.eq]

theorem not_is_ne_nan {f : Fmt} {x : Fl f} {p : ℚ} (h : x.Is p) : x ≠ nan := by
  rintro rfl; exact not_nan_is h

/-- The order of floats. -/
theorem le_iff_cases {f : Fmt} {x y : Fl f} : x.le y = true ↔
    x ≠ nan ∧ y ≠ nan ∧ (x = inf true ∨ y = inf false ∨ ∃ p q, x.Is p ∧ y.Is q ∧ p ≤ q) := by
  constructor
  · intro h
    obtain ⟨h1, h2⟩ := le_not_nan h
    refine ⟨h1, h2, ?_⟩
    rcases x with _ | a | ⟨p, a, hp⟩
    · exact absurd rfl h1
    · cases a
      · rcases y with _ | b | ⟨q, b, hq⟩
        · exact absurd rfl h2
        · cases b
          · exact .inr (.inl rfl)
          · simp [Fl.le, Fl.lt, Fl.eq] at h
        · simp [Fl.le, Fl.lt, Fl.eq] at h
      · exact .inl rfl
    · rcases y with _ | b | ⟨q, b, hq⟩
      · exact absurd rfl h2
      · cases b
        · exact .inr (.inl rfl)
        · simp [Fl.le, Fl.lt, Fl.eq] at h
      · refine .inr (.inr ⟨p, q, is_fin, is_fin, ?_⟩)
        rw [is_fin.le is_fin] at h; simpa using h
  · rintro ⟨h1, h2, rfl | rfl | ⟨p, q, hp, hq, h⟩⟩
    · exact neg_inf_le h2
    · exact le_inf h1
    · rw [hp.le hq]; simpa using h

theorem ofQ_mono {f : Fmt} (s t : Bool) {p q : ℚ} (h : p ≤ q) : (ofQ f s p).le (ofQ f t q) = true := by
  have big : ∀ {s : Bool} {q : ℚ}, ¬ |f.rnd q| ≤ f.maxF → ofQ f s q = inf (decide (q < 0)) := by
    intro s q h; unfold ofQ; rw [dif_neg h]
  have hm := maxF_pos (f := f)
  have neg : ∀ {q : ℚ}, ¬ |f.rnd q| ≤ f.maxF → q < 0 → f.rnd q < -f.maxF := by
    intro q h hq
    have := rnd_nonpos (f := f) hq.le
    rw [abs_of_nonpos this] at h; linarith
  have pos : ∀ {q : ℚ}, ¬ |f.rnd q| ≤ f.maxF → ¬ q < 0 → f.maxF < f.rnd q := by
    intro q h hq
    have := rnd_nonneg (f := f) (not_lt.mp hq)
    rw [abs_of_nonneg this] at h; linarith
  have hr := rnd_mono (f := f) h
  by_cases h1 : |f.rnd p| ≤ f.maxF <;> by_cases h2 : |f.rnd q| ≤ f.maxF
  · rw [(is_ofQ h1).le (is_ofQ h2)]; simpa using hr
  · rw [big h2]
    by_cases hq : q < 0
    · have := neg h2 hq
      have := (abs_le.mp h1).1
      linarith
    · rw [decide_eq_false hq]; exact le_inf (ofQ_ne_nan _ _)
  · rw [big h1]
    by_cases hp : p < 0
    · rw [decide_eq_true hp]; exact neg_inf_le (ofQ_ne_nan _ _)
    · have := pos h1 hp
      have := (abs_le.mp h2).2
      linarith
  · rw [big h1, big h2]
    by_cases hp : p < 0
    · rw [decide_eq_true hp]; exact neg_inf_le (by simp)
    · rw [decide_eq_false (p := q < 0) (by linarith)]; exact le_inf (by simp)

theorem cast_mono {x y : F64} (h : x.le y = true) : (x.cast binary32).le (y.cast binary32) = true := by
  have nn : ∀ {x : F64}, x ≠ nan → x.cast binary32 ≠ nan := by
    intro x hx
    rcases x with _ | a | ⟨p, a, hp⟩
    · exact absurd rfl hx
    · simp [Fl.cast]
    · exact ofQ_ne_nan _ _
  obtain ⟨h1, h2, rfl | rfl | ⟨p, q, hp, hq, hpq⟩⟩ := le_iff_cases.mp h
  · exact neg_inf_le (nn h2)
  · exact le_inf (nn h1)
  · obtain ⟨a, ha, rfl⟩ := hp
    obtain ⟨b, hb, rfl⟩ := hq
    exact ofQ_mono _ _ hpq

theorem ofF64_mono' {x y : F64} (h : x.le y = true) : d.Le (d.ofF64 x) (d.ofF64 y) := by
  cases d with
  | ch8 => exact (C12_ofF64_mono x y h).1
  | ch16 => exact (C12_ofF64_mono x y h).2
  | ch64 => exact h
  | ch32 => exact cast_mono h

theorem toF64_mono' {a b : c.T} (h : c.Le a b) : (c.toF64 a).le (c.toF64 b) = true := by
  cases c with
  | ch8 => exact toF64_mono (c := .ch8) trivial trivial h
  | ch16 => exact toF64_mono (c := .ch16) trivial trivial h
  | ch64 => exact h
  | ch32 =>
    change Fl.le (Fl.cast binary64 a) (Fl.cast binary64 b) = true
    have nn : ∀ {x : F32}, x ≠ nan → x.cast binary64 ≠ nan := by
      intro x hx
      rcases x with _ | a | ⟨p, a, hp⟩
      · exact absurd rfl hx
      · simp [Fl.cast]
      · exact ofQ_ne_nan _ _
    have h' : Fl.le a b = true := h
    obtain ⟨h1, h2, rfl | rfl | ⟨p, q, hp, hq, hpq⟩⟩ := le_iff_cases.mp h'
    · exact neg_inf_le (nn h2)
    · exact le_inf (nn h1)
    · obtain ⟨a, ha, rfl⟩ := hp
      obtain ⟨b, hb, rfl⟩ := hq
      exact ofQ_mono _ _ hpq

/-- Means of numbers, also huge ones. -/
theorem mean_num {x y : F64} {p q : ℚ} (hx : x.Is p) (hy : y.Is q) (h : p ≤ q) (hs : |binary64.rnd (p + q)| ≤ binary64.maxF) :
    ∃ r, ((x.add y).mul (lit 0.5)).Is r ∧ p ≤ r ∧ r ≤ q := by
  have dbl : ∀ {q : ℚ}, binary64.Rep q → binary64.Gen (2 * q) := by
    intro q hq
    obtain ⟨m, e, e1, e2, e3⟩ := hq.gen
    exact ⟨m, e + 1, e1, by omega, by rw [e3, zpow_add₀ (by norm_num)]; ring⟩
  have l : 2 * p ≤ binary64.rnd (p + q) := le_rnd_of_gen (dbl hx.rep) (by linarith)
  have u : binary64.rnd (p + q) ≤ 2 * q := rnd_le_of_gen (dbl hy.rep) (by linarith)
  have h5 : binary64.Rep 0.5 := rep_dyadic 1 (-1) (by norm_num) (by norm_num [binary64]) (by decide) (by decide)
  have l' : p ≤ binary64.rnd (binary64.rnd (p + q) * 0.5) := le_rnd_of_gen hx.rep.gen (by norm_num; linarith)
  have u' : binary64.rnd (binary64.rnd (p + q) * 0.5) ≤ q := rnd_le_of_gen hy.rep.gen (by norm_num; linarith)
  refine ⟨_, (hx.add hy hs).mul (is_lit h5) ?_, l', u'⟩
  have := hx.rep.le_maxF
  have := hy.rep.le_maxF
  rw [abs_le] at *; constructor <;> linarith

theorem half_inf (s : Bool) : Fl.mul (inf s) (lit 0.5 : F64) = inf s := by cases s <;> decide +kernel

/-- The mean in all cases. -/
theorem mean_cases {x y : F64} (h : x.le y = true) :
    (¬ x.Agree y ∧ (x.add y).mul (lit 0.5) = nan) ∨
    (x.Agree y ∧ ¬ x.Adds y ∧ ∃ p q, x.Is p ∧ y.Is q ∧ binary64.maxF < |q + p| ∧
      (x.add y).mul (lit 0.5) = inf (decide (p + q < 0))) ∨
    (x.Agree y ∧ x.Adds y ∧ x.le ((x.add y).mul (lit 0.5)) = true ∧ ((x.add y).mul (lit 0.5)).le y = true) := by
  obtain ⟨h1, h2, hc⟩ := le_iff_cases.mp h
  by_cases ha : x.Agree y
  · right
    have ni : ∀ {b} {p : ℚ}, (inf b : F64).Is p → False := fun h => not_inf_is h
    rcases hc with rfl | rfl | ⟨p, q, hp, hq, hpq⟩
    · right
      have hy : y ≠ inf false := fun e => ha ⟨rfl, e⟩
      have e : ((inf true : F64).add y) = inf true := by
        rcases y with _ | b | ⟨q, b, hq⟩
        · exact absurd rfl h2
        · cases b
          · exact absurd rfl hy
          · rfl
        · rfl
      rw [e, half_inf]
      exact ⟨ha, fun p q hp => (ni hp).elim, neg_inf_le (by simp), neg_inf_le h2⟩
    · right
      have hx : x ≠ inf true := fun e => ha ⟨e, rfl⟩
      have e : (x.add (inf false)) = inf false := by
        rcases x with _ | b | ⟨q, b, hq⟩
        · exact absurd rfl h1
        · cases b
          · rfl
          · exact absurd rfl hx
        · rfl
      rw [e, half_inf]
      exact ⟨ha, fun p q _ hq => (ni hq).elim, le_inf h1, le_inf (by simp)⟩
    · by_cases hs : |binary64.rnd (p + q)| ≤ binary64.maxF
      · right
        obtain ⟨r, hr, h3, h4⟩ := mean_num hp hq hpq hs
        refine ⟨ha, ?_, by rw [hp.le hr]; simpa using h3, by rw [hr.le hq]; simpa using h4⟩
        intro p' q' hp' hq'
        rwa [hp'.unique hp, hq'.unique hq]
      · left
        refine ⟨ha, fun h => hs (h p q hp hq), p, q, hp, hq, ?_, ?_⟩
        · by_contra hle
          have hmax : binary64.Rep binary64.maxF := ⟨2 ^ 53 - 1, binary64.etop, by decide +kernel, by decide, le_rfl, by
            unfold Fmt.maxF; norm_num [binary64]⟩
          exact hs (abs_rnd_le_of_rep hmax (by rw [add_comm]; exact not_lt.mp hle))
        · have : x.add y = inf (decide (p + q < 0)) := by
            obtain ⟨a, ha, rfl⟩ := hp
            obtain ⟨b, hb, rfl⟩ := hq
            simp only [Fl.add]
            unfold ofQ; rw [dif_neg hs]
          rw [this, half_inf]
  · left
    refine ⟨ha, ?_⟩
    have := not_not.mp ha
    rw [this.1, this.2]
    decide +kernel

/-- The result of a mean that overflows: the same as for the larger operand, in all formats but Ch64. -/
theorem over_same (hd : d ≠ .ch64) {y : F64} {q : ℚ} (hy : y.Is q) (hq : binary64.maxF / 2 < |q|) :
    d.ofF64 (inf (decide (q < 0))) = d.ofF64 y := by
  have one : (1:ℚ) ≤ binary64.maxF / 2 := by decide +kernel
  have far : ¬ |binary32.rnd q| ≤ binary32.maxF := by
    have big : (2:ℚ) ^ (128:ℤ) ≤ binary64.maxF / 2 := by decide +kernel
    have gen : binary32.Gen (2 ^ (128:ℤ)) := ⟨1, 128, by norm_num [binary32], by decide, by norm_num⟩
    have top : binary32.maxF < 2 ^ (128:ℤ) := by decide +kernel
    have h : (2:ℚ) ^ (128:ℤ) ≤ |binary32.rnd q| := by
      rcases le_abs.mp (big.trans hq.le) with h | h
      · exact (le_rnd_of_gen gen h).trans (le_abs_self _)
      · have gen' : binary32.Gen (-2 ^ (128:ℤ)) := ⟨-1, 128, by norm_num [binary32], by decide, by norm_num⟩
        have := rnd_le_of_gen gen' (le_neg.mp h)
        exact le_abs.mpr (.inr (by linarith))
    exact not_le.mpr (lt_of_lt_of_le top h)
  have cast : y.cast binary32 = inf (decide (q < 0)) := by
    obtain ⟨b, hb, rfl⟩ := hy
    simp only [Fl.cast]
    unfold ofQ; rw [dif_neg far]
  by_cases h0 : q < 0
  · rw [decide_eq_true h0]
    rw [abs_of_neg h0] at hq
    have hle : y.le (lit (-1)) = true := by
      rw [hy.le is_neg_one]; simp; linarith
    have hi : (inf true : F64).le (lit (-1)) = true := by decide +kernel
    cases d with
    | ch8 => exact ((C12_saturate _).2 hi).1.trans ((C12_saturate y).2 hle).1.symm
    | ch16 => exact ((C12_saturate _).2 hi).2.trans ((C12_saturate y).2 hle).2.symm
    | ch64 => exact absurd rfl hd
    | ch32 =>
      change Fl.cast binary32 (inf true : F64) = Fl.cast binary32 y
      rw [cast, decide_eq_true h0]; rfl
  · rw [decide_eq_false h0]
    rw [abs_of_nonneg (not_lt.mp h0)] at hq
    have hle : (lit 1 : F64).le y = true := by
      rw [is_one.le hy]; simp; linarith
    have hi : (lit 1 : F64).le (inf false) = true := by decide +kernel
    cases d with
    | ch8 => exact ((C12_saturate _).1 (.inl hi)).1.trans ((C12_saturate y).1 (.inl hle)).1.symm
    | ch16 => exact ((C12_saturate _).1 (.inl hi)).2.trans ((C12_saturate y).1 (.inl hle)).2.symm
    | ch64 => exact absurd rfl hd
    | ch32 =>
      change Fl.cast binary32 (inf false : F64) = Fl.cast binary32 y
      rw [cast, decide_eq_false h0]; rfl

theorem chanAvg_iff (l r : c.T) (h : c.Le l r) :
    (d.Le (Frame.chanConv d l) (Frame.chanAvg d l r) ∧ d.Le (Frame.chanAvg d l r) (Frame.chanConv d r)) ↔
      (d = .ch32 ∨ d = .ch64 → (c.toF64 l).Agree (c.toF64 r)) ∧ (d = .ch64 → (c.toF64 l).Adds (c.toF64 r)) := by
  unfold Frame.chanConv Frame.chanAvg
  have h0 := toF64_mono' h
  generalize c.toF64 l = x at h0 ⊢
  generalize c.toF64 r = y at h0 ⊢
  rcases mean_cases h0 with ⟨ha, e⟩ | ⟨ha, hs, p, q, hp, hq, hpq, e⟩ | ⟨ha, hs, h1, h2⟩
  · rw [e]
    have ha' := not_not.mp ha
    cases d with
    | ch8 =>
      refine ⟨fun _ => ⟨fun h => (by rcases h with h | h <;> cases h), fun h => (by cases h)⟩, fun _ => ?_⟩
      rw [ha'.1, ha'.2]; constructor <;> decide +kernel
    | ch16 =>
      refine ⟨fun _ => ⟨fun h => (by rcases h with h | h <;> cases h), fun h => (by cases h)⟩, fun _ => ?_⟩
      rw [ha'.1, ha'.2]; constructor <;> decide +kernel
    | ch32 =>
      refine ⟨fun h => absurd h.2 ?_, fun h => absurd (h.1 (.inl rfl)) ha⟩
      rw [ha'.2]; decide +kernel
    | ch64 =>
      refine ⟨fun h => absurd h.2 ?_, fun h => absurd (h.1 (.inr rfl)) ha⟩
      rw [ha'.2]; decide +kernel
  · rw [e]
    by_cases hd : d = .ch64
    · subst hd
      refine ⟨fun h => ?_, fun h => absurd (h.2 rfl) hs⟩
      exfalso
      obtain ⟨a, hp, rfl⟩ := hp
      obtain ⟨b, hq, rfl⟩ := hq
      have h1 : Fl.le (Fl.fin p a hp) (inf (decide (p + q < 0))) = true := h.1
      have h2 : Fl.le (inf (decide (p + q < 0))) (Fl.fin q b hq) = true := h.2
      cases hb : decide (p + q < 0) <;> rw [hb] at h1 h2
      · simp [Fl.le, Fl.lt, Fl.eq] at h2
      · simp [Fl.le, Fl.lt, Fl.eq] at h1
    · refine ⟨fun _ => ⟨fun _ => ha, fun h => absurd h hd⟩, fun _ => ?_⟩
      have hpq' : p ≤ q := by rw [hp.le hq] at h0; simpa using h0
      by_cases hn : p + q < 0
      · have : decide (p + q < 0) = decide (p < 0) := by
          rw [decide_eq_true hn, decide_eq_true (by linarith)]
        rw [this, over_same hd hp (by
          rw [add_comm, abs_of_neg hn] at hpq
          exact lt_abs.mpr (.inr (by linarith)))]
        exact ⟨ofF64_mono' (by rw [hp.le hp]; simp), ofF64_mono' h0⟩
      · have : decide (p + q < 0) = decide (q < 0) := by
          rw [decide_eq_false hn, decide_eq_false (by linarith)]
        rw [this, over_same hd hq (by
          rw [add_comm, abs_of_nonneg (not_lt.mp hn)] at hpq
          exact lt_abs.mpr (.inl (by linarith)))]
        exact ⟨ofF64_mono' h0, ofF64_mono' (by rw [hq.le hq]; simp)⟩
  · exact ⟨fun _ => ⟨fun _ => ha, fun _ => hs⟩, fun _ => ⟨ofF64_mono' h1, ofF64_mono' h2⟩⟩

/-- C23, exactly, for all samples, infinite ones included: the down-mix lies between left and right, unless a float format
meets opposite infinities, or `Ch64` a sum above all numbers. -/
theorem C23_iff (l r a b e f : c.T) (h : c.Le l r) :
    ∃ m : d.T, (Frame.convert d (k := .stereo) #v[l, r] : R (Frame .mono d)) = .ok #v[m] ∧
    (Frame.convert d (k := .surround) #v[a, l, b, r, e, f] : R (Frame .mono d)) = .ok #v[m] ∧
    (d.Le (d.ofF64 (c.toF64 l)) m ∧ d.Le m (d.ofF64 (c.toF64 r)) ↔
      (d = .ch32 ∨ d = .ch64 → (c.toF64 l).Agree (c.toF64 r)) ∧ (d = .ch64 → (c.toF64 l).Adds (c.toF64 r))) :=
  ⟨_, convert_stereo_mono _, convert_surround_mono _, chanAvg_iff l r h⟩

example := C23_iff (c := .ch64) (d := .ch64) (lit 1.7e308) (inf false) (lit 1) (lit 2) (lit 3) (lit 4) (by decide +kernel)
example := C23_iff (c := .ch64) (d := .ch16) (inf true) (inf false) (lit 1) (lit 2) (lit 3) (lit 4) (by decide +kernel)

/-- C22, exactly: up-mixing and down-mixing gives the frame back, also through a wider format, unless it is a `Ch64` number
whose double is above all numbers. -/
theorem C22_iff (hr : c.rank ≤ d.rank) (m : Frame .mono c) :
    (((m.convert d : R (Frame .stereo d)) >>= fun g => (g.convert c : R (Frame .mono c))) = .ok m ↔
      (c = .ch64 → (c.toF64 m[0]).Adds (c.toF64 m[0]))) ∧
    (((m.convert d : R (Frame .surround d)) >>= fun g => (g.convert c : R (Frame .mono c))) = .ok m ↔
      (c = .ch64 → (c.toF64 m[0]).Adds (c.toF64 m[0]))) := by
  have back : (c = .ch64 → (c.toF64 m[0]).Adds (c.toF64 m[0])) →
      c = .ch64 → ∀ q, (c.toF64 m[0]).Is q → |2 * q| ≤ binary64.maxF := by
    intro h hc q hq
    have h1 := h hc q q hq hq
    obtain ⟨n, e, e1, e2, e3⟩ := hq.rep.gen
    have gen : binary64.Gen (2 * q) := ⟨n, e + 1, e1, by omega, by rw [e3, zpow_add₀ (by norm_num)]; ring⟩
    rw [← two_mul, rnd_of_gen gen] at h1
    exact h1
  have adds : ∀ x : F64, (x.add x).mul (lit 0.5) = x → x.Adds x := by
    intro x hx p q hp hq
    by_contra ho
    rw [hq.unique hp] at ho
    obtain ⟨a, hp, rfl⟩ := hp
    have : (Fl.fin p a hp).add (Fl.fin p a hp) = inf (decide (p + p < 0)) := by
      simp only [Fl.add]
      unfold ofQ; rw [dif_neg ho]
    rw [this, half_inf] at hx
    cases hx
  refine ⟨⟨fun h hc => ?_, fun h => (C22_mono_partial hr m (back h)).1⟩,
    ⟨fun h hc => ?_, fun h => (C22_mono_partial hr m (back h)).2⟩⟩
  · subst hc
    obtain rfl : d = .ch64 := by cases d <;> first | rfl | exact absurd hr (by decide)
    rw [(C24_upmix m Frame.dflt).1] at h
    refine adds _ ?_
    have h2 := (convert_stereo_mono (c := .ch64) (d := .ch64) _).symm.trans h
    exact congrArg (fun v : Vector F64 1 => v[0]) (Except.ok.inj h2)
  · subst hc
    obtain rfl : d = .ch64 := by cases d <;> first | rfl | exact absurd hr (by decide)
    rw [(C24_upmix m Frame.dflt).2.1] at h
    refine adds _ ?_
    have h2 := (convert_surround_mono (c := .ch64) (d := .ch64) _).symm.trans h
    exact congrArg (fun v : Vector F64 1 => v[0]) (Except.ok.inj h2)

example := C22_iff (c := .ch64) (d := .ch64) (by decide) #v[lit 1.7e308]
example := C22_iff (c := .ch8) (d := .ch32) (by decide) #v[-7#8]

end Fon
