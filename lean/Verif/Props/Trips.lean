import Verif.Props.RoundTrip
import Verif.Props.Periodic
import Verif.Spec.Trips

/-!
# C158: copies of copies

Audio that is made into audio of a higher rate and back, any number of times.
-/

namespace Fon
open Fon.Fl hiding min max
open Fon.Fmt Fon.Sink
variable {k k' : Kind} {c c' : ChTy}

/-- If the length comes out even, all frames of the result are those that `stream` made. -/
theorem with_whole {rate sr : F64} {dst src l D : Nat} {ρ : ℚ} (hr : rate.Is (dst:ℚ)) (hs : sr.Is (src:ℚ)) (h0 : 0 < src)
    (hs' : src ≤ 2 ^ 51) (hN : dst * l < 2 ^ 52) (hl53 : l ≤ 2 ^ 53) (hDl : dst * l = D * src)
    (hq : (ratioOf rate (some sr)).Is ρ) (hρ : 0 < ρ) (hρl : ρ * l = D) (hD53 : D ≤ 2 ^ 53)
    {st : Src k' c'} (hl : st.len = some l) (hsr : st.rate = some sr) {b : Audio k c} (h : Audio.withStream rate st = .ok b) :
    b.rate = rate ∧ b.len = D ∧ ∃ s it, (⟨rate, Resampler.dflt, List.replicate D Frame.dflt⟩ : Sink k c).stream (l + 1) st = .ok (s, it) ∧
      s.buf = b.frames ∧ ∀ x, x < D → InDst (ratioOf rate st.rate) st.len D x := by
  have hlen : b.len = D := by
    rw [C49_partial rate sr dst src l hr hs h0 hN hl53 hs' st hl hsr b h]
    have e : ((dst * l : ℚ)) / src = D := by
      have : (src:ℚ) ≠ 0 := by exact_mod_cast h0.ne'
      rw [div_eq_iff this]; exact_mod_cast hDl
    rw [e, Nat.ceil_natCast]
  refine ⟨(C48_withStream rate b st h).1, hlen, ?_⟩
  rw [← hsr] at hq
  obtain ⟨s, it, e1, e2⟩ := with_slots h hq hρ hl
  rw [hlen] at e1 e2
  have hu : ((ratioOf rate st.rate).mul (f64OfUsize l)).toUsize = D := by
    have h1 := hq.mul (is_usize hl53) (by
      rw [hρl, rnd_of_rep (rep_nat53 hD53)]
      exact (rep_nat53 hD53).le_maxF)
    rw [hρl, rnd_of_rep (rep_nat53 hD53)] at h1
    exact toUsize_nat h1 (by omega)
  refine ⟨s, it, e1, ?_, fun x hx => (e2 x hx (by rw [hu]; exact hx)).1⟩
  have hsl := (C36_stream _ _ _ _ _ e1).1
  rw [List.length_replicate] at hsl
  refine List.ext_getElem? fun x => ?_
  by_cases hx : x < D
  · exact (e2 x hx (by rw [hu]; exact hx)).2.symm
  · rw [List.getElem?_eq_none (by omega), List.getElem?_eq_none (by have : b.frames.length = D := hlen; omega)]

/-- One trip. -/
theorem C158_trip {rate : F64} {lo m : Nat} {a b e : Audio k c} (hk : k.builtin = true) (hr : rate.Is ((2 ^ m * lo : Nat):ℚ))
    (ha : a.rate.Is (lo:ℚ)) (h0 : 0 < lo) (hm : m ≤ 24) (hN : 2 ^ m * lo * (a.len + 1) ≤ 2 ^ 51)
    (hin : ∀ f ∈ a.frames, f.InRange) (h : Audio.withStream rate (.audio a) = .ok b)
    (h' : Audio.withStream a.rate (.audio b) = .ok e) :
    e.rate = a.rate ∧ e.len = a.len ∧ ∀ x f y, a.get x = some f → e.get x = some y →
      ∀ i (hi : i < k.chans), Returned (2 ^ m) c f[i] y[i] := by
  obtain ⟨l, hl⟩ : ∃ l, l = a.len := ⟨_, rfl⟩
  rw [← hl] at hN
  have hp : 0 < 2 ^ m := by positivity
  have hm24 : 2 ^ m ≤ 2 ^ 24 := Nat.pow_le_pow_right (by norm_num) hm
  have hloN : 2 ^ m * lo ≤ 2 ^ 51 := le_trans (Nat.le_mul_of_pos_right _ (by omega)) hN
  have hlo51 : lo ≤ 2 ^ 51 := le_trans (Nat.le_mul_of_pos_left _ hp) hloN
  have hNl : 2 ^ m * lo * l < 2 ^ 51 := by
    have : 2 ^ m * lo * (l + 1) = 2 ^ m * lo * l + 2 ^ m * lo := by ring
    have : 0 < 2 ^ m * lo := by positivity
    omega
  have hml : 2 ^ m * l ≤ 2 ^ m * lo * l := by
    rw [mul_right_comm]; exact Nat.le_mul_of_pos_right _ h0
  have hll : l ≤ 2 ^ m * l := Nat.le_mul_of_pos_left _ hp
  have hlq : (lo:ℚ) ≠ 0 := by exact_mod_cast h0.ne'
  have hpq : (((2 ^ m : Nat)):ℚ) ≠ 0 := by exact_mod_cast hp.ne'
  have hq : (ratioOf rate (some a.rate)).Is ((2 ^ m : Nat) : ℚ) := by
    have e1 : (((2 ^ m * lo : Nat)):ℚ) / lo = ((2 ^ m : Nat) : ℚ) := by push_cast; field_simp
    have hrep : binary64.Rep ((2 ^ m : Nat) : ℚ) := rep_nat53 (by omega)
    have := hr.div ha hlq (by rw [e1, rnd_of_rep hrep]; exact hrep.le_maxF)
    rwa [e1, rnd_of_rep hrep] at this
  have hq' : (ratioOf a.rate (some rate)).Is (1 / ((2 ^ m : Nat) : ℚ)) := by
    have e1 : (lo:ℚ) / ((2 ^ m * lo : Nat):ℚ) = 1 / ((2 ^ m : Nat) : ℚ) := by push_cast; field_simp
    have hrep : binary64.Rep (1 / ((2 ^ m : Nat) : ℚ)) := rep_inv_pow hm
    have := ha.div hr (by push_cast; positivity) (by rw [e1, rnd_of_rep hrep]; exact hrep.le_maxF)
    rwa [e1, rnd_of_rep hrep] at this
  obtain ⟨b1, b2, s, it, b3, b4, b5⟩ := with_whole (st := .audio a) (l := l) (D := 2 ^ m * l) hr ha h0 hlo51 (by omega) (by omega) (by ring) hq
    (by positivity) (by push_cast; ring) (by omega) (by rw [hl]; rfl) rfl h
  obtain ⟨c1, c2, t, it', c3, c4, c5⟩ := with_whole (st := .audio b) (l := 2 ^ m * l) (D := l) ha hr (by positivity) hloN
    (by rw [← mul_assoc, mul_comm lo]; omega) (by omega) (by ring) (by rw [← b1] at hq' ⊢; exact hq') (by positivity)
    (by push_cast; field_simp) (by omega) (by rw [← b2]; rfl) (by rw [← b1]; rfl) h'
  refine ⟨c1, c2.trans hl, fun x f y hf hy => ?_⟩
  have hb : b = ⟨rate, s.buf⟩ := by
    obtain ⟨br, bf⟩ := b
    simp only at b1 b4
    rw [b1, b4]
  subst hb
  have hxl : x < l := by
    rw [hl]; exact (List.getElem?_eq_some_iff.mp hf).1
  have hsl := (C36_stream _ _ _ _ _ b3).1
  obtain ⟨y', src, f', d1, d2, d3, d4⟩ := C102_partial (l + 1) (2 ^ m * l + 1) m _ s _ t (.audio a) it it' hk b3 c3 rfl rfl hm hq hq'
    (by rw [List.length_replicate]; omega) (by rw [List.length_replicate]; omega)
    (fun j hj => by rw [List.length_replicate] at hj ⊢; exact b5 j hj)
    (fun j f hf x hx => by
      rw [C21_id hk] at hx
      cases hx
      refine hin _ (List.mem_iff_getElem?.mpr ⟨j, ?_⟩)
      injection hf)
    x (by
      have := c5 x hxl
      rw [List.length_replicate, List.length_replicate]
      rw [← b2]
      exact this)
  rw [C21_id hk] at d3
  cases d3
  have : a.get x = some src := by injection d2
  rw [hf] at this
  cases this
  have : e.get x = some y' := by unfold Audio.get; rw [← c4]; exact d1
  rw [hy] at this
  cases this
  exact d4

theorem cut_range {N : Nat} (hN : 1 ≤ N) (p : ℚ) : |max (-(1 / (N:ℚ))) (min p (1 / N))| ≤ 1 := by
  have h1 : (1:ℚ) / N ≤ 1 := by rw [div_le_one (by positivity)]; exact_mod_cast hN
  have h0 : (0:ℚ) ≤ 1 / N := by positivity
  rw [abs_le]
  constructor
  · exact le_max_of_le_left (by linarith)
  · exact max_le (by linarith) ((min_le_right _ _).trans h1)

theorem returned_val {N : Nat} (hN : 1 ≤ N) {x y : c.T} {w : ℚ} (hx : val c x w) (h : Returned N c x y) : ∃ v, val c y v := by
  cases c with
  | ch8 => exact ⟨_, rfl⟩
  | ch16 => exact ⟨_, rfl⟩
  | ch32 => exact ⟨_, h w hx.1 hx.2, cut_range hN _⟩
  | ch64 => exact ⟨_, h w hx.1 hx.2, cut_range hN _⟩

/-- What comes back of a sample does not change any more in the float formats. -/
theorem returned_again {N : Nat} (hN : 1 ≤ N) (hc : c = .ch32 ∨ c = .ch64) {x y z : c.T} (h1 : Returned N c x y)
    (h2 : Returned N c y z) : Returned N c x z := by
  have e : ∀ p : ℚ, max (-(1 / (N:ℚ))) (min (max (-(1 / N)) (min p (1 / N))) (1 / N)) = max (-(1 / (N:ℚ))) (min p (1 / N)) := fun p => by
    have h0 : (0:ℚ) ≤ 1 / N := by positivity
    rw [min_eq_left (max_le (by linarith) (min_le_right _ _)), max_eq_right (le_max_left _ _)]
  rcases hc with rfl | rfl
  · intro p hp hp1
    have := h2 _ (h1 p hp hp1) (cut_range hN _)
    rwa [e] at this
  · intro p hp hp1
    have := h2 _ (h1 p hp hp1) (cut_range hN _)
    rwa [e] at this

/-- What holds for every trip holds for any number of them. -/
theorem trips_ind {rate : F64} {lo m n : Nat} {a e : Audio k c} (hk : k.builtin = true) (hr : rate.Is ((2 ^ m * lo : Nat):ℚ))
    (ha : a.rate.Is (lo:ℚ)) (h0 : 0 < lo) (hm : m ≤ 24) (hN : 2 ^ m * lo * (a.len + 1) ≤ 2 ^ 51)
    (hin : ∀ f ∈ a.frames, f.InRange) (P : Nat → c.T → c.T → Prop) (hP0 : ∀ x, P 0 x x)
    (hP : ∀ n x y z, P n x y → Returned (2 ^ m) c y z → P (n + 1) x z) (h : Trips rate n a e) :
    e.rate = a.rate ∧ e.len = a.len ∧ (∀ f ∈ e.frames, f.InRange) ∧ ∀ x f y, a.get x = some f → e.get x = some y →
      ∀ i (hi : i < k.chans), P n f[i] y[i] := by
  induction h with
  | none =>
    refine ⟨rfl, rfl, hin, fun x f y hf hy i hi => ?_⟩
    rw [hf] at hy
    cases hy
    exact hP0 _
  | @more n a e b e' _ h1 h2 ih =>
    obtain ⟨i1, i2, i3, i4⟩ := ih ha hN hin
    rw [← i1] at ha
    rw [← i2] at hN
    obtain ⟨t1, t2, t3⟩ := C158_trip hk hr ha h0 hm hN i3 h1 h2
    have hget : ∀ x y, e'.get x = some y → ∃ f, e.get x = some f := fun x y hy => by
      have hx : x < e'.len := (List.getElem?_eq_some_iff.mp hy).1
      rw [t2] at hx
      exact ⟨_, List.getElem?_eq_getElem hx⟩
    refine ⟨t1.trans i1, t2.trans i2, fun y hy => ?_, fun x f y hf hy i hi => ?_⟩
    · obtain ⟨x, hx⟩ := List.mem_iff_getElem?.mp hy
      obtain ⟨f, hf⟩ := hget x y hx
      refine inRange_of fun i hi => ?_
      obtain ⟨w, hw⟩ := inRange_val (i3 f (List.mem_iff_getElem?.mpr ⟨x, hf⟩)) hi
      exact returned_val Nat.one_le_two_pow hw (t3 x f y hf hx i hi)
    · obtain ⟨g, hg⟩ := hget x y hy
      exact hP _ _ _ _ (i4 x f g hf hg i hi) (t3 x g y hg hy i hi)

/-- C158: in the float formats all is lost in the first trip, and nothing in the others: after any number of trips the samples are
what they were after the first. -/
theorem C158_partial {rate : F64} {lo m n : Nat} {a e : Audio k c} (hk : k.builtin = true) (hr : rate.Is ((2 ^ m * lo : Nat):ℚ))
    (ha : a.rate.Is (lo:ℚ)) (h0 : 0 < lo) (hm : m ≤ 24) (hN : 2 ^ m * lo * (a.len + 1) ≤ 2 ^ 51)
    (hin : ∀ f ∈ a.frames, f.InRange) (hc : c = .ch32 ∨ c = .ch64) (h : Trips rate n a e) (hn : 1 ≤ n) :
    e.rate = a.rate ∧ e.len = a.len ∧ ∀ x f y, a.get x = some f → e.get x = some y →
      ∀ i (hi : i < k.chans), Returned (2 ^ m) c f[i] y[i] := by
  obtain ⟨h1, h2, _, h4⟩ := trips_ind hk hr ha h0 hm hN hin (fun n x y => if n = 0 then x = y else Returned (2 ^ m) c x y)
    (fun x => by simp) (fun n x y z h1 h2 => by
      rw [if_neg (by omega)]
      split at h1
      · subst h1; exact h2
      · exact returned_again Nat.one_le_two_pow hc h1 h2) h
  refine ⟨h1, h2, fun x f y hf hy i hi => ?_⟩
  have := h4 x f y hf hy i hi
  rwa [if_neg (by omega)] at this

theorem fade_step {N W n : ℕ} {x y z : ℤ} (hN : 0 < N) (h1 : |y| * N ^ n ≤ |x| * W ^ n) (h2 : z = (y * (W:ℤ)).tdiv N) :
    |z| * N ^ (n + 1) ≤ |x| * W ^ (n + 1) := by
  have e : |z| * N ≤ |y| * W := by
    have h3 := Int.natAbs_tdiv (y * (W:ℤ)) N
    rw [← h2, Int.natAbs_mul, Int.natAbs_natCast, Int.natAbs_natCast] at h3
    have h4 : z.natAbs * N ≤ y.natAbs * W := by rw [h3]; exact Nat.div_mul_le_self _ _
    rw [Int.abs_eq_natAbs, Int.abs_eq_natAbs]
    exact_mod_cast h4
  calc |z| * N ^ (n + 1) = (|z| * N) * N ^ n := by ring
    _ ≤ (|y| * W) * N ^ n := mul_le_mul_of_nonneg_right e (by positivity)
    _ = (|y| * N ^ n) * W := by ring
    _ ≤ (|x| * W ^ n) * W := mul_le_mul_of_nonneg_right h1 (by positivity)
    _ = _ := by ring

theorem fade_end {N W V M n₀ n : ℕ} {x y : ℤ} (h5 : 0 < N) (hW : W ≤ V) (hV : V ≤ N) (hM : M * V ^ n₀ < N ^ n₀) (hx : |x| ≤ M) (hn : n₀ ≤ n)
    (h : |y| * N ^ n ≤ |x| * W ^ n) : y = 0 := by
  by_contra hy
  have h1 : (1:ℤ) ≤ |y| := Int.one_le_abs hy
  obtain ⟨d, rfl⟩ := Nat.exists_eq_add_of_le hn
  have h2 : ((N:ℤ)) ^ (n₀ + d) ≤ M * (V:ℤ) ^ (n₀ + d) := by
    calc ((N:ℤ)) ^ (n₀ + d) ≤ |y| * N ^ (n₀ + d) := le_mul_of_one_le_left (by positivity) h1
      _ ≤ |x| * W ^ (n₀ + d) := h
      _ ≤ M * (V:ℤ) ^ (n₀ + d) := mul_le_mul hx (pow_le_pow_left₀ (by positivity) (by exact_mod_cast hW) _) (by positivity) (by positivity)
  have h3 : N ^ (n₀ + d) ≤ M * V ^ (n₀ + d) := by exact_mod_cast h2
  have h4 : M * V ^ (n₀ + d) ≤ (M * V ^ n₀) * N ^ d := by
    rw [pow_add, ← mul_assoc]; exact Nat.mul_le_mul_left _ (Nat.pow_le_pow_left hV d)
  have h6 : (M * V ^ n₀) * N ^ d < N ^ n₀ * N ^ d := Nat.mul_lt_mul_of_pos_right hM (by positivity)
  rw [← pow_add] at h6
  omega

/-- C158 in Ch8: the samples become smaller every time, and after seven trips there is only silence. -/
theorem C158_ch8 {rate : F64} {lo m n : Nat} {a e : Audio k .ch8} (hk : k.builtin = true) (hr : rate.Is ((2 ^ m * lo : Nat):ℚ))
    (ha : a.rate.Is (lo:ℚ)) (h0 : 0 < lo) (hm : m ≤ 24) (hN : 2 ^ m * lo * (a.len + 1) ≤ 2 ^ 51) (h : Trips rate n a e) :
    e.rate = a.rate ∧ e.len = a.len ∧ ∀ x f y, a.get x = some f → e.get x = some y → ∀ i (hi : i < k.chans),
      |(y[i] : Ch8).toInt| * (127 : Nat) ^ n ≤ |(f[i] : Ch8).toInt| * (255 / (2 * 2 ^ m) : Nat) ^ n ∧
      (1 ≤ m → 7 ≤ n → (y[i] : Ch8) = 0#8) := by
  obtain ⟨h1, h2, _, h4⟩ := trips_ind hk hr ha h0 hm hN (fun _ _ => trivial)
    (fun n (x y : Ch8) => |y.toInt| * (127 : Nat) ^ n ≤ |x.toInt| * (255 / (2 * 2 ^ m) : Nat) ^ n)
    (fun x => by simp) (fun n x y z h1 h2 => fade_step (by norm_num) h1 h2) h
  refine ⟨h1, h2, fun x f y hf hy i hi => ⟨h4 x f y hf hy i hi, fun m1 hn => ?_⟩⟩
  apply BitVec.eq_of_toInt_eq
  have hW : 255 / (2 * 2 ^ m) ≤ 63 := by
    have : 2 ^ 1 ≤ 2 ^ m := Nat.pow_le_pow_right (by norm_num) m1
    exact (Nat.div_le_div_left (by omega : 4 ≤ 2 * 2 ^ m) (by norm_num)).trans (by norm_num)
  have hf := i8_range f[i]
  exact fade_end (M := 128) (n₀ := 7) (by norm_num) hW (by norm_num) (by norm_num) (abs_le.mpr ⟨by omega, by omega⟩) hn (h4 x f y ‹_› hy i hi)

/-- C158 in Ch16: the same after fifteen trips. -/
theorem C158_ch16 {rate : F64} {lo m n : Nat} {a e : Audio k .ch16} (hk : k.builtin = true) (hr : rate.Is ((2 ^ m * lo : Nat):ℚ))
    (ha : a.rate.Is (lo:ℚ)) (h0 : 0 < lo) (hm : m ≤ 24) (hN : 2 ^ m * lo * (a.len + 1) ≤ 2 ^ 51) (h : Trips rate n a e) :
    e.rate = a.rate ∧ e.len = a.len ∧ ∀ x f y, a.get x = some f → e.get x = some y → ∀ i (hi : i < k.chans),
      |(y[i] : Ch16).toInt| * (32767 : Nat) ^ n ≤ |(f[i] : Ch16).toInt| * (65535 / (2 * 2 ^ m) : Nat) ^ n ∧
      (1 ≤ m → 15 ≤ n → (y[i] : Ch16) = 0#16) := by
  obtain ⟨h1, h2, _, h4⟩ := trips_ind hk hr ha h0 hm hN (fun _ _ => trivial)
    (fun n (x y : Ch16) => |y.toInt| * (32767 : Nat) ^ n ≤ |x.toInt| * (65535 / (2 * 2 ^ m) : Nat) ^ n)
    (fun x => by simp) (fun n x y z h1 h2 => fade_step (by norm_num) h1 h2) h
  refine ⟨h1, h2, fun x f y hf hy i hi => ⟨h4 x f y hf hy i hi, fun m1 hn => ?_⟩⟩
  apply BitVec.eq_of_toInt_eq
  have hW : 65535 / (2 * 2 ^ m) ≤ 16383 := by
    have : 2 ^ 1 ≤ 2 ^ m := Nat.pow_le_pow_right (by norm_num) m1
    exact (Nat.div_le_div_left (by omega : 4 ≤ 2 * 2 ^ m) (by norm_num)).trans (by norm_num)
  have hf := i16_range f[i]
  exact fade_end (M := 32768) (n₀ := 15) (by norm_num) hW (by norm_num) (by norm_num) (abs_le.mpr ⟨by omega, by omega⟩) hn (h4 x f y ‹_› hy i hi)

/-- Making audio of one rate into audio of another does not panic if one rate is a power of two times the other. -/
theorem with_ok {a : Audio k c} {rate : F64} {dst src : Nat} (hk : k.builtin = true) (hr : rate.Is (dst:ℚ)) (ha : a.rate.Is (src:ℚ))
    (h0 : 0 < src) (hd0 : 0 < dst) (hs' : src ≤ 2 ^ 51) (hd' : dst ≤ 2 ^ 51) (hN : dst * a.len < 2 ^ 51)
    (hrep : binary64.Rep ((dst:ℚ) / src)) : ∃ b : Audio k c, Audio.withStream rate (.audio a) = .ok b := by
  have hf : (Audio.withFrames rate [] : Audio k c).Fits ⌈(dst * a.len : ℚ) / src⌉₊ := by
    have hn : ⌈(dst * a.len : ℚ) / src⌉₊ < 2 ^ 51 + 1 := by
      refine Nat.lt_succ_of_le (Nat.ceil_le.mpr ?_)
      have h1 : (1:ℚ) ≤ src := by exact_mod_cast h0
      have h2 : (dst * a.len : ℚ) ≤ 2 ^ 51 := by exact_mod_cast hN.le
      rw [div_le_iff₀ (by linarith)]
      push_cast
      nlinarith
    generalize ⌈(dst * a.len : ℚ) / src⌉₊ = n at *
    have hs : k.size c ≤ 48 := by
      cases k with
      | custom => cases hk
      | mono => cases c <;> decide
      | stereo => cases c <;> decide
      | surround => cases c <;> decide
    refine ⟨?_, ?_⟩
    · have : usizeMax = 2 ^ 64 - 1 := rfl
      simp only [Audio.withFrames, List.length_nil]; omega
    · have : Audio.isizeMax = 2 ^ 63 - 1 := rfl
      simp only [Audio.withFrames, List.length_nil]
      have : (0 + n) * k.size c ≤ (2 ^ 51 + 1) * 48 := Nat.mul_le_mul (by omega) hs
      omega
  obtain ⟨it, hit⟩ := C51_partial (Audio.withFrames rate [] : Audio k c) (.audio a) a.rate dst src a.len rfl hr ha rfl h0 hd0 hs' hd' hN hk hk
    rfl hf (.inr hrep)
  unfold Audio.withStream
  cases he : (Audio.withFrames rate [] : Audio k c).extend (.audio a) with
  | mk x y =>
    rw [he] at hit
    cases hit
    exact ⟨x, rfl⟩

/-- C158: none of the trips panics. -/
theorem C158_ok {rate : F64} {lo m : Nat} {a : Audio k c} (hk : k.builtin = true) (hr : rate.Is ((2 ^ m * lo : Nat):ℚ))
    (ha : a.rate.Is (lo:ℚ)) (h0 : 0 < lo) (hm : m ≤ 24) (hN : 2 ^ m * lo * (a.len + 1) ≤ 2 ^ 51)
    (hin : ∀ f ∈ a.frames, f.InRange) (n : Nat) : ∃ e, Trips rate n a e := by
  induction n with
  | zero => exact ⟨a, .none a⟩
  | succ n ih =>
    obtain ⟨e, he⟩ := ih
    obtain ⟨e1, e2, _⟩ := trips_ind hk hr ha h0 hm hN hin (fun _ _ _ => True) (fun _ => trivial) (fun _ _ _ _ _ _ => trivial) he
    rw [← e1] at ha
    rw [← e2] at hN
    have hp : 0 < 2 ^ m := by positivity
    have hm24 : 2 ^ m ≤ 2 ^ 24 := Nat.pow_le_pow_right (by norm_num) hm
    have hloN : 2 ^ m * lo ≤ 2 ^ 51 := le_trans (Nat.le_mul_of_pos_right _ (by omega)) hN
    have hlo51 : lo ≤ 2 ^ 51 := le_trans (Nat.le_mul_of_pos_left _ hp) hloN
    have hNl : 2 ^ m * lo * e.len < 2 ^ 51 := by
      have : 2 ^ m * lo * (e.len + 1) = 2 ^ m * lo * e.len + 2 ^ m * lo := by ring
      have : 0 < 2 ^ m * lo := by positivity
      omega
    have hlq : (lo:ℚ) ≠ 0 := by exact_mod_cast h0.ne'
    have r1 : binary64.Rep (((2 ^ m * lo : Nat):ℚ) / lo) := by
      have e1 : (((2 ^ m * lo : Nat)):ℚ) / lo = ((2 ^ m : Nat) : ℚ) := by push_cast; field_simp
      rw [e1]; exact rep_nat53 (by omega)
    have r2 : binary64.Rep ((lo:ℚ) / ((2 ^ m * lo : Nat):ℚ)) := by
      have e1 : (lo:ℚ) / ((2 ^ m * lo : Nat):ℚ) = 1 / ((2 ^ m : Nat) : ℚ) := by push_cast; field_simp
      rw [e1]; exact rep_inv_pow hm
    obtain ⟨b, hb⟩ := with_ok hk hr ha h0 (by positivity) hlo51 hloN hNl r1
    obtain ⟨b1, -⟩ := C48_withStream _ _ _ hb
    have hml : 2 ^ m * e.len ≤ 2 ^ m * lo * e.len := by
      rw [mul_right_comm]; exact Nat.le_mul_of_pos_right _ h0
    have hb2 : b.len = 2 ^ m * e.len := by
      rw [C49_partial rate e.rate (2 ^ m * lo) lo e.len hr ha h0 (by omega)
        (by have := Nat.le_mul_of_pos_left e.len hp; omega) hlo51 (.audio e) rfl rfl b hb]
      have e1 : (((2 ^ m * lo : Nat):ℚ) * e.len) / lo = ((2 ^ m * e.len : Nat):ℚ) := by push_cast; field_simp
      rw [e1, Nat.ceil_natCast]
    obtain ⟨e', he'⟩ := with_ok (a := b) (rate := e.rate) hk ha (by rw [b1]; exact hr) (by positivity) h0 hloN hlo51
      (by rw [hb2]; rw [show lo * (2 ^ m * e.len) = 2 ^ m * lo * e.len by ring]; exact hNl) r2
    exact ⟨e', he.more hb he'⟩

/-! ## Examples -/

/-- Three frames at 8 Hz, one of them loud. -/
def exCopy : Audio .mono .ch64 := ⟨lit 8, [#v[lit 0.25], #v[lit (-1)], #v[lit 0.375]]⟩

theorem exCopy_in : ∀ f ∈ exCopy.frames, f.InRange := by
  intro f hf
  fin_cases hf <;> decide +kernel

example := C158_ok (rate := lit 16) (lo := 8) (m := 1) (a := exCopy) rfl (by decide +kernel) (by decide +kernel) (by norm_num) (by norm_num)
  (by decide) exCopy_in 100

/-- What is left after the first trip. -/
def exCopied : Audio .mono .ch64 := ⟨lit 8, [#v[lit 0.25], #v[lit (-0.5)], #v[lit 0.375]]⟩

theorem exCopy_two : Trips (lit 16) 2 exCopy exCopied :=
  .more (e := exCopied) (b := ⟨lit 16, [#v[lit 0.5], #v[lit 0], #v[lit (-1)], #v[lit 0], #v[lit 0.75], #v[lit 0]]⟩)
    (.more (e := exCopy) (b := ⟨lit 16, [#v[lit 0.5], #v[lit 0], #v[lit (-1)], #v[lit 0], #v[lit 0.75], #v[lit 0]]⟩) (.none _)
      (by decide +kernel) (by decide +kernel)) (by decide +kernel) (by decide +kernel)

example := C158_partial (lo := 8) (m := 1) rfl (by decide +kernel) (by decide +kernel) (by norm_num) (by norm_num) (by decide) exCopy_in
  (.inr rfl) exCopy_two (by norm_num)

example := C158_trip (rate := lit 16) (lo := 8) (m := 1) (a := exCopy) (e := exCopied)
  (b := ⟨lit 16, [#v[lit 0.5], #v[lit 0], #v[lit (-1)], #v[lit 0], #v[lit 0.75], #v[lit 0]]⟩) rfl (by decide +kernel)
  (by decide +kernel) (by norm_num) (by norm_num) (by decide) exCopy_in (by decide +kernel) (by decide +kernel)

/-- C158 is false in the integer formats: 100 becomes 49, and then 24. -/
theorem C158_false : Trips (lit 16) 2 (⟨lit 8, [#v[100#8]]⟩ : Audio .mono .ch8) ⟨lit 8, [#v[24#8]]⟩ :=
  .more (k := .mono) (c := .ch8) (e := ⟨lit 8, [#v[49#8]]⟩) (b := ⟨lit 16, [#v[49#8], #v[0#8]]⟩)
    (.more (k := .mono) (c := .ch8) (e := ⟨lit 8, [#v[100#8]]⟩) (b := ⟨lit 16, [#v[100#8], #v[0#8]]⟩) (.none _)
      (by decide +kernel) (by decide +kernel)) (by decide +kernel) (by decide +kernel)

example := C158_ch8 (lo := 8) (m := 1) rfl (by decide +kernel) (by decide +kernel) (by norm_num) (by norm_num) (by decide) C158_false

/-- All of it after seven trips. -/
example : ∃ e, Trips (lit 16) 7 (⟨lit 8, [#v[127#8]]⟩ : Audio .mono .ch8) e ∧ ∀ y, e.get 0 = some y → y[0] = 0#8 := by
  obtain ⟨e, he⟩ := C158_ok (k := .mono) (c := .ch8) (rate := lit 16) (lo := 8) (m := 1) (a := ⟨lit 8, [#v[127#8]]⟩) rfl (by decide +kernel)
    (by decide +kernel) (by norm_num) (by norm_num) (by decide) (fun _ _ => trivial) 7
  exact ⟨e, he, fun y hy => ((C158_ch8 (lo := 8) (m := 1) rfl (by decide +kernel) (by decide +kernel) (by norm_num) (by norm_num)
    (by decide) he).2.2 0 _ y rfl hy 0 (by decide)).2 (by norm_num) (by norm_num)⟩

example : ∃ e, Trips (lit 16) 15 (⟨lit 8, [#v[32767#16]]⟩ : Audio .mono .ch16) e ∧ ∀ y, e.get 0 = some y → y[0] = 0#16 := by
  obtain ⟨e, he⟩ := C158_ok (k := .mono) (c := .ch16) (rate := lit 16) (lo := 8) (m := 1) (a := ⟨lit 8, [#v[32767#16]]⟩) rfl (by decide +kernel)
    (by decide +kernel) (by norm_num) (by norm_num) (by decide) (fun _ _ => trivial) 15
  exact ⟨e, he, fun y hy => ((C158_ch16 (lo := 8) (m := 1) rfl (by decide +kernel) (by decide +kernel) (by norm_num) (by norm_num)
    (by decide) he).2.2 0 _ y rfl hy 0 (by decide)).2 (by norm_num) (by norm_num)⟩

end Fon
