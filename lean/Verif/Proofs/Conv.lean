import Verif.Spec.Chan
import Verif.Proofs.Floor

/-!
# Rounding errors of the conversions between integer and float channels
-/

namespace Fon
open Fmt Fl

/-- What the conversion proofs need of a format; binary32 and binary64 have it. -/
class Std (f : Fmt) : Prop where
  prec : 24 ≤ f.prec
  emin : f.emin ≤ -149
  gap : f.emin + f.prec ≤ -125
  etop : 104 ≤ f.etop

instance : Std binary32 := ⟨by decide, by decide, by decide, by decide⟩
instance : Std binary64 := ⟨by decide, by decide, by decide, by decide⟩

variable {f : Fmt} [Std f]

theorem rep_pow (k : ℤ) (h1 : -149 ≤ k) (h2 : k ≤ 104) : f.Rep (2 ^ k) := by
  refine rep_dyadic 1 k (by simp) ?_ ?_ ?_
  · have : (1:ℤ) < 2 ^ f.prec := one_lt_pow₀ (by norm_num) (by have := f.hprec; omega)
    simpa using this
  · have := Std.emin (f := f); omega
  · have := Std.etop (f := f); omega

theorem small {q : ℚ} (h : |q| ≤ 2 ^ (100:ℤ)) : |f.rnd q| ≤ f.maxF := by
  have hr : f.Rep (2 ^ (100:ℤ)) := rep_pow _ (by norm_num) (by norm_num)
  have := abs_rnd_le_of_rep hr h
  exact this.trans (by simpa [abs_of_pos (two_zpow_pos (100:ℤ))] using hr.le_maxF)

theorem pow_prec_le : (2:ℤ) ^ 24 ≤ 2 ^ f.prec :=
  pow_le_pow_right₀ (by norm_num) (Std.prec (f := f))

theorem rep_small_int {n : ℤ} (h : |n| < 2 ^ 24) : f.Rep n :=
  rep_int (lt_of_lt_of_le h pow_prec_le)

theorem rep_half_int {n : ℤ} (h : |n| < 2 ^ 24) : f.Rep ((n:ℚ) / 2) := by
  refine rep_dyadic n (-1) (by rw [zpow_neg_one]; ring) (lt_of_lt_of_le h pow_prec_le) ?_ ?_
  · have := Std.emin (f := f); omega
  · have := Std.etop (f := f); omega

/-- Unit in the last place bound. -/
theorem two_pow_prec (k : ℤ) : (2:ℚ) ^ (k - f.prec) ≤ 2 ^ (k - 24) := by
  apply zpow_le_zpow_right₀ (by norm_num)
  have := Std.prec (f := f); omega

theorem err_lt {q : ℚ} (k : ℤ) (h : |q| < 2 ^ k) (hk : -125 ≤ k) :
    |f.rnd q - q| ≤ 2 ^ (k - 1 - 24) := by
  have := abs_rnd_sub_le_of_lt (f := f) h (by have := Std.gap (f := f); omega)
  have h2 := two_pow_prec (f := f) (k - 1)
  have e : k - f.prec - 1 = k - 1 - (f.prec : ℤ) := by omega
  rw [e] at this
  linarith

omit [Std f] in
theorem Fmt.u_pos : 0 < f.u := two_zpow_pos _

theorem Fmt.u_le : f.u ≤ 1 / 16777216 := by
  have := two_pow_prec (f := f) 0
  unfold Fmt.u
  rw [zero_sub] at this
  exact this.trans (by norm_num)

omit [Std f] in
theorem Fmt.eps_eq : f.eps = 2 * f.u := by
  unfold Fmt.eps Fmt.u
  rw [sub_eq_add_neg, zpow_add₀ (by norm_num), zpow_one]

/-- Sharp form of `err_lt`. -/
theorem err_lt_u {q : ℚ} (k : ℤ) (h : |q| < 2 ^ k) (hk : -125 ≤ k) :
    |f.rnd q - q| ≤ 2 ^ (k - 1) * f.u := by
  have := abs_rnd_sub_le_of_lt (f := f) h (by have := Std.gap (f := f); omega)
  rw [show k - (f.prec:ℤ) - 1 = (k - 1) + -(f.prec : ℤ) by ring, zpow_add₀ (by norm_num)] at this
  exact this

/-- The value computed by `From<Ch8>`/`From<Ch16>` for a float channel, in terms of rounding. -/
def convV (f : Fmt) (M c : ℤ) : ℚ := f.rnd (f.rnd (c / (M / 2)) + f.rnd (1 / M))

omit [Std f] in
theorem conv_mono {M a b : ℤ} (hM : 0 < M) (h : a ≤ b) : convV f M a ≤ convV f M b := by
  have hM' : (0:ℚ) < M := by exact_mod_cast hM
  have hab : (a:ℚ) ≤ b := by exact_mod_cast h
  apply rnd_mono
  have : f.rnd ((a:ℚ) / (M / 2)) ≤ f.rnd ((b:ℚ) / (M / 2)) := by
    apply rnd_mono; exact div_le_div_of_nonneg_right hab (by linarith)
  linarith

theorem conv_bounds {M c : ℤ} (hM : 255 ≤ M) (hM' : M ≤ 65535) (h1 : -M ≤ 2 * c + 1)
    (h2 : 2 * c + 1 ≤ M) :
    |(c:ℚ) / (M / 2)| < 2 ^ (1:ℤ) ∧ |(1:ℚ) / M| < 2 ^ (0:ℤ) ∧
    |f.rnd (c / (M / 2)) + f.rnd (1 / M)| < 2 ^ (1:ℤ) ∧
    |convV f M c - (2 * c + 1) / M| ≤ 3 * f.u := by
  have hMq : (255:ℚ) ≤ M := by exact_mod_cast hM
  have hMq' : (M:ℚ) ≤ 65535 := by exact_mod_cast hM'
  have h1q : -(M:ℚ) ≤ 2 * c + 1 := by exact_mod_cast h1
  have h2q : 2 * (c:ℚ) + 1 ≤ M := by exact_mod_cast h2
  have hM0 : (0:ℚ) < M := by linarith
  have b1 : |(c:ℚ) / (M / 2)| < 2 ^ (1:ℤ) := by
    rw [abs_lt]; constructor
    · rw [lt_div_iff₀ (by linarith)]; norm_num; linarith
    · rw [div_lt_iff₀ (by linarith)]; norm_num; linarith
  have b2 : |(1:ℚ) / M| ≤ 1 / 255 := by
    rw [abs_of_pos (by positivity)]
    exact one_div_le_one_div_of_le (by norm_num) hMq
  have b2' : |(1:ℚ) / M| < 2 ^ (0:ℤ) := lt_of_le_of_lt b2 (by norm_num)
  have hu := Fmt.u_le (f := f)
  have hu0 := Fmt.u_pos (f := f)
  have e1 := err_lt_u (f := f) 1 b1 (by norm_num)
  have e2 := err_lt_u (f := f) 0 b2' (by norm_num)
  rw [show (2:ℚ) ^ (1 - 1 : ℤ) = 1 by norm_num, one_mul] at e1
  rw [show (2:ℚ) ^ (0 - 1 : ℤ) = 1 / 2 by norm_num] at e2
  have hs : (c:ℚ) / (M / 2) + 1 / M = (2 * c + 1) / M := by
    field_simp
  have b3 : |(2 * (c:ℚ) + 1) / M| ≤ 1 := by
    rw [abs_div, abs_of_pos hM0, div_le_one hM0, abs_le]
    exact ⟨h1q, h2q⟩
  rw [abs_le] at e1 e2 b3
  have b4 : |f.rnd (c / (M / 2)) + f.rnd (1 / M)| < 2 ^ (1:ℤ) := by
    rw [zpow_one, abs_lt]; constructor <;> linarith
  have e3 := err_lt_u (f := f) 1 b4 (by norm_num)
  rw [show (2:ℚ) ^ (1 - 1 : ℤ) = 1 by norm_num, one_mul, abs_le] at e3
  refine ⟨b1, b2', b4, ?_⟩
  rw [abs_le]; unfold convV
  constructor <;> linarith

theorem conv_is {M c : ℤ} (hM : 255 ≤ M) (hM' : M ≤ 65535) (h1 : -M ≤ 2 * c + 1)
    (h2 : 2 * c + 1 ≤ M) :
    (((Fl.ofInt c : Fl f).div (Fl.lit (M / 2))).add ((Fl.lit 1).div (Fl.lit M))).Is (convV f M c) := by
  obtain ⟨b1, b2, b3, _⟩ := conv_bounds (f := f) hM hM' h1 h2
  have hM0 : (0:ℚ) < M := by exact_mod_cast (by omega : 0 < M)
  have r1 : f.Rep (c:ℚ) := rep_small_int (by rw [abs_lt]; omega)
  have r2 : f.Rep ((M:ℚ) / 2) := rep_half_int (by rw [abs_lt]; omega)
  have r3 : f.Rep (M:ℚ) := rep_small_int (by rw [abs_lt]; omega)
  refine ((is_ofInt r1).div (is_lit r2) (by linarith) (small ?_)).add
    (is_one.div (is_lit r3) hM0.ne' (small ?_)) (small ?_)
  · exact b1.le.trans (by norm_num)
  · exact b2.le.trans (by norm_num)
  · exact b3.le.trans (by norm_num)

/-- The scaled value is within a quarter of the middle of the cell of the integer. -/
theorem conv_back {M c : ℤ} (hM : 255 ≤ M) (hM' : M ≤ 65535) (h1 : -M ≤ 2 * c + 1)
    (h2 : 2 * c + 1 ≤ M) {v : ℚ} (hv : |v - (2 * c + 1) / M| ≤ 2 ^ (-20:ℤ)) :
    |v * (M / 2)| < 2 ^ (16:ℤ) ∧ |f.rnd (v * (M / 2)) - (c + 1 / 2)| ≤ 1 / 4 := by
  have hMq : (255:ℚ) ≤ M := by exact_mod_cast hM
  have hMq' : (M:ℚ) ≤ 65535 := by exact_mod_cast hM'
  have h1q : -(M:ℚ) ≤ 2 * c + 1 := by exact_mod_cast h1
  have h2q : 2 * (c:ℚ) + 1 ≤ M := by exact_mod_cast h2
  have hM0 : (0:ℚ) < M := by linarith
  have e : v * (M / 2) - (c + 1 / 2) = (v - (2 * c + 1) / M) * (M / 2) := by
    field_simp
  have b1 : |v * (M / 2) - (c + 1 / 2)| ≤ 1 / 8 := by
    rw [e, abs_mul, abs_of_pos (by linarith : (0:ℚ) < M / 2)]
    have := abs_nonneg (v - (2 * (c:ℚ) + 1) / M)
    have hv := hv.trans (show (2:ℚ) ^ (-20 : ℤ) ≤ 1 / 1048576 by norm_num)
    nlinarith
  rw [abs_le] at b1
  have b2 : |v * (M / 2)| < 2 ^ (16:ℤ) := by
    rw [show (2:ℚ) ^ (16:ℤ) = 65536 by norm_num, abs_lt]; constructor <;> linarith
  have e1 := (err_lt (f := f) 16 b2 (by norm_num)).trans
    (show (2:ℚ) ^ (16 - 1 - 24 : ℤ) ≤ 1 / 512 by norm_num)
  rw [abs_le] at e1
  refine ⟨b2, ?_⟩
  rw [abs_le]; constructor <;> linarith

/-- Quantising a float close to the middle of a cell gives the integer of the cell. -/
theorem quant_back {n : Nat} (hn : 0 < n) {M c : ℤ} (hM : 255 ≤ M) (hM' : M ≤ 65535)
    (h1 : -M ≤ 2 * c + 1) (h2 : 2 * c + 1 ≤ M) (hc : iMin n ≤ c ∧ c ≤ iMax n) {x : Fl f} {v : ℚ}
    (hx : x.Is v) (hv : |v - (2 * c + 1) / M| ≤ 2 ^ (-20:ℤ)) :
    (Math.floorI n (x.mul (Fl.lit (M / 2)))).toInt = c := by
  obtain ⟨b1, b2⟩ := conv_back (f := f) hM hM' h1 h2 hv
  have r2 : f.Rep ((M:ℚ) / 2) := rep_half_int (by rw [abs_lt]; omega)
  have := hx.mul (is_lit r2) (small (b1.le.trans (by norm_num)))
  rw [floorI_is hn this, floorE_of_mid _ b2]
  · unfold clampZ; omega
  · have h := two_pow_prec (f := f) 1
    unfold Fmt.eps; norm_num at h; linarith

/-- End points of the conversions. -/
class StdEnd (f : Fmt) : Prop extends Std f where
  min8 : convV f 255 (-128) = -1
  max8 : convV f 255 127 = 1
  min16 : convV f 65535 (-32768) = -1
  max16 : convV f 65535 32767 = 1

instance : StdEnd binary32 := ⟨by decide +kernel, by decide +kernel, by decide +kernel, by decide +kernel⟩
instance : StdEnd binary64 := ⟨by decide +kernel, by decide +kernel, by decide +kernel, by decide +kernel⟩

section
omit [Std f]
variable [StdEnd f]

theorem ofCh8_is (c : Ch8) : (ChF.ofCh8 c : Fl f).Is (convV f 255 c.toInt) := by
  have h := i8_range c
  have := conv_is (f := f) (M := 255) (c := c.toInt) (by norm_num) (by norm_num) (by omega) (by omega)
  unfold ChF.ofCh8
  rwa [show ((255:ℤ):ℚ) = 255 by norm_num, show (255:ℚ) / 2 = 127.5 by norm_num] at this

theorem ofCh16_is (c : Ch16) : (ChF.ofCh16 c : Fl f).Is (convV f 65535 c.toInt) := by
  have h := i16_range c
  have := conv_is (f := f) (M := 65535) (c := c.toInt) (by norm_num) (by norm_num) (by omega) (by omega)
  unfold ChF.ofCh16
  rwa [show ((65535:ℤ):ℚ) = 65535 by norm_num, show (65535:ℚ) / 2 = 32767.5 by norm_num] at this

theorem ofCh8_range (c : Ch8) : -1 ≤ convV f 255 c.toInt ∧ convV f 255 c.toInt ≤ 1 := by
  have h := i8_range c
  constructor
  · rw [← StdEnd.min8 (f := f)]; exact conv_mono (by norm_num) h.1
  · rw [← StdEnd.max8 (f := f)]; exact conv_mono (by norm_num) h.2

theorem ofCh16_range (c : Ch16) : -1 ≤ convV f 65535 c.toInt ∧ convV f 65535 c.toInt ≤ 1 := by
  have h := i16_range c
  constructor
  · rw [← StdEnd.min16 (f := f)]; exact conv_mono (by norm_num) h.1
  · rw [← StdEnd.max16 (f := f)]; exact conv_mono (by norm_num) h.2

/-- The value of a Ch8 sample up to rounding. -/
theorem ofCh8_err (c : Ch8) : |convV f 255 c.toInt - (2 * c.toInt + 1) / 255| ≤ 3 * f.u := by
  have h := i8_range c
  have := (conv_bounds (f := f) (M := 255) (c := c.toInt) (by norm_num) (by norm_num) (by omega)
    (by omega)).2.2.2
  exact_mod_cast this

/-- The value of a Ch16 sample up to rounding. -/
theorem ofCh16_err (c : Ch16) : |convV f 65535 c.toInt - (2 * c.toInt + 1) / 65535| ≤ 3 * f.u := by
  have h := i16_range c
  have := (conv_bounds (f := f) (M := 65535) (c := c.toInt) (by norm_num) (by norm_num) (by omega)
    (by omega)).2.2.2
  exact_mod_cast this

/-- Quantising to Ch8 (`From<Ch32>`, `From<Ch64>`) a float near the value of `c` gives `c`. -/
theorem quant8_back (c : Ch8) {x : Fl f} {v : ℚ} (hx : x.Is v)
    (hv : |v - (2 * c.toInt + 1) / 255| ≤ 2 ^ (-20:ℤ)) :
    Math.floorI 8 (x.mul (Fl.lit 127.5)) = c := by
  have h := i8_range c
  apply BitVec.eq_of_toInt_eq
  have := quant_back (f := f) (n := 8) (by norm_num) (M := 255) (c := c.toInt) (by norm_num)
    (by norm_num) (by omega) (by omega) (by simp [iMin, iMax]; omega) hx (by exact_mod_cast hv)
  rwa [show ((255:ℤ):ℚ) = 255 by norm_num, show (255:ℚ) / 2 = 127.5 by norm_num] at this

/-- Quantising to Ch16 a float near the value of `c` gives `c`. -/
theorem quant16_back (c : Ch16) {x : Fl f} {v : ℚ} (hx : x.Is v)
    (hv : |v - (2 * c.toInt + 1) / 65535| ≤ 2 ^ (-20:ℤ)) :
    Math.floorI 16 (x.mul (Fl.lit 32767.5)) = c := by
  have h := i16_range c
  apply BitVec.eq_of_toInt_eq
  have := quant_back (f := f) (n := 16) (by norm_num) (M := 65535) (c := c.toInt) (by norm_num)
    (by norm_num) (by omega) (by omega) (by simp [iMin, iMax]; omega) hx (by exact_mod_cast hv)
  rwa [show ((65535:ℤ):ℚ) = 65535 by norm_num, show (65535:ℚ) / 2 = 32767.5 by norm_num] at this

theorem three_u_le : 3 * f.u ≤ 2 ^ (-20:ℤ) := by
  have := Fmt.u_le (f := f)
  norm_num; linarith

end

end Fon
