import Verif.Props.LowPass
import Verif.Props.Stable

/-!
# C133: the power of the result of `with_stream`
-/

namespace Fon
open Fon.Fl hiding min max
open Fon.Fmt Fon.Sink
variable {k k' : Kind} {c c' : ChTy}

/-- The energy of what the slots get. -/
theorem energy_overlap {r : ℚ} (hr : 0 ≤ r) (hr1 : r ≤ 1) (w : Nat → ℚ) (D n : Nat) :
    ∑ x ∈ Finset.range D, (∑ j ∈ Finset.range n, w j * overlap (r * j - r) (r * j) ((x:ℚ) - 1) x) ^ 2 ≤
      r * ∑ j ∈ Finset.range n, w j ^ 2 :=
  (Finset.sum_le_sum (fun x _ => box_sq hr n x w)).trans (total_le hr hr1 D n (fun j => w j ^ 2) (fun _ => sq_nonneg _))

/-- Squares of values of which a part is an error. -/
theorem sq_excess {v e E : ℚ} (h : |v - e| ≤ E) : max 0 (|v| - E) ^ 2 ≤ e ^ 2 := by
  rw [← sq_abs e]
  have h1 := abs_sub_abs_le_abs_sub v e
  refine pow_le_pow_left₀ (le_max_left _ _) (max_le (abs_nonneg _) (by linarith)) 2

/-- C133 (power) for `with_stream` (whole rates): the whole result has at most the energy of the stream (times the ratio, as there are
that many fewer frames). -/
theorem C133_with (rate sr : F64) (dst src l : Nat) (hr : rate.Is (dst:ℚ)) (hs : sr.Is (src:ℚ)) (h0 : 0 < src)
    (hd0 : 0 < dst) (hs' : src ≤ 2 ^ 51) (hle : dst ≤ src) (hN : dst * l < 2 ^ 51)
    (hB : dst * l + 2 * src ≤ dst * 2 ^ 51)
    (st : Src k' c') (hl : st.len = some l) (hsr : st.rate = some sr) (b : Audio k c)
    (h : Audio.withStream rate st = .ok b) (i : Nat) (hi : i < k.chans) (w : Nat → ℚ)
    (hw : ∀ j f, st.nth j = .ok (some f) → ∀ x : Frame k c, f.convert c = .ok x → SampleVal c x[i] (w j) ∧ |w j| ≤ 1) :
    let r := binary64.rnd ((dst:ℚ) / src)
    let E := (mixErr c + 5 * 2 ^ (-53 : ℤ) + 2 * ((b.frames.length + 1) * 2 ^ (-53 : ℤ))) * (1 / r + 3)
    ∃ y : Nat → ℚ, (∀ x, x < b.frames.length → ∃ f, b.frames[x]? = some f ∧ SampleVal c f[i] (y x)) ∧
      ∑ x ∈ Finset.range b.frames.length, max 0 (|y x| - E) ^ 2 ≤ r * ∑ j ∈ Finset.range l, w j ^ 2 := by
  intro r E
  obtain ⟨n, -, hn, -, h2⟩ := C89_partial rate sr dst src l hr hs h0 hd0 hs' hle hN hB st hl hsr b h i hi w hw
  have hr0 : 0 ≤ r := rnd_nonneg (by positivity)
  have hr1 : r ≤ 1 := by
    refine (rnd_mono ((div_le_one (by positivity)).mpr (by exact_mod_cast hle))).trans_eq ?_
    decide +kernel
  have hu0 : (0:ℚ) < 2 ^ (-53:ℤ) := two_zpow_pos _
  have hE : 0 ≤ E := by
    have := mixErr_pos c
    positivity
  have h3 : ∀ x, ∃ v : ℚ, x < b.frames.length → (∃ f, b.frames[x]? = some f ∧ SampleVal c f[i] v) ∧
      max 0 (|v| - E) ^ 2 ≤ (∑ j ∈ Finset.range n, w j * overlap (r * j - r) (r * j) (x - 1) x) ^ 2 := by
    intro x
    by_cases hx : x < b.frames.length
    · obtain ⟨f, f1, f2⟩ := h2 x hx
      split_ifs at f2 with hc
      · refine ⟨0, fun _ => ⟨⟨f, f1, ?_⟩, ?_⟩⟩
        · rw [f2.2]; simpa [Frame.dflt] using of_val (mixLaw c).dflt
        · rw [abs_zero, max_eq_left (by linarith), zero_pow two_ne_zero]; exact sq_nonneg _
      · obtain ⟨v, v1, v2⟩ := f2
        exact ⟨v, fun _ => ⟨⟨f, f1, v1⟩, sq_excess v2⟩⟩
    · exact ⟨0, fun h => absurd h hx⟩
  choose y hy using h3
  refine ⟨y, fun x hx => (hy x hx).1, ?_⟩
  refine (Finset.sum_le_sum (fun x hx => (hy x (Finset.mem_range.mp hx)).2)).trans
    ((energy_overlap hr0 hr1 w _ n).trans (mul_le_mul_of_nonneg_left ?_ hr0))
  exact Finset.sum_le_sum_of_subset_of_nonneg (Finset.range_subset_range.mpr hn) (fun j _ _ => sq_nonneg _)

example := C133_with (lit 5) (lit 12) 5 12 6 (by decide +kernel) (by decide +kernel) (by decide) (by decide) (by decide)
  (by decide) (by decide) (by decide) (.audio exZigzag) rfl rfl _
  (R.returns (x := (Audio.withStream (lit 5) (.audio exZigzag) : R (Audio .mono .ch8))) (by decide +kernel)) 0 (by decide)
  (fun j => (-1) ^ j * (100 / 127)) (by
    intro j f hf x hx
    match j with
    | 0 | 1 | 2 | 3 | 4 | 5 => cases hf; cases hx; decide +kernel
    | j + 6 => cases hf)

end Fon
