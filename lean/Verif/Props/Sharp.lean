import Verif.Props.Mix
import Verif.Props.ChanCross

/-!
# Exact conditions: sums of weights (C46), inverting before widening (C67)
-/

namespace Fon
open Fon.Fl hiding min max
open Fon.Fmt Fon.Sink
variable {k k' : Kind} {c c' : ChTy}

/-- The two weights of a frame add up to the ratio exactly if what is left for the earlier slot is a float. -/
theorem weights_iff {q off : F64} {r p : ℚ} {i : Nat} (hq : q.Is r) (hr : 0 < r) (hp : (posOf q off i).Is p)
    (hp0 : 0 ≤ p) : ∃ a b : ℚ, (hiWeight q off i).Is a ∧ (loWeight q off i).Is b ∧
      (a + b = r ↔ binary64.Rep (r - min (p - ⌊p⌋) r)) := by
  obtain ⟨a, b, h1, h2, ha, h3, h4, h5, h6, h7⟩ := weights_partial hq hr hp hp0
  refine ⟨a, b, h1, h2, ?_⟩
  rw [← ha]
  constructor
  · intro h
    rw [show r - a = b by linarith]
    exact h2.rep
  · intro h
    have hb : b = binary64.rnd (r - a) := by
      refine h2.unique (hq.sub h1 ?_)
      rw [abs_of_nonneg (rnd_nonneg (by linarith))]
      refine (rnd_le_of_gen hq.rep.gen (by linarith)).trans ?_
      have := hq.rep.le_maxF
      rwa [abs_of_pos hr] at this
    rw [hb, rnd_of_gen h.gen]
    ring

example := weights_iff (q := lit 1.5) (off := lit 0) (r := 1.5) (p := 1.5) (i := 1) (by decide +kernel) (by norm_num)
  (by decide +kernel) (by norm_num)

/-- C46, exactly: the weights with which a frame at position `p` is shared between its two slots add up to the ratio `r`
if and only if `r - min (fract p) r` is a float. -/
theorem C46_iff (fuel : Nat) (s s' : Sink k c) (st : Src k' c') (it : It k' c') (h : s.stream fuel st = .ok (s', it))
    {r : ℚ} (hq : (ratioOf s.rate st.rate).Is r) (hr : 0 < r) :
    ∃ (n : Nat) (g : Nat → Frame k c) (lo hi : Nat → F64),
      Takes (ratioOf s.rate st.rate) s.res.offseti st.len s.buf.length n ∧
      (∀ j, j < n → ∃ f, st.nth j = .ok (some f) ∧ f.convert c = .ok (g j)) ∧
      (∀ i, InDst (ratioOf s.rate st.rate) st.len s.buf.length i →
        s'.buf[i]? = some (mixedBy (posOf (ratioOf s.rate st.rate) s.res.offseti) lo hi g i n Frame.dflt)) ∧
      ∀ j, j < n → ∀ p, (posOf (ratioOf s.rate st.rate) s.res.offseti j).Is p → 0 ≤ p →
        ∃ a b : ℚ, (hi j).Is a ∧ (lo j).Is b ∧ (a + b = r ↔ binary64.Rep (r - min (p - ⌊p⌋) r)) := by
  obtain ⟨n, g, a1, a2, a3, _⟩ := C58_mix fuel s s' st it h
  exact ⟨n, g, loWeight (ratioOf s.rate st.rate) s.res.offseti, hiWeight (ratioOf s.rate st.rate) s.res.offseti,
    a1, a2, fun i hi => by rw [a3 i hi, mixed_by], fun j hj p hp hp0 => weights_iff hq hr hp hp0⟩

example := C46_iff 6 (exSink 7 12) _ (.audio (exAudio 8)) _
  (R.returns₂ (x := (exSink 7 12).stream 6 (.audio (exAudio 8))) (by decide +kernel)) (r := 1.5) (by decide +kernel)
  (by norm_num)

/-- The sum is not exact for the frame of `C46_false`. -/
example : ¬ binary64.Rep (binary64.rnd (5 / 6) - 4503599627370497 / 18014398509481984) := by
  intro h
  have := rnd_of_gen h.gen
  revert this
  decide +kernel

/-- C67 for widening 8 bit samples to `Ch32`, exactly: inverting before and after gives the same but for 3, 7, 15, 31, 63
and their inverses -4, -8, -16, -32, -64. -/
theorem C67_ch32_iff : ∀ x : Ch8, ChTy.conv .ch32 .ch8 (ChTy.ch8.neg x) = ChTy.ch32.neg (ChTy.conv .ch32 .ch8 x) ↔
    max x.toInt (-1 - x.toInt) ∉ [3, 7, 15, 31, 63] := by
  decide +kernel

/-- C67 for widening 8 bit samples to `Ch64`, exactly: the exceptions are the even numbers from 32 to 62, every fourth number
from 65 to 125, and their inverses. -/
theorem C67_ch64_iff : ∀ x : Ch8, ChTy.conv .ch64 .ch8 (ChTy.ch8.neg x) = ChTy.ch64.neg (ChTy.conv .ch64 .ch8 x) ↔
    ¬ (32 ≤ max x.toInt (-1 - x.toInt) ∧ max x.toInt (-1 - x.toInt) ≤ 62 ∧ max x.toInt (-1 - x.toInt) % 2 = 0 ∨
      65 ≤ max x.toInt (-1 - x.toInt) ∧ max x.toInt (-1 - x.toInt) % 4 = 1) := by
  decide +kernel

end Fon
