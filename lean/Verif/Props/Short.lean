import Verif.Props.Vanish
import Verif.Props.Periodic
import Verif.Props.Crossing
import Verif.Props.Append

/-!
# C159: sounds that are shorter than a slot
-/

namespace Fon
open Fon.Fl hiding min max
open Fon.Fmt Fon.Sink
variable {k k' : Kind} {c c' : ChTy}

/-- A stream that is shorter than one slot is not played at all. -/
theorem C159_stream (fuel : Nat) (s s' : Sink k c) (st : Src k' c') (it : It k' c') (h : s.stream fuel st = .ok (s', it))
    {l : Nat} (hl : st.len = some l) (h0 : ((ratioOf s.rate st.rate).mul (f64OfUsize l)).toUsize = 0) :
    s'.buf = s.buf.modify 0 (·.add s.res.partial_) ∧ s'.res.partial_ = s.res.partial_ ∧
    s'.res.offseti = s.res.offseti.add ((ratioOf s.rate st.rate).mul (f64OfUsize 0)) := by
  have hno : ∀ x, ¬ InDst (ratioOf s.rate st.rate) st.len s.buf.length x := fun x hx => by have := hx.2 l hl; omega
  obtain ⟨n, g, a1, _, _, a4, a5, _⟩ := C58_mix fuel s s' st it h
  have hn : n = 0 := by
    by_contra hn
    exact hno _ (a1.1 0 (by omega))
  subst hn
  refine ⟨?_, a4, a5⟩
  obtain ⟨e1, _, e3⟩ := C36_stream fuel s s' st it h
  refine List.ext_getElem? fun x => ?_
  rw [e3 x (hno x), List.getElem?_modify]
  by_cases hx : x = 0
  · subst hx
    simp
  · simp [hx, Ne.symm hx]

/-- C159 is false: whatever is shorter than one slot of the new rate becomes silence. -/
theorem C159_lost {rate : F64} {b : Audio k c} {st : Src k' c'} {l : Nat} (h : Audio.withStream rate st = .ok b)
    (hl : st.len = some l) (h0 : ((ratioOf rate st.rate).mul (f64OfUsize l)).toUsize = 0) :
    b.frames = List.replicate b.len Frame.dflt := by
  obtain ⟨l', s, t, it, h1, h2, h3, h4⟩ := with_run h
  rw [hl] at h1
  cases h1
  obtain ⟨e1, e2, -⟩ := C159_stream _ _ _ _ _ h2 hl h0
  have hs : ∀ f ∈ s.buf, f = (Frame.dflt : Frame k c) := fun f hf => by
    rw [e1] at hf
    obtain ⟨x, hx⟩ := List.mem_iff_getElem?.mp hf
    rw [List.getElem?_modify, List.getElem?_replicate] at hx
    split at hx <;> split at hx <;> simp [Resampler.dflt] at hx
    · rw [← hx]; exact dflt_add_dflt
    · exact hx.symm
  refine List.eq_replicate_iff.mpr ⟨rfl, fun f hf => ?_⟩
  rw [h4] at hf
  by_cases hfr : HasFract s.res.offseti
  · by_cases hlt : s.res.offseti.toUsize < s.buf.length
    · rw [C42_write s hfr hlt] at h3
      cases h3
      rcases List.mem_or_eq_of_mem_set hf with hm | rfl
      · exact hs f hm
      · exact e2
    · exfalso
      obtain ⟨e, he⟩ := (C42_panics_iff s).mpr ⟨hfr, by omega⟩
      rw [he] at h3; cases h3
  · rw [C42_nothing s hfr] at h3
    cases h3
    exact hs f hf

/-- The same with whole rates: `l` frames that take less than `1 / dst` seconds become one frame of silence. -/
theorem C159_whole {rate sr : F64} {b : Audio k c} {st : Src k' c'} {dst src l : Nat} (h : Audio.withStream rate st = .ok b)
    (hl : st.len = some l) (hd : rate.Is (dst:ℚ)) (hsr : st.rate = some sr) (hs : sr.Is (src:ℚ)) (hd0 : 0 < dst)
    (hs' : src ≤ 2 ^ 51) (hl0 : 0 < l) (hlt : dst * l < src) : b.frames = [Frame.dflt] := by
  have hsrc : 0 < src := by omega
  have hsq : (0:ℚ) < src := by exact_mod_cast hsrc
  have hdl : dst ≤ dst * l := Nat.le_mul_of_pos_right _ hl0
  have hll : l ≤ dst * l := Nat.le_mul_of_pos_left _ hd0
  have hlen : b.len = 1 := by
    rw [C49_partial rate sr dst src l hd hs hsrc (by omega) (by omega) hs' st hl hsr b h]
    refine (Nat.ceil_eq_iff one_ne_zero).mpr ⟨?_, ?_⟩
    · simp only [Nat.sub_self, Nat.cast_zero]
      have : (0:ℚ) < dst := by exact_mod_cast hd0
      have : (0:ℚ) < l := by exact_mod_cast hl0
      positivity
    · rw [div_le_iff₀ hsq]
      push_cast
      rw [one_mul]
      exact_mod_cast hlt.le
  obtain ⟨m1, _, _, m4, m5⟩ := (pos_int hd hs hsrc hd0 hs' (by omega)).2 l (by omega)
  have hx : (dst * l : ℚ) / src ≤ 1 - 1 / 2 ^ 51 := by
    rw [div_le_iff₀ hsq]
    have e1 : (dst * l : ℚ) + 1 ≤ src := by exact_mod_cast hlt
    have e2 : (src:ℚ) ≤ 2 ^ 51 := by exact_mod_cast hs'
    have e3 : (1:ℚ) / 2 ^ 51 * src ≤ 1 := by rw [div_mul_eq_mul_div, one_mul, div_le_one (by positivity)]; exact e2
    linarith
  have hlt1 : binary64.rnd (binary64.rnd ((dst:ℚ) / src) * l) < 1 := by
    refine lt_of_le_of_lt (m5.trans (mul_le_mul_of_nonneg_right hx (by positivity))) ?_
    norm_num
  have hge := le_trans (by positivity) m4
  have h0 : ((ratioOf rate st.rate).mul (f64OfUsize l)).toUsize = 0 := by
    rw [hsr, toUsize_is m1 hge (by linarith)]
    have : ⌊binary64.rnd (binary64.rnd ((dst:ℚ) / src) * l)⌋ = 0 := Int.floor_eq_zero_iff.mpr ⟨hge, hlt1⟩
    rw [this]; rfl
  rw [C159_lost h hl h0, hlen]
  rfl

/-- A sound that is appended in pieces that are shorter than a slot becomes silence, however long it is in all. -/
theorem C159_pieces {a b : Audio k c} {sts : List (Src k' c')} (h : a.extendAll sts = .ok b)
    (hs : ∀ st ∈ sts, ∃ l, st.len = some l ∧ ((ratioOf a.rate st.rate).mul (f64OfUsize l)).toUsize = 0) :
    ∃ n, b = ⟨a.rate, a.frames ++ List.replicate n Frame.dflt⟩ := by
  obtain ⟨xs, h1, rfl⟩ := C130_all h
  refine ⟨(xs.flatMap (·.frames)).length, ?_⟩
  congr 2
  refine List.eq_replicate_iff.mpr ⟨rfl, fun f hf => ?_⟩
  clear h
  induction h1 with
  | nil => cases hf
  | @cons st x sts xs h1 _ ih =>
    rw [List.flatMap_cons, List.mem_append] at hf
    rcases hf with hf | hf
    · obtain ⟨l, hl, h0⟩ := hs st List.mem_cons_self
      rw [C159_lost h1 hl h0] at hf
      exact (List.mem_replicate.mp hf).2
    · exact ih (fun st' h' => hs st' (List.mem_cons_of_mem _ h')) hf

/-- The part that is true: in every slot that lies in the time of the stream, what is loud enough is heard. -/
theorem C159_partial {rate : F64} {b : Audio k c} {st : Src k' c'} {l : Nat} (h : Audio.withStream rate st = .ok b)
    (hl : st.len = some l) {r : ℚ} (hq : (ratioOf rate st.rate).Is r) (hr : 0 < r) (hr1 : r ≤ 1) (hb : (b.len:ℚ) + 1 ≤ r * 2 ^ 52)
    (i : Nat) (hi : i < k.chans) (w : Nat → ℚ)
    (hw : ∀ j f, st.nth j = .ok (some f) → ∀ x : Frame k c, f.convert c = .ok x → SampleVal c x[i] (w j) ∧ |w j| ≤ 1) :
    ∃ n, Takes (ratioOf rate st.rate) (lit 0) (some l) b.len n ∧ ∀ x, x < b.len →
      x < ((ratioOf rate st.rate).mul (f64OfUsize l)).toUsize →
      (mixErr c + 5 * 2 ^ (-53 : ℤ) + 2 * ((b.len + 1) * 2 ^ (-53 : ℤ))) * (1 / r + 3) <
          |∑ j ∈ Finset.range n, w j * overlap (r * j - r) (r * j) ((x:ℚ) - 1) x| →
        ∃ f, b.get x = some f ∧ ¬ SampleVal c f[i] 0 := by
  obtain ⟨s, it, h1, h2⟩ := with_slots h hq hr hl
  have len : (List.replicate b.len (Frame.dflt : Frame k c)).length = b.len := List.length_replicate
  obtain ⟨n, n1, n2⟩ := C157_partial (l + 1) _ s st it h1 rfl _ hq hr hr1 (by rw [len]; exact hb) i hi w hw
  rw [len] at n1 n2
  rw [hl] at n1
  refine ⟨n, n1, fun x hx hx' hlt => ?_⟩
  obtain ⟨c1, c2⟩ := h2 x hx hx'
  rw [c2]
  exact n2 x c1 hlt

/-! ## Examples -/

/-- Five frames at full level. -/
def exClick : Audio .mono .ch16 := ⟨lit 48000, List.replicate 5 #v[32767#16]⟩

example := C159_lost (k := .mono) (c := .ch16) (rate := lit 8000) (l := 5)
  (R.returns (x := (Audio.withStream (lit 8000) (.audio exClick) : R (Audio .mono .ch16))) (by decide +kernel)) rfl (by decide +kernel)

/-- C159 is false: a click of five frames at full level is lost between 48000 and 8000 Hz. -/
theorem C159_false : Audio.withStream (lit 8000) (.audio exClick) = .ok (⟨lit 8000, [#v[0#16]]⟩ : Audio .mono .ch16) := by decide +kernel

example := C159_whole (k := .mono) (c := .ch16) (dst := 8000) (src := 48000) (l := 5) C159_false rfl (by decide +kernel) rfl
  (by decide +kernel) (by decide) (by decide) (by decide) (by decide)

example := C159_pieces (k := .mono) (c := .ch16) (a := ⟨lit 8000, [#v[1#16]]⟩) (sts := List.replicate 3 (.audio exClick))
  (R.returns (x := (⟨lit 8000, [#v[1#16]]⟩ : Audio .mono .ch16).extendAll (List.replicate 3 (.audio exClick))) (by decide +kernel))
  (fun st h => ⟨5, by rw [(List.mem_replicate.mp h).2]; rfl, by rw [(List.mem_replicate.mp h).2]; decide +kernel⟩)

/-- Nothing is left over for the next stream, either. -/
example := C159_stream (k := .mono) (c := .ch16) 6 ⟨lit 8000, .dflt, [#v[1#16], #v[2#16]]⟩ _ (.audio exClick) _
  (R.returns₂ (x := (⟨lit 8000, .dflt, [#v[1#16], #v[2#16]]⟩ : Sink .mono .ch16).stream 6 (.audio exClick)) (by decide +kernel)) rfl (by decide +kernel)

example := C159_partial (k := .mono) (c := .ch64) (l := 8) (rate := lit 1)
  (b := ⟨lit 1, [#v[lit 0.25], #v[lit 0.5], #v[lit (-0.5)], #v[lit 0.5]]⟩) (st := .audio exCross) (by decide +kernel) rfl
  (r := 1 / 2) (by decide +kernel) (by norm_num) (by norm_num) (by decide +kernel) 0 (by decide) exCrossW exCross_val

end Fon
