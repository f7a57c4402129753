import Verif.Spec.Pan
import Verif.Model.Ops
import Verif.Props.Frame

/-!
# C26 - C28: blend operations
-/

namespace Fon
open Fmt Fl

variable {k : Kind} {c : ChTy}

/-! ## C26 -/

theorem mixFrames_ok {op : Blend} (hop : ∀ t, op ≠ .pan t) (hop' : ∀ m f, op ≠ .custom m (some f)) {dst src r : Frame k c} :
    op.mixFrames dst src = .ok r ↔ ∀ i (h : i < k.chans), op.mix c dst[i] src[i] = .ok r[i] := by
  have : op.mixFrames dst src = (Vector.zip dst src).mapM (fun p => op.mix c p.1 p.2) := by
    cases op with
    | pan t => exact absurd rfl (hop t)
    | custom m f => cases f with
      | none => rfl
      | some f => exact absurd rfl (hop' m f)
    | _ => rfl
  rw [this, vmapM_ok_iff]
  simp

/-- C26: meaning of the operations that return. -/
theorem C26_meaning (dst src : Frame k c) :
    Blend.src.mixFrames dst src = .ok src ∧
    Blend.dest.mixFrames dst src = .ok dst ∧
    Blend.clear.mixFrames dst src = .ok Frame.dflt ∧
    Blend.plus.mixFrames dst src = .ok (dst.add src) ∧
    Blend.amplify.mixFrames dst src = .ok (dst.mul src) := by
  refine ⟨?_, ?_, ?_, ?_, ?_⟩ <;> rw [mixFrames_ok (by simp) (by simp)] <;> intro i h
  · rfl
  · rfl
  · simp [Blend.mix, Frame.dflt]
  · simp [Blend.mix, Frame.add, C18_add c src[i]]
  · simp [Blend.mix, Frame.mul, C18_mul c src[i]]

/-- C26: `Plus` and `Amplify` do not depend on the order of operands. -/
theorem C26_comm (dst src : Frame k c) :
    Blend.plus.mixFrames dst src = Blend.plus.mixFrames src dst ∧
    Blend.amplify.mixFrames dst src = Blend.amplify.mixFrames src dst := by
  rw [(C26_meaning dst src).2.2.2.1, (C26_meaning dst src).2.2.2.2,
    (C26_meaning src dst).2.2.2.1, (C26_meaning src dst).2.2.2.2, C18_frame_add, C18_frame_mul]
  exact ⟨rfl, rfl⟩

/-- C26: `Compress` panics on every frame that has a channel, `Compress` and `Pan` panic on a single
channel. -/
theorem C26_panics (dst src : Frame k c) (hk : 0 < k.chans) (t : Trig) (x y : c.T) :
    (∃ e, Blend.compress.mixFrames dst src = .error e) ∧
    Blend.compress.mix c x y = .error .todo ∧ (Blend.pan t).mix c x y = .error .panMono := by
  refine ⟨?_, rfl, rfl⟩
  show ∃ e, (Vector.zip dst src).mapM (fun p => Blend.compress.mix c p.1 p.2) = .error e
  rw [vmapM_err_iff]
  exact ⟨0, hk, .todo, rfl⟩

example := fun t : Trig => C26_panics (k := .stereo) (c := .ch8) #v[1#8, 2#8] #v[3#8, 4#8] (by decide) t 1#8 2#8

example : Blend.plus.mixFrames (k := .stereo) (c := .ch8) #v[100#8, -3#8] #v[100#8, -4#8] =
    .ok #v[127#8, -7#8] := by decide +kernel

/-! ## C27 -/

theorem modChan_ok {fr r : Frame k c} {i : Nat} {g : c.T → c.T} :
    Blend.modChan fr i g = .ok r ↔ ∃ h : i < k.chans, r = fr.set i (g fr[i]) := by
  unfold Blend.modChan
  split
  · rename_i h
    simp only [Except.ok.injEq, h, exists_true_left]
    exact eq_comm
  · rename_i h; simp [h]

/-- C27: one destination channel changes only the two speakers `start` and `start + 1` (cyclically). -/
theorem C27_only_two (t : Trig) (out r : Frame k c) (d s : c.T) (h : Blend.panStep t out d s = .ok r) :
    ∃ start, start < k.config.length ∧ ∀ i (hi : i < k.chans), i ≠ start →
      i ≠ (start + 1) % k.config.length → r[i] = out[i] := by
  unfold Blend.panStep at h
  obtain ⟨start, h1, h⟩ := R.bind_ok h
  obtain ⟨ce, h2, h⟩ := R.bind_ok h
  obtain ⟨cs, h3, h⟩ := R.bind_ok h
  obtain ⟨o1, h4, h⟩ := R.bind_ok h
  refine ⟨start, ?_, ?_⟩
  · unfold Blend.idx at h3
    split at h3
    · rename_i x hx; exact (List.getElem?_eq_some_iff.mp hx).1
    · cases h3
  · intro i hi n1 n2
    obtain ⟨_, rfl⟩ := modChan_ok.mp h4
    obtain ⟨_, rfl⟩ := modChan_ok.mp h
    rw [Vector.getElem_set_ne _ _ (by omega), Vector.getElem_set_ne _ _ (by omega)]

example := C27_only_two (k := .surround) (c := .ch8) ⟨fun _ => lit 1, fun _ => lit 0⟩ Frame.dflt
  #v[0#8, 100#8, 0#8, 0#8, 0#8, 0#8] (100#8) (90#8) (by decide +kernel)

/-- C27, what is true: if the pan position is between the first two speakers, those two get the
weights cos and sin of the angle.  The full statement would be this for every two neighbouring
speakers (and for the pair last, first around the back).
Missing: the other pairs of speakers, for which it is false, see `C27_false`. -/
theorem C27_front_partial (t : Trig) (out : Frame k c) (d s : c.T) (lo hi : F64) (rest : List F64)
    (hcfg : k.config = lo :: hi :: rest) (hch : 2 ≤ k.chans) (p q x : ℚ) (hlo : lo.Is p) (hhi : hi.Is q)
    (hx : (c.toF64 s).Is x) (hpq : p < q) (h1 : p ≤ x) :
    Blend.panStep t out d s = .ok
      ((out.set 0 (c.add out[0] (c.mul d (c.ofF64 (t.cos (panAngle lo hi (c.toF64 s))))))).set 1
        (c.add out[1] (c.mul d (c.ofF64 (t.sin (panAngle lo hi (c.toF64 s))))))) := by
  have e1 : Blend.panStart (lo :: hi :: rest) (c.toF64 s) = .ok 0 := by
    unfold Blend.panStart
    rw [if_neg (by simp), List.findIdx?_cons, hlo.le hx, decide_eq_true h1]
    rfl
  have hmod : (0 + 1) % (lo :: hi :: rest).length = 1 := Nat.mod_eq_of_lt (by simp)
  have nl : (hi.sub lo).lt (lit 0) = false := by
    by_cases hb : |binary64.rnd (q - p)| ≤ binary64.maxF
    · rw [(hhi.sub hlo hb).lt is_zero, decide_eq_false_iff_not, not_lt]
      exact rnd_nonneg (by linarith)
    · obtain ⟨_, _, rfl⟩ := hlo
      obtain ⟨_, _, rfl⟩ := hhi
      simp only [Fl.sub, Fl.neg, Fl.add, Fl.ofQ]
      rw [← sub_eq_add_neg, dif_neg hb, lit_zero_eq]
      simp only [Fl.lt, decide_eq_false_iff_not, not_lt]; linarith
  have mn : hi.min lo = lo := by
    obtain ⟨_, _, rfl⟩ := hlo
    obtain ⟨_, _, rfl⟩ := hhi
    simp [Fl.min, Fl.lt, hpq]
  unfold Blend.panStep
  simp only [hcfg, e1, bind, Except.bind, hmod, Blend.idx, List.getElem?_cons_succ,
    List.getElem?_cons_zero, nl, mn, Bool.false_eq_true, if_false]
  rw [show Blend.modChan out 0 _ = .ok _ from modChan_ok.mpr ⟨by omega, rfl⟩]
  simp only []
  rw [modChan_ok]
  refine ⟨by omega, ?_⟩
  simp [panAngle]

example := fun t : Trig => C27_front_partial (k := .stereo) (c := .ch64) t Frame.dflt (lit 0.5) (lit 0) _ _ [] rfl
  (by decide) _ _ _ (by decide +kernel : (lit (-0.5) : F64).Is (-0.5)) (by decide +kernel : (lit 0.5 : F64).Is 0.5)
  (by decide +kernel : (lit 0 : F64).Is 0) (by norm_num) (by norm_num)

/-- A pan position at or right of the first speaker never reaches any other pair of speakers. -/
theorem panStart_first (cfg : List F64) (lo s : F64) (h : lo.le s = true) :
    Blend.panStart (lo :: cfg) s = .ok 0 := by
  unfold Blend.panStart
  rw [if_neg (by simp), List.findIdx?_cons, h]; rfl

/-- C27 as stated is false: whatever the trigonometric functions, Pan of a Surround frame leaves
speakers 2 to 4 silent for every pan position from the first speaker (-2/3) to the right end, also
where it lies between speakers 3 (1/3) and 4 (2/3). -/
theorem C27_false (t : Trig) (out r : Frame .surround c) (d s : c.T) (x : ℚ) (hx : (c.toF64 s).Is x)
    (h1 : -(2/3) ≤ x) (h : Blend.panStep t out d s = .ok r) :
    r[2] = out[2] ∧ r[3] = out[3] ∧ r[4] = out[4] := by
  have e0 : Kind.surround.config = Fl.div (Fl.lit (-2)) (Fl.lit 3) :: Kind.surround.config.tail := rfl
  have c0 : (Fl.div (Fl.lit (-2)) (Fl.lit 3) : F64).Is (binary64.rnd (-2/3)) := by
    have := Is.div (f := binary64) (is_lit (q := -2) (by
      have := rep_small_int (f := binary64) (n := -2) (by norm_num); simpa using this))
      (is_lit (q := 3) (by have := rep_small_int (f := binary64) (n := 3) (by norm_num); simpa using this))
      (by norm_num) (small (by norm_num [abs_div]))
    exact this
  have e1 : Blend.panStart Kind.surround.config (c.toF64 s) = .ok 0 := by
    rw [e0]
    apply panStart_first
    rw [c0.le hx, decide_eq_true_eq]
    have : binary64.rnd (-2/3) ≤ binary64.rnd x := rnd_mono (by linarith)
    rwa [rnd_of_rep hx.rep] at this
  unfold Blend.panStep at h
  obtain ⟨start, h1, h⟩ := R.bind_ok h
  obtain ⟨ce, h2, h⟩ := R.bind_ok h
  obtain ⟨cs, h3, h⟩ := R.bind_ok h
  obtain ⟨o1, h4, h⟩ := R.bind_ok h
  rw [e1] at h1
  cases h1
  obtain ⟨_, rfl⟩ := modChan_ok.mp h4
  obtain ⟨_, rfl⟩ := modChan_ok.mp h
  refine ⟨?_, ?_, ?_⟩ <;>
    rw [Vector.getElem_set_ne _ _ (by decide), Vector.getElem_set_ne _ _ (by decide)]

example := C27_false (c := .ch8) ⟨fun _ => lit 1, fun _ => lit 0⟩ Frame.dflt #v[0#8, 100#8, 0#8, 0#8, 0#8, 0#8]
  (100#8) (0#8) _ (by decide +kernel : (ChTy.ch8.toF64 (0#8)).Is (binary64.rnd (1 / 255))) (by decide +kernel)
  (by decide +kernel)

/-- C27: around the back the weights are wrong as well.  At every position between the two Stereo speakers on the left
way behind the listener (from MIN to -1/2) the angle is not positive, where it should be between a quarter and half of
the right angle: for MIN it is `-1/6` of a right angle. -/
theorem C27_back (t : Trig) (out : Frame .stereo c) (d s : c.T) (x : ℚ) (hx : (c.toF64 s).Is x) (h0 : -1 ≤ x)
    (h1 : x < -1 / 2) :
    ∃ (α : F64) (a : ℚ), α.Is a ∧ a ≤ 0 ∧ -1 / 2 ≤ a ∧
      Blend.panStep t out d s = .ok ((out.set 1 (c.add out[1] (c.mul d (c.ofF64 (t.cos α))))).set 0
        (c.add out[0] (c.mul d (c.ofF64 (t.sin α))))) := by
  have l1 : (lit (-0.5) : F64).Is (-1 / 2) := by
    have := is_lit (f := binary64) (q := -0.5) (rep_dyadic (-1) (-1) (by norm_num) (by decide) (by decide) (by decide))
    rwa [show (-0.5 : ℚ) = -1 / 2 by norm_num] at this ⊢
  have l2 : (lit 0.5 : F64).Is (1 / 2) := by
    have := is_lit (f := binary64) (q := 0.5) (rep_dyadic 1 (-1) (by norm_num) (by decide) (by decide) (by decide))
    rwa [show (0.5 : ℚ) = 1 / 2 by norm_num] at this ⊢
  have dist : ((lit 2 : F64).sub ((lit (-0.5)).sub (lit 0.5))).Is 3 := by
    have e : ((lit 2 : F64).sub ((lit (-0.5)).sub (lit 0.5))) = lit 3 := by decide +kernel
    rw [e]; exact is_lit (rep_dyadic 3 0 (by norm_num) (by decide) (by decide) (by decide))
  have half : binary64.Rep (1 / 2) := rep_dyadic 1 (-1) (by norm_num) (by decide) (by decide) (by decide)
  have quarter : binary64.Rep (1 / 4) := rep_dyadic 1 (-2) (by norm_num) (by decide) (by decide) (by decide)
  have two : binary64.Rep 2 := rep_dyadic 2 0 (by norm_num) (by decide) (by decide) (by decide)
  -- a quarter circle
  have pi0 : |binary64.rnd 1.57079632679489661923132169163975144| ≤ 2 := abs_rnd_le_of_rep two (by norm_num [abs_of_pos])
  have pi1 : 0 ≤ binary64.rnd 1.57079632679489661923132169163975144 := rnd_nonneg (by norm_num)
  have hpi : Blend.fracPi2.Is (binary64.rnd 1.57079632679489661923132169163975144) :=
    is_lit_rnd (pi0.trans (by simpa using two.le_maxF))
  set P := binary64.rnd 1.57079632679489661923132169163975144
  rw [abs_of_nonneg pi1] at pi0
  -- the angle
  have hb : |x - -1 / 2| ≤ 1 / 2 := by rw [abs_le]; constructor <;> linarith
  have b1 := abs_rnd_le_of_rep half hb
  have n1 : binary64.rnd (x - -1 / 2) ≤ 0 := by
    have := rnd_mono (f := binary64) (p := x - -1 / 2) (q := 0) (by linarith)
    rwa [rnd_zero] at this
  have s1 := hx.sub l1 (b1.trans (by have := half.le_maxF; rwa [abs_of_pos (by norm_num)] at this))
  set u := binary64.rnd (x - -1 / 2)
  rw [abs_le] at b1
  have b2 := abs_rnd_le_of_rep (q := u / 3) quarter (by rw [abs_le]; constructor <;> linarith)
  have n2 : binary64.rnd (u / 3) ≤ 0 := by
    have := rnd_mono (f := binary64) (p := u / 3) (q := 0) (by linarith)
    rwa [rnd_zero] at this
  have s2 := s1.div dist (by norm_num) (b2.trans (by have := quarter.le_maxF; rwa [abs_of_pos (by norm_num)] at this))
  set v := binary64.rnd (u / 3)
  rw [abs_le] at b2
  have b3 := abs_rnd_le_of_rep (q := v * P) half (by rw [abs_le]; constructor <;> nlinarith)
  have n3 : binary64.rnd (v * P) ≤ 0 := by
    have := rnd_mono (f := binary64) (p := v * P) (q := 0) (by nlinarith)
    rwa [rnd_zero] at this
  have s3 := s2.mul hpi (b3.trans (by have := half.le_maxF; rwa [abs_of_pos (by norm_num)] at this))
  rw [abs_le] at b3
  refine ⟨_, _, s3, n3, by linarith, ?_⟩
  have e1 : Blend.panStart Kind.stereo.config (c.toF64 s) = .ok 1 := by
    unfold Blend.panStart Kind.config
    rw [if_neg (by simp), List.findIdx?_cons, l1.le hx, decide_eq_false (by linarith), List.findIdx?_cons, l2.le hx,
      decide_eq_false (by linarith)]
    rfl
  have e2 : (((lit (-0.5) : F64).sub (lit 0.5)).lt (lit 0)) = true := by decide +kernel
  have e3 : (lit (-0.5) : F64).min (lit 0.5) = lit (-0.5) := by decide +kernel
  unfold Blend.panStep
  dsimp only
  rw [e1]
  simp only [Kind.config, bind, Except.bind, List.length_cons, List.length_nil, Nat.reduceAdd, Nat.mod_self,
    Blend.idx, List.getElem?_cons_succ, List.getElem?_cons_zero, e2, e3, if_true]
  rw [show Blend.modChan out 1 _ = .ok _ from modChan_ok.mpr ⟨by decide, rfl⟩]
  simp only []
  rw [modChan_ok]
  refine ⟨by decide, ?_⟩
  congr 2
  simp

example := fun t : Trig => C27_back (c := .ch64) t Frame.dflt (lit 0.5) (lit (-0.75)) _
  (by decide +kernel : (lit (-0.75) : F64).Is (-0.75)) (by norm_num) (by norm_num)

example : (ChTy.toF64 .ch64 (lit (-1))) = lit (-1) ∧ (lit (-1) : F64).Is (-1) := ⟨rfl, is_neg_one⟩

/-! ## C28 -/

theorem mono_angle (t : Trig) (ht : t.Ieee) (s : F64) :
    t.cos (((s.sub ((lit 0 : F64).min (lit 0))).div ((lit 0).sub (lit 0))).mul Blend.fracPi2) = .nan ∧
    t.sin (((s.sub ((lit 0 : F64).min (lit 0))).div ((lit 0).sub (lit 0))).mul Blend.fracPi2) = .nan := by
  have e1 : ((lit 0 : F64).sub (lit 0)) = .fin 0 false ⟨rep_zero, by simp⟩ := by decide +kernel
  obtain ⟨p, hp, hpi⟩ : ∃ p, p ≠ 0 ∧ Blend.fracPi2.Is p := by
    have : ∃ p nz h, Blend.fracPi2 = .fin p nz h := by
      unfold Blend.fracPi2 lit Fl.ofQ
      rw [dif_pos (by decide +kernel)]
      exact ⟨_, _, _, rfl⟩
    obtain ⟨p, nz, h, e⟩ := this
    refine ⟨p, ?_, _, _, e⟩
    rintro rfl
    have : Blend.fracPi2.eq (lit 0) = false := by decide +kernel
    rw [e, lit_zero_eq] at this
    simp [Fl.eq] at this
  obtain ⟨nz, h, e⟩ := hpi
  rw [e1, e]
  generalize s.sub ((lit 0 : F64).min (lit 0)) = x
  cases x with
  | nan => exact ⟨ht.1, ht.2.1⟩
  | inf s => simp only [Fl.div, Fl.mul, if_neg hp]; exact ⟨ht.2.2.1 _, ht.2.2.2 _⟩
  | fin q b hh =>
    simp only [Fl.div, if_pos]
    split
    · exact ⟨ht.1, ht.2.1⟩
    · simp only [Fl.mul, if_neg hp]; exact ⟨ht.2.2.1 _, ht.2.2.2 _⟩

/-- Pan of a Mono frame: both weights are `from_f64(NaN)`. -/
theorem pan_mono (t : Trig) (ht : t.Ieee) (dst src : Frame .mono c) :
    (Blend.pan t).mixFrames dst src = .ok
      #v[c.add (c.add c.dflt (c.mul dst[0] (c.ofF64 .nan))) (c.mul dst[0] (c.ofF64 .nan))] := by
  obtain ⟨d, rfl⟩ : ∃ d, dst = #v[d] := ⟨dst[0], by
    ext i hi; obtain rfl : i = 0 := by (change i < 1 at hi; omega)
    rfl⟩
  obtain ⟨s, rfl⟩ : ∃ d, src = #v[d] := ⟨src[0], by
    ext i hi; obtain rfl : i = 0 := by (change i < 1 at hi; omega)
    rfl⟩
  show (Blend.panStep t Frame.dflt d s >>= fun o => pure o) = _
  have e1 : Blend.panStart [(lit 0 : F64)] (c.toF64 s) = .ok 0 := by
    unfold Blend.panStart
    rw [if_neg (by simp), List.findIdx?_cons]
    split <;> rfl
  have nl : ((lit 0 : F64).sub (lit 0)).lt (lit 0) = false := by decide +kernel
  obtain ⟨m1, m2⟩ := mono_angle t ht (c.toF64 s)
  have : Blend.panStep t (Frame.dflt : Frame .mono c) d s = .ok
      #v[c.add (c.add c.dflt (c.mul d (c.ofF64 .nan))) (c.mul d (c.ofF64 .nan))] := by
    unfold Blend.panStep
    simp only [Kind.config, e1, bind, Except.bind, Blend.idx, List.length_singleton, Nat.mod_one,
      List.getElem?_cons_zero, nl, Bool.false_eq_true, if_false, m1, m2]
    rw [show Blend.modChan (Frame.dflt : Frame .mono c) 0 _ = .ok _ from modChan_ok.mpr ⟨by decide, rfl⟩]
    simp only []
    rw [modChan_ok]
    refine ⟨by decide, ?_⟩
    simp [Frame.dflt]
  rw [this]; rfl

/-- C28 is false; what Pan does to a Mono frame, for every pan position: Mono8 and Mono16 samples are
doubled, Mono32 and Mono64 samples become 1.0.  (The distance between the only speaker and itself is
0, the angle is infinite or NaN, and its sine and cosine are NaN.) -/
theorem C28_actual (t : Trig) (ht : t.Ieee) :
    (∀ dst src : Frame .mono .ch8, (Blend.pan t).mixFrames dst src = .ok (dst.add dst)) ∧
    (∀ dst src : Frame .mono .ch16, (Blend.pan t).mixFrames dst src = .ok (dst.add dst)) ∧
    (∀ dst src : Frame .mono .ch32, (Blend.pan t).mixFrames dst src = .ok #v[lit 1]) ∧
    (∀ dst src : Frame .mono .ch64, (Blend.pan t).mixFrames dst src = .ok #v[lit 1]) := by
  have v1 : ∀ {c : ChTy} (dst : Frame .mono c) (x : c.T), x = c.add dst[0] dst[0] →
      (Except.ok #v[x] : R (Frame .mono c)) = .ok (dst.add dst) := by
    rintro c dst x rfl
    congr 1
    ext i hi
    obtain rfl : i = 0 := by change i < 1 at hi; omega
    simp [Frame.add]
  refine ⟨?_, ?_, ?_, ?_⟩ <;> intro dst src <;> rw [pan_mono t ht]
  · apply v1
    have : ChTy.ch8.ofF64 .nan = ChTy.ch8.MAX := by decide +kernel
    rw [this, (C02_ch8_unit _).1]
    congr 1
    apply BitVec.eq_of_toInt_eq
    have := i8_range dst[0]
    rw [C01_ch8_add, show (ChTy.ch8.dflt : BitVec 8).toInt = 0 by decide]
    unfold clampZ; omega
  · apply v1
    have : ChTy.ch16.ofF64 .nan = ChTy.ch16.MAX := by decide +kernel
    rw [this, (C02_ch16_unit _).1]
    congr 1
    apply BitVec.eq_of_toInt_eq
    have := i16_range dst[0]
    rw [C01_ch16_add, show (ChTy.ch16.dflt : BitVec 16).toInt = 0 by decide]
    unfold clampZ; omega
  · have : ∀ x y : F32, ChF.add x (ChF.mul y .nan) = lit 1 := by
      intro x y; cases x <;> cases y <;> exact clamp1_nan
    exact congrArg (fun z => Except.ok #v[z]) (this _ _)
  · have : ∀ x y : F64, ChF.add x (ChF.mul y .nan) = lit 1 := by
      intro x y; cases x <;> cases y <;> exact clamp1_nan
    exact congrArg (fun z => Except.ok #v[z]) (this _ _)

/-- C28 as stated is false: the negation. -/
theorem C28_false (t : Trig) (ht : t.Ieee) : ¬ ∀ dst src : Frame .mono .ch8,
    (Blend.pan t).mixFrames dst src = .ok dst := by
  intro h
  have h1 := (C28_actual t ht).1 #v[10#8] #v[-128#8]
  rw [h] at h1
  exact absurd h1 (by decide +kernel)

/-- C28, what is true: silence stays silence in the integer formats.
Missing: everything else, see `C28_actual` for the actual results. -/
theorem C28_partial (t : Trig) (ht : t.Ieee) (src8 : Frame .mono .ch8) (src16 : Frame .mono .ch16) :
    (Blend.pan t).mixFrames (Frame.dflt : Frame .mono .ch8) src8 = .ok Frame.dflt ∧
    (Blend.pan t).mixFrames (Frame.dflt : Frame .mono .ch16) src16 = .ok Frame.dflt := by
  rw [(C28_actual t ht).1, (C28_actual t ht).2.1]
  decide +kernel

/-- Some functions that give NaN for what is not a finite number. -/
def exTrig : Trig := ⟨fun x => match x with | .fin .. => lit 1 | _ => .nan, fun x => match x with | .fin .. => lit 0 | _ => .nan⟩

theorem exTrig_ieee : exTrig.Ieee := ⟨rfl, rfl, fun _ => rfl, fun _ => rfl⟩

example := C28_actual exTrig exTrig_ieee
example := C28_false exTrig exTrig_ieee
example := C28_partial exTrig exTrig_ieee #v[10#8] #v[10#16]
example : (Blend.pan exTrig).mixFrames (k := .mono) (c := .ch8) #v[10#8] #v[50#8] = .ok #v[20#8] := by decide +kernel

end Fon
