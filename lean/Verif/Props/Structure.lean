import Verif.Spec.Frame
import Verif.Proofs.Rel
import Verif.Props.Const
import Verif.Props.ChanAlg
import Verif.Props.ChanCross

/-!
# Structure of `Sink::stream`: what depends on what
-/

namespace Fon
open Fon.Fl hiding min max
open Fon.Fmt Fon.Sink
variable {k k1 k2 k3 : Kind} {c c1 c2 c3 : ChTy}

theorem add_mul_get (a x : Frame k c) (w : F64) (i : Nat) (hi : i < k.chans) :
    (a.add (x.mul (Frame.ofF64 w)))[i] = c.add a[i] (c.mul x[i] (c.ofF64 w)) := by
  simp [Frame.add, Frame.mul, Frame.ofF64]

theorem dflt_get (i : Nat) (hi : i < k.chans) : (Frame.dflt : Frame k c)[i] = c.dflt := by simp [Frame.dflt]

/-! ## C80 -/

/-- C80: frame `m` of the stream only affects the one or two slots next to its position; if the later one is in the
destination range it does not affect the left-over frame, and in no case the position of the next stream. -/
theorem C80_local (fuel fuel' : Nat) (s s' t' : Sink k c) (st st2 : Src k1 c1) (it it2 : It k1 c1) (m : Nat)
    (h : s.stream fuel st = .ok (s', it)) (h2 : s.stream fuel' st2 = .ok (t', it2))
    (hr : st2.rate = st.rate) (hl : st2.len = st.len) (hm : ∀ j, j ≠ m → st2.nth j = st.nth j) :
    let p := posOf (ratioOf s.rate st.rate) s.res.offseti m
    (∀ x, x ≠ p.toUsize → x ≠ hiSlot p → t'.buf[x]? = s'.buf[x]?) ∧
    (InDst (ratioOf s.rate st.rate) st.len s.buf.length (hiSlot p) → t'.res.partial_ = s'.res.partial_) ∧
    t'.res.offseti = s'.res.offseti := by
  intro p
  set d := dstEnd (ratioOf s.rate st.rate) st.len s.buf.length with hd
  obtain ⟨n, _, h3, h4⟩ := stream_rel h h2 rfl rfl rfl hr hl
    (fun o a b => o ≠ some p.toUsize → o ≠ some (hiSlot p) → (o = none → hiSlot p < d) → a = b)
  obtain ⟨e1, e2, e3⟩ := h4 (by
    intro j hj f f2 x y n1 n2 c1 c2
    by_cases hjm : j = m
    · subst hjm
      refine ⟨fun a b _ ha _ _ => absurd rfl ha, ?_⟩
      rintro o (⟨rfl, ho⟩ | ⟨rfl, ho⟩) a b _ h1 h2 h3
      · exact absurd (h3 rfl) ho
      · exact absurd rfl h2
    · have hxy : x = y := by
        rw [hm j hjm, n1] at n2
        cases n2
        rw [c1] at c2
        exact Except.ok.inj c2
      subst hxy
      exact ⟨fun a b hab h1 h2 h3 => by rw [hab h1 h2 h3], fun o _ a b hab h1 h2 h3 => by rw [hab h1 h2 h3]⟩)
    (prepare_rel (dstEnd_le _ _ _) rfl (fun _ _ _ => rfl) (fun _ _ _ _ _ => rfl)
      (fun _ a b ha hb _ _ _ => by rw [ha] at hb; cases hb; rfl)
      (fun x _ _ a b ha hb _ _ _ => by rw [ha] at hb; cases hb; rfl))
  refine ⟨fun x hx hx' => ?_, fun hin => ?_, h3⟩
  · have hlen : s'.buf.length = t'.buf.length := e1
    rcases Nat.lt_or_ge x s'.buf.length with hlt | hge
    · have g1 : s'.buf[x]? = some s'.buf[x] := List.getElem?_eq_getElem hlt
      have g2 : t'.buf[x]? = some (t'.buf[x]'(by omega)) := List.getElem?_eq_getElem (by omega)
      rw [g1, g2, e2 x _ _ g1 g2 (by simpa using hx) (by simpa using hx') (by simp)]
    · rw [List.getElem?_eq_none hge, List.getElem?_eq_none (by omega)]
  · exact (e3 (by simp) (by simp) (fun _ => inDst_iff.mp hin)).symm

/-- Five samples at 12 Hz. -/
def exRow : Audio .mono .ch8 := ⟨lit 12, [#v[100#8], #v[50#8], #v[25#8], #v[0#8], #v[-100#8]]⟩
/-- The same but for the third. -/
def exRow2 : Audio .mono .ch8 := ⟨lit 12, [#v[100#8], #v[50#8], #v[70#8], #v[0#8], #v[-100#8]]⟩
/-- Stereo audio of which the right channel is `exRow`. -/
def exPairs : Audio .stereo .ch8 := ⟨lit 12, [#v[9#8, 100#8], #v[8#8, 50#8], #v[7#8, 25#8], #v[6#8, 0#8], #v[5#8, -100#8]]⟩
/-- A stereo sink like `exSink 4 8` on the right. -/
def exStereo : Sink .stereo .ch8 := ⟨lit 8, Resampler.dflt, List.replicate 4 #v[1#8, 9#8]⟩
/-- A sink of floats. -/
def exFloat : Sink .mono .ch64 := ⟨lit 8, Resampler.dflt, List.replicate 3 #v[lit 0]⟩
/-- A signal at 16 Hz. -/
def exWave : Audio .mono .ch64 := ⟨lit 16, [#v[lit 0.5], #v[lit 0.5], #v[lit 1], #v[lit (-1)]]⟩
/-- The opposite signal. -/
def exAnti : Audio .mono .ch64 := ⟨lit 16, [#v[lit (-0.5)], #v[lit (-0.5)], #v[lit (-1)], #v[lit 1]]⟩
/-- A single pulse. -/
def exPulse : Audio .mono .ch64 := ⟨lit 16, [#v[lit 0], #v[lit 0], #v[lit 1], #v[lit 0]]⟩
/-- A half of `exWave` and a quarter of `exPulse`. -/
def exSum : Audio .mono .ch64 := ⟨lit 16, [#v[lit 0.25], #v[lit 0.25], #v[lit 0.75], #v[lit (-0.5)]]⟩

example := C80_local 6 6 (exSink 4 8) _ _ (.audio exRow) (.audio exRow2) _ _ 2
  (R.returns₂ (x := (exSink 4 8).stream 6 (.audio exRow)) (by decide +kernel))
  (R.returns₂ (x := (exSink 4 8).stream 6 (.audio exRow2)) (by decide +kernel)) rfl rfl (by
    intro j hj
    match j with
    | 0 | 1 | 3 | 4 => rfl
    | 2 => exact absurd rfl hj
    | j + 5 => rfl)

/-- Two streams of rate 12 that differ in their second frame, sink of rate 8: its position is two thirds; slot 1 differs. -/
example : ((exSink 4 8).stream 9 (.audio (k := .mono) (c := .ch8) ⟨lit 12, List.replicate 6 #v[60#8]⟩)).map (fun r => r.1.buf) =
      .ok [#v[40#8], #v[59#8], #v[59#8], #v[58#8]] ∧
    ((exSink 4 8).stream 9 (.audio (k := .mono) (c := .ch8)
      ⟨lit 12, #v[60#8] :: #v[0#8] :: List.replicate 4 #v[60#8]⟩)).map (fun r => r.1.buf) =
      .ok [#v[40#8], #v[19#8], #v[59#8], #v[58#8]] := by
  constructor <;> decide +kernel

/-! ## C84 -/

/-- C84: how many frames are taken, the position afterwards and the number of frames of the destination do not depend
on the contents, the channel formats or the layouts. -/
theorem C84_schedule {fuel fuel' : Nat} {s s' : Sink k c} {t t' : Sink k2 c2} {st : Src k1 c1} {st2 : Src k3 c3} {it it2}
    (h : s.stream fuel st = .ok (s', it)) (h2 : t.stream fuel' st2 = .ok (t', it2))
    (hr : t.rate = s.rate) (ho : t.res.offseti = s.res.offseti) (hb : t.buf.length = s.buf.length)
    (hr2 : st2.rate = st.rate) (hl2 : st2.len = st.len) :
    ∃ n, Takes (ratioOf s.rate st.rate) s.res.offseti st.len s.buf.length n ∧
      Takes (ratioOf t.rate st2.rate) t.res.offseti st2.len t.buf.length n ∧
      (∀ m, Takes (ratioOf s.rate st.rate) s.res.offseti st.len s.buf.length m → m = n) ∧
      t'.res.offseti = s'.res.offseti ∧ t'.buf.length = s'.buf.length ∧ t'.rate = s'.rate := by
  obtain ⟨n, h1, h3, _⟩ := stream_rel h h2 hr ho hb hr2 hl2 (fun _ _ _ => True)
  refine ⟨n, h1, by rw [hr, ho, hb, hr2, hl2]; exact h1, fun m hm => takes_unique hm h1, h3, ?_, ?_⟩
  · rw [(C36_stream _ _ _ _ _ h).1, (C36_stream _ _ _ _ _ h2).1, hb]
  · obtain ⟨_, _, _, _, _, _, _, _, a, _⟩ := stream_takes _ _ _ _ _ h
    obtain ⟨_, _, _, _, _, _, _, _, b, _⟩ := stream_takes _ _ _ _ _ h2
    rw [a, b, hr]

example := C84_schedule (s := exSink 4 8) (t := exStereo) (st := .audio exRow) (st2 := .audio exPairs)
  (R.returns₂ (x := (exSink 4 8).stream 6 (.audio exRow)) (by decide +kernel))
  (R.returns₂ (x := exStereo.stream 6 (.audio exPairs)) (by decide +kernel)) rfl rfl rfl rfl rfl

/-- An 8 bit mono sink and a float stereo sink. -/
example : ((exSink 4 8).stream 9 (exAudio 12 |> Src.audio)).map (fun r => r.1.res.offseti) = .ok (lit (3752999689475413 / 1125899906842624)) ∧
    ((⟨lit 8, Resampler.dflt, List.replicate 4 #v[lit 0, lit 1]⟩ : Sink .stereo .ch64).stream 9
      (.audio (k := .mono) (c := .ch32) ⟨lit 12, List.replicate 5 #v[.nan]⟩)).map (fun r => r.1.res.offseti) =
      .ok (lit (3752999689475413 / 1125899906842624)) := by
  constructor <;> decide +kernel

/-! ## C82 -/

/-- C82: channels do not mix.  Two sinks with the same channel format and any layouts, of which channel `i` of the one
and channel `i'` of the other have the same contents, still do after streaming streams of the same rate and length
(with any formats and layouts) whose frames convert to frames with the same samples in these channels. -/
theorem C82_channel {fuel fuel' : Nat} {s s' : Sink k c} {t t' : Sink k2 c} {st : Src k1 c1} {st2 : Src k3 c3} {it it2}
    (h : s.stream fuel st = .ok (s', it)) (h2 : t.stream fuel' st2 = .ok (t', it2))
    (hr : t.rate = s.rate) (ho : t.res.offseti = s.res.offseti) (hb : t.buf.length = s.buf.length)
    (hr2 : st2.rate = st.rate) (hl2 : st2.len = st.len)
    (i i' : Nat) (hi : i < k.chans) (hi' : i' < k2.chans)
    (hbuf : ∀ (x : Nat) (a : Frame k c) (b : Frame k2 c), s.buf[x]? = some a → t.buf[x]? = some b → a[i] = b[i'])
    (hpar : s.res.partial_[i] = t.res.partial_[i'])
    (hst : ∀ j f f2 (x : Frame k c) (y : Frame k2 c), st.nth j = .ok (some f) → st2.nth j = .ok (some f2) →
      f.convert c = .ok x → f2.convert c = .ok y → x[i] = y[i']) :
    (∀ (x : Nat) (a : Frame k c) (b : Frame k2 c), s'.buf[x]? = some a → t'.buf[x]? = some b → a[i] = b[i']) ∧
    s'.res.partial_[i] = t'.res.partial_[i'] := by
  obtain ⟨n, _, h3, h4⟩ := stream_rel h h2 hr ho hb hr2 hl2 (fun _ a b => a[i] = b[i'])
  obtain ⟨e1, e2, e3⟩ := h4 (by
    intro j hj f f2 x y n1 n2 c1 c2
    have hxy := hst j f f2 x y n1 n2 c1 c2
    exact ⟨fun a b (hab : a[i] = b[i']) => by simp only [add_mul_get, hab, hxy],
      fun o _ a b (hab : a[i] = b[i']) => by simp only [add_mul_get, hab, hxy]⟩)
    (prepare_rel (dstEnd_le _ _ _) hb hpar (fun _ _ => by simp only [dflt_get])
      (fun _ a b ha hb => by simp only [Frame.add, Vector.getElem_zipWith, hpar, hbuf 0 a b ha hb])
      (fun x _ _ a b ha hb => hbuf x a b ha hb))
  exact ⟨e2, e3⟩

example := C82_channel (s := exStereo) (t := exSink 4 8) (st := .audio exPairs) (st2 := .audio exRow)
  (R.returns₂ (x := exStereo.stream 6 (.audio exPairs)) (by decide +kernel))
  (R.returns₂ (x := (exSink 4 8).stream 6 (.audio exRow)) (by decide +kernel)) rfl rfl rfl rfl rfl 1 0 (by decide) (by decide)
  (by
    intro x a b ha hb
    match x with
    | 0 | 1 | 2 | 3 => cases ha; cases hb; rfl
    | x + 4 => cases ha) rfl (by
    intro j f f2 x y hf hf2 hx hy
    match j with
    | 0 | 1 | 2 | 3 | 4 => cases hf; cases hf2; cases hx; cases hy; decide +kernel
    | j + 5 => cases hf)

/-- The right channel of a stereo sink and a mono sink. -/
example : ((⟨lit 8, Resampler.dflt, List.replicate 4 #v[1#8, 2#8]⟩ : Sink .stereo .ch8).stream 9
      (.audio (k := .stereo) (c := .ch8) ⟨lit 12, [#v[9, 100], #v[8, 50], #v[7, 25], #v[6, 0], #v[5, -100]]⟩)).map
      (fun r => r.1.buf.map (·[1])) = .ok [66#8, 41#8, 8#8, 2#8] ∧
    ((⟨lit 8, Resampler.dflt, List.replicate 4 #v[2#8]⟩ : Sink .mono .ch8).stream 9
      (.audio (k := .mono) (c := .ch8) ⟨lit 12, [#v[100], #v[50], #v[25], #v[0], #v[-100]]⟩)).map
      (fun r => r.1.buf.map (·[0])) = .ok [66#8, 41#8, 8#8, 2#8] := by
  constructor <;> decide +kernel

/-! ## Weights on stored numbers -/

/-- Stored number of a weight. -/
noncomputable def wF : ChTy → ℚ → ℚ
  | .ch8, ω => quantV binary64 8 127.5 (clampQ ω)
  | .ch16, ω => quantV binary64 16 32767.5 (clampQ ω)
  | .ch32, ω => binary32.rnd ω
  | .ch64, ω => ω

theorem quantV_nonneg {f : Fmt} {n : Nat} {s p : ℚ} (hn : 0 ≤ iMax n) (hn' : iMin n ≤ 0) (hs : 0 ≤ s) (h : 0 ≤ p) :
    0 ≤ quantV f n s p := by
  have := quantV_mono (f := f) (n := n) hs h
  have e : quantV f n s 0 = 0 := by
    have hf : floorE f.eps 0 = 0 := by simp [floorE, f.eps_pos.le]
    unfold quantV
    rw [zero_mul, rnd_zero, hf]
    unfold clampZ
    omega
  rw [e] at this; exact this

theorem wF_nonneg (c : ChTy) {ω : ℚ} (h : 0 ≤ ω) : 0 ≤ wF c ω := by
  have hc : 0 ≤ clampQ ω := by simp only [clampQ, max_def, min_def]; split_ifs <;> linarith
  cases c
  · have := quantV_nonneg (f := binary64) (n := 8) (s := 127.5) (by decide) (by decide) (by norm_num) hc
    simp only [wF]; exact_mod_cast this
  · have := quantV_nonneg (f := binary64) (n := 16) (s := 32767.5) (by decide) (by decide) (by norm_num) hc
    simp only [wF]; exact_mod_cast this
  · exact rnd_nonneg h
  · exact h

theorem small3 {f : Fmt} [Std f] {q : ℚ} (h : |q| ≤ 2 ^ (102:ℤ)) : |f.rnd q| ≤ f.maxF := by
  have hr : f.Rep (2 ^ (102:ℤ)) := rep_pow _ (by norm_num) (by norm_num)
  have := abs_rnd_le_of_rep hr h
  exact this.trans (by simpa [abs_of_pos (two_zpow_pos (102:ℤ))] using hr.le_maxF)

/-- Adding a weighted sample, on stored numbers. -/
theorem stored_weigh {b x : c.T} (vb : Valid c b) (vx : Valid c x) {β ξ ω : ℚ} (hb : Stored c b β)
    (hx : Stored c x ξ) {w : F64} (hw : w.Is ω) (hω : |ω| ≤ 2 ^ (100:ℤ)) :
    Stored c (c.add b (c.mul x (c.ofF64 w))) (sumF c (β + prodF c (ξ * wF c ω))) := by
  have fl : ∀ {f : Fmt} [Std f] {b x W : Fl f} {β ξ ω : ℚ}, b.Is β → |β| ≤ 1 → x.Is ξ → |ξ| ≤ 1 → W.Is ω →
      |ω| ≤ 2 ^ (100:ℤ) → (ChF.add b (ChF.mul x W)).Is (clampQ (f.rnd (β + f.rnd (ξ * ω)))) := by
    intro f _ b x W β ξ ω hb hβ hx hξ hW hω
    have h1 : |ξ * ω| ≤ 2 ^ (100:ℤ) := by
      rw [abs_mul]
      calc |ξ| * |ω| ≤ 1 * 2 ^ (100:ℤ) := mul_le_mul hξ hω (abs_nonneg _) (by norm_num)
        _ = _ := one_mul _
    have h2 : |f.rnd (ξ * ω)| ≤ 2 ^ (100:ℤ) := abs_rnd_le_of_rep (rep_pow 100 (by norm_num) (by norm_num)) h1
    have hP := hx.mul hW (small h1)
    refine clamp1_is (hb.add hP (small3 ?_))
    have e : (1:ℚ) + 2 ^ (100:ℤ) ≤ 2 ^ (102:ℤ) := by norm_num
    exact (abs_add_le _ _).trans (by linarith)
  have e1 := vb.abs_le hb
  have e2 := vx.abs_le hx
  cases c
  · refine stored_add vb (vx.mul (show Valid .ch8 (ChTy.ch8.ofF64 w) from trivial)) hb (stored_mul vx trivial hx ?_)
    simp only [Stored, wF]; rw [ofF64_ch8_is hw]
  · refine stored_add vb (vx.mul (show Valid .ch16 (ChTy.ch16.ofF64 w) from trivial)) hb (stored_mul vx trivial hx ?_)
    simp only [Stored, wF]; rw [ofF64_ch16_is hw]
  · exact fl hb (e1 (.inl rfl)) hx (e2 (.inl rfl)) (hw.cast binary32 (small hω))
      (abs_rnd_le_of_rep (rep_pow 100 (by norm_num) (by norm_num)) hω)
  · exact fl hb (e1 (.inr rfl)) hx (e2 (.inr rfl)) hw hω

/-- Not negative, or not finite. -/
def NN {f : Fmt} (x : Fl f) : Prop := ∀ p, x.Is p → 0 ≤ p

theorem NN.ofQ {f : Fmt} {s : Bool} {q : ℚ} (h : 0 ≤ q) : NN (ofQ f s q) := by
  intro p hp
  unfold Fl.ofQ at hp
  split at hp
  · obtain ⟨_, _, h⟩ := hp; cases h; exact rnd_nonneg ‹_›
  · obtain ⟨_, _, h⟩ := hp; cases h

theorem NN.mul {f : Fmt} {x y : Fl f} (hx : NN x) (hy : NN y) : NN (x.mul y) := by
  intro p hp
  cases x with
  | nan => obtain ⟨_, _, h⟩ := hp; cases h
  | inf s =>
    cases y with
    | nan => obtain ⟨_, _, h⟩ := hp; cases h
    | inf t => obtain ⟨_, _, h⟩ := hp; cases h
    | fin q nz h =>
      simp only [Fl.mul] at hp
      split at hp <;> (obtain ⟨_, _, h⟩ := hp; cases h)
  | fin q nz h =>
    cases y with
    | nan => obtain ⟨_, _, h⟩ := hp; cases h
    | inf t =>
      simp only [Fl.mul] at hp
      split at hp <;> (obtain ⟨_, _, h⟩ := hp; cases h)
    | fin q' nz' h' => exact NN.ofQ (mul_nonneg (hx _ is_fin) (hy _ is_fin)) p hp

theorem NN.add {f : Fmt} {x y : Fl f} (hx : NN x) (hy : NN y) : NN (x.add y) := by
  intro p hp
  cases x with
  | nan => obtain ⟨_, _, h⟩ := hp; cases h
  | inf s =>
    cases y with
    | nan => obtain ⟨_, _, h⟩ := hp; cases h
    | inf t =>
      simp only [Fl.add] at hp
      split at hp <;> (obtain ⟨_, _, h⟩ := hp; cases h)
    | fin q nz h => obtain ⟨_, _, h⟩ := hp; cases h
  | fin q nz h =>
    cases y with
    | nan => obtain ⟨_, _, h⟩ := hp; cases h
    | inf t => obtain ⟨_, _, h⟩ := hp; cases h
    | fin q' nz' h' => exact NN.ofQ (add_nonneg (hx _ is_fin) (hy _ is_fin)) p hp

/-- The weights are not negative if ratio and offset are not. -/
theorem weights_nonneg {q off : F64} {r o : ℚ} (hq : q.Is r) (hr0 : 0 ≤ r) (hr : r ≤ 2 ^ (99:ℤ)) (ho : off.Is o)
    (ho0 : 0 ≤ o) (i : Nat) :
    (∃ a, (hiWeight q off i).Is a ∧ 0 ≤ a ∧ |a| ≤ 2 ^ (100:ℤ)) ∧
    (∃ b, (loWeight q off i).Is b ∧ 0 ≤ b ∧ |b| ≤ 2 ^ (100:ℤ)) := by
  have hr' : |r| ≤ 2 ^ (99:ℤ) := by rwa [abs_of_nonneg hr0]
  have big : (1:ℚ) ≤ 2 ^ (99:ℤ) := by norm_num
  have big2 : (2:ℚ) ^ (100:ℤ) = 2 ^ (99:ℤ) + 2 ^ (99:ℤ) := by norm_num
  have hpos : NN (posOf q off i) := by
    refine NN.add (NN.mul ?_ (NN.ofQ (by positivity))) ?_
    · intro p hp; rwa [hp.unique hq]
    · intro p hp; rwa [hp.unique ho]
  have hc : ∃ a, (hiWeight q off i).Is a ∧ 0 ≤ a ∧ a ≤ r := by
    unfold hiWeight
    cases hp : posOf q off i with
    | nan => exact ⟨r, hq, hr0, le_rfl⟩
    | inf s =>
      refine ⟨r, ?_, hr0, le_rfl⟩
      have : (Fl.inf s : F64).rem (lit 1) = .nan := by rw [lit_one_eq]; rfl
      rw [this]; exact hq
    | fin p nz h =>
      have hp' : (posOf q off i).Is p := by rw [hp]; exact is_fin
      have h0 := hpos p hp'
      refine ⟨_, ((is_fin (h := h)).rem_one h0).min hq, le_min ?_ hr0, min_le_right _ _⟩
      have := Int.floor_le p
      linarith
  obtain ⟨a, h1, h2, h3⟩ := hc
  refine ⟨⟨a, h1, h2, by rw [abs_of_nonneg h2]; linarith⟩, ?_⟩
  have hb : |r - a| ≤ 2 ^ (100:ℤ) := by
    rw [abs_of_nonneg (by linarith)]; linarith
  exact ⟨_, hq.sub h1 (small hb), rnd_nonneg (by linarith),
    abs_rnd_le_of_rep (rep_pow 100 (by norm_num) (by norm_num)) hb⟩

/-! ## C81 -/

theorem weigh_le {a b x y : c.T} (va : Valid c a) (vb : Valid c b) (h : c.le a b = true) (vx : Valid c x)
    (vy : Valid c y) (h' : c.le x y = true) {w : F64} {ω : ℚ} (hw : w.Is ω) (h0 : 0 ≤ ω) (hω : |ω| ≤ 2 ^ (100:ℤ)) :
    c.le (c.add a (c.mul x (c.ofF64 w))) (c.add b (c.mul y (c.ofF64 w))) = true := by
  obtain ⟨p, hp, _⟩ := va.stored; obtain ⟨p', hp', _⟩ := vb.stored
  obtain ⟨q, hq, _⟩ := vx.stored; obtain ⟨q', hq', _⟩ := vy.stored
  rw [(C70_order hp hp').2.2] at h
  rw [(C70_order hq hq').2.2] at h'
  rw [(C70_order (stored_weigh va vx hp hq hw hω) (stored_weigh vb vy hp' hq' hw hω)).2.2]
  exact sumF_mono c (add_le_add h (prodF_mono c (mul_le_mul_of_nonneg_right h' (wF_nonneg c h0))))

theorem FrameLe.weigh {a b x y : Frame k c} (h : FrameLe a b) (h' : FrameLe x y) {w : F64}
    (hw : ∃ ω, w.Is ω ∧ 0 ≤ ω ∧ |ω| ≤ 2 ^ (100:ℤ)) :
    FrameLe (a.add (x.mul (Frame.ofF64 w))) (b.add (y.mul (Frame.ofF64 w))) := by
  obtain ⟨ω, h1, h2, h3⟩ := hw
  intro i hi
  simp only [add_mul_get]
  obtain ⟨a1, a2, a3⟩ := h i hi
  obtain ⟨b1, b2, b3⟩ := h' i hi
  exact ⟨Valid.add, Valid.add, weigh_le a1 a2 a3 b1 b2 b3 h1 h2 h3⟩

theorem FrameLe.dflt : FrameLe (Frame.dflt : Frame k c) Frame.dflt := by
  intro i hi
  rw [dflt_get]
  have v := (Valid.consts c).2.2.2
  obtain ⟨p, hp, _⟩ := v.stored
  exact ⟨v, v, by rw [(C70_order hp hp).2.2]⟩

/-- C81: louder in, louder out.  If no sample of the first stream is above the corresponding sample of the second one,
then no sample of the destination range is after streaming, and the left-over frames are ordered if they were. -/
theorem C81_mono {fuel fuel' : Nat} {s s' t t' : Sink k c} {st : Src k1 c1} {st2 : Src k3 c3} {it it2}
    (h : s.stream fuel st = .ok (s', it)) (h2 : t.stream fuel' st2 = .ok (t', it2))
    (hr : t.rate = s.rate) (ho : t.res.offseti = s.res.offseti) (hb : t.buf.length = s.buf.length)
    (hr2 : st2.rate = st.rate) (hl2 : st2.len = st.len)
    {r o : ℚ} (hq : (ratioOf s.rate st.rate).Is r) (hr0 : 0 ≤ r) (hr1 : r ≤ 2 ^ (99:ℤ))
    (hoff : s.res.offseti.Is o) (ho0 : 0 ≤ o)
    (hst : ∀ j f f2 (x y : Frame k c), st.nth j = .ok (some f) → st2.nth j = .ok (some f2) →
      f.convert c = .ok x → f2.convert c = .ok y → FrameLe x y) :
    (∀ x, InDst (ratioOf s.rate st.rate) st.len s.buf.length x →
      ∃ a b, s'.buf[x]? = some a ∧ t'.buf[x]? = some b ∧ FrameLe a b) ∧
    (FrameLe s.res.partial_ t.res.partial_ → FrameLe s'.res.partial_ t'.res.partial_) := by
  set d := dstEnd (ratioOf s.rate st.rate) st.len s.buf.length with hd
  obtain ⟨n, _, h3, h4⟩ := stream_rel h h2 hr ho hb hr2 hl2
    (fun o a b => match o with
      | some x => x < d → FrameLe a b
      | none => FrameLe s.res.partial_ t.res.partial_ → FrameLe a b)
  obtain ⟨e1, e2, e3⟩ := h4 (by
    intro j hj f f2 x y n1 n2 c1 c2
    have hxy := hst j f f2 x y n1 n2 c1 c2
    obtain ⟨w1, w2⟩ := weights_nonneg hq hr0 hr1 hoff ho0 j
    refine ⟨fun a b hab hx => (hab hx).weigh hxy w2, fun o _ a b hab => ?_⟩
    cases o with
    | none => exact fun hx => (hab hx).weigh hxy w1
    | some z => exact fun hx => (hab hx).weigh hxy w1)
    (prepare_rel (dstEnd_le _ _ _) hb (fun hp => hp) (fun _ _ _ => FrameLe.dflt)
      (fun hz a b ha hb hx => by omega) (fun x hx _ a b ha hb hx' => by omega))
  refine ⟨fun x hx => ?_, e3⟩
  have g1 : s'.buf[x]? = some (s'.buf[x]'(by rw [(C36_stream _ _ _ _ _ h).1]; exact hx.1)) :=
    List.getElem?_eq_getElem _
  have g2 : t'.buf[x]? = some (t'.buf[x]'(by rw [(C36_stream _ _ _ _ _ h2).1, hb]; exact hx.1)) :=
    List.getElem?_eq_getElem _
  exact ⟨_, _, g1, g2, e2 x _ _ g1 g2 (inDst_iff.mp hx)⟩

example := C81_mono (s := exSink 4 8) (t := exSink 4 8) (st := .audio exRow) (st2 := .audio exRow2)
  (R.returns₂ (x := (exSink 4 8).stream 6 (.audio exRow)) (by decide +kernel))
  (R.returns₂ (x := (exSink 4 8).stream 6 (.audio exRow2)) (by decide +kernel)) rfl rfl rfl rfl rfl
  (r := Fmt.rnd binary64 (2 / 3)) (o := 0) (by decide +kernel) (by decide +kernel) (by decide +kernel) (by decide +kernel)
  (by norm_num) (by
    intro j f f2 x y hf hf2 hx hy
    match j with
    | 0 | 1 | 2 | 3 | 4 => cases hf; cases hf2; cases hx; cases hy; decide +kernel
    | j + 5 => cases hf)

example : ((exSink 4 8).stream 9 (.audio (k := .mono) (c := .ch8) ⟨lit 12, List.replicate 6 #v[60#8]⟩)).map (fun r => r.1.buf) =
      .ok [#v[40#8], #v[59#8], #v[59#8], #v[58#8]] ∧
    ((exSink 4 8).stream 9 (.audio (k := .mono) (c := .ch8)
      ⟨lit 12, #v[60#8] :: #v[127#8] :: List.replicate 4 #v[61#8]⟩)).map (fun r => r.1.buf) =
      .ok [#v[40#8], #v[105#8], #v[60#8], #v[60#8]] := by
  constructor <;> decide +kernel

/-! ## C83 -/

theorem sumF_neg (hc : c = .ch32 ∨ c = .ch64) (s : ℚ) : sumF c (-s) = -sumF c s := by
  rcases hc with rfl | rfl <;> simp only [sumF, rnd_neg, clampQ_neg]

theorem prodF_neg (hc : c = .ch32 ∨ c = .ch64) (s : ℚ) : prodF c (-s) = -prodF c s := by
  rcases hc with rfl | rfl <;> simp only [prodF, rnd_neg]

theorem FrameOpp.weigh (hc : c = .ch32 ∨ c = .ch64) {a b x y : Frame k c} (h : FrameOpp a b) (h' : FrameOpp x y) {w : F64}
    (hw : ∃ ω, w.Is ω ∧ |ω| ≤ 2 ^ (100:ℤ)) :
    FrameOpp (a.add (x.mul (Frame.ofF64 w))) (b.add (y.mul (Frame.ofF64 w))) := by
  obtain ⟨ω, h1, h2⟩ := hw
  intro i hi
  simp only [add_mul_get]
  obtain ⟨a1, a2, p, a3, a4⟩ := h i hi
  obtain ⟨b1, b2, q, b3, b4⟩ := h' i hi
  refine ⟨Valid.add, Valid.add, _, stored_weigh a1 b1 a3 b3 h1 h2, ?_⟩
  have := stored_weigh a2 b2 a4 b4 h1 h2
  rwa [neg_mul, prodF_neg hc, ← neg_add, sumF_neg hc] at this

theorem FrameOpp.dflt (hc : c = .ch32 ∨ c = .ch64) : FrameOpp (Frame.dflt : Frame k c) Frame.dflt := by
  intro i hi
  rw [dflt_get]
  have v := (Valid.consts c).2.2.2
  refine ⟨v, v, 0, ?_, ?_⟩
  · rcases hc with rfl | rfl <;> exact is_zero
  · rw [neg_zero]; rcases hc with rfl | rfl <;> exact is_zero

/-- C83, float formats: inverting the stream inverts the result.  Any ratio up to `2^99` (also negative), any offset. -/
theorem C83_float {fuel fuel' : Nat} {s s' t t' : Sink k c} {st : Src k1 c1} {st2 : Src k3 c3} {it it2}
    (hc : c = .ch32 ∨ c = .ch64)
    (h : s.stream fuel st = .ok (s', it)) (h2 : t.stream fuel' st2 = .ok (t', it2))
    (hr : t.rate = s.rate) (ho : t.res.offseti = s.res.offseti) (hb : t.buf.length = s.buf.length)
    (hr2 : st2.rate = st.rate) (hl2 : st2.len = st.len)
    {r : ℚ} (hq : (ratioOf s.rate st.rate).Is r) (hr1 : |r| ≤ 2 ^ (99:ℤ))
    (hst : ∀ j f f2 (x y : Frame k c), st.nth j = .ok (some f) → st2.nth j = .ok (some f2) →
      f.convert c = .ok x → f2.convert c = .ok y → FrameOpp x y) :
    (∀ x, InDst (ratioOf s.rate st.rate) st.len s.buf.length x →
      ∃ a b, s'.buf[x]? = some a ∧ t'.buf[x]? = some b ∧ FrameOpp a b) ∧
    (FrameOpp s.res.partial_ t.res.partial_ → FrameOpp s'.res.partial_ t'.res.partial_) := by
  set d := dstEnd (ratioOf s.rate st.rate) st.len s.buf.length with hd
  obtain ⟨n, _, h3, h4⟩ := stream_rel h h2 hr ho hb hr2 hl2
    (fun o a b => match o with
      | some x => x < d → FrameOpp a b
      | none => FrameOpp s.res.partial_ t.res.partial_ → FrameOpp a b)
  obtain ⟨e1, e2, e3⟩ := h4 (by
    intro j hj f f2 x y n1 n2 c1 c2
    have hxy := hst j f f2 x y n1 n2 c1 c2
    obtain ⟨w1, w2⟩ := weights_bound hq hr1 s.res.offseti j
    refine ⟨fun a b hab hx => (hab hx).weigh hc hxy w2, fun o _ a b hab => ?_⟩
    cases o with
    | none => exact fun hx => (hab hx).weigh hc hxy w1
    | some z => exact fun hx => (hab hx).weigh hc hxy w1)
    (prepare_rel (dstEnd_le _ _ _) hb (fun hp => hp) (fun _ _ _ => FrameOpp.dflt hc)
      (fun hz a b ha hb hx => by omega) (fun x hx _ a b ha hb hx' => by omega))
  refine ⟨fun x hx => ?_, e3⟩
  have g1 : s'.buf[x]? = some (s'.buf[x]'(by rw [(C36_stream _ _ _ _ _ h).1]; exact hx.1)) :=
    List.getElem?_eq_getElem _
  have g2 : t'.buf[x]? = some (t'.buf[x]'(by rw [(C36_stream _ _ _ _ _ h2).1, hb]; exact hx.1)) :=
    List.getElem?_eq_getElem _
  exact ⟨_, _, g1, g2, e2 x _ _ g1 g2 (inDst_iff.mp hx)⟩

theorem frameOpp_of {a b : Frame k c} (p : ℚ)
    (h : ∀ i (_ : i < k.chans), Valid c a[i] ∧ Valid c b[i] ∧ Stored c a[i] p ∧ Stored c b[i] (-p)) : FrameOpp a b :=
  fun i hi => ⟨(h i hi).1, (h i hi).2.1, p, (h i hi).2.2⟩

example := C83_float (s := exFloat) (t := exFloat) (st := .audio exWave) (st2 := .audio exAnti) (.inr rfl)
  (R.returns₂ (x := exFloat.stream 6 (.audio exWave)) (by decide +kernel))
  (R.returns₂ (x := exFloat.stream 6 (.audio exAnti)) (by decide +kernel)) rfl rfl rfl rfl rfl
  (r := 0.5) (by decide +kernel) (by norm_num) (by
    intro j f f2 x y hf hf2 hx hy
    match j with
    | 0 | 1 => cases hf; cases hf2; cases hx; cases hy; exact frameOpp_of (1 / 2) (by decide +kernel)
    | 2 => cases hf; cases hf2; cases hx; cases hy; exact frameOpp_of 1 (by decide +kernel)
    | 3 => cases hf; cases hf2; cases hx; cases hy; exact frameOpp_of (-1) (by decide +kernel)
    | j + 4 => cases hf)

example : ((⟨lit 8, Resampler.dflt, List.replicate 3 #v[lit 0]⟩ : Sink .mono .ch64).stream 9
      (.audio (k := .mono) (c := .ch64) ⟨lit 16, [#v[lit 0.5], #v[lit 0.5], #v[lit 1], #v[lit (-1)]]⟩)).map (fun r => r.1.buf) =
      .ok [#v[lit 0.25], #v[lit 0.75], #v[lit 0]] ∧
    ((⟨lit 8, Resampler.dflt, List.replicate 3 #v[lit 0]⟩ : Sink .mono .ch64).stream 9
      (.audio (k := .mono) (c := .ch64) ⟨lit 16, [#v[lit (-0.5)], #v[lit (-0.5)], #v[lit (-1)], #v[lit 1]]⟩)).map (fun r => r.1.buf) =
      .ok [#v[lit (-0.25)], #v[lit (-0.75)], #v[lit 0]] := by
  constructor <;> decide +kernel

/-- C83 is false for the integer formats: `!x` inverts a sample, but weights round towards zero, and slots that no
frame reaches stay 0, which is not its own inverse. -/
theorem C83_false :
    ((exSink 4 16).stream 9 (.audio (k := .mono) (c := .ch8) ⟨lit 8, [#v[100#8], #v[100#8]]⟩)).map
      (fun r => r.1.buf) = .ok [#v[100#8], #v[0#8], #v[100#8], #v[0#8]] ∧
    ((exSink 4 16).stream 9 (.audio (k := .mono) (c := .ch8)
      ⟨lit 8, [Frame.neg #v[100#8], Frame.neg #v[100#8]]⟩)).map
      (fun r => r.1.buf.map Frame.neg) = .ok [#v[100#8], #v[-1#8], #v[100#8], #v[-1#8]] := by
  constructor <;> decide +kernel

/-! ## C85 -/

/-- C85, superposition when downsampling: streaming `α A + β B` gives `α` times the result of `A` plus `β` times the
result of `B`, up to the error of C59 for each of the three. -/
theorem C85_partial {fuel fa fb : Nat} {s s' ta ta' tb tb' : Sink k c} {st : Src k1 c1} {sa : Src k2 c2} {sb : Src k3 c3}
    {it ia ib} (h : s.stream fuel st = .ok (s', it)) (ha : ta.stream fa sa = .ok (ta', ia))
    (hb : tb.stream fb sb = .ok (tb', ib)) (ho : s.res.offseti = lit 0) (hoa : ta.res.offseti = lit 0)
    (hob : tb.res.offseti = lit 0) (ra : ratioOf ta.rate sa.rate = ratioOf s.rate st.rate)
    (rb : ratioOf tb.rate sb.rate = ratioOf s.rate st.rate) (la : sa.len = st.len) (lb : sb.len = st.len)
    (ba : ta.buf.length = s.buf.length) (bb : tb.buf.length = s.buf.length) {r : ℚ}
    (hq : (ratioOf s.rate st.rate).Is r) (hr : 0 < r) (hr1 : r ≤ 1) (hbuf : (s.buf.length : ℚ) + 1 ≤ r * 2 ^ 52)
    (i : Nat) (hi : i < k.chans) (α β : ℚ) (u v : Nat → ℚ)
    (hw : ∀ j f, st.nth j = .ok (some f) → ∀ x : Frame k c, f.convert c = .ok x →
      SampleVal c x[i] (α * u j + β * v j) ∧ |α * u j + β * v j| ≤ 1)
    (hu : ∀ j f, sa.nth j = .ok (some f) → ∀ x : Frame k c, f.convert c = .ok x → SampleVal c x[i] (u j) ∧ |u j| ≤ 1)
    (hv : ∀ j f, sb.nth j = .ok (some f) → ∀ x : Frame k c, f.convert c = .ok x → SampleVal c x[i] (v j) ∧ |v j| ≤ 1)
    (x : Nat) (hx : InDst (ratioOf s.rate st.rate) st.len s.buf.length x) :
    ∃ (y ya yb : Frame k c) (b b1 b2 : ℚ), s'.buf[x]? = some y ∧ ta'.buf[x]? = some ya ∧ tb'.buf[x]? = some yb ∧
      SampleVal c y[i] b ∧ SampleVal c ya[i] b1 ∧ SampleVal c yb[i] b2 ∧
      |b - (α * b1 + β * b2)| ≤ (1 + |α| + |β|) *
        ((mixErr c + 5 * 2 ^ (-53 : ℤ) + 2 * ((s.buf.length + 1) * 2 ^ (-53 : ℤ))) * (1 / r + 3)) := by
  obtain ⟨n, a1, _, a2⟩ := C59_box fuel s s' st it h ho r hq hr hr1 hbuf i hi _ hw
  obtain ⟨na, b1, _, b2⟩ := C59_box fa ta ta' sa ia ha hoa r (by rw [ra]; exact hq) hr hr1 (by rw [ba]; exact hbuf) i hi _ hu
  obtain ⟨nb, c1, _, c2⟩ := C59_box fb tb tb' sb ib hb hob r (by rw [rb]; exact hq) hr hr1 (by rw [bb]; exact hbuf) i hi _ hv
  rw [ra, la, ba] at b1 b2
  rw [rb, lb, bb] at c1 c2
  cases takes_unique b1 a1
  cases takes_unique c1 a1
  obtain ⟨y, p, g1, g2, g3⟩ := a2 x hx
  obtain ⟨ya, pa, g4, g5, g6⟩ := b2 x hx
  obtain ⟨yb, pb, g7, g8, g9⟩ := c2 x hx
  refine ⟨y, ya, yb, p, pa, pb, g1, g4, g7, g2, g5, g8, ?_⟩
  generalize (mixErr c + 5 * 2 ^ (-53 : ℤ) + 2 * ((s.buf.length + 1) * 2 ^ (-53 : ℤ))) * (1 / r + 3) = E at *
  have hsum : ∑ j ∈ Finset.range n, (α * u j + β * v j) * overlap (r * j - r) (r * j) (x - 1) x =
      α * ∑ j ∈ Finset.range n, u j * overlap (r * j - r) (r * j) (x - 1) x +
      β * ∑ j ∈ Finset.range n, v j * overlap (r * j - r) (r * j) (x - 1) x := by
    rw [Finset.mul_sum, Finset.mul_sum, ← Finset.sum_add_distrib]
    exact Finset.sum_congr rfl (fun j _ => by ring)
  rw [hsum] at g3
  generalize ∑ j ∈ Finset.range n, u j * overlap (r * j - r) (r * j) (x - 1) x = U at *
  generalize ∑ j ∈ Finset.range n, v j * overlap (r * j - r) (r * j) (x - 1) x = V at *
  have t1 : |α * (pa - U)| ≤ |α| * E := by rw [abs_mul]; exact mul_le_mul_of_nonneg_left g6 (abs_nonneg _)
  have t2 : |β * (pb - V)| ≤ |β| * E := by rw [abs_mul]; exact mul_le_mul_of_nonneg_left g9 (abs_nonneg _)
  rw [abs_le] at *
  constructor <;> nlinarith

/-- The sum of a half of one signal and a quarter of another. -/
example := C85_partial (s := exFloat) (ta := exFloat) (tb := exFloat) (st := .audio exSum) (sa := .audio exWave)
  (sb := .audio exPulse) (R.returns₂ (x := exFloat.stream 6 (.audio exSum)) (by decide +kernel))
  (R.returns₂ (x := exFloat.stream 6 (.audio exWave)) (by decide +kernel))
  (R.returns₂ (x := exFloat.stream 6 (.audio exPulse)) (by decide +kernel)) rfl rfl rfl rfl rfl rfl rfl rfl rfl
  (r := 0.5) (by decide +kernel) (by norm_num) (by norm_num) (by decide +kernel) 0 (by decide) (1 / 2) (1 / 4)
  (fun j => if j = 0 then 1 / 2 else if j = 1 then 1 / 2 else if j = 2 then 1 else if j = 3 then -1 else 0)
  (fun j => if j = 2 then 1 else 0) (by
    intro j f hf x hx
    match j with
    | 0 | 1 | 2 | 3 => cases hf; cases hx; decide +kernel
    | j + 4 => cases hf) (by
    intro j f hf x hx
    match j with
    | 0 | 1 | 2 | 3 => cases hf; cases hx; decide +kernel
    | j + 4 => cases hf) (by
    intro j f hf x hx
    match j with
    | 0 | 1 | 2 | 3 => cases hf; cases hx; decide +kernel
    | j + 4 => cases hf) 1 (by decide +kernel)

/-- C85 is false in general: the sum saturates, and integer weights round. -/
theorem C85_false :
    ((exSink 3 8).stream 9 (.audio (k := .mono) (c := .ch8) ⟨lit 12, List.replicate 6 #v[1#8]⟩)).map (fun r => r.1.buf) =
      .ok [#v[0#8], #v[0#8], #v[0#8]] ∧
    ((exSink 3 8).stream 9 (.audio (k := .mono) (c := .ch8) ⟨lit 12, List.replicate 6 #v[2#8]⟩)).map (fun r => r.1.buf) =
      .ok [#v[1#8], #v[1#8], #v[1#8]] := by
  constructor <;> decide +kernel

end Fon
