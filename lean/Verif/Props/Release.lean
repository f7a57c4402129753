import Verif.Spec.Release
import Verif.Model.Release
import Verif.Props.ChanInt
import Verif.Props.Audio
import Verif.Proofs.Sink

/-!
# C103: debug and release builds
-/

namespace Fon
variable {k k' : Kind} {c c' : ChTy}

theorem Alike.refl {α : Type} (a : R α) : Alike a a := by
  cases a with
  | ok x => exact .inl ⟨x, rfl, rfl⟩
  | error e => exact .inr ⟨e, e, rfl, rfl⟩

theorem wrapU_of {z : ℤ} (h0 : 0 ≤ z) (h1 : z ≤ usizeMax) : wrapU z = z.toNat := by
  unfold wrapU
  rw [Int.emod_eq_of_lt h0 (by omega)]

/-- C103: multiplying and inverting samples. -/
theorem C103_chan : (∀ a b, Ch8.mulRel a b = Ch8.mulR a b) ∧ (∀ a b, Ch16.mulRel a b = Ch16.mulR a b) ∧
    (∀ a, (.ok (Ch8.negRel a) : R Ch8) = Ch8.negR a) ∧ (∀ a, (.ok (Ch16.negRel a) : R Ch16) = Ch16.negR a) := by
  refine ⟨fun a b => ?_, fun a b => ?_, fun a => ?_, fun a => ?_⟩
  · have ha := i8_range a
    have hb := i8_range b
    have e : chk 16 ((a.signExtend 16).toInt * (b.signExtend 16).toInt) = .ok (a.signExtend 16 * b.signExtend 16) := by
      rw [chk_ok]
      · rw [BitVec.ofInt_mul, BitVec.ofInt_toInt, BitVec.ofInt_toInt]
      · rw [toInt_signExtend a (by norm_num), toInt_signExtend b (by norm_num)]
        simp only [iMin, iMax]
        constructor <;> norm_num <;> nlinarith
    unfold Ch8.mulRel Ch8.mulR
    dsimp only
    rw [e]; rfl
  · have ha := i16_range a
    have hb := i16_range b
    have e : chk 32 ((a.signExtend 32).toInt * (b.signExtend 32).toInt) = .ok (a.signExtend 32 * b.signExtend 32) := by
      rw [chk_ok]
      · rw [BitVec.ofInt_mul, BitVec.ofInt_toInt, BitVec.ofInt_toInt]
      · rw [toInt_signExtend a (by norm_num), toInt_signExtend b (by norm_num)]
        simp only [iMin, iMax]
        constructor <;> norm_num <;> nlinarith
    unfold Ch16.mulRel Ch16.mulR
    dsimp only
    rw [e]; rfl
  · have := a.isLt
    unfold Ch8.negRel Ch8.negR chkU
    rw [if_pos (by omega)]
    refine congrArg Except.ok ?_
    apply BitVec.eq_of_toNat_eq
    rw [BitVec.toNat_sub, BitVec.toNat_ofInt]
    simp only [BitVec.toNat_ofNat]
    omega
  · have := a.isLt
    unfold Ch16.negRel Ch16.negR chkU
    rw [if_pos (by omega)]
    refine congrArg Except.ok ?_
    apply BitVec.eq_of_toNat_eq
    rw [BitVec.toNat_sub, BitVec.toNat_ofInt]
    rw [show (65535#16).toNat = 65535 from rfl]
    norm_num
    omega

/-- C103: the later slot of a frame. -/
theorem C103_ceil (x : F64) : (.ok (Math.ceilUsizeRel x) : R Nat) = Math.ceilUsize x := by
  have h := ceilUsize_ok x
  unfold Math.ceilUsize at h ⊢
  unfold Math.ceilUsizeRel
  dsimp only at h ⊢
  split
  · rename_i h1
    rw [if_pos h1] at h
    split
    · rename_i h2
      rw [wrapU_of (by omega) h2]; congr 1
    · rename_i h2
      rw [if_neg h2] at h; cases h
  · rfl

theorem panStep_alike (t : Trig) (hk : k.config.length ≤ usizeMax) (out : Frame k c) (d s : c.T) :
    Alike (Blend.panStep t out d s) (Blend.panStepRel t out d s) := by
  unfold Blend.panStep Blend.panStepRel Blend.panStart
  dsimp only
  by_cases h0 : k.config.length = 0
  · rw [if_pos h0]
    refine .inr ⟨.overflow, .divByZero, rfl, ?_⟩
    unfold Blend.remU
    rw [if_pos h0]; rfl
  · rw [if_neg h0]
    have e1 : wrapU ((k.config.length : ℤ) - 1) = k.config.length - 1 := by
      rw [wrapU_of (by omega) (by omega)]; omega
    rw [e1]
    have hlt : (k.config.findIdx? (fun loc => Fl.le loc (c.toF64 s))).getD (k.config.length - 1) < k.config.length := by
      cases h : k.config.findIdx? (fun loc => Fl.le loc (c.toF64 s)) with
      | none => simp; omega
      | some i =>
        have := (List.findIdx?_eq_some_iff_findIdx_eq.mp h).1
        simpa using this
    generalize (k.config.findIdx? (fun loc => Fl.le loc (c.toF64 s))).getD (k.config.length - 1) = i at *
    have e2 : wrapU ((i : ℤ) + 1) = i + 1 := by
      rw [wrapU_of (by omega) (by omega)]; omega
    rw [e2]
    unfold Blend.remU
    rw [if_neg h0]
    exact Alike.refl _

theorem foldlM_alike {α β : Type} {f g : β → α → R β} (h : ∀ b a, Alike (f b a) (g b a)) (l : List α) (b : β) :
    Alike (l.foldlM f b) (l.foldlM g b) := by
  induction l generalizing b with
  | nil => exact Alike.refl _
  | cons a l ih =>
    rw [List.foldlM_cons, List.foldlM_cons]
    rcases h b a with ⟨x, h1, h2⟩ | ⟨e, e', h1, h2⟩
    · rw [h1, h2]; exact ih x
    · rw [h1, h2]; exact .inr ⟨e, e', rfl, rfl⟩

/-- C103: mixing frames.  A frame type without speaker positions makes `Pan` panic in both builds. -/
theorem C103_mix (op : Blend) (dst src : Frame k c) (hk : k.config.length ≤ usizeMax) :
    Alike (op.mixFrames dst src) (op.mixFramesRel dst src) := by
  unfold Blend.mixFramesRel
  split
  · exact foldlM_alike (fun (b : Frame k c) (a : c.T × c.T) => panStep_alike _ hk b a.1 a.2) _ _
  · exact Alike.refl _

example := C103_mix (k := .stereo) (c := .ch8) .plus #v[100#8, 100#8] #v[100#8, 3#8] (by decide)

theorem toUsize_le' {f : Fmt} (x : Fl f) : (x.toUsize : ℤ) ≤ usizeMax := by
  unfold Fl.toUsize Fl.toIntSat usizeMax
  cases x with
  | nan => simp
  | inf s => cases s <;> simp
  | fin q nz h => simp

/-- C103: `extend`.  Where the new length overflows, the release build cuts frames off the audio, and then `sink` panics:
so both panic, and both leave the audio empty. -/
theorem C103_extend (a : Audio k c) (st : Src k' c') (ha : (a.frames.length : ℤ) ≤ usizeMax)
    (hs : ∀ l, st.len = some l → (l : ℤ) ≤ usizeMax) :
    (a.extendRel st).1 = (a.extend st).1 ∧ Alike (a.extend st).2 (a.extendRel st).2 := by
  have key : Alike (a.extendInternal st) (a.extendInternalRel st) := by
    unfold Audio.extendInternal Audio.extendInternalRel
    cases hl : st.len with
    | none => exact Alike.refl _
    | some srclen =>
      dsimp only
      have hd : (Audio.dstLen a.rate srclen st.rate : ℤ) ≤ usizeMax := by
        unfold Audio.dstLen
        split
        · exact toUsize_le' _
        · exact hs _ hl
      generalize Audio.dstLen a.rate srclen st.rate = d at *
      by_cases hov : usizeMax < (a.frames.length + d : ℤ)
      · rw [if_pos hov]
        have hw : wrapU (a.frames.length + d : ℤ) < a.frames.length := by
          unfold wrapU
          have : (a.frames.length + d : ℤ) % (usizeMax + 1) = a.frames.length + d - (usizeMax + 1) := by
            rw [← Int.sub_emod_right]
            exact Int.emod_eq_of_lt (by omega) (by omega)
          rw [this]; omega
        rw [if_neg (by omega)]
        refine .inr ⟨.overflow, .bounds, rfl, ?_⟩
        have hn : (Audio.withFrames a.rate (a.frames.take (wrapU (a.frames.length + d : ℤ)) ++
            List.replicate (wrapU (a.frames.length + d : ℤ) - a.frames.length) Frame.dflt)).sink
              (.from_ a.frames.length) = .error .bounds := by
          have hr : Rng.resolve (.from_ a.frames.length) (Audio.withFrames a.rate
              (a.frames.take (wrapU (a.frames.length + d : ℤ)) ++ List.replicate
                (wrapU (a.frames.length + d : ℤ) - a.frames.length) Frame.dflt)).frames.length = .error .bounds := by
            refine if_neg ?_
            simp only [Audio.withFrames, List.length_append, List.length_take, List.length_replicate]
            omega
          unfold Audio.sink
          rw [hr]
        rw [hn]
      · rw [if_neg hov]
        have hw : wrapU (a.frames.length + d : ℤ) = a.frames.length + d := by
          rw [wrapU_of (by omega) (by omega)]; omega
        rw [hw, List.take_of_length_le (by omega), Nat.add_sub_cancel_left]
        by_cases hc : Audio.isizeMax < (a.frames.length + d) * k.size c
        · rw [if_pos hc, if_pos ⟨by omega, hc⟩]; exact Alike.refl _
        · rw [if_neg hc, if_neg (fun h => hc h.2)]; exact Alike.refl _
  unfold Audio.extend Audio.extendRel
  rcases key with ⟨x, h1, h2⟩ | ⟨e, e', h1, h2⟩
  · rw [h1, h2]; exact ⟨rfl, Alike.refl _⟩
  · rw [h1, h2]; exact ⟨rfl, .inr ⟨e, e', rfl, rfl⟩⟩

example := C103_extend (exAudio 8) (.audio (exAudio 12)) (by decide) (fun l hl => by cases hl; decide)

/-- C103: `AudioStream`. -/
theorem C103_stream (s : AudioStream k c) (hl : (s.audio.frames.length : ℤ) ≤ usizeMax) : s.nextRel = s.next := by
  unfold AudioStream.nextRel AudioStream.next
  split
  · rfl
  · cases h : s.audio.get s.cursor with
    | none => rfl
    | some f =>
      have : s.cursor < s.audio.frames.length := (List.getElem?_eq_some_iff.mp h).1
      dsimp only
      rw [if_pos (by omega), wrapU_of (by omega) (by omega)]; rfl

example := C103_stream ⟨exAudio 8, 1, .range 1 3, 2⟩ (by decide)

/-- The new length overflows: 2 frames, and one frame at `10^-30` Hz more. -/
example : let a : Audio .mono .ch8 := ⟨Fl.lit 1, [#v[1#8], #v[2#8]]⟩
    let st : Src .mono .ch8 := .audio ⟨Fl.lit (10 ^ (-30 : ℤ)), [#v[3#8]]⟩
    (a.extendInternal st).map (·.1) = .error .overflow ∧ (a.extendInternalRel st).map (·.1) = .error .bounds ∧
    (a.extend st).1 = ⟨Fl.lit 0, []⟩ ∧ (a.extendRel st).1 = ⟨Fl.lit 0, []⟩ := by decide +kernel
example : let a : Audio .mono .ch8 := ⟨Fl.lit 1, [#v[1#8], #v[2#8]]⟩
    (a.extendRel (.audio ⟨Fl.lit 1, [#v[3#8]]⟩ : Src .mono .ch8)).1.frames = [#v[1#8], #v[2#8], #v[3#8]] := by
  decide +kernel
example : Ch8.mulRel (-128#8) (-128#8) = .ok 127#8 ∧ Ch16.mulRel (-32768#16) (-32768#16) = .ok 32767#16 := by
  decide +kernel
example (t : Trig) : (Blend.pan t).mixFrames (k := .custom 1 []) (c := .ch8) #v[1#8] #v[2#8] = .error .overflow ∧
    (Blend.pan t).mixFramesRel (k := .custom 1 []) (c := .ch8) #v[1#8] #v[2#8] = .error .divByZero := ⟨rfl, rfl⟩

end Fon
