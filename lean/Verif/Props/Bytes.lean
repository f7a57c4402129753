import Verif.Props.Heap

/-!
# C113: raw buffers and frame types defined by the user
-/

namespace Fon.Heap

theorem take_drop_bytes (x : List (BitVec 8)) (i z : Nat) (h : i * z + z ≤ x.length) :
    ∃ y : List (BitVec 8), y.length = z ∧ ((x.map some).drop (i * z)).take z = y.map some := by
  refine ⟨(x.drop (i * z)).take z, ?_, by rw [List.map_take, List.map_drop]⟩
  rw [List.length_take, List.length_drop]; omega

/-- C113 holds for types with the alignment of the samples of which any bytes are a value. -/
theorem C113_partial (T : Ty) (ssz sal : Nat) (ha : T.align = sal) (hv : T.AnyBytes) : BufferSafe T ssz sal := by
  rintro m b x ho hc rfl rfl hx r h
  unfold withBufferOf at h
  split at h
  · cases h
  · split at h
    · cases h
    · rename_i hz hd
      rw [not_not] at hd
      have hd := Nat.dvd_of_mod_eq_zero hd
      have he : b.len * b.esz / T.size * T.size = b.len * b.esz := Nat.div_mul_cancel hd
      have hall : ((List.range (b.len * b.esz / T.size)).map fun i => ((x.map some).drop (i * T.size)).take T.size).all T.valid
          = true := by
        rw [List.all_eq_true]
        intro v hv'
        obtain ⟨i, hi, rfl⟩ := List.mem_map.mp hv'
        rw [List.mem_range] at hi
        have : (i + 1) * T.size ≤ b.len * b.esz := by rw [← he]; exact Nat.mul_le_mul_right _ hi
        obtain ⟨y, hy, e⟩ := take_drop_bytes x i T.size (by rw [hx]; linarith)
        rw [e]; exact hv y hy
      have hb := C54_withBuffer m b T.size hc hd ho
      dsimp only at h
      rw [hall, if_pos rfl] at h
      cases h
      have hw : (withBuffer m b T.size).2 = ⟨b.ptr, b.len * b.esz / T.size, b.len * b.esz / T.size, T.size, T.align⟩ := by
        rw [ha]; rfl
      rw [hw] at hb
      refine ⟨_, _, rfl, access_owned hb.2.1, ?_⟩
      obtain ⟨m', e, _⟩ := drop_owned hb.2.1
      rw [e]; rfl

/-- C113: the types of the crate are such types. -/
theorem C113_builtin (k : Kind) (c : ChTy) :
    BufferSafe (builtinTy k c) (sampleBytes c) (sampleBytes c) ∧ (builtinTy k c).NoPadding := by
  refine ⟨C113_partial _ _ _ rfl ?_, ?_⟩
  · intro x _
    simp [builtinTy]
  · intro v _ h b hb e
    subst e
    have := List.all_eq_true.mp h none hb
    cases this

/-- A heap with one block. -/
def oneBlock (size align : Nat) : Mem := ⟨fun p => if p = 1 then some ⟨size, align⟩ else none, 2⟩

theorem one_frame (T : Ty) (ssz sal : Nat) (h0 : 0 < T.size) (hs : ssz ∣ T.size) (x : List (BitVec 8)) (hx : x.length = T.size) :
    Owns (oneBlock T.size sal) ⟨1, T.size / ssz, T.size / ssz, ssz, sal⟩ ∧
    withBufferOf T ⟨1, T.size / ssz, T.size / ssz, ssz, sal⟩ (x.map some) =
      .ok (if T.valid (x.map some) then some (⟨1, 1, 1, T.size, T.align⟩, [x.map some]) else none) := by
  have e : T.size / ssz * ssz = T.size := Nat.div_mul_cancel hs
  refine ⟨⟨le_rfl, .inr ?_⟩, ?_⟩
  · simp only [oneBlock, e, if_true]
  · unfold withBufferOf
    simp only [e, Nat.mod_self, Nat.div_self h0]
    rw [if_neg (by omega), if_neg (by simp)]
    have e2 : ((x.map some).take T.size) = x.map some := List.take_of_length_le (by rw [List.length_map, hx])
    simp [e2]

/-- C113: these are the only types (of a size that a whole number of samples has): if the alignment is another one, or if
some bytes are not a value, then there is a buffer of samples for which it is undefined behaviour. -/
theorem C113_iff (T : Ty) (ssz sal : Nat) (h0 : 0 < T.size) (hs : ssz ∣ T.size) :
    BufferSafe T ssz sal ↔ T.align = sal ∧ T.AnyBytes := by
  refine ⟨fun h => ⟨?_, ?_⟩, fun h => C113_partial T ssz sal h.1 h.2⟩
  · obtain ⟨o, e⟩ := one_frame T ssz sal h0 hs (List.replicate T.size 0) (List.length_replicate ..)
    obtain ⟨a, fs, e1, _, e2⟩ := h _ _ (List.replicate T.size 0) o rfl rfl rfl
      (by simp only [List.length_replicate]; exact (Nat.div_mul_cancel hs).symm) _ e
    split at e1
    · cases e1
      by_contra hne
      revert e2
      unfold Handle.drop dealloc
      simp only [Handle.layout, oneBlock, if_true, one_mul, Layout.mk.injEq, true_and]
      rw [if_neg (by omega), if_neg (fun h => hne h.symm)]
      simp [Except.toBool]
    · cases e1
  · intro x hx
    obtain ⟨o, e⟩ := one_frame T ssz sal h0 hs x hx
    obtain ⟨a, fs, e1, e2, _⟩ := h _ _ x o rfl rfl rfl (by rw [hx]; exact (Nat.div_mul_cancel hs).symm) _ e
    split at e1
    · assumption
    · cases e1

/-- A frame of four `Ch8` with the attribute `repr(align(4))`. -/
def quad : Ty := ⟨4, 4, fun v => v.all Option.isSome⟩
/-- A frame of a `Ch8` and a `bool`. -/
def muted : Ty := ⟨2, 1, fun v => match v with
  | [some _, some b] => b == 0 || b == 1
  | _ => false⟩
/-- A frame of a `Ch16` and a `u8` of the user's own: four bytes, the last one is padding. -/
def padded : Ty := ⟨4, 2, fun v => match v with
  | [some _, some _, some _, _] => true
  | _ => false⟩

/-- C113 is false: the audio is freed with another layout than it was allocated with; or a `bool` is made from a number. -/
theorem C113_false : ¬ BufferSafe quad 1 1 ∧ ¬ BufferSafe muted 1 1 := by
  constructor
  · intro h
    have := ((C113_iff quad 1 1 (by decide) (by decide)).mp h).1
    revert this; decide
  · intro h
    have := ((C113_iff muted 1 1 (by decide) (by decide)).mp h).2 [0, 2] rfl
    revert this; decide

example : BufferSafe (builtinTy .stereo .ch16) 2 2 := C113_partial _ 2 2 rfl (fun x _ => by simp [builtinTy])
example := C113_iff muted 1 1 (by decide) (by decide)
example : (withBufferOf quad (vecNew exHeap 4 4 1 1).2 [some 1, some 2, some 3, some 4]).map
    (fun r => r.map fun a => (a.1.drop (vecNew exHeap 4 4 1 1).1).toBool) = .ok (some false) := by decide +kernel

theorem mapM_id_isSome (l : List Byte) : (l.mapM id).isSome = true ↔ ∀ b ∈ l, b ≠ none := by
  induction l with
  | nil => simp
  | cons b l ih =>
    cases b with
    | none => simp
    | some b =>
      simp only [List.mapM_cons, id, List.mem_cons, forall_eq_or_imp, ne_eq, reduceCtorEq, not_false_eq_true, true_and]
      rw [← ih]
      cases l.mapM id <;> simp

/-- C113: seeing frames as samples is fine exactly for types without padding. -/
theorem C113_slice (T : Ty) :
    (∀ frames : List (List Byte), (∀ v ∈ frames, v.length = T.size ∧ T.valid v = true) → samplesOf frames ≠ none) ↔ T.NoPadding := by
  constructor
  · intro h v hv hv' b hb e
    refine h [v] (by simpa using ⟨hv, hv'⟩) ?_
    have := mapM_id_isSome v
    unfold samplesOf
    rw [List.flatten_singleton, ← Option.not_isSome_iff_eq_none, this]
    exact fun h => h b hb e
  · intro h frames hf
    unfold samplesOf
    rw [← Option.isSome_iff_ne_none, mapM_id_isSome]
    intro b hb
    obtain ⟨v, hv, hb⟩ := List.mem_flatten.mp hb
    exact h v (hf v hv).1 (hf v hv).2 b hb

example : ¬ padded.NoPadding := fun h => h [some 1, some 2, some 3, none] rfl rfl none (by simp) rfl
example := C113_builtin .surround .ch16
example : (withBufferOf (builtinTy .stereo .ch16) exBuf.2
    ((List.range 12).map fun i => some (BitVec.ofNat 8 i))).map (fun r => r.map fun a => (a.1.len, samplesOf a.2)) =
    .ok (some (3, some ((List.range 12).map (BitVec.ofNat 8)))) := by decide +kernel

end Fon.Heap
