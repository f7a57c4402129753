import Verif.Spec.Stream
import Verif.Spec.Heap
import Mathlib.Tactic.Linarith
import Mathlib.Tactic.Ring

/-!
# Memory ownership
-/

namespace Fon.Heap

/-! ## What owning means -/

theorem drop_owned {m : Mem} {h : Handle} (ho : Owns m h) :
    ∃ m', h.drop m = .ok m' ∧ m'.fresh = m.fresh ∧
      (∀ p, m'.live p = if p = h.ptr ∧ h.cap * h.esz ≠ 0 then none else m.live p) := by
  unfold Handle.drop dealloc Handle.layout
  rcases ho.2 with h0 | h0
  · exact ⟨m, by simp [h0], rfl, fun p => by rw [if_neg (fun h => h.2 h0)]⟩
  · by_cases hz : h.cap * h.esz = 0
    · exact ⟨m, by simp [hz], rfl, fun p => by rw [if_neg (fun h => h.2 hz)]⟩
    · refine ⟨{ m with live := fun q => if q = h.ptr then none else m.live q }, by rw [if_neg hz, h0]; simp only [if_true],
        rfl, fun p => by simp [hz]⟩

theorem access_owned {m : Mem} {h : Handle} (ho : Owns m h) : h.access m = .ok () := by
  unfold Handle.access
  by_cases hz : h.len * h.esz = 0
  · rw [if_pos hz]
  · rw [if_neg hz]
    have hc : h.len * h.esz ≤ h.cap * h.esz := Nat.mul_le_mul_right _ ho.1
    rcases ho.2 with h0 | h0
    · omega
    · rw [h0]; simp [hc]

theorem owns_after_drop {m m' : Mem} {g h : Handle} (hg : Owns m g) (hh : Owns m h) (ha : Apart g h)
    (hd : g.drop m = .ok m') : Owns m' h := by
  obtain ⟨m'', e, _, hl⟩ := drop_owned hg
  rw [hd] at e
  cases e
  refine ⟨hh.1, ?_⟩
  rcases hh.2 with h0 | h0
  · exact .inl h0
  · by_cases hz : h.cap * h.esz = 0
    · exact .inl hz
    · right
      rw [hl, if_neg, h0]
      rintro ⟨h1, h2⟩
      rcases ha with h3 | h3 | h3
      · exact h2 h3
      · exact hz h3
      · exact h3 h1.symm

/-- C54: `Owns` is what the allocator and the borrow rules ask for.  A handle with room for its elements can be dropped
exactly if it owns its block (a live block of exactly the size and alignment that the handle frees); elements can be
reached exactly if a live block is long enough for them; and nothing with a block can be dropped twice. -/
theorem C54_owns (m : Mem) (h : Handle) :
    (Owns m h ↔ h.len ≤ h.cap ∧ ∃ m', h.drop m = .ok m') ∧
    (h.access m = .ok () ↔ h.len * h.esz = 0 ∨ ∃ l, m.live h.ptr = some l ∧ h.len * h.esz ≤ l.size) ∧
    (∀ m', h.drop m = .ok m' → h.cap * h.esz ≠ 0 → h.drop m' = .error .notLive) := by
  refine ⟨⟨fun ho => ⟨ho.1, let ⟨m', e, _⟩ := drop_owned ho; ⟨m', e⟩⟩, fun ⟨h1, m', e⟩ => ⟨h1, ?_⟩⟩, ?_, ?_⟩
  · unfold Handle.drop dealloc Handle.layout at e
    by_cases hz : h.cap * h.esz = 0
    · exact .inl hz
    · right
      simp only [hz, if_false] at e
      split at e
      · cases e
      · rename_i l' hl
        split at e
        · rename_i he; rw [hl, he]
        · cases e
  · unfold Handle.access
    by_cases hz : h.len * h.esz = 0
    · simp [hz]
    · simp only [hz, if_false, false_or]
      cases hl : m.live h.ptr with
      | none => simp
      | some l =>
        by_cases hs : h.len * h.esz ≤ l.size <;> simp [hs]
  · intro m' e hz
    unfold Handle.drop dealloc Handle.layout at e ⊢
    simp only [hz, if_false] at e ⊢
    split at e
    · cases e
    · split at e
      · cases e; simp
      · cases e

/-- Handles that own different blocks can be dropped in any order, and after that none of the blocks is live. -/
theorem dropAll_owned (m : Mem) (hs : List Handle) (ho : ∀ h ∈ hs, Owns m h) (ha : hs.Pairwise Apart) :
    ∃ m', dropAll m hs = .ok m' ∧ (∀ h ∈ hs, h.cap * h.esz ≠ 0 → m'.live h.ptr = none) ∧
      (∀ p, (∀ h ∈ hs, h.cap * h.esz ≠ 0 → h.ptr ≠ p) → m'.live p = m.live p) := by
  induction hs generalizing m with
  | nil => exact ⟨m, rfl, by simp, fun _ _ => rfl⟩
  | cons h hs ih =>
    obtain ⟨m1, e1, _, hl⟩ := drop_owned (ho h (by simp))
    rw [List.pairwise_cons] at ha
    obtain ⟨m2, e2, h3, h4⟩ := ih m1 (fun g hg => owns_after_drop (ho h (by simp)) (ho g (by simp [hg])) (ha.1 g hg) e1)
      ha.2
    refine ⟨m2, by simp only [dropAll, e1, e2], ?_, ?_⟩
    · intro g hg hz
      rcases List.mem_cons.mp hg with rfl | hg
      · by_cases hex : ∃ x ∈ hs, x.cap * x.esz ≠ 0 ∧ x.ptr = g.ptr
        · obtain ⟨x, hx, hxz, hxp⟩ := hex
          rw [← hxp]; exact h3 x hx hxz
        · rw [h4 g.ptr (fun x hx hxz hxp => hex ⟨x, hx, hxz, hxp⟩), hl, if_pos ⟨rfl, hz⟩]
      · exact h3 g hg hz
    · intro p hp
      rw [h4 p (fun x hx => hp x (by simp [hx])), hl, if_neg]
      rintro ⟨h1, h2⟩
      exact hp h (by simp) h2 h1.symm

/-! ## C54 -/

/-- An empty heap. -/
def exHeap : Mem := ⟨fun _ => none, 1⟩
/-- A buffer of six samples of two bytes. -/
def exBuf : Mem × Handle := vecNew exHeap 6 6 2 2
/-- A `Vec` of two frames of four bytes with room for three. -/
def exVec : Mem × Handle := vecNew exHeap 2 3 4 2

/-- C54: a new buffer owns its block, which is apart from all others. -/
theorem C54_new (m : Mem) (hm : m.Ok) (len cap esz eal : Nat) (hc : len ≤ cap) :
    (vecNew m len cap esz eal).1.Ok ∧ Owns (vecNew m len cap esz eal).1 (vecNew m len cap esz eal).2 ∧
    ∀ h, Owns m h → Owns (vecNew m len cap esz eal).1 h ∧ Apart h (vecNew m len cap esz eal).2 := by
  unfold vecNew alloc
  by_cases hz : cap * esz = 0
  · simp only [hz, if_true]
    exact ⟨hm, ⟨hc, .inl hz⟩, fun h hh => ⟨hh, .inr (.inl hz)⟩⟩
  · simp only [hz, if_false]
    refine ⟨fun p hp => ?_, ⟨hc, .inr (by simp)⟩, fun h hh => ⟨⟨hh.1, ?_⟩, ?_⟩⟩
    · simp only at hp ⊢
      rw [if_neg (by omega)]; exact hm p (by omega)
    · rcases hh.2 with h0 | h0
      · exact .inl h0
      · right
        simp only
        rw [if_neg, h0]
        intro he
        rw [hm h.ptr (by omega)] at h0; cases h0
    · rcases hh.2 with h0 | h0
      · exact .inl h0
      · refine .inr (.inr ?_)
        intro he
        rw [hm h.ptr (by simp only at he; omega)] at h0; cases h0

example := C54_new exHeap (fun _ _ => rfl) 2 3 4 2 (by decide)

/-- C54: `with_*_buffer` takes over the memory: the frames own exactly the block that the samples owned.  Nothing is
allocated or freed. -/
theorem C54_withBuffer (m : Mem) (b : Handle) (fsz : Nat) (hb : b.cap = b.len) (hf : fsz ∣ b.len * b.esz)
    (ho : Owns m b) :
    (withBuffer m b fsz).1 = m ∧ Owns m (withBuffer m b fsz).2 ∧
    (withBuffer m b fsz).2.layout = b.layout ∧ (withBuffer m b fsz).2.ptr = b.ptr ∧
    ∀ h, Apart h b → Apart h (withBuffer m b fsz).2 := by
  have e : b.len * b.esz / fsz * fsz = b.len * b.esz := Nat.div_mul_cancel hf
  refine ⟨rfl, ⟨le_rfl, ?_⟩, ?_, rfl, ?_⟩
  · simp only [withBuffer, e]
    rw [← hb]; exact ho.2
  · simp only [withBuffer, Handle.layout, e, hb]
  · rintro h (h1 | h1 | h1)
    · exact .inl h1
    · right; left; simp only [withBuffer, e]; rwa [← hb]
    · exact .inr (.inr h1)

example := C54_withBuffer exBuf.1 exBuf.2 4 rfl (by decide) ⟨by decide, .inr (by decide)⟩

/-- C54: conversion to `Vec<F>` and `Box<[F]>` transfers ownership. -/
theorem C54_frames (m : Mem) (hm : m.Ok) (a : Handle) (ho : Owns m a) :
    toVec m a = (m, a) ∧ ∃ m' b, toBoxFrames m a = .ok (m', b) ∧ m'.Ok ∧ Owns m' b ∧ b.len = a.len ∧ b.cap = a.len ∧
      ∀ h, Owns m h → Apart a h → Owns m' h ∧ Apart h b := by
  refine ⟨rfl, ?_⟩
  unfold toBoxFrames vecToBox
  by_cases hc : a.cap = a.len
  · rw [if_pos hc]
    refine ⟨m, a, rfl, hm, ho, rfl, hc, fun h hh ha => ⟨hh, ?_⟩⟩
    rcases ha with h1 | h1 | h1
    · exact .inr (.inl h1)
    · exact .inl h1
    · exact .inr (.inr (Ne.symm h1))
  · rw [if_neg hc]
    obtain ⟨m1, e1, e2, hl⟩ := drop_owned ho
    have hm1 : m1.Ok := by
      intro p hp
      rw [hl]
      split
      · rfl
      · exact hm p (by omega)
    have hd : dealloc m a.ptr a.layout = .ok m1 := e1
    rw [hd]
    obtain ⟨n1, n2, n3⟩ := C54_new m1 hm1 a.len a.len a.esz a.eal le_rfl
    refine ⟨(vecNew m1 a.len a.len a.esz a.eal).1, (vecNew m1 a.len a.len a.esz a.eal).2, rfl, n1, n2, rfl, rfl,
      fun h hh ha => n3 h (owns_after_drop ho hh ha e1)⟩

example := C54_frames exVec.1 (C54_new exHeap (fun _ _ => rfl) 2 3 4 2 (by decide)).1 exVec.2 ⟨by decide, .inr (by decide)⟩

/-- C54 is false for conversion to a boxed slice of samples: for every audio that is not empty the returned box does
not own its memory, which is freed already.  Reading it is use after free, dropping it is a double free. -/
theorem C54_false (m : Mem) (a : Handle) (ssz : Nat) (ho : Owns m a) (h0 : 0 < a.len * a.esz)
    (hs : ssz ∣ a.len * a.esz) :
    ∃ m' b, toBoxSamples m a ssz = .ok (m', b) ∧ b.ptr = a.ptr ∧ b.len * b.esz = a.len * a.esz ∧ ¬ Owns m' b ∧
      b.access m' = .error .notLive ∧ b.drop m' = .error .notLive := by
  obtain ⟨m1, e1, e2, hl⟩ := drop_owned ho
  have e : a.len * a.esz / ssz * ssz = a.len * a.esz := Nat.div_mul_cancel hs
  have hc : a.len * a.esz ≤ a.cap * a.esz := Nat.mul_le_mul_right _ ho.1
  have hnone : m1.live a.ptr = none := by rw [hl, if_pos ⟨rfl, by omega⟩]
  refine ⟨m1, ⟨a.ptr, a.len * a.esz / ssz, a.len * a.esz / ssz, ssz, a.eal⟩, by simp only [toBoxSamples, e1], rfl, e, ?_, ?_, ?_⟩
  · rintro ⟨_, h | h⟩
    · simp only [e] at h; omega
    · simp only [hnone] at h; cases h
  · unfold Handle.access
    simp only [e, hnone]
    rw [if_neg (by omega)]
  · unfold Handle.drop dealloc Handle.layout
    simp only [e, hnone]
    rw [if_neg (by omega)]

example : Owns exVec.1 exVec.2 ∧ (∃ m', exVec.2.drop exVec.1 = .ok m') ∧
    ¬ Owns exVec.1 { exVec.2 with cap := exVec.2.cap + 1 } ∧ ¬ Owns exVec.1 { exVec.2 with eal := 8 } := by
  have h : Owns exVec.1 exVec.2 := ⟨by decide, .inr (by decide)⟩
  exact ⟨h, ((C54_owns _ _).1.mp h).2, fun h => by rcases h.2 with h | h <;> revert h <;> decide,
    fun h => by rcases h.2 with h | h <;> revert h <;> decide⟩

example := C54_false exVec.1 exVec.2 2 ⟨by decide, .inr (by decide)⟩ (by decide) (by decide)

/-- C54: only the empty audio is converted without harm. -/
theorem C54_partial (m : Mem) (a : Handle) (ssz : Nat) (ho : Owns m a) (h0 : a.len * a.esz = 0) :
    ∃ m' b, toBoxSamples m a ssz = .ok (m', b) ∧ Owns m' b := by
  obtain ⟨m1, e1, e2, hl⟩ := drop_owned ho
  refine ⟨m1, ⟨a.ptr, a.len * a.esz / ssz, a.len * a.esz / ssz, ssz, a.eal⟩, by simp only [toBoxSamples, e1], le_rfl, .inl ?_⟩
  simp [h0]

example := C54_partial exHeap (vecNew exHeap 0 0 4 2).2 2 ⟨by decide, .inl (by decide)⟩ (by decide)

/-- Two stereo `i16` frames: built from samples, then turned into samples again. -/
example : let m : Mem := ⟨fun _ => none, 1⟩
    let (m, b) := vecNew m 4 4 2 2
    let (m, a) := withBuffer m b 4
    m.live a.ptr = some ⟨8, 2⟩ ∧ (a.len, a.cap) = (2, 2) ∧ a.access m = .ok () ∧
    (toBoxSamples m a 2).bind (fun r => r.2.access r.1) = .error .notLive := by decide +kernel

/-! ## Sizes in bytes -/

theorem size_bytes (c : ChTy) : c.size = sampleBytes c := by
  cases c <;> rfl

/-- C54: the sizes that the conversions use, for audio made from `n` samples of one of the four types.  The frames have
as many elements as the audio of `Audio.withBuffer`, they own the whole block, and the conversion back counts `n` samples
of 1, 2, 4 or 8 bytes again. -/
theorem C54_bytes (m : Mem) (k : Kind) (c : ChTy) (rate : F64) (xs : List c.T) (a : Audio k c)
    (h : Audio.withBuffer k c rate xs = .ok a) (b : Handle) (hl : b.len = xs.length) (hc : b.cap = xs.length)
    (hz : b.esz = sampleBytes c) (ho : Owns m b) :
    (withBuffer m b (k.size c)).2.len = a.frames.length ∧ (withBuffer m b (k.size c)).2.esz = k.chans * b.esz ∧
    Owns m (withBuffer m b (k.size c)).2 ∧ (withBuffer m b (k.size c)).2.layout = b.layout ∧
    ∀ m' b', toBoxSamples m (withBuffer m b (k.size c)).2 b.esz = .ok (m', b') →
      b'.len = xs.length ∧ b'.cap = xs.length ∧ b'.layout = b.layout := by
  have hsz : b.esz = c.size := by rw [size_bytes]; exact hz
  have h0 : 0 < b.esz := by rw [hz]; cases c <;> decide
  have hks : k.size c = k.chans * b.esz := by rw [hsz]; rfl
  have hd : k.size c ∣ b.len * b.esz := by
    unfold Audio.withBuffer at h
    rw [hl, hsz]
    by_cases h1 : xs.length * c.size % k.size c = 0
    · exact Nat.dvd_of_mod_eq_zero h1
    · simp only [ne_eq, h1, not_false_eq_true, if_true] at h
      split at h <;> cases h
  have hlen : a.frames.length = b.len * b.esz / k.size c := by
    unfold Audio.withBuffer at h
    simp only at h
    split at h
    · cases h
    · split at h
      · cases h
      · cases h; simp [Audio.chunk, hl, hsz]
  obtain ⟨_, o2, o3, _⟩ := C54_withBuffer m b (k.size c) (by rw [hc, hl]) hd ho
  refine ⟨hlen.symm, hks, o2, o3, ?_⟩
  intro m' b' e
  unfold toBoxSamples at e
  simp only at e
  split at e
  · cases e
  · cases e
    have e1 : b.len * b.esz / k.size c * k.size c = b.len * b.esz := Nat.div_mul_cancel hd
    have e2 : (withBuffer m b (k.size c)).2.len * (withBuffer m b (k.size c)).2.esz = b.len * b.esz := e1
    refine ⟨?_, ?_, ?_⟩
    · simp only [e2, Nat.mul_div_cancel _ h0, hl]
    · simp only [e2, Nat.mul_div_cancel _ h0, hl]
    · simp only [Handle.layout, e2, Nat.mul_div_cancel _ h0]
      rw [hl, hc]; rfl

example := C54_bytes exBuf.1 .stereo .ch16 (Fl.lit 8) [1#16, 2#16, 3#16, 4#16, 5#16, 6#16] _
  (R.returns (x := Audio.withBuffer .stereo .ch16 (Fl.lit 8) [1#16, 2#16, 3#16, 4#16, 5#16, 6#16]) (by decide +kernel))
  exBuf.2 rfl rfl rfl ⟨by decide, .inr (by decide)⟩

example : let m : Mem := ⟨fun _ => none, 1⟩
    let (m, b) := vecNew m 6 6 2 2
    (Audio.withBuffer .stereo .ch16 (Fl.lit 8) [1#16, 2#16, 3#16, 4#16, 5#16, 6#16]).map (·.frames.length) = .ok 3 ∧
    (withBuffer m b (Kind.stereo.size .ch16)).2.len = 3 ∧ (withBuffer m b (Kind.stereo.size .ch16)).2.esz = 4 ∧
    (toBoxSamples m (withBuffer m b (Kind.stereo.size .ch16)).2 2).map (·.2.len) = .ok 6 := by decide +kernel

/-- C51: audio of more than `isize::MAX` bytes.  `extend` panics, and what was in the audio is gone. -/
theorem C51_memory {k k' : Kind} {c c' : ChTy} (a : Audio k c) (st : Src k' c') (l : Nat) (hl : st.len = some l)
    (hb : 2 ^ 63 - 1 < (a.frames.length + Audio.dstLen a.rate l st.rate) *
      (k.chans * sampleBytes c)) :
    (a.extend st).1 = ⟨Fl.lit 0, []⟩ ∧ ∃ e, (a.extend st).2 = .error e := by
  have key : ∃ e, a.extendInternal st = .error e := by
    unfold Audio.extendInternal
    rw [hl]
    dsimp only
    split
    · exact ⟨_, rfl⟩
    · rw [if_pos]
      · exact ⟨_, rfl⟩
      · unfold Kind.size Audio.isizeMax
        rw [size_bytes]; exact hb
  obtain ⟨e, he⟩ := key
  unfold Audio.extend
  rw [he]
  exact ⟨rfl, e, rfl⟩

example := C51_memory (⟨Fl.lit (2 ^ 60), []⟩ : Audio .mono .ch64) (.audio ⟨Fl.lit 1, [#v[1#8]]⟩ : Src .mono .ch8) 1 rfl
  (by decide +kernel)

/-- `2 ^ 60` samples of 8 bytes. -/
example : ((⟨Fl.lit (2 ^ 60), []⟩ : Audio .mono .ch64).extend (.audio ⟨Fl.lit 1, [#v[1#8]]⟩ : Src .mono .ch8)).2.isOk = false ∧
    Audio.dstLen (Fl.lit (2 ^ 60)) 1 (some (Fl.lit 1)) = 2 ^ 60 := by decide +kernel

end Fon.Heap
