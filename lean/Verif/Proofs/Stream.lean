import Verif.Spec.Stream
import Verif.Props.Ops

/-!
# Iterators of streams
-/

namespace Fon
variable {k k' : Kind} {c c' : ChTy}

/-- The iterator of a stream after it yielded `i` frames. -/
def Src.iterAt {k : Kind} {c : ChTy} : Src k c → Nat → It k c
  | .frame f, _ => .frame f
  | .audio a, i => .audio (a.frames.drop i)
  | .drain a, i => .drain a i
  | .user _ _ l g, i => .user l g i
  | .take s n, i => .take (s.iterAt i) (n - i)
  | .blend a b op, i => .blend (a.iterAt i) (b.iterAt i) op

theorem Src.iterAt_zero (s : Src k c) : s.iterAt 0 = s.iter := by
  induction s with
  | take s n ih => simp [iterAt, iter, ih]
  | blend a b op iha ihb => simp [iterAt, iter, iha, ihb]
  | _ => simp [iterAt, iter]

theorem drop_cons {α : Type} {l : List α} {i : Nat} {f : α} (h : l[i]? = some f) :
    l.drop i = f :: l.drop (i + 1) := by
  obtain ⟨h1, rfl⟩ := List.getElem?_eq_some_iff.mp h
  exact List.drop_eq_getElem_cons h1

theorem Src.nth_blend_some {a : Src k c} {b : Src k' c'} {op : Blend} {i : Nat} {f : Frame k c}
    (h : (Src.blend a b op).nth i = .ok (some f)) :
    ∃ x y z, a.nth i = .ok (some x) ∧ b.nth i = .ok (some y) ∧ y.convert c = .ok z ∧
      op.mixFrames x z = .ok f := by
  unfold nth at h
  obtain ⟨x, hx, h⟩ := R.bind_ok h
  cases x with
  | none => cases h
  | some x =>
    obtain ⟨y, hy, h⟩ := R.bind_ok h
    cases y with
    | none => cases h
    | some y =>
      obtain ⟨z, hz, h⟩ := R.bind_ok h
      obtain ⟨g, hg, h⟩ := R.bind_ok h
      cases h
      exact ⟨x, y, z, hx, hy, hz, hg⟩

theorem Src.nth_blend_none {a : Src k c} {b : Src k' c'} {op : Blend} {i : Nat}
    (h : (Src.blend a b op).nth i = .ok none) :
    a.nth i = .ok none ∨ (∃ x, a.nth i = .ok (some x)) ∧ b.nth i = .ok none := by
  unfold nth at h
  obtain ⟨x, hx, h⟩ := R.bind_ok h
  cases x with
  | none => exact .inl hx
  | some x =>
    obtain ⟨y, hy, h⟩ := R.bind_ok h
    cases y with
    | none => exact .inr ⟨⟨x, hx⟩, hy⟩
    | some y =>
      obtain ⟨z, hz, h⟩ := R.bind_ok h
      obtain ⟨g, hg, h⟩ := R.bind_ok h
      cases h

theorem Src.nth_blend_err {a : Src k c} {b : Src k' c'} {op : Blend} {i : Nat} {e : Panic}
    (h : (Src.blend a b op).nth i = .error e) :
    a.nth i = .error e ∨ ∃ x, a.nth i = .ok (some x) ∧ (b.nth i = .error e ∨ ∃ y, b.nth i = .ok (some y) ∧
      (y.convert c = (.error e : R (Frame k c)) ∨ ∃ z : Frame k c, y.convert c = .ok z ∧
        op.mixFrames x z = .error e)) := by
  unfold nth at h
  cases hx : a.nth i with
  | error e' => rw [hx] at h; cases h; exact .inl rfl
  | ok x =>
    rw [hx] at h
    cases x with
    | none => cases h
    | some x =>
      refine .inr ⟨x, rfl, ?_⟩
      cases hy : b.nth i with
      | error e' => simp only [bind, Except.bind, hy] at h; cases h; exact .inl rfl
      | ok y =>
        simp only [bind, Except.bind, hy] at h
        cases y with
        | none => cases h
        | some y =>
          refine .inr ⟨y, rfl, ?_⟩
          simp only at h
          cases hz : (y.convert c : R (Frame k c)) with
          | error e' => simp only [hz] at h; cases h; exact .inl rfl
          | ok z =>
            simp only [hz] at h
            refine .inr ⟨z, rfl, ?_⟩
            cases hm : op.mixFrames x z with
            | error e' => simp only [hm] at h; cases h; rfl
            | ok g => simp only [hm] at h; cases h

theorem Src.next_some (s : Src k c) (i : Nat) (f : Frame k c) (h : s.nth i = .ok (some f)) :
    (s.iterAt i).next = .ok (some f, s.iterAt (i + 1)) := by
  induction s generalizing i with
  | frame g => cases h; rfl
  | audio a =>
    have h : a.frames[i]? = some f := Except.ok.inj h
    simp only [iterAt, drop_cons h, It.next]
  | drain a =>
    have h : a.frames[i]? = some f := Except.ok.inj h
    simp only [iterAt, It.next, h]
  | user r fx l g =>
    cases l with
    | none => cases h; rfl
    | some n =>
      have h : (if i < n then some (g i) else none) = some f := Except.ok.inj h
      split at h
      · rename_i hi; cases h; simp only [iterAt, It.next, if_pos hi]
      · cases h
  | take s n ih =>
    unfold nth at h
    split at h
    · rename_i hi
      have := ih i f h
      obtain ⟨m, hm⟩ : ∃ m, n - i = m + 1 := ⟨n - i - 1, by omega⟩
      have hm' : n - (i + 1) = m := by omega
      simp only [iterAt, hm, It.next, this, hm']
    · cases h
  | blend a b op iha ihb =>
    obtain ⟨x, y, z, hx, hy, hz, hm⟩ := nth_blend_some h
    simp only [iterAt, It.next, iha i x hx, ihb i y hy, hz, hm]

theorem Src.next_none (s : Src k c) (i : Nat) (h : s.nth i = .ok none) :
    ∃ it, (s.iterAt i).next = .ok (none, it) := by
  induction s generalizing i with
  | frame g => cases h
  | audio a =>
    have h : a.frames[i]? = none := Except.ok.inj h
    rw [List.getElem?_eq_none_iff] at h
    simp only [iterAt, List.drop_eq_nil_of_le h, It.next]; exact ⟨_, rfl⟩
  | drain a =>
    have h : a.frames[i]? = none := Except.ok.inj h
    simp only [iterAt, It.next, h]; exact ⟨_, rfl⟩
  | user r fx l g =>
    cases l with
    | none => cases h
    | some n =>
      have h : (if i < n then some (g i) else none) = none := Except.ok.inj h
      split at h
      · cases h
      · rename_i hi; simp only [iterAt, It.next, if_neg hi]; exact ⟨_, rfl⟩
  | take s n ih =>
    unfold nth at h
    split at h
    · rename_i hi
      obtain ⟨it, this⟩ := ih i h
      obtain ⟨m, hm⟩ : ∃ m, n - i = m + 1 := ⟨n - i - 1, by omega⟩
      simp only [iterAt, hm, It.next, this]; exact ⟨_, rfl⟩
    · rename_i hi
      have hm : n - i = 0 := by omega
      simp only [iterAt, hm, It.next]; exact ⟨_, rfl⟩
  | blend a b op iha ihb =>
    rcases nth_blend_none h with hx | ⟨⟨x, hx⟩, hy⟩
    · obtain ⟨it, this⟩ := iha i hx
      simp only [iterAt, It.next, this]; exact ⟨_, rfl⟩
    · obtain ⟨it, this⟩ := ihb i hy
      simp only [iterAt, It.next, next_some a i x hx, this]; exact ⟨_, rfl⟩

theorem Src.next_err (s : Src k c) (i : Nat) (e : Panic) (h : s.nth i = .error e) :
    (s.iterAt i).next = .error e := by
  induction s generalizing i with
  | frame g => cases h
  | audio a => cases h
  | drain a => cases h
  | user r fx l g => cases l <;> cases h
  | take s n ih =>
    unfold nth at h
    split at h
    · rename_i hi
      obtain ⟨m, hm⟩ : ∃ m, n - i = m + 1 := ⟨n - i - 1, by omega⟩
      simp only [iterAt, hm, It.next, ih i h]
    · cases h
  | blend a b op iha ihb =>
    rcases nth_blend_err h with hx | ⟨x, hx, hy | ⟨y, hy, hz | ⟨z, hz, hm⟩⟩⟩
    · simp only [iterAt, It.next, iha i hx]
    · simp only [iterAt, It.next, next_some a i x hx, ihb i hy]
    · simp only [iterAt, It.next, next_some a i x hx, next_some b i y hy, hz]
    · simp only [iterAt, It.next, next_some a i x hx, next_some b i y hy, hz, hm]

/-- A frame past the end is never yielded, and `None` only comes at the end. -/
theorem Src.nth_len (s : Src k c) (i : Nat) (o : Option (Frame k c)) (h : s.nth i = .ok o) :
    (o = none ↔ ∃ n, s.len = some n ∧ n ≤ i) := by
  induction s generalizing i with
  | frame g => cases h; simp [len]
  | audio a =>
    have h : a.frames[i]? = o := Except.ok.inj h
    subst h; simp [len]
  | drain a =>
    have h : a.frames[i]? = o := Except.ok.inj h
    subst h; simp [len]
  | user r fx l g =>
    cases l with
    | none => cases h; simp [len]
    | some n =>
      have h : (if i < n then some (g i) else none) = o := Except.ok.inj h
      subst h; simp [len]
  | take s n ih =>
    unfold nth at h
    split at h
    · rename_i hi
      rw [ih i o h]
      cases hl : s.len with
      | none => simp [len, hl]; omega
      | some l => simp [len, hl]; omega
    · rename_i hi
      cases h
      cases hl : s.len with
      | none => simp [len, hl]; omega
      | some l => simp [len, hl]; omega
  | blend a b op iha ihb =>
    cases o with
    | none =>
      simp only [true_iff]
      rcases nth_blend_none h with hx | ⟨⟨x, hx⟩, hy⟩
      · obtain ⟨n, h1, h2⟩ := (iha i none hx).mp rfl
        cases hl : b.len with
        | none => simp [len, hl, h1, h2]
        | some l => simp [len, hl, h1, h2]
      · obtain ⟨n, h1, h2⟩ := (ihb i none hy).mp rfl
        cases hl : a.len with
        | none => simp [len, hl, h1, h2]
        | some l => simp [len, hl, h1, h2]
    | some f =>
      obtain ⟨x, y, z, hx, hy, -, -⟩ := nth_blend_some h
      have h1 := iha i (some x) hx
      have h2 := ihb i (some y) hy
      simp only [reduceCtorEq, false_iff] at h1 h2 ⊢
      rintro ⟨n, hn, hi⟩
      cases hl : a.len with
      | none => cases hl' : b.len with
        | none => simp [len, hl, hl'] at hn
        | some m =>
          simp [len, hl, hl'] at hn
          exact h2 ⟨m, hl', by omega⟩
      | some l => cases hl' : b.len with
        | none =>
          simp [len, hl, hl'] at hn
          exact h1 ⟨l, hl, by omega⟩
        | some m =>
          simp [len, hl, hl'] at hn
          rcases Nat.le_total l m with hlm | hlm
          · exact h1 ⟨l, hl, by omega⟩
          · exact h2 ⟨m, hl', by omega⟩

/-- What `run` returns, given the frames of the stream. -/
theorem Src.run_iff (s : Src k c) (n i : Nat) (fs : List (Frame k c)) (it : It k c)
    (h : (s.iterAt i).run n = .ok (fs, it)) :
    (∀ j (hj : j < fs.length), s.nth (i + j) = .ok (some fs[j])) ∧
    (fs.length = n ∨ fs.length < n ∧ s.nth (i + fs.length) = .ok none) := by
  induction n generalizing i fs with
  | zero => cases h; simp
  | succ n ih =>
    unfold It.run at h
    obtain ⟨⟨o, it1⟩, h1, h⟩ := R.bind_ok h
    cases hn : s.nth i with
    | error e => rw [next_err s i e hn] at h1; cases h1
    | ok o' =>
      cases o' with
      | none =>
        obtain ⟨it2, h2⟩ := next_none s i hn
        rw [h2] at h1; cases h1; cases h
        simp [hn]
      | some f =>
        rw [next_some s i f hn] at h1; cases h1
        obtain ⟨⟨gs, it3⟩, h3, h⟩ := R.bind_ok h
        cases h
        obtain ⟨e1, e2⟩ := ih (i + 1) gs h3
        constructor
        · intro j hj
          cases j with
          | zero => simpa using hn
          | succ j =>
            have := e1 j (by simpa using hj)
            rw [show i + (j + 1) = i + 1 + j by omega]; simpa using this
        · simp only [List.length_cons]
          rcases e2 with e2 | ⟨e2, e3⟩
          · left; omega
          · right; refine ⟨by omega, ?_⟩
            rw [show i + (gs.length + 1) = i + 1 + gs.length by omega]; exact e3

/-- Conversely: if the frames do not panic, `run` returns. -/
theorem Src.run_ok (s : Src k c) (n i : Nat) (h : ∀ j, j < n → ∃ o, s.nth (i + j) = .ok o) :
    ∃ fs it, (s.iterAt i).run n = .ok (fs, it) := by
  induction n generalizing i with
  | zero => exact ⟨_, _, rfl⟩
  | succ n ih =>
    obtain ⟨o, ho⟩ := h 0 (by omega)
    rw [Nat.add_zero] at ho
    cases o with
    | none =>
      obtain ⟨it, h2⟩ := next_none s i ho
      exact ⟨[], it, by simp [It.run, h2, bind, Except.bind, pure, Except.pure]⟩
    | some f =>
      obtain ⟨fs, it, h3⟩ := ih (i + 1) (fun j hj => by
        rw [show i + 1 + j = i + (j + 1) by omega]; exact h (j + 1) (by omega))
      exact ⟨f :: fs, it, by simp [It.run, next_some s i f ho, h3, bind, Except.bind, pure, Except.pure]⟩

end Fon
