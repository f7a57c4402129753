import Verif.Model.Rust

/-!
# Vectors and panicking maps
-/

namespace Fon

theorem R.bind_ok {α β : Type} {x : R α} {g : α → R β} {b : β} (h : (x >>= g) = .ok b) :
    ∃ a, x = .ok a ∧ g a = .ok b := by
  cases x with
  | error e => cases h
  | ok a => exact ⟨a, rfl, h⟩

theorem lmapM_cons_ok {α β : Type} (f : α → R β) (x : α) (l : List α) {y : β} {m : List β}
    (h1 : f x = .ok y) (h2 : l.mapM f = .ok m) : (x :: l).mapM f = .ok (y :: m) := by
  rw [List.mapM_cons, h1, h2]; rfl

theorem lmapM_ok_iff {α β : Type} (f : α → R β) (l : List α) (m : List β) :
    l.mapM f = .ok m ↔ List.Forall₂ (fun x y => f x = .ok y) l m := by
  induction l generalizing m with
  | nil =>
    rw [List.mapM_nil]
    constructor
    · intro h; cases h; exact .nil
    · intro h; cases h; rfl
  | cons x l ih =>
    rw [List.mapM_cons]
    constructor
    · intro h
      obtain ⟨y, h1, h⟩ := R.bind_ok h
      obtain ⟨ys, h2, h⟩ := R.bind_ok h
      cases h
      exact .cons h1 ((ih _).mp h2)
    · intro h
      cases h with
      | cons h1 h2 => rw [h1, (ih _).mpr h2]; rfl

theorem lmapM_err_iff {α β : Type} (f : α → R β) (l : List α) :
    (∃ e, l.mapM f = .error e) ↔ ∃ x ∈ l, ∃ e, f x = .error e := by
  induction l with
  | nil => simp [List.mapM_nil, pure, Except.pure]
  | cons x l ih =>
    rw [List.mapM_cons]
    cases hx : f x with
    | error e => simp [bind, Except.bind, hx]
    | ok y =>
      cases hl : l.mapM f with
      | error e =>
        rw [hl] at ih
        simp only [bind, Except.bind, Except.error.injEq, exists_eq', true_iff] at ih ⊢
        obtain ⟨z, h1, h2⟩ := ih
        exact ⟨z, List.mem_cons_of_mem _ h1, h2⟩
      | ok ys =>
        rw [hl] at ih
        simp only [bind, Except.bind, reduceCtorEq, exists_false, false_iff, pure, Except.pure] at ih ⊢
        rintro ⟨z, h1, e, h2⟩
        rcases List.mem_cons.mp h1 with rfl | h1
        · rw [hx] at h2; cases h2
        · exact ih ⟨z, h1, e, h2⟩

theorem vmapM_toList {α β : Type} {n : Nat} (v : Vector α n) (f : α → R β) :
    (fun w => w.toList) <$> v.mapM f = v.toList.mapM f := by
  have h := Vector.toArray_mapM (m := Except Panic) (f := f) (xs := v)
  have h2 := Array.toList_mapM (m := Except Panic) (f := f) (xs := v.toArray)
  rw [← h] at h2
  rw [show v.toList = v.toArray.toList from rfl, ← h2]
  cases v.mapM f <;> rfl

theorem vmapM_ok_iff {α β : Type} {n : Nat} (v : Vector α n) (f : α → R β) (w : Vector β n) :
    v.mapM f = .ok w ↔ ∀ i (h : i < n), f v[i] = .ok w[i] := by
  have h1 : v.mapM f = .ok w ↔ v.toList.mapM f = .ok w.toList := by
    rw [← vmapM_toList]
    cases v.mapM f with
    | error e => simp [Functor.map, Except.map]
    | ok x =>
      simp only [Functor.map, Except.map, Except.ok.injEq]
      exact ⟨fun h => by rw [h], fun h => Vector.toList_inj.mp h⟩
  rw [h1, lmapM_ok_iff, List.forall₂_iff_get]
  simp only [Vector.length_toList, List.get_eq_getElem, Vector.getElem_toList, true_and]
  exact ⟨fun h i hi => h i hi hi, fun h i hi _ => h i hi⟩

theorem vmapM_err_iff {α β : Type} {n : Nat} (v : Vector α n) (f : α → R β) :
    (∃ e, v.mapM f = .error e) ↔ ∃ i, ∃ h : i < n, ∃ e, f v[i] = .error e := by
  have h1 : (∃ e, v.mapM f = .error e) ↔ ∃ e, v.toList.mapM f = .error e := by
    rw [← vmapM_toList]
    cases v.mapM f <;> simp [Functor.map, Except.map]
  rw [h1, lmapM_err_iff]
  constructor
  · rintro ⟨x, hx, e, he⟩
    obtain ⟨i, hi, rfl⟩ := List.getElem_of_mem hx
    rw [Vector.length_toList] at hi
    exact ⟨i, hi, e, by simpa using he⟩
  · rintro ⟨i, hi, e, he⟩
    exact ⟨v[i], by rw [Vector.mem_toList_iff]; exact Vector.getElem_mem hi, e, he⟩

end Fon
