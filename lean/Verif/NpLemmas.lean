import Verif.Np
import Mathlib.Data.List.Range
import Mathlib.Data.Option.Basic

/-! Helper lemmas about the numpy primitives. -/

namespace Hyp

variable {α : Type _}

theorem mapM_eq_some_map {β : Type _} {f : α → Option β} {g : α → β} {l : List α}
    (h : ∀ x ∈ l, f x = some (g x)) : l.mapM f = some (l.map g) := by
  induction l with
  | nil => rfl
  | cons x xs ih =>
    have h1 := h x (by simp)
    have h2 := ih (fun y hy => h y (by simp [hy]))
    simp [List.mapM_cons, h1, h2]

theorem mapM_eq_none_iff {β : Type _} {f : α → Option β} {l : List α} :
    l.mapM f = none ↔ ∃ x ∈ l, f x = none := by
  induction l with
  | nil => simp
  | cons x xs ih =>
    rw [List.mapM_cons]
    cases hx : f x with
    | none => simp [hx]
    | some y =>
      cases hxs : xs.mapM f with
      | none => simpa [hx] using ih.1 hxs
      | some ys =>
        have : ¬ (∃ x ∈ xs, f x = none) := fun hh => by rw [ih.2 hh] at hxs; cases hxs
        simp [hx]
        simpa using this

theorem mapM_eq_some_iff {β : Type _} {f : α → Option β} {l : List α} {r : List β} :
    l.mapM f = some r ↔ l.map f = r.map some := by
  induction l generalizing r with
  | nil => cases r <;> simp
  | cons x xs ih =>
    rw [List.mapM_cons]
    cases hx : f x with
    | none => cases r <;> simp [hx]
    | some y =>
      cases hxs : xs.mapM f with
      | none =>
        cases r with
        | nil => simp
        | cons z zs =>
          simp only [List.map_cons, hx, List.cons.injEq]
          constructor
          · intro hh; simp at hh
          · rintro ⟨_, h2⟩
            rw [← ih, hxs] at h2; simp at h2
      | some ys =>
        have h3 := (ih (r := ys)).1 hxs
        cases r with
        | nil => simp
        | cons z zs =>
          have h4 : xs.map f = zs.map some ↔ ys = zs := by
            rw [h3]; constructor
            · intro h5; exact List.map_injective_iff.2 (Option.some_injective _) h5
            · intro h5; rw [h5]
          simp [hx, h4]

theorem gather_eq_some {l : List α} {idx : List Nat} (h : ∀ i ∈ idx, i < l.length) :
    ∃ r, gather l idx = some r ∧ r.length = idx.length ∧ ∀ k : Nat, r[k]? = idx[k]?.bind (fun i => l[i]?) := by
  cases hg : gather l idx with
  | none =>
    obtain ⟨i, hi, hn⟩ := mapM_eq_none_iff.1 hg
    have := h i hi
    simp at hn; omega
  | some r =>
    have h2 := mapM_eq_some_iff.1 hg
    refine ⟨r, rfl, ?_, ?_⟩
    · have := congrArg List.length h2; simpa using this.symm
    · intro k
      have := congrArg (fun z => z[k]?) h2
      simp only [List.getElem?_map] at this
      cases hk : idx[k]? with
      | none =>
        rw [hk] at this; simp at this
        simpa using this
      | some i =>
        rw [hk] at this
        cases hr : r[k]? with
        | none => rw [hr] at this; simp at this
        | some y => rw [hr] at this; simpa using this.symm

theorem gather_eq_map [Inhabited α] {l : List α} {idx : List Nat} (h : ∀ i ∈ idx, i < l.length) :
    gather l idx = some (idx.map (fun i => l.getD i default)) := by
  apply mapM_eq_some_map
  intro i hi
  have := h i hi
  simp [this]

theorem gather_length {l : List α} {idx : List Nat} {r : List α} (h : gather l idx = some r) :
    r.length = idx.length := by
  have := congrArg List.length (mapM_eq_some_iff.1 h); simpa using this.symm

theorem gather_append {l : List α} {i j : List Nat} :
    gather l (i ++ j) = (gather l i).bind (fun a => (gather l j).map (fun b => a ++ b)) := by
  unfold gather
  rw [List.mapM_append]
  cases List.mapM (fun i => l[i]?) i <;> simp
  cases List.mapM (fun i => l[i]?) j <;> simp

theorem gather_range' (l : List α) (a k : Nat) (h : a + k ≤ l.length) :
    gather l (List.range' a k) = some ((l.drop a).take k) := by
  induction k generalizing a with
  | zero => simp [gather]
  | succ k ih =>
    have h1 : a < l.length := by omega
    have h2 := ih (a + 1) (by omega)
    unfold gather at *
    rw [List.range'_succ, List.mapM_cons, h2]
    rw [List.drop_eq_getElem_cons h1, List.take_succ_cons]
    simp [h1]

theorem gather_range (l : List α) : gather l (List.range l.length) = some l := by
  rw [List.range_eq_range', gather_range' l 0 l.length (by omega)]; simp

theorem gather_mem {l : List α} {idx : List Nat} {r : List α} (h : gather l idx = some r) {x : α} :
    x ∈ r ↔ ∃ i ∈ idx, l[i]? = some x := by
  have h2 := mapM_eq_some_iff.1 h
  constructor
  · intro hx
    have : some x ∈ r.map some := by simpa using hx
    rw [← h2] at this
    simpa using this
  · rintro ⟨i, hi, hx⟩
    have : some x ∈ idx.map (fun i => l[i]?) := by
      rw [List.mem_map]; exact ⟨i, hi, hx⟩
    rw [h2] at this; simpa using this

theorem gather_perm {l : List α} {idx : List Nat} {r : List α} (hp : idx.Perm (List.range l.length))
    (h : gather l idx = some r) : r.Perm l := by
  have h2 := mapM_eq_some_iff.1 h
  have h3 := mapM_eq_some_iff.1 (gather_range l)
  have h4 := hp.map (fun i => l[i]?)
  rw [h2, h3] at h4
  exact (List.map_perm_map_iff (Option.some_injective _)).1 h4

theorem gather_map {β : Type _} (f : α → β) (l : List α) (idx : List Nat) :
    gather (l.map f) idx = (gather l idx).map (List.map f) := by
  induction idx with
  | nil => simp [gather]
  | cons i is ih =>
    unfold gather at *
    rw [List.mapM_cons, List.mapM_cons, ih]
    cases h : l[i]? <;> simp [h]
    cases List.mapM (fun i => l[i]?) is <;> simp

theorem mem_nonzero {m : List Bool} {i : Nat} : i ∈ nonzero m ↔ m[i]? = some true := by
  unfold nonzero
  rw [List.mem_filter, List.mem_range]
  constructor
  · rintro ⟨h1, h2⟩; simp [h1] at h2 ⊢; exact h2
  · intro h
    obtain ⟨h1, h2⟩ := List.getElem?_eq_some_iff.1 h
    simp [h1, h2]

theorem nonzero_lt {m : List Bool} {i : Nat} (h : i ∈ nonzero m) : i < m.length := by
  obtain ⟨h1, h2⟩ := List.getElem?_eq_some_iff.1 (mem_nonzero.1 h); exact h1

theorem nonzero_sorted (m : List Bool) : (nonzero m).Pairwise (· < ·) :=
  List.Pairwise.filter _ List.pairwise_lt_range

theorem nonzero_nodup (m : List Bool) : (nonzero m).Nodup :=
  List.Nodup.filter _ List.nodup_range

section order
variable [LinearOrder α]

theorem mem_insU {x y : α} {l : List α} : y ∈ insU x l ↔ y = x ∨ y ∈ l := by
  induction l with
  | nil => simp [insU]
  | cons z zs ih =>
    unfold insU
    split
    · simp
    · split
      · next h => subst h; simp
      · simp [ih]; tauto

theorem insU_sorted {x : α} {l : List α} (h : l.Pairwise (· < ·)) : (insU x l).Pairwise (· < ·) := by
  induction l with
  | nil => simp [insU]
  | cons z zs ih =>
    rw [List.pairwise_cons] at h
    unfold insU
    split
    · next hx =>
      rw [List.pairwise_cons, List.pairwise_cons]
      refine ⟨?_, h⟩
      intro a ha
      rcases List.mem_cons.1 ha with rfl | ha
      · exact hx
      · exact lt_trans hx (h.1 a ha)
    · split
      · exact List.pairwise_cons.2 h
      · next h1 h2 =>
        rw [List.pairwise_cons]
        refine ⟨?_, ih h.2⟩
        intro a ha
        rcases mem_insU.1 ha with rfl | ha
        · exact lt_of_le_of_ne (not_lt.1 h1) (Ne.symm h2)
        · exact h.1 a ha

@[simp] theorem mem_npUnique {x : α} {l : List α} : x ∈ npUnique l ↔ x ∈ l := by
  unfold npUnique
  induction l with
  | nil => simp
  | cons y ys ih => simp [mem_insU, ih]

theorem npUnique_sorted (l : List α) : (npUnique l).Pairwise (· < ·) := by
  unfold npUnique
  induction l with
  | nil => simp
  | cons y ys ih => exact insU_sorted ih

theorem npUnique_nodup (l : List α) : (npUnique l).Nodup :=
  (npUnique_sorted l).imp (fun h => ne_of_lt h)

/-- a strictly increasing list is determined by its elements -/
theorem sorted_ext {a b : List α} (ha : a.Pairwise (· < ·)) (hb : b.Pairwise (· < ·))
    (h : ∀ x, x ∈ a ↔ x ∈ b) : a = b := by
  induction a generalizing b with
  | nil =>
    cases b with
    | nil => rfl
    | cons y ys => have := (h y).2 (by simp); simp at this
  | cons x xs ih =>
    cases b with
    | nil => have := (h x).1 (by simp); simp at this
    | cons y ys =>
      rw [List.pairwise_cons] at ha hb
      have hxy : x = y := by
        have h1 := (h x).1 (by simp)
        have h2 := (h y).2 (by simp)
        rcases List.mem_cons.1 h1 with h1 | h1
        · exact h1
        · rcases List.mem_cons.1 h2 with h2 | h2
          · exact h2.symm
          · exact absurd (lt_trans (hb.1 _ h1) (ha.1 _ h2)) (lt_irrefl _)
      subst hxy
      congr 1
      refine ih ha.2 hb.2 ?_
      intro z
      constructor
      · intro hz
        rcases List.mem_cons.1 ((h z).1 (by simp [hz])) with h1 | h1
        · exact absurd (ha.1 z hz) (by rw [h1]; exact lt_irrefl _)
        · exact h1
      · intro hz
        rcases List.mem_cons.1 ((h z).2 (by simp [hz])) with h1 | h1
        · exact absurd (hb.1 z hz) (by rw [h1]; exact lt_irrefl _)
        · exact h1

theorem npUnique_of_sorted {l : List α} (h : l.Pairwise (· < ·)) : npUnique l = l :=
  sorted_ext (npUnique_sorted l) h (fun _ => mem_npUnique)

theorem npInverse_length (l : List α) : (npInverse l).length = l.length := by simp [npInverse]

theorem npInverse_lt {l : List α} {i : Nat} (h : i ∈ npInverse l) : i < (npUnique l).length := by
  unfold npInverse at h
  obtain ⟨x, hx, rfl⟩ := List.mem_map.1 h
  exact List.idxOf_lt_length_of_mem (mem_npUnique.2 hx)

@[simp] theorem mem_npUnion {a b : List α} {x : α} : x ∈ npUnion a b ↔ x ∈ a ∨ x ∈ b := by
  simp [npUnion]
@[simp] theorem mem_npSetdiff {a b : List α} {x : α} : x ∈ npSetdiff a b ↔ x ∈ a ∧ x ∉ b := by
  simp [npSetdiff]
@[simp] theorem mem_npIntersect {a b : List α} {x : α} : x ∈ npIntersect a b ↔ x ∈ a ∧ x ∈ b := by
  simp [npIntersect]

end order
end Hyp
