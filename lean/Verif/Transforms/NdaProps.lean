import Verif.Transforms.Nda
import Verif.NpLemmas
import Mathlib.Tactic.Positivity
import Mathlib.Algebra.Order.BigOperators.Group.List

/-!
C140: the statistics of nearest-neighbour discriminant analysis.
-/

namespace Hyp.Transforms
open scoped BigOperators
open Matrix

variable {n : Nat}

/-! ### specification -/

/-- `L` are the `k` points of `pts` nearest to `x`, the nearest first. -/
def Nearest (k : Nat) (pts : List (Vec n)) (x : Vec n) (L : List (Vec n)) : Prop :=
  L.length = k ∧ L.Pairwise (fun a b => edist x a ≤ edist x b) ∧
  ∃ rest, pts.Perm (L ++ rest) ∧ ∀ a ∈ L, ∀ b ∈ rest, edist x a ≤ edist x b

/-- What `BallTree.query` is documented to return: `k` different positions, by increasing distance, and no other point is
nearer. -/
structure IsKnn (query : Query n) : Prop where
  len : ∀ pts x k, k ≤ pts.length → (query pts x k).length = k
  nodup : ∀ pts x k, k ≤ pts.length → (query pts x k).Nodup
  lt : ∀ pts x k, k ≤ pts.length → ∀ i ∈ query pts x k, i < pts.length
  sorted : ∀ pts x k, k ≤ pts.length → (query pts x k).Pairwise (fun i j => edist x (pts.getD i 0) ≤ edist x (pts.getD j 0))
  nearest : ∀ pts x k, k ≤ pts.length → ∀ i ∈ query pts x k, ∀ j, j < pts.length → j ∉ query pts x k →
    edist x (pts.getD i 0) ≤ edist x (pts.getD j 0)

/-- the distance of the last (farthest) of the neighbours -/
noncomputable def farthest (x : Vec n) (L : List (Vec n)) : ℝ := ((L.map (edist x)).getLast?).getD 0

/-- the weight of a row for two classes, from its neighbours in them -/
noncomputable def pairWeight (alpha : ℝ) (x : Vec n) (L M : List (Vec n)) : ℝ :=
  min (farthest x L ^ alpha) (farthest x M ^ alpha) / (farthest x L ^ alpha + farthest x M ^ alpha)

/-! ### neighbours -/

theorem map_getD_range (pts : List (Vec n)) : (List.range pts.length).map (fun i => pts.getD i 0) = pts := by
  apply List.ext_getElem
  · simp
  · intro i h1 h2
    simp [List.getD_eq_getElem?_getD, List.getElem?_eq_getElem h2]

theorem neighbours_eq {query : Query n} (hq : IsKnn query) {k : Nat} {pts : List (Vec n)} (hk : k ≤ pts.length) (x : Vec n) :
    neighbours query k pts x = (query pts x k).map (fun i => pts.getD i 0) := by
  unfold neighbours
  have hlt := hq.lt pts x k hk
  generalize query pts x k = idx at hlt
  induction idx with
  | nil => rfl
  | cons i l ih =>
    have hi := hlt i (List.mem_cons_self ..)
    rw [List.filterMap_cons, List.getElem?_eq_getElem hi, List.map_cons, ← ih (fun j hj => hlt j (List.mem_cons_of_mem _ hj))]
    simp [List.getD_eq_getElem?_getD, List.getElem?_eq_getElem hi]

theorem neighbours_nearest {query : Query n} (hq : IsKnn query) {k : Nat} {pts : List (Vec n)} (hk : k ≤ pts.length) (x : Vec n) :
    Nearest k pts x (neighbours query k pts x) := by
  rw [neighbours_eq hq hk]
  refine ⟨by rw [List.length_map, hq.len _ _ _ hk], List.pairwise_map.2 (hq.sorted _ _ _ hk),
    ((List.range pts.length).filter (fun j => decide (j ∉ query pts x k))).map (fun i => pts.getD i 0), ?_, ?_⟩
  · rw [← List.map_append]
    conv_lhs => rw [← map_getD_range pts]
    apply List.Perm.map
    rw [List.perm_ext_iff_of_nodup List.nodup_range]
    · intro a
      simp only [List.mem_range, List.mem_append, List.mem_filter, decide_eq_true_eq]
      constructor
      · intro h
        by_cases h2 : a ∈ query pts x k
        · exact Or.inl h2
        · exact Or.inr ⟨h, h2⟩
      · rintro (h | h)
        · exact hq.lt _ _ _ hk a h
        · exact h.1
    · refine List.nodup_append.2 ⟨hq.nodup _ _ _ hk, List.nodup_range.filter _, ?_⟩
      intro a ha b hb hab
      subst hab
      simp only [List.mem_filter, decide_eq_true_eq] at hb
      exact hb.2 ha
  · intro a ha b hb
    obtain ⟨i, hi, rfl⟩ := List.mem_map.1 ha
    obtain ⟨j, hj, rfl⟩ := List.mem_map.1 hb
    simp only [List.mem_filter, List.mem_range, decide_eq_true_eq] at hj
    exact hq.nearest _ _ _ hk i hi j hj.1 hj.2

/-- the neighbours are determined when no two points have the same distance; a map that multiplies the distances by a
positive factor maps the neighbours to the neighbours -/
theorem nearest_map {k : Nat} {pts pts' : List (Vec n)} {x x' : Vec n} {L L' : List (Vec n)} (f : Vec n → Vec n) (c : ℝ) (hc : 0 < c)
    (hf : ∀ a, edist x' (f a) = c * edist x a) (hp : pts'.Perm (pts.map f)) (hnt : pts.Pairwise (fun a b => edist x a ≠ edist x b))
    (h : Nearest k pts x L) (h' : Nearest k pts' x' L') : L' = L.map f := by
  obtain ⟨hl, hs, rest, hperm, hr⟩ := h
  obtain ⟨hl', hs', rest', hperm', hr'⟩ := h'
  have hinj : ∀ a ∈ pts.map f, ∀ b ∈ pts.map f, edist x' a ≤ edist x' b → edist x' b ≤ edist x' a → a = b := by
    intro a ha b hb h1 h2
    obtain ⟨u, hu, rfl⟩ := List.mem_map.1 ha
    obtain ⟨v, hv, rfl⟩ := List.mem_map.1 hb
    rw [hf, hf] at h1 h2
    have he : edist x u = edist x v := le_antisymm (le_of_mul_le_mul_left h1 hc) (le_of_mul_le_mul_left h2 hc)
    by_contra hne
    have huv : u ≠ v := fun e => hne (by rw [e])
    haveI : Std.Symm (fun a b => edist x a ≠ edist x b) := ⟨fun _ _ h => h.symm⟩
    exact hnt.forall hu hv huv he
  let s := (rest.map f).mergeSort (fun a b => decide (edist x' a ≤ edist x' b))
  let s' := rest'.mergeSort (fun a b => decide (edist x' a ≤ edist x' b))
  have hsort : ∀ l : List (Vec n), (l.mergeSort (fun a b => decide (edist x' a ≤ edist x' b))).Pairwise (fun a b => edist x' a ≤ edist x' b) := by
    intro l
    have := List.pairwise_mergeSort (le := fun a b => decide (edist x' a ≤ edist x' b))
      (by intro a b c h1 h2; simp only [decide_eq_true_eq] at *; exact le_trans h1 h2)
      (by intro a b; simp only [Bool.or_eq_true, decide_eq_true_eq]; exact le_total _ _) l
    exact this.imp (fun h => by simpa using h)
  have e1 : (L.map f ++ s).Perm (pts.map f) := by
    refine ((List.mergeSort_perm _ _).append_left _).trans ?_
    rw [← List.map_append]
    exact (hperm.map f).symm
  have e2 : (L' ++ s').Perm (pts.map f) := ((List.mergeSort_perm _ _).append_left _).trans (hperm'.symm.trans hp)
  have p1 : (L.map f ++ s).Pairwise (fun a b => edist x' a ≤ edist x' b) := by
    refine List.pairwise_append.2 ⟨List.pairwise_map.2 (hs.imp (fun h => ?_)), hsort _, ?_⟩
    · rw [hf, hf]; exact mul_le_mul_of_nonneg_left h hc.le
    · intro a ha b hb
      obtain ⟨u, hu, rfl⟩ := List.mem_map.1 ha
      obtain ⟨v, hv, rfl⟩ := List.mem_map.1 (List.mem_mergeSort.1 hb)
      rw [hf, hf]; exact mul_le_mul_of_nonneg_left (hr u hu v hv) hc.le
  have p2 : (L' ++ s').Pairwise (fun a b => edist x' a ≤ edist x' b) :=
    List.pairwise_append.2 ⟨hs', hsort _, fun a ha b hb => hr' a ha b (List.mem_mergeSort.1 hb)⟩
  have heq : L' ++ s' = L.map f ++ s :=
    List.Perm.eq_of_pairwise (le := fun a b => edist x' a ≤ edist x' b)
      (fun a b ha hb => hinj a (e2.subset ha) b (e1.subset hb)) p2 p1 (e2.trans e1.symm)
  exact (List.append_inj heq (by rw [hl', List.length_map, hl])).1

theorem edist_nonneg (x y : Vec n) : 0 ≤ edist x y := Real.sqrt_nonneg _

theorem edist_self (x : Vec n) : edist x x = 0 := by unfold edist; simp

theorem edist_eq_zero {x y : Vec n} (h : edist x y = 0) : x = y := by
  unfold edist at h
  rw [Real.sqrt_eq_zero (Finset.sum_nonneg (fun i _ => sq_nonneg _))] at h
  rw [Finset.sum_eq_zero_iff_of_nonneg (fun i _ => sq_nonneg _)] at h
  funext i
  have := h i (Finset.mem_univ i)
  have := pow_eq_zero_iff (two_ne_zero) |>.1 this
  linarith

theorem farthest_mem (x : Vec n) (L : List (Vec n)) (h : L ≠ []) : ∃ a ∈ L, farthest x L = edist x a := by
  unfold farthest
  have h2 : L.map (edist x) ≠ [] := by simpa using h
  rw [List.getLast?_eq_getLast_of_ne_nil h2, Option.getD_some]
  obtain ⟨a, ha, e⟩ := List.mem_map.1 (List.getLast_mem h2)
  exact ⟨a, ha, e.symm⟩

theorem farthest_nonneg (x : Vec n) (L : List (Vec n)) : 0 ≤ farthest x L := by
  by_cases h : L = []
  · rw [h]; exact le_refl _
  · obtain ⟨a, _, e⟩ := farthest_mem x L h
    rw [e]; exact edist_nonneg _ _

theorem farthest_ge {x : Vec n} {L : List (Vec n)} (hs : L.Pairwise (fun a b => edist x a ≤ edist x b)) : ∀ a ∈ L, edist x a ≤ farthest x L := by
  intro a ha
  obtain ⟨l, b, rfl⟩ : ∃ l b, L = l ++ [b] := by
    rcases List.eq_nil_or_concat L with h | ⟨l, b, h⟩
    · rw [h] at ha; cases ha
    · exact ⟨l, b, by simpa using h⟩
  have e : farthest x (l ++ [b]) = edist x b := by
    unfold farthest; simp
  rw [e]
  rcases List.mem_append.1 ha with h | h
  · exact (List.pairwise_append.1 hs).2.2 a h b (List.mem_singleton.2 rfl)
  · rw [List.mem_singleton.1 h]

/-- classes: the numbers that occur -/
theorem mem_ids {rows : List (CRow n)} {i : Nat} : i ∈ npUnique (rows.map Prod.fst) ↔ ∃ x, (i, x) ∈ rows := by
  rw [mem_npUnique]; simp

theorem mem_ofClass {rows : List (CRow n)} {i : Nat} {x : Vec n} : x ∈ ofClass rows i ↔ (i, x) ∈ rows := by
  unfold ofClass
  simp only [List.mem_map, List.mem_filter, decide_eq_true_eq]
  constructor
  · rintro ⟨⟨a, b⟩, ⟨h1, h2⟩, rfl⟩
    subst h2
    exact h1
  · intro h; exact ⟨(i, x), ⟨h, rfl⟩, rfl⟩

theorem foldl_max_le (l : List Nat) (a : Nat) : ∀ i, (i = a ∨ i ∈ l) → i ≤ l.foldl max a := by
  induction l generalizing a with
  | nil => intro i h; rcases h with h | h
           · exact h.le
           · cases h
  | cons b l ih =>
    intro i h
    rw [List.foldl_cons]
    rcases h with h | h
    · exact le_trans (by rw [h]; exact le_max_left _ _) (ih (max a b) _ (Or.inl rfl))
    · rcases List.mem_cons.1 h with h | h
      · exact le_trans (by rw [h]; exact le_max_right a b) (ih (max a b) _ (Or.inl rfl))
      · exact ih _ i (Or.inr h)

theorem foldl_max_mem (l : List Nat) (a : Nat) : l.foldl max a = a ∨ l.foldl max a ∈ l := by
  induction l generalizing a with
  | nil => exact Or.inl rfl
  | cons b l ih =>
    rw [List.foldl_cons]
    rcases ih (max a b) with h | h
    · rw [h]
      rcases le_total a b with h2 | h2
      · rw [max_eq_right h2]; exact Or.inr (List.mem_cons_self ..)
      · rw [max_eq_left h2]; exact Or.inl rfl
    · exact Or.inr (List.mem_cons_of_mem _ h)

theorem lt_numClasses {rows : List (CRow n)} {i : Nat} (h : i ∈ npUnique (rows.map Prod.fst)) : i < ndaNumClasses rows :=
  Nat.lt_succ_of_le (foldl_max_le _ 0 i (Or.inr h))

end Hyp.Transforms
