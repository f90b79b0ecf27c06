import Verif.Metrics.PavProps
import Verif.Metrics.Roc

/-! Lemmas about the stable sort, the labels and the ROC convex hull. -/

namespace Hyp.Metrics

variable {K : Type} [Field K] [LinearOrder K]

theorem stableArgsort_perm (l : List K) : (stableArgsort l).Perm (List.range l.length) :=
  List.mergeSort_perm _ _

theorem stableArgsort_sorted (l : List K) : (stableArgsort l).Pairwise (fun i j => stableBefore l i j = true) := by
  apply List.pairwise_mergeSort
  · intro a b c h1 h2
    simp only [stableBefore, decide_eq_true_eq] at *
    rcases h1 with h1 | ⟨h1, h1'⟩ <;> rcases h2 with h2 | ⟨h2, h2'⟩
    · exact Or.inl (h1.trans h2)
    · exact Or.inl (h2 ▸ h1)
    · exact Or.inl (h1 ▸ h2)
    · exact Or.inr ⟨h1.trans h2, h1'.trans h2'⟩
  · intro a b
    simp only [stableBefore, Bool.or_eq_true, decide_eq_true_eq]
    rcases lt_trichotomy (l.getD a 0) (l.getD b 0) with h | h | h
    · exact Or.inl (Or.inl h)
    · rcases Nat.le_total a b with h' | h'
      · exact Or.inl (Or.inr ⟨h, h'⟩)
      · exact Or.inr (Or.inr ⟨h.symm, h'⟩)
    · exact Or.inr (Or.inl h)

theorem stableArgsort_length (l : List K) : (stableArgsort l).length = l.length := by
  simp [(stableArgsort_perm l).length_eq]

/-- a predicate closed downwards holds exactly on a prefix of a sorted list. -/
theorem filter_eq_take {α : Type} {R : α → α → Prop} (P : α → Bool) (hP : ∀ a b, R a b → P b = true → P a = true) :
    ∀ l : List α, l.Pairwise R → l.filter P = l.take (l.countP P) := by
  intro l
  induction l with
  | nil => intro _; rfl
  | cons a l ih =>
    intro h
    obtain ⟨h1, h2⟩ := List.pairwise_cons.1 h
    by_cases hp : P a = true
    · rw [List.filter_cons_of_pos hp, List.countP_cons_of_pos hp, List.take_succ_cons, ih h2]
    · have h0 : ∀ b ∈ l, ¬ P b = true := fun b hb hb' => hp (hP a b (h1 b hb) hb')
      have hc : l.countP P = 0 := List.countP_eq_zero.2 (fun b hb => h0 b hb)
      rw [List.filter_cons_of_neg hp, List.countP_cons_of_neg hp, hc, List.take_zero, List.filter_eq_nil_iff]
      exact fun b hb => h0 b hb

theorem map_getD_range (l : List K) : (List.range l.length).map (fun i => l.getD i 0) = l := by
  apply List.ext_getElem
  · simp
  · intro i h1 h2
    simp [List.getD_eq_getElem?_getD, h2]

/-- the label of trial `i`. -/
def lab (K : Type) [Field K] (nt nn i : Nat) : K := (List.replicate nt (1 : K) ++ List.replicate nn 0).getD i 0

theorem lab_tar {nt nn i : Nat} (h : i < nt) : lab K nt nn i = 1 := by
  simp [lab, List.getD_eq_getElem?_getD, List.getElem?_append, h]

theorem lab_non {nt nn i : Nat} (h : nt ≤ i) : lab K nt nn i = 0 := by
  have h' : ¬ i < nt := by omega
  simp only [lab, List.getD_eq_getElem?_getD, List.getElem?_append, List.length_replicate, h', if_false, List.getElem?_replicate]
  split <;> simp

theorem sortedLabels_eq (tar non : List K) :
    sortedLabels tar non = (stableArgsort (tar ++ non)).map (lab K tar.length non.length) := rfl

theorem sortedLabels_length (tar non : List K) : (sortedLabels tar non).length = tar.length + non.length := by
  simp [sortedLabels_eq, stableArgsort_length]

theorem sum_map_const_one {α : Type} (l : List α) (f : α → K) (h : ∀ a ∈ l, f a = 1) : (l.map f).sum = (l.length : K) := by
  induction l with
  | nil => simp
  | cons a l ih =>
    simp only [List.map_cons, List.sum_cons, List.length_cons, Nat.cast_add, Nat.cast_one]
    rw [h a (by simp), ih (fun b hb => h b (by simp [hb]))]; ring

theorem sum_map_const_zero {α : Type} (l : List α) (f : α → K) (h : ∀ a ∈ l, f a = 0) : (l.map f).sum = 0 := by
  induction l with
  | nil => simp
  | cons a l ih =>
    simp only [List.map_cons, List.sum_cons]
    rw [h a (by simp), ih (fun b hb => h b (by simp [hb]))]; ring

theorem countP_range_getD (l : List K) (Q : K → Bool) :
    (List.range l.length).countP (fun i => Q (l.getD i 0)) = l.countP Q := by
  conv_rhs => rw [← map_getD_range l, List.countP_map]
  rfl

/-- among the trials satisfying a condition on the score, the labels sum to the number of targets. -/
theorem sum_lab_filter (tar non : List K) (Q : K → Bool) :
    (((List.range (tar ++ non).length).filter (fun i => Q ((tar ++ non).getD i 0))).map (lab K tar.length non.length)).sum
      = (tar.countP Q : K) := by
  rw [List.length_append, List.range_add, List.filter_append, List.map_append, List.sum_append]
  rw [sum_map_const_one, sum_map_const_zero, add_zero, ← List.countP_eq_length_filter]
  · congr 1
    rw [← countP_range_getD tar Q]
    apply List.countP_congr
    intro i hi
    have hi' : i < tar.length := by simpa using hi
    simp [List.getD_eq_getElem?_getD, List.getElem?_append, hi']
  · intro i hi
    have hi := (List.mem_filter.1 hi).1
    simp only [List.mem_map, List.mem_range] at hi
    obtain ⟨a, _, rfl⟩ := hi
    exact lab_non (by omega)
  · intro i hi
    have hi := (List.mem_filter.1 hi).1
    exact lab_tar (by simpa using hi)

theorem filter_lt_eq_take (l : List K) (θ : K) :
    (stableArgsort l).filter (fun i => decide (l.getD i 0 < θ)) =
      (stableArgsort l).take (l.countP (fun x => decide (x < θ))) := by
  have := filter_eq_take (R := fun i j => stableBefore l i j = true) (fun i => decide (l.getD i 0 < θ)) ?_ _ (stableArgsort_sorted l)
  · rw [this, (stableArgsort_perm l).countP_eq, countP_range_getD l (fun x => decide (x < θ))]
  · intro a b h hb
    simp only [stableBefore, decide_eq_true_eq] at *
    rcases h with h | ⟨h, _⟩
    · exact h.trans hb
    · rw [h]; exact hb

/-- number of misses among the `k` lowest-ranked trials. -/
def misses (tar non : List K) (k : Nat) : K := ((sortedLabels tar non).take k).sum

theorem misses_count (tar non : List K) (θ : K) :
    misses tar non ((tar ++ non).countP (fun x => decide (x < θ))) = (tar.countP (fun x => decide (x < θ)) : K) := by
  unfold misses
  rw [sortedLabels_eq, ← List.map_take, ← filter_lt_eq_take]
  rw [← sum_lab_filter tar non (fun x => decide (x < θ))]
  exact (((stableArgsort_perm (tar ++ non)).filter _).map _).sum_eq

theorem sum_labels (tar non : List K) : (sortedLabels tar non).sum = (tar.length : K) := by
  rw [sortedLabels_eq, ((stableArgsort_perm (tar ++ non)).map _).sum_eq]
  have := sum_lab_filter tar non (fun _ => true)
  simpa using this

theorem labels_mem (tar non : List K) : ∀ x ∈ sortedLabels tar non, x = 0 ∨ x = 1 := by
  intro x hx
  rw [sortedLabels_eq] at hx
  obtain ⟨i, _, rfl⟩ := List.mem_map.1 hx
  rcases Nat.lt_or_ge i tar.length with h | h
  · exact Or.inr (lab_tar h)
  · exact Or.inl (lab_non h)

/-- the operating point with the `k` lowest-ranked trials rejected. -/
def pt (tar non : List K) (k : Nat) : K × K :=
  (misses tar non k / (tar.length : K), ((non.length : K) - ((k : K) - misses tar non k)) / (non.length : K))

theorem rocchLoop_eq (p : List K) (nt nn : Nat) (hs : p.sum = (nt : K)) (hl : p.length = nt + nn) (ws : List Nat) : ∀ left : Nat,
    rocchLoop p (nt : K) (nn : K) ws left (p.take left).sum ((nn : K) - ((left : K) - (p.take left).sum)) =
      (List.range (ws.length + 1)).map (fun i =>
        ((p.take (left + (ws.take i).sum)).sum / (nt : K),
          ((nn : K) - (((left + (ws.take i).sum : Nat) : K) - (p.take (left + (ws.take i).sum)).sum)) / (nn : K))) := by
  induction ws with
  | nil => intro left; simp [rocchLoop]
  | cons w ws ih =>
    intro left
    rw [rocchLoop]
    have hd : (p.length : K) - ((left + w : Nat) : K) - (p.drop (left + w)).sum =
        (nn : K) - (((left + w : Nat) : K) - (p.take (left + w)).sum) := by
      have := List.sum_take_add_sum_drop p (left + w)
      have h1 : (p.drop (left + w)).sum = (nt : K) - (p.take (left + w)).sum := by rw [← hs, ← this]; ring
      rw [h1, hl]; push_cast; ring
    rw [hd, ih (left + w), List.length_cons, List.range_succ_eq_map (n := ws.length + 1)]
    simp only [List.map_cons, List.map_map, List.take_zero, List.sum_nil, add_zero]
    congr 1
    apply List.map_congr_left
    intro i _
    simp [Nat.add_assoc]

/-- width of the first `i` blocks. -/
def bnd (segs : List (List K)) (i : Nat) : Nat := (segs.take i).flatten.length

variable [IsStrictOrderedRing K]

/-- the hull: the vertices are the operating points at the block boundaries of the pooled labels. -/
theorem rocch_segs (tar non : List K) (ht : tar ≠ []) (hn : non ≠ []) :
    ∃ segs : List (List K), segs.flatten = sortedLabels tar non ∧ (∀ s ∈ segs, s ≠ []) ∧
      (segs.map avg).Pairwise (· < ·) ∧ (∀ s ∈ segs, ∀ k : Nat, k ≤ s.length → avg s * k ≤ (s.take k).sum) ∧
      computeRocch tar non = some ((List.range (segs.length + 1)).map (fun i => pt tar non (bnd segs i))) := by
  have hy : sortedLabels tar non ≠ [] := by
    have := sortedLabels_length tar non
    intro h
    rw [h] at this
    cases tar with
    | nil => exact ht rfl
    | cons a l => simp at this; omega
  obtain ⟨r, segs, h1, h2, h3, h4, h5, h6, h7, h8⟩ := pavx_segs (sortedLabels tar non) hy
  have h7' : (segs.map avg).Pairwise (· < ·) := by rw [← h5]; exact h7
  refine ⟨segs, h2, h3, h7', h8, ?_⟩
  unfold computeRocch
  rw [if_neg (by simp [ht, hn])]
  dsimp only
  rw [h1, Option.map_some]
  congr 1
  have := rocchLoop_eq (sortedLabels tar non) tar.length non.length (sum_labels tar non) (sortedLabels_length tar non) r.width 0
  simp only [List.take_zero, List.sum_nil, Nat.cast_zero, sub_zero, Nat.zero_add] at this
  rw [this, h4, List.length_map]
  apply List.map_congr_left
  intro i _
  have : ((segs.map List.length).take i).sum = bnd segs i := by
    rw [bnd, flatten_length, List.map_take]
  rw [this]
  rfl

end Hyp.Metrics
