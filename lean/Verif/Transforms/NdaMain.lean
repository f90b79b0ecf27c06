import Verif.Transforms.NdaProps

/-!
C140: theorems.
-/

namespace Hyp.Transforms
open scoped BigOperators
open Matrix

variable {n : Nat}

/-! ### quadratic forms -/

theorem quad_sum (l : List (Matrix (Fin n) (Fin n) ℝ)) (t : Vec n) : t ⬝ᵥ (l.sum *ᵥ t) = (l.map (fun M => t ⬝ᵥ (M *ᵥ t))).sum := by
  induction l with
  | nil => simp
  | cons a l ih => rw [List.sum_cons, Matrix.add_mulVec, dotProduct_add, ih, List.map_cons, List.sum_cons]

theorem quad_smul (c : ℝ) (M : Matrix (Fin n) (Fin n) ℝ) (t : Vec n) : t ⬝ᵥ ((c • M) *ᵥ t) = c * (t ⬝ᵥ (M *ᵥ t)) := by
  rw [Matrix.smul_mulVec, dotProduct_smul, smul_eq_mul]

theorem quad_outer (v t : Vec n) : t ⬝ᵥ (Matrix.vecMulVec v v *ᵥ t) = (t ⬝ᵥ v) ^ 2 := by
  rw [Matrix.vecMulVec_mulVec]
  simp only [dotProduct, Pi.smul_apply, MulOpposite.smul_eq_mul_unop, MulOpposite.unop_op]
  rw [pow_two, Finset.sum_mul]
  refine Finset.sum_congr rfl (fun i _ => ?_)
  rw [show ∑ j, v j * t j = ∑ j, t j * v j from Finset.sum_congr rfl (fun j _ => mul_comm _ _)]
  ring

theorem sum_filter_zero {α : Type} (l : List α) (p : α → Bool) (F : α → ℝ) (h : ∀ a ∈ l, p a = false → F a = 0) :
    (l.map F).sum = ((l.filter p).map F).sum := by
  induction l with
  | nil => rfl
  | cons a l ih =>
    have ih' := ih (fun b hb => h b (List.mem_cons_of_mem _ hb))
    cases hp : p a with
    | true => rw [List.filter_cons_of_pos hp, List.map_cons, List.map_cons, List.sum_cons, List.sum_cons, ih']
    | false =>
      rw [List.filter_cons_of_neg (by rw [hp]; exact Bool.false_ne_true), List.map_cons, List.sum_cons, ih',
        h a (List.mem_cons_self ..) hp, zero_add]

theorem sum_others (ids : List Nat) (hnd : ids.Nodup) (C i : Nat) (hC : ∀ j ∈ ids, j < C) (F : Nat → ℝ) (hF : ∀ j, j ∉ ids → F j = 0) :
    (((List.range C).filter (fun j => decide (j ≠ i))).map F).sum = ((ids.filter (fun j => decide (j ≠ i))).map F).sum := by
  rw [sum_filter_zero _ (fun j => decide (j ∈ ids)) F (fun a _ h => hF a (by simpa using h))]
  refine List.Perm.sum_eq (List.Perm.map F ?_)
  rw [List.perm_ext_iff_of_nodup ((List.nodup_range.filter _).filter _) (hnd.filter _)]
  intro a
  simp only [List.mem_filter, List.mem_range, decide_eq_true_eq]
  constructor
  · rintro ⟨⟨_, h2⟩, h3⟩; exact ⟨h3, h2⟩
  · rintro ⟨h1, h2⟩; exact ⟨⟨hC a h1, h2⟩, h1⟩

theorem sum_pairs (rows : List (CRow n)) (C i : Nat) (F : Nat → Vec n → ℝ) :
    ((ndaPairs rows C i).map (fun p => F p.1 p.2)).sum =
      (((List.range C).filter (fun j => decide (j ≠ i))).map (fun j => ((ofClass rows i).map (F j)).sum)).sum := by
  unfold ndaPairs
  generalize (List.range C).filter (fun j => decide (j ≠ i)) = l
  induction l with
  | nil => rfl
  | cons a l ih =>
    rw [List.map_cons, List.flatten_cons, List.map_append, List.sum_append, ih, List.map_cons, List.sum_cons, List.map_map]
    rfl

/-! ### entries -/

theorem entry_class {query : Query n} {K : Nat} {alpha : ℝ} {rows : List (CRow n)} {i : Nat} (hi : i ∈ npUnique (rows.map Prod.fst)) (x : Vec n) :
    ndaEntry query K alpha rows i x = (farthest x (neighbours query K (ofClass rows i) x) ^ alpha,
      x - pcaMu (neighbours query K (ofClass rows i) x)) := by
  unfold ndaEntry
  rw [if_pos hi]; rfl

theorem entry_other {query : Query n} {K : Nat} {alpha : ℝ} (ha : 0 < alpha) {rows : List (CRow n)} {i : Nat}
    (hi : i ∉ npUnique (rows.map Prod.fst)) (x : Vec n) : ndaEntry query K alpha rows i x = (0, 0) := by
  unfold ndaEntry
  rw [if_neg hi, Real.zero_rpow ha.ne']

theorem entry_nonneg {query : Query n} {K : Nat} {alpha : ℝ} (ha : 0 < alpha) (rows : List (CRow n)) (i : Nat) (x : Vec n) :
    0 ≤ (ndaEntry query K alpha rows i x).1 := by
  by_cases hi : i ∈ npUnique (rows.map Prod.fst)
  · rw [entry_class hi]; exact Real.rpow_nonneg (farthest_nonneg _ _) _
  · rw [entry_other ha hi]

theorem weight_other {query : Query n} {K : Nat} {alpha : ℝ} (ha : 0 < alpha) {rows : List (CRow n)} {i j : Nat}
    (hj : j ∉ npUnique (rows.map Prod.fst)) (x : Vec n) : ndaWeight query K alpha rows i j x = 0 := by
  unfold ndaWeight
  rw [entry_other ha hj, min_eq_right (entry_nonneg ha rows i x), zero_div]

theorem weight_class {query : Query n} {K : Nat} {alpha : ℝ} {rows : List (CRow n)} {i j : Nat} (hi : i ∈ npUnique (rows.map Prod.fst))
    (hj : j ∈ npUnique (rows.map Prod.fst)) (x : Vec n) : ndaWeight query K alpha rows i j x =
      pairWeight alpha x (neighbours query K (ofClass rows i) x) (neighbours query K (ofClass rows j) x) := by
  unfold ndaWeight
  rw [entry_class hi, entry_class hj]; rfl

theorem wi_eq {query : Query n} {K : Nat} {alpha : ℝ} (ha : 0 < alpha) (rows : List (CRow n)) {i : Nat} (hi : i ∈ npUnique (rows.map Prod.fst)) :
    ndaWi query K alpha rows (ndaNumClasses rows) i = (((npUnique (rows.map Prod.fst)).filter (fun j => decide (j ≠ i))).map (fun j =>
      ((ofClass rows i).map (fun x => pairWeight alpha x (neighbours query K (ofClass rows i) x) (neighbours query K (ofClass rows j) x))).sum)).sum := by
  unfold ndaWi
  rw [sum_pairs rows _ i (fun j x => ndaWeight query K alpha rows i j x), sum_others _ (npUnique_nodup _) _ _ (fun j hj => lt_numClasses hj)]
  · congr 1
    refine List.map_congr_left (fun j hj => ?_)
    rw [List.mem_filter] at hj
    congr 1
    exact List.map_congr_left (fun x _ => weight_class hi hj.1 x)
  · intro j hj
    have : (ofClass rows i).map (fun x => ndaWeight query K alpha rows i j x) = (ofClass rows i).map (fun _ => (0 : ℝ)) :=
      List.map_congr_left (fun x _ => weight_other ha hj x)
    rw [this, List.map_const', List.sum_replicate, nsmul_zero]

theorem sbi_eq {query : Query n} {K : Nat} {alpha : ℝ} (ha : 0 < alpha) (rows : List (CRow n)) {i : Nat} (hi : i ∈ npUnique (rows.map Prod.fst)) (t : Vec n) :
    t ⬝ᵥ (ndaSbi query K alpha rows (ndaNumClasses rows) i *ᵥ t) = (((npUnique (rows.map Prod.fst)).filter (fun j => decide (j ≠ i))).map (fun j =>
      ((ofClass rows i).map (fun x => pairWeight alpha x (neighbours query K (ofClass rows i) x) (neighbours query K (ofClass rows j) x) *
        (t ⬝ᵥ (x - pcaMu (neighbours query K (ofClass rows j) x))) ^ 2)).sum)).sum := by
  unfold ndaSbi
  rw [quad_sum, List.map_map]
  have e : (ndaPairs rows (ndaNumClasses rows) i).map ((fun M => t ⬝ᵥ (M *ᵥ t)) ∘ (fun p => ndaWeight query K alpha rows i p.1 p.2 •
      Matrix.vecMulVec (ndaEntry query K alpha rows p.1 p.2).2 (ndaEntry query K alpha rows p.1 p.2).2)) =
      (ndaPairs rows (ndaNumClasses rows) i).map (fun p => ndaWeight query K alpha rows i p.1 p.2 * (t ⬝ᵥ (ndaEntry query K alpha rows p.1 p.2).2) ^ 2) :=
    List.map_congr_left (fun p _ => by rw [Function.comp_apply, quad_smul, quad_outer])
  rw [e, sum_pairs rows _ i (fun j x => ndaWeight query K alpha rows i j x * (t ⬝ᵥ (ndaEntry query K alpha rows j x).2) ^ 2),
    sum_others _ (npUnique_nodup _) _ _ (fun j hj => lt_numClasses hj)]
  · congr 1
    refine List.map_congr_left (fun j hj => ?_)
    rw [List.mem_filter] at hj
    congr 1
    exact List.map_congr_left (fun x _ => by rw [weight_class hi hj.1, entry_class hj.1])
  · intro j hj
    have : (ofClass rows i).map (fun x => ndaWeight query K alpha rows i j x * (t ⬝ᵥ (ndaEntry query K alpha rows j x).2) ^ 2) =
        (ofClass rows i).map (fun _ => (0 : ℝ)) := List.map_congr_left (fun x _ => by rw [weight_other ha hj, zero_mul])
    rw [this, List.map_const', List.sum_replicate, nsmul_zero]

theorem fails_false {query : Query n} {K : Nat} {alpha : ℝ} {rows : List (CRow n)} : ndaFails query K alpha rows = false ↔
    rows ≠ [] ∧ K ≠ 0 ∧ (∀ i ∈ npUnique (rows.map Prod.fst), K ≤ (ofClass rows i).length) ∧
    (∀ i ∈ npUnique (rows.map Prod.fst), ∀ p ∈ ndaPairs rows (ndaNumClasses rows) i,
      (ndaEntry query K alpha rows i p.2).1 + (ndaEntry query K alpha rows p.1 p.2).1 ≠ 0) ∧
    (∀ i ∈ npUnique (rows.map Prod.fst), ndaWi query K alpha rows (ndaNumClasses rows) i ≠ 0) := by
  unfold ndaFails
  simp only [Bool.or_eq_false_iff, decide_eq_false_iff_not, not_exists, not_and, not_lt]
  tauto

theorem stats_some {query : Query n} {K : Nat} {alpha : ℝ} {rows : List (CRow n)} {s : NdaStats n} (h : ndaStats query K alpha rows = some s) :
    ndaFails query K alpha rows = false ∧ s.numClasses = ndaNumClasses rows ∧
    (∀ k, s.mu k = (((npUnique (rows.map Prod.fst)).map (fun i => pcaMu (ofClass rows i))).sum) k / ndaNumClasses rows) ∧
    s.Sb = (1 / (ndaNumClasses rows : ℝ)) • ((npUnique (rows.map Prod.fst)).map (fun i => (1 / ndaWi query K alpha rows (ndaNumClasses rows) i) •
      ndaSbi query K alpha rows (ndaNumClasses rows) i)).sum ∧
    s.Sw = (1 / (ndaNumClasses rows : ℝ)) • ((npUnique (rows.map Prod.fst)).map (fun i => ndaSwi query K alpha rows i)).sum := by
  unfold ndaStats at h
  cases hf : ndaFails query K alpha rows with
  | true => rw [hf] at h; exact absurd h (by simp)
  | false =>
    rw [hf] at h
    simp only [Bool.false_eq_true, if_false, Option.some.injEq] at h
    subst h
    exact ⟨rfl, rfl, fun _ => rfl, rfl, rfl⟩

theorem numClasses_pos (rows : List (CRow n)) : (ndaNumClasses rows : ℝ) ≠ 0 := by
  unfold ndaNumClasses; rw [Nat.cast_ne_zero]; omega

/-! ### C140 -/

/-- C140: what `NSbSw.fit` computes. `nn i x` are the `K` rows of class `i` nearest to `x`; `C` is one more than the largest class
number. For every direction `t`, `C` times the variance within classes is the sum over the classes of the mean square of
`t·(x - mean of the neighbours of x in its own class)`; `C` times the variance between classes is the sum over the classes `i` of the
weighted mean, over the other classes `j` and the rows of `i`, of the square of `t·(x - mean of the neighbours of x in class j)`. -/
theorem C140_stats (query : Query n) (hq : IsKnn query) (K : Nat) (alpha : ℝ) (ha : 0 < alpha) (rows : List (CRow n)) (s : NdaStats n)
    (h : ndaStats query K alpha rows = some s) :
    ∃ nn : Nat → Vec n → List (Vec n), (∀ r ∈ rows, ∀ x, Nearest K (ofClass rows r.1) x (nn r.1 x)) ∧
      (∀ r ∈ rows, r.1 < s.numClasses) ∧ (∃ r ∈ rows, r.1 + 1 = s.numClasses) ∧
      (∀ k, s.numClasses * s.mu k = ((npUnique (rows.map Prod.fst)).map (fun i => pcaMu (ofClass rows i) k)).sum) ∧
      (∀ t, s.numClasses * (t ⬝ᵥ (s.Sw *ᵥ t)) = ((npUnique (rows.map Prod.fst)).map (fun i =>
        ((ofClass rows i).map (fun x => (t ⬝ᵥ (x - pcaMu (nn i x))) ^ 2)).sum / (ofClass rows i).length)).sum) ∧
      (∀ t, s.numClasses * (t ⬝ᵥ (s.Sb *ᵥ t)) = ((npUnique (rows.map Prod.fst)).map (fun i =>
        (((npUnique (rows.map Prod.fst)).filter (fun j => decide (j ≠ i))).map (fun j =>
          ((ofClass rows i).map (fun x => pairWeight alpha x (nn i x) (nn j x) * (t ⬝ᵥ (x - pcaMu (nn j x))) ^ 2)).sum)).sum /
        (((npUnique (rows.map Prod.fst)).filter (fun j => decide (j ≠ i))).map (fun j =>
          ((ofClass rows i).map (fun x => pairWeight alpha x (nn i x) (nn j x))).sum)).sum)).sum) := by
  obtain ⟨hf, hC, hmu, hSb, hSw⟩ := stats_some h
  obtain ⟨hne, hK0, hK, _, hw⟩ := fails_false.1 hf
  refine ⟨fun i x => neighbours query K (ofClass rows i) x, ?_, ?_, ?_, ?_, ?_, ?_⟩
  · intro r hr x
    exact neighbours_nearest hq (hK r.1 (mem_ids.2 ⟨r.2, hr⟩)) x
  · intro r hr
    rw [hC]; exact lt_numClasses (mem_ids.2 ⟨r.2, hr⟩)
  · rw [hC]
    unfold ndaNumClasses
    rcases foldl_max_mem (npUnique (rows.map Prod.fst)) 0 with h0 | h0
    · rw [h0]
      obtain ⟨r, l, rfl⟩ := List.exists_cons_of_ne_nil hne
      refine ⟨r, List.mem_cons_self .., ?_⟩
      have := foldl_max_le (npUnique ((r :: l).map Prod.fst)) 0 r.1 (Or.inr (mem_ids.2 ⟨r.2, List.mem_cons_self ..⟩))
      omega
    · obtain ⟨x, hx⟩ := mem_ids.1 h0
      exact ⟨_, hx, rfl⟩
  · intro k
    rw [hC, hmu, mul_div_cancel₀ _ (numClasses_pos rows), list_sum_apply, List.map_map]
    rfl
  · intro t
    rw [hC, hSw, quad_smul, quad_sum, ← mul_assoc, mul_one_div_cancel (numClasses_pos rows), one_mul, List.map_map]
    congr 1
    refine List.map_congr_left (fun i hi => ?_)
    rw [Function.comp_apply]
    unfold ndaSwi
    rw [quad_sum, List.map_map, div_eq_mul_inv (List.sum _) _, ← List.sum_map_mul_right]
    congr 1
    refine List.map_congr_left (fun x _ => ?_)
    rw [Function.comp_apply, quad_smul, quad_outer, entry_class hi, one_div, mul_comm]
  · intro t
    rw [hC, hSb, quad_smul, quad_sum, ← mul_assoc, mul_one_div_cancel (numClasses_pos rows), one_mul, List.map_map]
    congr 1
    refine List.map_congr_left (fun i hi => ?_)
    rw [Function.comp_apply, quad_smul, wi_eq ha rows hi, sbi_eq ha rows hi, one_div, mul_comm, ← div_eq_mul_inv]

theorem vecMulVec_symm (v : Vec n) : (Matrix.vecMulVec v v)ᵀ = Matrix.vecMulVec v v := by
  ext i j; simp [Matrix.vecMulVec_apply, mul_comm]

theorem sum_transpose (l : List (Matrix (Fin n) (Fin n) ℝ)) (h : ∀ M ∈ l, Mᵀ = M) : l.sumᵀ = l.sum := by
  induction l with
  | nil => simp
  | cons a l ih =>
    rw [List.sum_cons, Matrix.transpose_add, h a (List.mem_cons_self ..), ih (fun M hM => h M (List.mem_cons_of_mem _ hM))]

theorem pairWeight_nonneg (alpha : ℝ) (x : Vec n) (L M : List (Vec n)) : 0 ≤ pairWeight alpha x L M := by
  unfold pairWeight
  have h1 := Real.rpow_nonneg (farthest_nonneg x L) alpha
  have h2 := Real.rpow_nonneg (farthest_nonneg x M) alpha
  exact div_nonneg (le_min h1 h2) (add_nonneg h1 h2)

theorem list_nonneg {α : Type} (l : List α) (F : α → ℝ) (h : ∀ a ∈ l, 0 ≤ F a) : 0 ≤ (l.map F).sum :=
  List.sum_nonneg (fun b hb => by obtain ⟨a, ha, rfl⟩ := List.mem_map.1 hb; exact h a ha)

/-- C140: both matrices are symmetric and positive semidefinite. -/
theorem C140_psd (query : Query n) (hq : IsKnn query) (K : Nat) (alpha : ℝ) (ha : 0 < alpha) (rows : List (CRow n)) (s : NdaStats n)
    (h : ndaStats query K alpha rows = some s) :
    s.Sbᵀ = s.Sb ∧ s.Swᵀ = s.Sw ∧ ∀ t, 0 ≤ t ⬝ᵥ (s.Sb *ᵥ t) ∧ 0 ≤ t ⬝ᵥ (s.Sw *ᵥ t) := by
  obtain ⟨_, hC, _, hSb, hSw⟩ := stats_some h
  obtain ⟨nn, _, _, _, _, e1, e2⟩ := C140_stats query hq K alpha ha rows s h
  have hpos : (0 : ℝ) < s.numClasses := by
    rw [hC]; exact lt_of_le_of_ne (Nat.cast_nonneg _) (Ne.symm (numClasses_pos rows))
  refine ⟨?_, ?_, fun t => ⟨?_, ?_⟩⟩
  · rw [hSb, Matrix.transpose_smul, sum_transpose]
    intro M hM
    obtain ⟨i, _, rfl⟩ := List.mem_map.1 hM
    unfold ndaSbi
    rw [Matrix.transpose_smul, sum_transpose]
    intro M hM
    obtain ⟨p, _, rfl⟩ := List.mem_map.1 hM
    rw [Matrix.transpose_smul, vecMulVec_symm]
  · rw [hSw, Matrix.transpose_smul, sum_transpose]
    intro M hM
    obtain ⟨i, _, rfl⟩ := List.mem_map.1 hM
    unfold ndaSwi
    rw [sum_transpose]
    intro M hM
    obtain ⟨p, _, rfl⟩ := List.mem_map.1 hM
    rw [Matrix.transpose_smul, vecMulVec_symm]
  · refine nonneg_of_mul_nonneg_right (?_ : 0 ≤ (s.numClasses : ℝ) * _) hpos
    rw [e2]
    refine list_nonneg _ _ (fun i _ => div_nonneg ?_ ?_)
    · exact list_nonneg _ _ (fun j _ => list_nonneg _ _ (fun x _ => mul_nonneg (pairWeight_nonneg _ _ _ _) (sq_nonneg _)))
    · exact list_nonneg _ _ (fun j _ => list_nonneg _ _ (fun x _ => pairWeight_nonneg _ _ _ _))
  · refine nonneg_of_mul_nonneg_right (?_ : 0 ≤ (s.numClasses : ℝ) * _) hpos
    rw [e1]
    exact list_nonneg _ _ (fun i _ => div_nonneg (list_nonneg _ _ (fun x _ => sq_nonneg _)) (Nat.cast_nonneg _))

/-- C140: `fit` works when the rows are different, there are at least two classes, and `K` is at least two and at most the size of
the smallest class. -/
theorem C140_succeeds (query : Query n) (hq : IsKnn query) (K : Nat) (hK : 2 ≤ K) (alpha : ℝ) (ha : 0 < alpha) (rows : List (CRow n))
    (hnd : (rows.map Prod.snd).Nodup) (hsize : ∀ r ∈ rows, K ≤ (ofClass rows r.1).length) (h2 : ∃ r ∈ rows, ∃ q ∈ rows, r.1 ≠ q.1) :
    ∃ s, ndaStats query K alpha rows = some s := by
  have hcls : ∀ i ∈ npUnique (rows.map Prod.fst), K ≤ (ofClass rows i).length := by
    intro i hi
    obtain ⟨x, hx⟩ := mem_ids.1 hi
    exact hsize _ hx
  have hndc : ∀ i, (ofClass rows i).Nodup := fun i => (List.Sublist.map Prod.snd List.filter_sublist).nodup hnd
  have hpos : ∀ i ∈ npUnique (rows.map Prod.fst), ∀ x, 0 < farthest x (neighbours query K (ofClass rows i) x) := by
    intro i hi x
    obtain ⟨hl, hs, rest, hp, _⟩ := neighbours_nearest hq (hcls i hi) x
    have hnn : (neighbours query K (ofClass rows i) x).Nodup := (List.nodup_append.1 (hp.nodup_iff.1 (hndc i))).1
    revert hl hs hnn
    generalize neighbours query K (ofClass rows i) x = L
    intro hl hs hnn
    match L, hl, hs, hnn with
    | [], hl, _, _ => simp at hl; omega
    | [a], hl, _, _ => simp at hl; omega
    | a :: b :: L, hl, hs, hnn =>
      refine lt_of_le_of_ne (farthest_nonneg _ _) (fun h0 => ?_)
      have ea := farthest_ge hs a (List.mem_cons_self ..)
      have eb := farthest_ge hs b (List.mem_cons_of_mem _ (List.mem_cons_self ..))
      rw [← h0] at ea eb
      have ea' := edist_eq_zero (le_antisymm ea (edist_nonneg _ _))
      have eb' := edist_eq_zero (le_antisymm eb (edist_nonneg _ _))
      exact (List.nodup_cons.1 hnn).1 (by rw [← ea', eb']; exact List.mem_cons_self ..)
  have hent : ∀ i ∈ npUnique (rows.map Prod.fst), ∀ x, 0 < (ndaEntry query K alpha rows i x).1 := by
    intro i hi x
    rw [entry_class hi]
    exact Real.rpow_pos_of_pos (hpos i hi x) _
  have hf : ndaFails query K alpha rows = false := by
    refine fails_false.2 ⟨?_, by omega, hcls, ?_, ?_⟩
    · obtain ⟨r, hr, _⟩ := h2
      intro h; rw [h] at hr; cases hr
    · intro i hi p _
      have := hent i hi p.2
      have := entry_nonneg (query := query) (K := K) ha rows p.1 p.2
      linarith
    · intro i hi
      rw [wi_eq ha rows hi]
      obtain ⟨j, hj, hji⟩ : ∃ j ∈ npUnique (rows.map Prod.fst), j ≠ i := by
        obtain ⟨r, hr, q, hq', hrq⟩ := h2
        by_cases h : r.1 = i
        · exact ⟨q.1, mem_ids.2 ⟨q.2, hq'⟩, fun h3 => hrq (h.trans h3.symm)⟩
        · exact ⟨r.1, mem_ids.2 ⟨r.2, hr⟩, h⟩
      obtain ⟨x, hx⟩ := mem_ids.1 hi
      have hw : 0 < pairWeight alpha x (neighbours query K (ofClass rows i) x) (neighbours query K (ofClass rows j) x) := by
        unfold pairWeight
        have h1 := Real.rpow_pos_of_pos (hpos i hi x) alpha
        have h3 := Real.rpow_pos_of_pos (hpos j hj x) alpha
        exact div_pos (lt_min h1 h3) (add_pos h1 h3)
      have hin : 0 < ((ofClass rows i).map (fun x => pairWeight alpha x (neighbours query K (ofClass rows i) x)
          (neighbours query K (ofClass rows j) x))).sum :=
        lt_of_lt_of_le hw (List.single_le_sum (fun b hb => by obtain ⟨y, _, rfl⟩ := List.mem_map.1 hb; exact pairWeight_nonneg _ _ _ _) _
          (List.mem_map.2 ⟨x, mem_ofClass.2 hx, rfl⟩))
      refine (lt_of_lt_of_le hin (List.single_le_sum ?_ _ (List.mem_map.2 ⟨j, List.mem_filter.2 ⟨hj, by simpa using hji⟩, rfl⟩))).ne'
      intro b hb
      obtain ⟨k, _, rfl⟩ := List.mem_map.1 hb
      exact list_nonneg _ _ (fun x _ => pairWeight_nonneg _ _ _ _)
  unfold ndaStats
  rw [hf]
  exact ⟨_, rfl⟩

/-- C140 (limit): with `K = 1` the nearest neighbour of a row in its class is the row itself: all weights are zero and the matrix
between classes is undefined (NaN), whatever the data. -/
theorem C140_one_neighbour_fails (query : Query n) (hq : IsKnn query) (alpha : ℝ) (ha : 0 < alpha) (rows : List (CRow n)) :
    ndaStats query 1 alpha rows = none := by
  by_contra hne
  obtain ⟨s, hs⟩ := Option.ne_none_iff_exists'.1 hne
  obtain ⟨hf, -⟩ := stats_some hs
  obtain ⟨hr, _, hK, _, hw⟩ := fails_false.1 hf
  obtain ⟨r, l, rfl⟩ := List.exists_cons_of_ne_nil hr
  have hi : r.1 ∈ npUnique ((r :: l).map Prod.fst) := mem_ids.2 ⟨r.2, List.mem_cons_self ..⟩
  refine hw r.1 hi ?_
  have hzero : ∀ x ∈ ofClass (r :: l) r.1, farthest x (neighbours query 1 (ofClass (r :: l) r.1) x) = 0 := by
    intro x hx
    obtain ⟨hl, hs, rest, hp, hmin⟩ := neighbours_nearest hq (hK r.1 hi) x
    revert hl hs hp hmin
    generalize neighbours query 1 (ofClass (r :: l) r.1) x = L
    intro hl hs hp hmin
    obtain ⟨a, rfl⟩ := List.length_eq_one_iff.1 hl
    have hfa : farthest x [a] = edist x a := rfl
    rw [hfa]
    rcases List.mem_append.1 (hp.subset hx) with h | h
    · rw [← List.mem_singleton.1 h, edist_self]
    · have := hmin a (List.mem_singleton.2 rfl) x h
      rw [edist_self] at this
      exact le_antisymm this (edist_nonneg _ _)
  unfold ndaWi
  refine List.sum_eq_zero (fun b hb => ?_)
  obtain ⟨p, hp, rfl⟩ := List.mem_map.1 hb
  have hx : p.2 ∈ ofClass (r :: l) r.1 := by
    unfold ndaPairs at hp
    obtain ⟨L, hL, hp⟩ := List.mem_flatten.1 hp
    obtain ⟨j, _, rfl⟩ := List.mem_map.1 hL
    obtain ⟨x, hx, rfl⟩ := List.mem_map.1 hp
    exact hx
  unfold ndaWeight
  have h0 : (ndaEntry query 1 alpha (r :: l) r.1 p.2).1 = 0 := by
    rw [entry_class hi, hzero p.2 hx, Real.zero_rpow ha.ne']
  rw [h0, min_eq_left (entry_nonneg ha _ _ _), zero_div]

/-- C140: a class with fewer rows than neighbours raises. -/
theorem C140_small_class_raises (query : Query n) (K : Nat) (alpha : ℝ) (rows : List (CRow n)) (r : CRow n) (hr : r ∈ rows)
    (h : (ofClass rows r.1).length < K) : ndaStats query K alpha rows = none := by
  by_contra hne
  obtain ⟨s, hs⟩ := Option.ne_none_iff_exists'.1 hne
  have := (fails_false.1 (stats_some hs).1).2.2.1 r.1 (mem_ids.2 ⟨r.2, hr⟩)
  omega

/-- C140 (defect): the command-line tool recomputes the statistics with the default `K = 10` after the training, so that it raises
before saving whenever a class has fewer than ten rows, also with a smaller `--k`. -/
theorem C140_tool_needs_ten (query : Query (n + 1)) (eig : NdaStats (n + 1) → Option (Matrix (Fin (n + 1)) (Fin (n + 1)) ℝ)) (K : Nat) (alpha : ℝ)
    (dim : Option Nat) (rows : List (CRow (n + 1))) (r : CRow (n + 1)) (hr : r ∈ rows) (h : (ofClass rows r.1).length < 10) :
    trainNda query eig K alpha dim rows = none := by
  have hany : (npUnique (rows.map Prod.fst)).any (fun i => decide ((ofClass rows i).length < 10)) = true :=
    List.any_eq_true.2 ⟨r.1, mem_ids.2 ⟨r.2, hr⟩, by simpa using h⟩
  unfold trainNda
  cases ndaStats query K alpha rows with
  | none => rfl
  | some s =>
    cases h1 : eig s with
    | none => simp [h1]
    | some V =>
      cases h2 : ndaFit s V dim with
      | none => simp [h1, h2]
      | some m => simp [h1, h2, hany]

/-- C140: what the tool trains: with `la.eigh` working as documented, the transformed matrix within classes is the identity and the
matrix between classes is diagonal, with decreasing entries; the mean is that of the statistics. -/
theorem C140_train (query : Query (n + 1)) (eig : NdaStats (n + 1) → Option (Matrix (Fin (n + 1)) (Fin (n + 1)) ℝ))
    (he : ∀ s V, eig s = some V → ∃ d, IsEighGen s.Sb s.Sw d V) (K : Nat) (alpha : ℝ)
    (dim : Option Nat) (rows : List (CRow (n + 1))) (mu : Vec (n + 1)) (T : List (Vec (n + 1)))
    (h : trainNda query eig K alpha dim rows = some (mu, T)) :
    ∃ s, ndaStats query K alpha rows = some s ∧ mu = s.mu ∧ T.length = dim.getD (n + 1) ∧
      ∀ (a b : Nat) (ha : a < T.length) (hb : b < T.length), T[a] ⬝ᵥ (s.Sw *ᵥ T[b]) = (if a = b then 1 else 0) ∧
        (a ≠ b → T[a] ⬝ᵥ (s.Sb *ᵥ T[b]) = 0) ∧ (a ≤ b → T[b] ⬝ᵥ (s.Sb *ᵥ T[b]) ≤ T[a] ⬝ᵥ (s.Sb *ᵥ T[a])) := by
  unfold trainNda at h
  cases hs : ndaStats query K alpha rows with
  | none => rw [hs] at h; exact absurd h (by simp)
  | some s =>
    rw [hs] at h
    cases hV : eig s with
    | none => simp [hV] at h
    | some V =>
      cases hm : ndaFit s V dim with
      | none => simp [hV, hm] at h
      | some m =>
        simp only [hV, hm, Option.bind_eq_bind, Option.bind_some] at h
        split at h
        · cases h
        · have hmT : m = (mu, T) := Option.some.inj h
          unfold ndaFit at hm
          obtain ⟨T', hT', e⟩ := Option.map_eq_some_iff.1 hm
          rw [hmT] at e
          obtain ⟨e1, e2⟩ := Prod.mk.inj e
          subst e2
          obtain ⟨d, hd⟩ := he s V hV
          refine ⟨s, rfl, e1.symm, ?_, fun a b ha hb => C75_diagonal s.Sb s.Sw d V hd dim T' hT' a b ha hb⟩
          have hle : dim.getD (n + 1) ≤ n + 1 := by
            unfold pcaCols at hT'
            cases dim with
            | none => exact le_refl _
            | some k =>
              by_contra hk
              have : ¬ k ≤ n + 1 := hk
              simp [this] at hT'
          obtain ⟨T2, h2, h3⟩ := (C75_dim V dim).2 hle
          rw [show ldaCols V dim = pcaCols V dim from rfl, hT'] at h2
          rw [Option.some.inj h2, h3]

end Hyp.Transforms
