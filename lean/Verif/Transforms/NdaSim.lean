import Verif.Transforms.NdaMain

/-!
C140: reordering the rows and similarity transformations of the data; a query that meets `IsKnn`.
-/

namespace Hyp.Transforms
open scoped BigOperators
open Matrix

variable {n : Nat}

section
variable (Q : Matrix (Fin n) (Fin n) ℝ) (c : Vec n) (a : ℝ)

/-- the transformation of the data: `x ↦ Q x + c` -/
def affine (x : Vec n) : Vec n := Q *ᵥ x + c

theorem norm_mul (ha : 0 < a) (hQ : Qᵀ * Q = (a ^ 2) • (1 : Matrix (Fin n) (Fin n) ℝ)) (v : Vec n) : ∑ i, (Q *ᵥ v) i ^ 2 = a ^ 2 * ∑ i, v i ^ 2 := by
  have e : ∀ w : Vec n, ∑ i, w i ^ 2 = w ⬝ᵥ w := fun w => Finset.sum_congr rfl (fun i _ => pow_two _)
  rw [e, e, Matrix.dotProduct_mulVec, Matrix.vecMul_mulVec, hQ]
  simp [Matrix.smul_mulVec, dotProduct_smul, smul_dotProduct, Matrix.vecMul_smul]

theorem edist_affine (ha : 0 < a) (hQ : Qᵀ * Q = (a ^ 2) • (1 : Matrix (Fin n) (Fin n) ℝ)) (x y : Vec n) :
    edist (affine Q c x) (affine Q c y) = a * edist x y := by
  unfold edist
  have : ∑ i, (affine Q c x i - affine Q c y i) ^ 2 = ∑ i, (Q *ᵥ (x - y)) i ^ 2 := by
    refine Finset.sum_congr rfl (fun i _ => ?_)
    unfold affine
    rw [Matrix.mulVec_sub]
    simp
  rw [this, norm_mul Q a ha hQ, Real.sqrt_mul (sq_nonneg a), Real.sqrt_sq ha.le]
  rfl

theorem pcaMu_affine (L : List (Vec n)) (hL : L ≠ []) : pcaMu (L.map (affine Q c)) = affine Q c (pcaMu L) := by
  have hl : (L.length : ℝ) ≠ 0 := by rw [Nat.cast_ne_zero]; exact fun h => hL (List.length_eq_zero_iff.1 h)
  have hsum : ∀ i, ((L.map (affine Q c)).map (fun x => x i)).sum = (Q *ᵥ (fun k => (L.map (fun x => x k)).sum)) i + L.length * c i := by
    intro i
    clear hl hL
    induction L with
    | nil => simp [Matrix.mulVec, dotProduct]
    | cons x L ih =>
      have e : (fun k => ((x :: L).map (fun x => x k)).sum) = x + (fun k => (L.map (fun x => x k)).sum) := by
        funext k; simp
      rw [List.map_cons, List.map_cons, List.sum_cons, ih, e, Matrix.mulVec_add]
      unfold affine
      simp only [Pi.add_apply, List.length_cons, Nat.cast_add, Nat.cast_one]
      ring
  funext i
  unfold pcaMu
  rw [hsum, List.length_map]
  unfold affine
  have e : (fun i => (L.map (fun x => x i)).sum / (L.length : ℝ)) = ((L.length : ℝ)⁻¹) • (fun k => (L.map (fun x => x k)).sum) := by
    funext k; simp [div_eq_inv_mul]
  rw [e, Matrix.mulVec_smul]
  simp only [Pi.add_apply, Pi.smul_apply, smul_eq_mul]
  field_simp

theorem outer_mul (v : Vec n) : Matrix.vecMulVec (Q *ᵥ v) (Q *ᵥ v) = Q * Matrix.vecMulVec v v * Qᵀ := by
  rw [Matrix.mul_vecMulVec, Matrix.vecMulVec_mul, Matrix.vecMul_transpose]

theorem conj_sum (l : List (Matrix (Fin n) (Fin n) ℝ)) : (l.map (fun M => Q * M * Qᵀ)).sum = Q * l.sum * Qᵀ := by
  induction l with
  | nil => simp
  | cons b l ih => rw [List.map_cons, List.sum_cons, ih, List.sum_cons, Matrix.mul_add, Matrix.add_mul]

theorem conj_smul (t : ℝ) (M : Matrix (Fin n) (Fin n) ℝ) : t • (Q * M * Qᵀ) = Q * (t • M) * Qᵀ := by
  rw [Matrix.mul_smul, Matrix.smul_mul]

end

theorem min_scale (s u v : ℝ) (hs : 0 < s) : min (s * u) (s * v) / (s * u + s * v) = min u v / (u + v) := by
  rw [← mul_min_of_nonneg _ _ hs.le, ← mul_add, mul_div_mul_left _ _ hs.ne']

theorem ofClass_perm {rows rows' : List (CRow n)} (f : Vec n → Vec n) (h : rows'.Perm (rows.map (fun r => (r.1, f r.2)))) (i : Nat) :
    (ofClass rows' i).Perm ((ofClass rows i).map f) := by
  have h1 := ((h.filter (fun r => decide (r.1 = i))).map Prod.snd)
  refine h1.trans (List.Perm.of_eq ?_)
  unfold ofClass
  rw [List.filter_map, List.map_map, List.map_map]
  rfl

theorem ids_eq {rows rows' : List (CRow n)} (f : Vec n → Vec n) (h : rows'.Perm (rows.map (fun r => (r.1, f r.2)))) :
    npUnique (rows'.map Prod.fst) = npUnique (rows.map Prod.fst) := by
  refine sorted_ext (npUnique_sorted _) (npUnique_sorted _) (fun i => ?_)
  rw [mem_npUnique, mem_npUnique, (h.map Prod.fst).mem_iff, List.map_map]
  rfl

theorem affine_sub (Q : Matrix (Fin n) (Fin n) ℝ) (c x y : Vec n) : affine Q c x - affine Q c y = Q *ᵥ (x - y) := by
  unfold affine; rw [Matrix.mulVec_sub]; abel

/-- C140: the statistics do not depend on the order of the rows, and follow similarity transformations of the data
(`Q` a rotation or reflection times `a`, `c` a shift) when no two rows of a class have the same distance from a row: both
matrices become `Q S Q'`, and the mean is mapped (with a shift of `c` times the number of classes divided by `num_classes`). -/
theorem C140_similarity (query : Query n) (hq : IsKnn query) (K : Nat) (alpha : ℝ) (hal : 0 < alpha) (rows rows' : List (CRow n))
    (Q : Matrix (Fin n) (Fin n) ℝ) (c : Vec n) (a : ℝ) (ha : 0 < a) (hQ : Qᵀ * Q = (a ^ 2) • (1 : Matrix (Fin n) (Fin n) ℝ))
    (hrows : rows'.Perm (rows.map (fun r => (r.1, Q *ᵥ r.2 + c))))
    (hties : ∀ r ∈ rows, ∀ i, (ofClass rows i).Pairwise (fun u v => edist r.2 u ≠ edist r.2 v))
    (s : NdaStats n) (h : ndaStats query K alpha rows = some s) :
    ∃ s', ndaStats query K alpha rows' = some s' ∧ s'.numClasses = s.numClasses ∧ s'.Sb = Q * s.Sb * Qᵀ ∧ s'.Sw = Q * s.Sw * Qᵀ ∧
      s'.mu = Q *ᵥ s.mu + (((npUnique (rows.map Prod.fst)).length : ℝ) / s.numClasses) • c := by
  have hrows' : rows'.Perm (rows.map (fun r => (r.1, affine Q c r.2))) := hrows
  obtain ⟨hf, hC, hmu, hSb, hSw⟩ := stats_some h
  obtain ⟨hne, hK0, hK, hd, hw⟩ := fails_false.1 hf
  have hids := ids_eq (affine Q c) hrows'
  have hof := ofClass_perm (affine Q c) hrows'
  have hlen : ∀ i, (ofClass rows' i).length = (ofClass rows i).length := fun i => by rw [(hof i).length_eq, List.length_map]
  have hnum : ndaNumClasses rows' = ndaNumClasses rows := by unfold ndaNumClasses; rw [hids]
  have hmem : ∀ i, ∀ x ∈ ofClass rows i, ∃ r ∈ rows, r.2 = x := fun i x hx => ⟨(i, x), mem_ofClass.1 hx, rfl⟩
  have hnn : ∀ i ∈ npUnique (rows.map Prod.fst), ∀ x, (∃ r ∈ rows, r.2 = x) →
      neighbours query K (ofClass rows' i) (affine Q c x) = (neighbours query K (ofClass rows i) x).map (affine Q c) := by
    rintro i hi x ⟨r, hr, rfl⟩
    exact nearest_map (affine Q c) a ha (fun u => edist_affine Q c a ha hQ r.2 u) (hof i) (hties r hr i)
      (neighbours_nearest hq (hK i hi) r.2) (neighbours_nearest hq (by rw [hlen]; exact hK i hi) _)
  have hnne : ∀ i ∈ npUnique (rows.map Prod.fst), ∀ x, neighbours query K (ofClass rows i) x ≠ [] := by
    intro i hi x h0
    have := (neighbours_nearest hq (hK i hi) x).1
    rw [h0] at this
    exact hK0 this.symm
  have hapos : 0 < a ^ alpha := Real.rpow_pos_of_pos ha _
  have hent : ∀ i x, (∃ r ∈ rows, r.2 = x) → ndaEntry query K alpha rows' i (affine Q c x) =
      (a ^ alpha * (ndaEntry query K alpha rows i x).1, Q *ᵥ (ndaEntry query K alpha rows i x).2) := by
    intro i x hx
    by_cases hi : i ∈ npUnique (rows.map Prod.fst)
    · rw [entry_class hi, entry_class (by rw [hids]; exact hi), hnn i hi x hx]
      refine Prod.ext ?_ ?_
      · show farthest _ _ ^ alpha = a ^ alpha * farthest _ _ ^ alpha
        rw [← Real.mul_rpow ha.le (farthest_nonneg _ _)]
        congr 1
        unfold farthest
        rw [List.map_map]
        have e : (edist (affine Q c x) ∘ affine Q c) = (fun v => a * v) ∘ edist x := by
          funext u; exact edist_affine Q c a ha hQ x u
        rw [e, ← List.map_map, List.getLast?_map]
        cases ((neighbours query K (ofClass rows i) x).map (edist x)).getLast? with
        | none => simp
        | some v => rfl
      · show affine Q c x - pcaMu _ = Q *ᵥ (x - pcaMu _)
        rw [pcaMu_affine Q c _ (hnne i hi x), affine_sub]
    · rw [entry_other hal hi, entry_other hal (by rw [hids]; exact hi)]
      simp
  have hwt : ∀ i j x, (∃ r ∈ rows, r.2 = x) → ndaWeight query K alpha rows' i j (affine Q c x) = ndaWeight query K alpha rows i j x := by
    intro i j x hx
    unfold ndaWeight
    rw [hent i x hx, hent j x hx]
    exact min_scale _ _ _ hapos
  have hpairs : ∀ i, (ndaPairs rows' (ndaNumClasses rows) i).Perm ((ndaPairs rows (ndaNumClasses rows) i).map (fun p => (p.1, affine Q c p.2))) := by
    intro i
    unfold ndaPairs
    generalize (List.range (ndaNumClasses rows)).filter (fun j => decide (j ≠ i)) = l
    induction l with
    | nil => exact List.Perm.refl _
    | cons j l ih =>
      rw [List.map_cons, List.flatten_cons, List.map_cons, List.flatten_cons, List.map_append]
      refine List.Perm.append ?_ ih
      refine ((hof i).map (fun x => (j, x))).trans (List.Perm.of_eq ?_)
      rw [List.map_map, List.map_map]
      rfl
  have hpm : ∀ i, ∀ p ∈ ndaPairs rows (ndaNumClasses rows) i, ∃ r ∈ rows, r.2 = p.2 := by
    intro i p hp
    unfold ndaPairs at hp
    obtain ⟨L, hL, hp⟩ := List.mem_flatten.1 hp
    obtain ⟨j, _, rfl⟩ := List.mem_map.1 hL
    obtain ⟨x, hx, rfl⟩ := List.mem_map.1 hp
    exact hmem i x hx
  have hwi : ∀ i, ndaWi query K alpha rows' (ndaNumClasses rows) i = ndaWi query K alpha rows (ndaNumClasses rows) i := by
    intro i
    unfold ndaWi
    rw [((hpairs i).map _).sum_eq, List.map_map]
    congr 1
    exact List.map_congr_left (fun p hp => hwt i p.1 p.2 (hpm i p hp))
  have hsb : ∀ i, ndaSbi query K alpha rows' (ndaNumClasses rows) i = Q * ndaSbi query K alpha rows (ndaNumClasses rows) i * Qᵀ := by
    intro i
    unfold ndaSbi
    rw [((hpairs i).map _).sum_eq, List.map_map, ← conj_sum, List.map_map]
    congr 1
    refine List.map_congr_left (fun p hp => ?_)
    simp only [Function.comp_apply]
    rw [hwt i p.1 p.2 (hpm i p hp), hent p.1 p.2 (hpm i p hp), outer_mul, conj_smul]
  have hsw : ∀ i, ndaSwi query K alpha rows' i = Q * ndaSwi query K alpha rows i * Qᵀ := by
    intro i
    unfold ndaSwi
    rw [((hof i).map _).sum_eq, List.map_map, ← conj_sum, List.map_map]
    congr 1
    refine List.map_congr_left (fun x hx => ?_)
    simp only [Function.comp_apply]
    rw [hent i x (hmem i x hx), outer_mul, conj_smul, hlen]
  have hf' : ndaFails query K alpha rows' = false := by
    refine fails_false.2 ⟨?_, hK0, ?_, ?_, ?_⟩
    · intro h0
      rw [h0] at hrows'
      exact hne (List.map_eq_nil_iff.1 hrows'.nil_eq.symm)
    · intro i hi; rw [hids] at hi; rw [hlen]; exact hK i hi
    · intro i hi p hp
      rw [hids] at hi
      rw [hnum] at hp
      obtain ⟨q, hq', rfl⟩ := List.mem_map.1 ((hpairs i).subset hp)
      rw [hent i q.2 (hpm i q hq'), hent q.1 q.2 (hpm i q hq')]
      rw [← mul_add]
      exact mul_ne_zero hapos.ne' (hd i hi q hq')
    · intro i hi
      rw [hids] at hi
      rw [hnum, hwi]
      exact hw i hi
  have hst : ndaStats query K alpha rows' = some ⟨fun k => (((npUnique (rows'.map Prod.fst)).map (fun i => pcaMu (ofClass rows' i))).sum) k / ndaNumClasses rows',
      (1 / (ndaNumClasses rows' : ℝ)) • ((npUnique (rows'.map Prod.fst)).map (fun i => (1 / ndaWi query K alpha rows' (ndaNumClasses rows') i) •
        ndaSbi query K alpha rows' (ndaNumClasses rows') i)).sum,
      (1 / (ndaNumClasses rows' : ℝ)) • ((npUnique (rows'.map Prod.fst)).map (fun i => ndaSwi query K alpha rows' i)).sum, ndaNumClasses rows'⟩ := by
    unfold ndaStats
    rw [hf']
    rfl
  refine ⟨_, hst, by rw [hC]; exact hnum, ?_, ?_, ?_⟩
  · show (1 / (ndaNumClasses rows' : ℝ)) • _ = _
    rw [hnum, hids, hSb, ← conj_smul]
    congr 1
    rw [← conj_sum, List.map_map]
    congr 1
    refine List.map_congr_left (fun i _ => ?_)
    rw [hwi, hsb, Function.comp_apply, conj_smul]
  · show (1 / (ndaNumClasses rows' : ℝ)) • _ = _
    rw [hnum, hids, hSw, ← conj_smul]
    congr 1
    rw [← conj_sum, List.map_map]
    congr 1
    exact List.map_congr_left (fun i _ => hsw i)
  · show (fun k => (((npUnique (rows'.map Prod.fst)).map (fun i => pcaMu (ofClass rows' i))).sum) k / (ndaNumClasses rows' : ℝ)) = _
    have hm : ∀ i ∈ npUnique (rows.map Prod.fst), pcaMu (ofClass rows' i) = affine Q c (pcaMu (ofClass rows i)) := by
      intro i hi
      have hne' : ofClass rows i ≠ [] := by
        intro h0
        have := hK i hi
        rw [h0] at this
        exact hK0 (Nat.le_zero.1 this)
      rw [← pcaMu_affine Q c _ hne']
      funext k
      unfold pcaMu
      rw [((hof i).map (fun x => x k)).sum_eq, (hof i).length_eq]
    have hsum : ∀ ids : List Nat, (∀ i ∈ ids, pcaMu (ofClass rows' i) = affine Q c (pcaMu (ofClass rows i))) →
        (ids.map (fun i => pcaMu (ofClass rows' i))).sum = Q *ᵥ (ids.map (fun i => pcaMu (ofClass rows i))).sum + (ids.length : ℝ) • c := by
      intro ids hall
      induction ids with
      | nil => simp
      | cons i l ih =>
        rw [List.map_cons, List.sum_cons, ih (fun j hj => hall j (List.mem_cons_of_mem _ hj)), hall i (List.mem_cons_self ..),
          List.map_cons, List.sum_cons, Matrix.mulVec_add]
        unfold affine
        rw [List.length_cons, Nat.cast_add, Nat.cast_one, add_smul, one_smul]
        abel
    rw [hids, hnum, hsum _ hm, hC]
    funext k
    have emu : s.mu = (ndaNumClasses rows : ℝ)⁻¹ • ((npUnique (rows.map Prod.fst)).map (fun i => pcaMu (ofClass rows i))).sum := by
      funext j; rw [hmu j, div_eq_inv_mul]; rfl
    rw [emu, Matrix.mulVec_smul]
    simp only [Pi.add_apply, Pi.smul_apply, smul_eq_mul]
    rw [div_eq_inv_mul]
    ring

/-! ### a query that meets the specification; a concrete case -/

open Classical in
/-- nearest neighbours by sorting -/
noncomputable def sortQuery : Query n := fun pts x k =>
  ((List.range pts.length).mergeSort (fun i j => decide (edist x (pts.getD i 0) ≤ edist x (pts.getD j 0)))).take k

theorem sortQuery_knn : IsKnn (sortQuery (n := n)) := by
  have hs : ∀ (pts : List (Vec n)) (x : Vec n), ((List.range pts.length).mergeSort
      (fun i j => decide (edist x (pts.getD i 0) ≤ edist x (pts.getD j 0)))).Pairwise (fun i j => edist x (pts.getD i 0) ≤ edist x (pts.getD j 0)) := by
    intro pts x
    have := List.pairwise_mergeSort (le := fun i j => decide (edist x (pts.getD i 0) ≤ edist x (pts.getD j 0)))
      (by intro a b c h1 h2; simp only [decide_eq_true_eq] at *; exact le_trans h1 h2)
      (by intro a b; simp only [Bool.or_eq_true, decide_eq_true_eq]; exact le_total _ _) (List.range pts.length)
    exact this.imp (fun h => by simpa using h)
  have hp := fun (pts : List (Vec n)) (x : Vec n) => List.mergeSort_perm (List.range pts.length)
    (fun i j => decide (edist x (pts.getD i 0) ≤ edist x (pts.getD j 0)))
  refine ⟨?_, ?_, ?_, ?_, ?_⟩
  · intro pts x k hk
    unfold sortQuery
    rw [List.length_take, (hp pts x).length_eq, List.length_range]
    omega
  · intro pts x k _
    exact (List.take_sublist _ _).nodup ((hp pts x).nodup_iff.2 List.nodup_range)
  · intro pts x k _ i hi
    exact List.mem_range.1 ((hp pts x).subset (List.mem_of_mem_take hi))
  · intro pts x k _
    exact (hs pts x).sublist (List.take_sublist _ _)
  · intro pts x k _ i hi j hj hn
    have hj' : j ∈ (List.range pts.length).mergeSort (fun i j => decide (edist x (pts.getD i 0) ≤ edist x (pts.getD j 0))) :=
      (hp pts x).symm.subset (List.mem_range.2 hj)
    have := hs pts x
    rw [← List.take_append_drop k ((List.range pts.length).mergeSort (fun i j => decide (edist x (pts.getD i 0) ≤ edist x (pts.getD j 0))))] at this hj'
    rcases List.mem_append.1 hj' with h | h
    · exact absurd h hn
    · exact (List.pairwise_append.1 this).2.2 i hi j h

/-- two classes of two rows each on a line: the statistics exist -/
example : ∃ s, ndaStats (n := 1) sortQuery 2 1 [(0, ![0]), (0, ![1]), (1, ![5]), (1, ![7])] = some s := by
  refine C140_succeeds sortQuery sortQuery_knn 2 (le_refl _) 1 one_pos _ ?_ ?_ ?_
  · simp
  · intro r hr
    simp only [List.mem_cons, List.not_mem_nil, or_false] at hr
    rcases hr with rfl | rfl | rfl | rfl <;> simp [ofClass]
  · exact ⟨(0, ![0]), by simp, (1, ![5]), by simp, by simp⟩

/-- C140 (defect): class numbers with a gap: `num_classes` is the largest number plus one, so that for classes 0 and 2 the mean is
two thirds of the mean of the class means (6 here instead of 9). -/
theorem C140_gap : ∃ s, ndaStats (n := 1) sortQuery 2 1 [(0, ![5]), (0, ![7]), (2, ![11]), (2, ![13])] = some s ∧ s.mu = ![6] := by
  obtain ⟨s, hs⟩ := C140_succeeds (n := 1) sortQuery sortQuery_knn 2 (le_refl _) 1 one_pos [(0, ![5]), (0, ![7]), (2, ![11]), (2, ![13])] (by simp)
    (by
      intro r hr
      simp only [List.mem_cons, List.not_mem_nil, or_false] at hr
      rcases hr with rfl | rfl | rfl | rfl <;> simp [ofClass])
    ⟨(0, ![5]), by simp, (2, ![11]), by simp, by simp⟩
  refine ⟨s, hs, ?_⟩
  obtain ⟨_, _, hmu, _, _⟩ := stats_some hs
  have hids : npUnique (([(0, ![5]), (0, ![7]), (2, ![11]), (2, ![13])] : List (CRow 1)).map Prod.fst) = [0, 2] := by
    show npUnique [0, 0, 2, 2] = [0, 2]
    decide
  have hC : ndaNumClasses ([(0, ![5]), (0, ![7]), (2, ![11]), (2, ![13])] : List (CRow 1)) = 3 := by
    unfold ndaNumClasses; rw [hids]; rfl
  funext k
  rw [hmu, hids, hC, Subsingleton.elim k 0]
  simp [ofClass, pcaMu]
  norm_num

end Hyp.Transforms
