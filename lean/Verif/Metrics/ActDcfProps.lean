import Verif.Metrics.ActDcf
import Verif.Metrics.HullProps

/-!
# C32 (actual detection cost), C34 (Cllr), C54 (optimal log-likelihood ratios)
-/

namespace Hyp.Metrics

section rank
variable {K : Type} [Field K] [LinearOrder K]

theorem idxOf_sorted (l : List K) (i : Nat) (hi : i < l.length) :
    (stableArgsort l).idxOf i = (List.range l.length).countP (fun j => decide (j ≠ i) && stableBefore l j i) := by
  have hmem : i ∈ stableArgsort l := (stableArgsort_perm l).mem_iff.2 (List.mem_range.2 hi)
  have hnd : (stableArgsort l).Nodup := (stableArgsort_perm l).nodup_iff.2 List.nodup_range
  have hs := stableArgsort_sorted l
  rw [← (stableArgsort_perm l).countP_eq]
  obtain ⟨A, B, hAB⟩ := List.append_of_mem hmem
  rw [hAB] at hnd hs ⊢
  have hA : i ∉ A := by
    intro h
    have := (List.nodup_append.1 hnd).2.2 i h i (by simp)
    exact this rfl
  have hB : i ∉ B := (List.nodup_cons.1 (List.nodup_append.1 hnd).2.1).1
  rw [List.idxOf_append_of_notMem hA, List.idxOf_cons_self, Nat.add_zero, List.countP_append, List.countP_cons_of_neg (by simp)]
  have h1 : A.countP (fun j => decide (j ≠ i) && stableBefore l j i) = A.length := by
    rw [List.countP_eq_length]
    intro j hj
    have h1 : stableBefore l j i = true := (List.pairwise_append.1 hs).2.2 j hj i (by simp)
    have h2 : j ≠ i := fun h => hA (h ▸ hj)
    simp [h1, h2]
  have h2 : B.countP (fun j => decide (j ≠ i) && stableBefore l j i) = 0 := by
    rw [List.countP_eq_zero]
    intro j hj hc
    have h1 : stableBefore l i j = true := (List.pairwise_cons.1 (List.pairwise_append.1 hs).2.1).1 j hj
    simp only [Bool.and_eq_true, decide_eq_true_eq] at hc
    obtain ⟨h3, h4⟩ := hc
    simp only [stableBefore, decide_eq_true_eq] at h1 h4
    rcases h1 with h1 | ⟨h1, h1'⟩ <;> rcases h4 with h4 | ⟨h4, h4'⟩
    · exact absurd (h1.trans h4) (lt_irrefl _)
    · exact absurd h1 (by rw [h4]; exact lt_irrefl _)
    · exact absurd h4 (by rw [h1]; exact lt_irrefl _)
    · exact h3 (by omega)
  rw [h1, h2, Nat.add_zero]

/-- the rank of a threshold among strictly descending thresholds followed by scores. -/
theorem rank_eq (t x : List K) (ht : t.Pairwise (· > ·)) (i : Nat) (hi : i < t.length) :
    (stableArgsort (t ++ x)).idxOf i + 1 = (t.length - i) + x.countP (fun y => decide (y < t[i])) := by
  have hgi : (t ++ x).getD i 0 = t[i] := by
    rw [List.getD_eq_getElem?_getD, List.getElem?_append_left hi, List.getElem?_eq_getElem hi]; rfl
  rw [idxOf_sorted _ _ (by rw [List.length_append]; omega), List.length_append, List.range_add, List.countP_append]
  have h1 : (List.range t.length).countP (fun j => decide (j ≠ i) && stableBefore (t ++ x) j i) = t.length - 1 - i := by
    have e : List.range t.length = List.range (i + 1) ++ (List.range (t.length - 1 - i)).map (fun j => i + 1 + j) := by
      rw [← List.range_add]; congr 1; omega
    rw [e, List.countP_append]
    have e1 : (List.range (i + 1)).countP (fun j => decide (j ≠ i) && stableBefore (t ++ x) j i) = 0 := by
      rw [List.countP_eq_zero]
      intro j hj hc
      have hj : j < i + 1 := List.mem_range.1 hj
      simp only [Bool.and_eq_true, decide_eq_true_eq, stableBefore, hgi] at hc
      obtain ⟨h2, h3⟩ := hc
      have hgt := List.pairwise_iff_getElem.1 ht j i (by omega) hi (by omega)
      have hgj : (t ++ x).getD j 0 = t[j]'(by omega) := by
        rw [List.getD_eq_getElem?_getD, List.getElem?_append_left (by omega), List.getElem?_eq_getElem (by omega)]; rfl
      rw [hgj] at h3
      rcases h3 with h3 | ⟨h3, _⟩
      · exact absurd (h3.trans hgt) (lt_irrefl _)
      · exact absurd h3 hgt.ne'
    have e2 : ((List.range (t.length - 1 - i)).map (fun j => i + 1 + j)).countP (fun j => decide (j ≠ i) && stableBefore (t ++ x) j i) =
        t.length - 1 - i := by
      rw [List.countP_eq_length.2]
      · simp
      · intro j hj
        obtain ⟨a, ha, rfl⟩ := List.mem_map.1 hj
        have ha := List.mem_range.1 ha
        have hgt := List.pairwise_iff_getElem.1 ht i (i + 1 + a) hi (by omega) (by omega)
        have hgj : (t ++ x).getD (i + 1 + a) 0 = t[i + 1 + a]'(by omega) := by
          rw [List.getD_eq_getElem?_getD, List.getElem?_append_left (by omega), List.getElem?_eq_getElem (by omega)]; rfl
        simp only [Bool.and_eq_true, decide_eq_true_eq, stableBefore, hgi, hgj]
        exact ⟨by omega, Or.inl hgt⟩
    rw [e1, e2, Nat.zero_add]
  have h2 : ((List.range x.length).map (fun j => t.length + j)).countP (fun j => decide (j ≠ i) && stableBefore (t ++ x) j i) =
      x.countP (fun y => decide (y < t[i])) := by
    rw [List.countP_map, ← countP_range_getD x]
    apply List.countP_congr
    intro j hj
    have hgj : (t ++ x).getD (t.length + j) 0 = x.getD j 0 := by
      rw [List.getD_eq_getElem?_getD, List.getElem?_append_right (by omega), List.getD_eq_getElem?_getD]
      congr 2; omega
    simp only [Function.comp, Bool.and_eq_true, decide_eq_true_eq, stableBefore, hgi, hgj]
    constructor
    · rintro ⟨_, h | ⟨_, h⟩⟩
      · exact h
      · omega
    · intro h
      exact ⟨by omega, Or.inl h⟩
  rw [h1, h2]
  omega

/-- With strictly descending thresholds the counts are the misses and false alarms at each threshold. -/
theorem actDcfAt_spec [IsStrictOrderedRing K] (t tar non prior : List K) (normalize : Bool) (hne : tar ≠ []) (hnn : non ≠ [])
    (ht : t.Pairwise (· > ·)) (hl : prior.length = t.length) :
    actDcfAt t tar non prior normalize = some (List.zipWith (fun th p =>
      (costAt tar non p normalize th, pMissAt tar th, pFaAt non th)) t prior) := by
  unfold actDcfAt
  rw [if_neg (by simp [hne, hnn])]
  dsimp only
  congr 1
  apply List.ext_getElem
  · simp [hl]
  · intro i h1 h2
    have hi : i < t.length := by simpa using h1
    simp only [List.getElem_map, List.getElem_range, List.getElem_zipWith]
    have r1 : (ranks (t ++ tar) t.length).getD i 0 = (t.length - i) + tar.countP (fun y => decide (y < t[i])) := by
      rw [ranks, List.getD_eq_getElem?_getD, List.getElem?_map, List.getElem?_range hi]
      exact rank_eq t tar ht i hi
    have r2 : (ranks (t ++ non) t.length).getD i 0 = (t.length - i) + non.countP (fun y => decide (y < t[i])) := by
      rw [ranks, List.getD_eq_getElem?_getD, List.getElem?_map, List.getElem?_range hi]
      exact rank_eq t non ht i hi
    have hp : prior.getD i 0 = prior[i]'(by omega) := by
      rw [List.getD_eq_getElem?_getD, List.getElem?_eq_getElem (by omega)]; rfl
    rw [r1, r2, hp]
    have n1 : (((t.length - i + tar.countP (fun y => decide (y < t[i])) : Nat) : Int) - ((t.length : Int) - i)) =
        (tar.countP (fun y => decide (y < t[i])) : Int) := by
      rw [Nat.cast_add, Nat.cast_sub hi.le]; ring
    have hc := countP_lt_le non t[i]
    have n2 : ((non.length : Int) - ((t.length - i + non.countP (fun y => decide (y < t[i])) : Nat) : Int) + ((t.length : Int) - i)) =
        (non.countP (fun y => decide (t[i] ≤ y)) : Int) := by
      rw [Nat.cast_add, Nat.cast_sub hi.le, ← hc]; push_cast; ring
    rw [n1, n2]
    simp only [computeDcf, costAt, pMissAt, pFaAt, Int.cast_natCast]

end rank

/-! ## C32 -/

theorem dcfThreshold_strictAnti {p q : ℝ} (hp : 0 < p) (hpq : p < q) (hq : q < 1) : dcfThreshold q < dcfThreshold p := by
  unfold dcfThreshold
  have h1 := Real.log_lt_log hp hpq
  have h2 := Real.log_lt_log (show 0 < 1 - q by linarith) (show 1 - q < 1 - p by linarith)
  linarith

/-- For strictly ascending priors in (0, 1), `compute_act_dcf` returns for each prior `p` the cost, the miss rate and the
false alarm rate of deciding with the Bayes threshold log((1-p)/p). (Partial: the code also accepts repeated priors, for
which the result is wrong, see `C32_repeated_priors`.) -/
theorem C32_act_dcf_partial (tar non prior : List ℝ) (normalize : Bool) (ht : tar ≠ []) (hn : non ≠ [])
    (hs : prior.Pairwise (· < ·)) (hr : ∀ p ∈ prior, 0 < p ∧ p < 1) :
    computeActDcf tar non prior normalize = some (prior.map (fun p =>
      (costAt tar non p normalize (Real.log ((1 - p) / p)), pMissAt tar (Real.log ((1 - p) / p)), pFaAt non (Real.log ((1 - p) / p))))) := by
  unfold computeActDcf
  rw [if_pos (hs.imp (fun h => le_of_lt h)), actDcfAt_spec _ _ _ _ _ ht hn]
  · congr 1
    rw [List.zipWith_map_left, List.zipWith_self]
    apply List.map_congr_left
    intro p hp
    obtain ⟨h1, h2⟩ := hr p hp
    have : dcfThreshold p = Real.log ((1 - p) / p) := by
      rw [Real.log_div (by linarith) (by linarith), dcfThreshold]; ring
    rw [this]
  · rw [List.pairwise_map]
    exact (List.pairwise_iff_forall_sublist.2 (fun {a b} hab => dcfThreshold_strictAnti (hr a (hab.subset (by simp))).1
      (List.pairwise_iff_forall_sublist.1 hs hab) (hr b (hab.subset (by simp))).2))
  · simp

/-- A vector of priors that is not in ascending order is rejected. -/
theorem C32_descending_raises (tar non prior : List ℝ) (normalize : Bool) (h : ¬ prior.Pairwise (· ≤ ·)) :
    computeActDcf tar non prior normalize = none := by
  unfold computeActDcf
  rw [if_neg h]

/-- The minimum cost is never above the actual cost. -/
theorem C32_min_le_act (tar non : List ℝ) (ht : tar ≠ []) (hn : non ≠ []) (p : ℝ) (h0 : 0 < p) (h1 : p < 1) (normalize : Bool) :
    ∃ (act pm pf mn pm' pf' : ℝ), computeActDcf tar non [p] normalize = some [(act, pm, pf)] ∧
      computeMinDcf tar non p normalize = some (mn, pm', pf') ∧ mn ≤ act := by
  obtain ⟨mn, pm', pf', a1, _, a3⟩ := C31_min_dcf tar non ht hn p h0 h1 normalize
  refine ⟨_, _, _, mn, pm', pf', C32_act_dcf_partial tar non [p] normalize ht hn (by simp) (by simpa using ⟨h0, h1⟩), a1, a3 _⟩

/-- Negation of the full claim: with the same prior twice (accepted by the assertion) the number of misses is wrong:
one target above the threshold gives miss rates -1 and 1. -/
theorem C32_repeated_priors : computeActDcf [1] [-1] [1/2, 1/2] false = some [(-1/2 + 1/2, -1, 1), (1/2 - 1/2, 1, -1)] := by
  have h0 : dcfThreshold (1/2) = 0 := by
    unfold dcfThreshold
    rw [show (1 : ℝ) - 1/2 = 1/2 by norm_num]; ring
  have s1 : stableArgsort ([(0 : ℝ), 0] ++ [1]) = [0, 1, 2] := by
    norm_num [stableArgsort, List.range, List.range.loop, List.mergeSort, List.MergeSort.Internal.splitInTwo, List.merge, stableBefore]
  have s2 : stableArgsort ([(0 : ℝ), 0] ++ [-1]) = [2, 0, 1] := by
    norm_num [stableArgsort, List.range, List.range.loop, List.mergeSort, List.MergeSort.Internal.splitInTwo, List.merge, stableBefore]
  unfold computeActDcf
  rw [if_pos (by simp)]
  simp only [List.map_cons, List.map_nil, h0]
  unfold actDcfAt
  rw [if_neg (by simp)]
  have r1 : ranks ([(0 : ℝ), 0] ++ [1]) 2 = [1, 2] := by
    simp only [ranks, s1]; decide
  have r2 : ranks ([(0 : ℝ), 0] ++ [-1]) 2 = [2, 3] := by
    simp only [ranks, s2]; decide
  simp only [List.length_cons, List.length_nil, Nat.zero_add, Nat.reduceAdd, r1, r2]
  norm_num [computeDcf, List.range, List.range.loop]

/-! ## C34 -/

/-- specification: log2(1 + exp(-s)), the cost of a target trial with log-likelihood ratio `s`. -/
noncomputable def targetCost (s : ℝ) : ℝ := Real.log (1 + Real.exp (-s)) / Real.log 2

/-- specification: log2(1 + exp(s)), the cost of a nontarget trial. -/
noncomputable def nontargetCost (s : ℝ) : ℝ := Real.log (1 + Real.exp s) / Real.log 2

/-- specification of Cllr: the average of the two mean costs. -/
noncomputable def cllrSpec (tar non : List ℝ) : ℝ := (meanR (tar.map targetCost) + meanR (non.map nontargetCost)) / 2

theorem negLogSigmoid_close (x : ℝ) : negLogSigmoid x ≤ Real.log (1 + Real.exp (-x)) ∧
    Real.log (1 + Real.exp (-x)) ≤ negLogSigmoid x + Real.exp (-100) := by
  have hpos : (0 : ℝ) < Real.exp (-100) := Real.exp_pos _
  unfold negLogSigmoid
  split
  · rename_i h
    have e : 1 + Real.exp (-x) = Real.exp (-x) * (1 + Real.exp x) := by
      rw [mul_add, mul_one, ← Real.exp_add, neg_add_cancel, Real.exp_zero, add_comm]
    have hx := Real.exp_pos x
    have hlog : Real.log (1 + Real.exp (-x)) = -x + Real.log (1 + Real.exp x) := by
      rw [e, Real.log_mul (Real.exp_pos _).ne' (by linarith), Real.log_exp]
    have h1 : 0 ≤ Real.log (1 + Real.exp x) := Real.log_nonneg (by linarith)
    have h2 : Real.log (1 + Real.exp x) ≤ Real.exp x := by
      have := Real.log_le_sub_one_of_pos (show 0 < 1 + Real.exp x by linarith)
      linarith
    have h3 : Real.exp x ≤ Real.exp (-100) := Real.exp_le_exp.2 h.le
    rw [hlog]
    exact ⟨by linarith, by linarith⟩
  · exact ⟨le_rfl, by linarith⟩

theorem mean_close (l : List ℝ) (hl : l ≠ []) (f g : ℝ → ℝ) (c : ℝ) (h : ∀ x, f x ≤ g x ∧ g x ≤ f x + c) :
    meanR (l.map f) ≤ meanR (l.map g) ∧ meanR (l.map g) ≤ meanR (l.map f) + c := by
  have hn : (0 : ℝ) < (l.length : ℝ) := by
    have : 0 < l.length := List.length_pos_of_ne_nil hl
    exact_mod_cast this
  have h1 : (l.map f).sum ≤ (l.map g).sum := List.sum_le_sum (fun x _ => (h x).1)
  have h2 : (l.map g).sum ≤ (l.map f).sum + c * (l.length : ℝ) := by
    clear h1 hn hl
    induction l with
    | nil => simp
    | cons a l ih =>
      simp only [List.map_cons, List.sum_cons, List.length_cons, Nat.cast_add, Nat.cast_one]
      have := (h a).2
      linarith
  unfold meanR
  rw [List.length_map, List.length_map]
  constructor
  · exact div_le_div_of_nonneg_right h1 hn.le
  · rw [div_le_iff₀ hn, add_mul, div_mul_cancel₀ _ hn.ne']
    linarith

/-- What `compute_cllr` returns is, up to exp(-100)/log 2, the Cllr of the targets and of the nontargets *with their sign
changed* (partial: the property asks for the nontargets themselves, which is false, see `C34_nontargets_wrong`). -/
theorem C34_cllr_partial (tar non : List ℝ) (ht : tar ≠ []) (hn : non ≠ []) :
    computeCllr tar non ≤ cllrSpec tar (non.map (fun x => -x)) ∧
      cllrSpec tar (non.map (fun x => -x)) ≤ computeCllr tar non + Real.exp (-100) / Real.log 2 := by
  have hlog : (0 : ℝ) < Real.log 2 := Real.log_pos (by norm_num)
  have key : ∀ x, negLogSigmoid x / Real.log 2 ≤ targetCost x ∧ targetCost x ≤ negLogSigmoid x / Real.log 2 + Real.exp (-100) / Real.log 2 := by
    intro x
    obtain ⟨h1, h2⟩ := negLogSigmoid_close x
    unfold targetCost
    constructor
    · exact div_le_div_of_nonneg_right h1 hlog.le
    · rw [← add_div]; exact div_le_div_of_nonneg_right h2 hlog.le
  have e : (non.map (fun x => -x)).map nontargetCost = non.map targetCost := by
    rw [List.map_map]; apply List.map_congr_left; intro x _; simp [nontargetCost, targetCost]
  have m : ∀ l : List ℝ, meanR (l.map negLogSigmoid) / Real.log 2 = meanR (l.map (fun x => negLogSigmoid x / Real.log 2)) := by
    intro l
    unfold meanR
    have : (l.map (fun x => negLogSigmoid x / Real.log 2)).sum = (l.map negLogSigmoid).sum / Real.log 2 := by
      induction l with
      | nil => simp
      | cons a l ih => simp only [List.map_cons, List.sum_cons, ih, add_div]
    rw [this, List.length_map, List.length_map]
    ring
  obtain ⟨a1, a2⟩ := mean_close tar ht _ _ _ key
  obtain ⟨b1, b2⟩ := mean_close non hn _ _ _ key
  unfold computeCllr cllrSpec
  simp only
  rw [e, m tar, m non]
  constructor <;> linarith

/-- Negation of the property: a nontarget with log-likelihood ratio -2 (well classified) costs more than its value in the
specification by more than 1. -/
theorem C34_nontargets_wrong : cllrSpec [0] [-2] + 1 < computeCllr [0] [-2] := by
  have hlog : (0 : ℝ) < Real.log 2 := Real.log_pos (by norm_num)
  have hlog1 : Real.log 2 < 1 := by
    have := Real.log_lt_sub_one_of_pos (show (0 : ℝ) < 2 by norm_num) (by norm_num)
    linarith
  have h1 : negLogSigmoid 0 = Real.log (1 + Real.exp (-0)) := by unfold negLogSigmoid; rw [if_neg (by norm_num)]
  have h2 : negLogSigmoid (-2) = Real.log (1 + Real.exp (-(-2))) := by unfold negLogSigmoid; rw [if_neg (by norm_num)]
  unfold cllrSpec computeCllr meanR targetCost nontargetCost
  simp only [List.map_cons, List.map_nil, List.sum_cons, List.sum_nil, List.length_cons, List.length_nil, h1, h2]
  have e : Real.log (1 + Real.exp (-(-2))) = 2 + Real.log (1 + Real.exp (-2)) := by
    rw [show (1 : ℝ) + Real.exp (-(-2)) = Real.exp 2 * (1 + Real.exp (-2)) by
      rw [mul_add, mul_one, ← Real.exp_add]; norm_num; ring]
    rw [Real.log_mul (Real.exp_pos _).ne' (by have := Real.exp_pos (-2 : ℝ); linarith), Real.log_exp]
  rw [e]
  have : (2 + Real.log (1 + Real.exp (-2))) / Real.log 2 = 2 / Real.log 2 + Real.log (1 + Real.exp (-2)) / Real.log 2 := add_div _ _ _
  have h3 : 2 < 2 / Real.log 2 := by rw [lt_div_iff₀ hlog]; linarith
  norm_num at *
  rw [this]
  linarith

/-- Consequence: lowering a nontarget score (an improvement) never lowers the result. -/
theorem C34_nontarget_monotone_wrong_way (tar : List ℝ) (s s' : ℝ) (h : s' < s) (h' : -100 ≤ s') :
    computeCllr tar [s] < computeCllr tar [s'] := by
  have hlog : (0 : ℝ) < Real.log 2 := Real.log_pos (by norm_num)
  have h1 : negLogSigmoid s = Real.log (1 + Real.exp (-s)) := by unfold negLogSigmoid; rw [if_neg (by linarith)]
  have h2 : negLogSigmoid s' = Real.log (1 + Real.exp (-s')) := by unfold negLogSigmoid; rw [if_neg (by linarith)]
  have h3 : negLogSigmoid s < negLogSigmoid s' := by
    rw [h1, h2]
    apply Real.log_lt_log
    · have := Real.exp_pos (-s); linarith
    · have := Real.exp_lt_exp.2 (show -s < -s' by linarith); linarith
  unfold computeCllr
  simp only [meanR, List.map_cons, List.map_nil, List.sum_cons, List.sum_nil, List.length_cons, List.length_nil]
  have := div_lt_div_of_pos_right h3 hlog
  norm_num
  linarith

end Hyp.Metrics
