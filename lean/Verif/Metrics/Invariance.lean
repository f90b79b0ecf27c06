import Verif.Metrics.EerProps
import Mathlib.Data.List.Forall2
import Mathlib.Order.Monotone.Basic
import Mathlib.Data.Finset.Max
import Mathlib.Data.Finset.Basic
import Mathlib.Data.List.GetD

/-! Property C122: the equal error rate and the minimum cost depend only on the order of the scores. -/

namespace Hyp.Metrics

variable {K : Type} [Field K] [LinearOrder K] [IsStrictOrderedRing K]

/-- the cost of threshold `θ` when a target has probability `p`. -/
def cost (tar non : List K) (p θ : K) : K :=
  p * ((tar.countP (fun x => decide (x < θ)) : K) / (tar.length : K)) + (1 - p) * ((non.countP (fun x => decide (θ ≤ x)) : K) / (non.length : K))

theorem cost_eq (tar non : List K) (p θ : K) : cost tar non p θ = p * pMissAt tar θ + (1 - p) * pFaAt non θ := rfl

/-- `e` is the value of the game: whatever the prior some threshold costs at most `e`, and for some prior no threshold costs less. -/
def IsGameValue (tar non : List K) (e : K) : Prop :=
  (∀ p, 0 ≤ p → p ≤ 1 → ∃ θ, cost tar non p θ ≤ e) ∧ ∃ p, 0 ≤ p ∧ p ≤ 1 ∧ ∀ θ, e ≤ cost tar non p θ

omit [IsStrictOrderedRing K] in
theorem gameValue_unique {tar non : List K} {e e' : K} (h : IsGameValue tar non e) (h' : IsGameValue tar non e') : e = e' := by
  have key : ∀ a b, IsGameValue tar non a → IsGameValue tar non b → a ≤ b := by
    intro a b ha hb
    obtain ⟨p, p0, p1, hp⟩ := ha.2
    obtain ⟨θ, hθ⟩ := hb.1 p p0 p1
    exact (hp θ).trans hθ
  exact le_antisymm (key _ _ h h') (key _ _ h' h)

theorem eer_gameValue {tar non : List K} (ht : tar ≠ []) (hn : non ≠ []) : ∃ e, computeEer tar non = some e ∧ IsGameValue tar non e := by
  obtain ⟨pts, e, h0, h1, _, _, i, v, w, t, hv, hw, ht0, ht1, ea, eb⟩ := C33_eer tar non ht hn
  refine ⟨e, h1, ?_, ?_⟩
  · intro p p0 p1
    obtain ⟨θ1, e1⟩ := C30_operating_points tar non pts h0 v (List.mem_of_getElem? hv)
    obtain ⟨θ2, e2⟩ := C30_operating_points tar non pts h0 w (List.mem_of_getElem? hw)
    by_contra hcon
    push Not at hcon
    have c1 := hcon θ1
    have c2 := hcon θ2
    rw [cost_eq] at c1 c2
    rw [e1] at ea eb
    rw [e2] at ea eb
    dsimp only at ea eb
    generalize pMissAt tar θ1 = a1 at *
    generalize pFaAt non θ1 = b1 at *
    generalize pMissAt tar θ2 = a2 at *
    generalize pFaAt non θ2 = b2 at *
    have hsum : e = (1 - t) * (p * a1 + (1 - p) * b1) + t * (p * a2 + (1 - p) * b2) := by
      have : e = p * e + (1 - p) * e := by ring
      rw [this]
      nth_rewrite 1 [ea]
      nth_rewrite 1 [eb]
      ring
    rcases eq_or_lt_of_le ht0 with h | h
    · rw [← h] at hsum
      simp at hsum
      linarith
    · have g1 : 0 ≤ (1 - t) * ((p * a1 + (1 - p) * b1) - e) := mul_nonneg (by linarith) (by linarith)
      have g2 : 0 < t * ((p * a2 + (1 - p) * b2) - e) := mul_pos h (by linarith)
      nlinarith
  · have hh := rocch_isHull tar non pts h0
    obtain ⟨hi, hv'⟩ := List.getElem?_eq_some_iff.1 hv
    obtain ⟨hi', hw'⟩ := List.getElem?_eq_some_iff.1 hw
    obtain ⟨m1, m2⟩ := List.pairwise_iff_getElem.1 hh.mono i (i + 1) hi hi' (by omega)
    rw [hv', hw'] at m1 m2
    obtain ⟨pts', h0', _, _, hd, _⟩ := C30_shape tar non ht hn
    rw [h0] at h0'
    cases h0'
    have hdist := (List.pairwise_iff_getElem.1 hd i (i + 1) hi hi' (by omega)).2.2
    rw [hv', hw'] at hdist
    have hs : 0 < (w.1 - v.1) + (v.2 - w.2) := by
      rcases eq_or_lt_of_le m1 with n1 | n1
      · rcases eq_or_lt_of_le m2 with n2 | n2
        · exact absurd (Prod.ext n1 n2.symm) hdist
        · linarith
      · linarith
    have e1 : (w.1 - v.1) * (e - v.2) + (v.2 - w.2) * (e - v.1) = 0 := by
      calc (w.1 - v.1) * (e - v.2) + (v.2 - w.2) * (e - v.1)
          = (w.1 - v.1) * ((v.2 + t * (w.2 - v.2)) - v.2) + (v.2 - w.2) * ((v.1 + t * (w.1 - v.1)) - v.1) := by rw [← ea, ← eb]
        _ = 0 := by ring
    refine ⟨(v.2 - w.2) / ((w.1 - v.1) + (v.2 - w.2)), div_nonneg (by linarith) hs.le, by rw [div_le_one hs]; linarith, ?_⟩
    intro θ
    have hc := C30_below_roc tar non pts h0 i v w hv hw θ
    rw [cost_eq]
    have hq : 1 - (v.2 - w.2) / ((w.1 - v.1) + (v.2 - w.2)) = (w.1 - v.1) / ((w.1 - v.1) + (v.2 - w.2)) := by
      field_simp
      ring
    rw [hq, div_mul_eq_mul_div, div_mul_eq_mul_div, ← add_div, le_div_iff₀ hs]
    nlinarith

/-- C122. The equal error rate is the minimum cost at the worst prior: the value returned is the one number `e` such that for every prior some threshold has cost
at most `e`, and for some prior every threshold has cost at least `e`. -/
theorem C122_eer_minimax (tar non : List K) (ht : tar ≠ []) (hn : non ≠ []) (e : K) :
    computeEer tar non = some e ↔
      (∀ p, 0 ≤ p → p ≤ 1 → ∃ θ, p * ((tar.countP (fun x => decide (x < θ)) : K) / (tar.length : K)) + (1 - p) * ((non.countP (fun x => decide (θ ≤ x)) : K) / (non.length : K)) ≤ e) ∧
      ∃ p, 0 ≤ p ∧ p ≤ 1 ∧ ∀ θ, e ≤ p * ((tar.countP (fun x => decide (x < θ)) : K) / (tar.length : K)) + (1 - p) * ((non.countP (fun x => decide (θ ≤ x)) : K) / (non.length : K)) := by
  obtain ⟨e', h1, h2⟩ := eer_gameValue ht hn
  constructor
  · intro h
    rw [h1] at h
    cases h
    exact h2
  · intro h
    rw [h1, gameValue_unique h2 h]

/-- a comparison of two sets of scores: whatever the second reaches, the first reaches something at least as good; `c` may swap the kinds of error. -/
theorem eer_le {tar non tar' non' : List K} (ht : tar ≠ []) (hn : non ≠ []) (ht' : tar' ≠ []) (hn' : non' ≠ [])
    (h : ∀ θ, ∃ θ', pMissAt tar θ' ≤ pMissAt tar' θ ∧ pFaAt non θ' ≤ pFaAt non' θ) {e e' : K} (he : computeEer tar non = some e) (he' : computeEer tar' non' = some e') : e ≤ e' := by
  obtain ⟨e1, h1, g1⟩ := eer_gameValue ht hn
  obtain ⟨e2, h2, g2⟩ := eer_gameValue ht' hn'
  rw [h1] at he; cases he
  rw [h2] at he'; cases he'
  obtain ⟨p, p0, p1, hp⟩ := g1.2
  obtain ⟨θ, hθ⟩ := g2.1 p p0 p1
  obtain ⟨θ', a, b⟩ := h θ
  refine (hp θ').trans (le_trans ?_ hθ)
  rw [cost_eq, cost_eq]
  have := mul_le_mul_of_nonneg_left a p0
  have := mul_le_mul_of_nonneg_left b (sub_nonneg.2 p1)
  linarith

theorem eer_le_swap {tar non tar' non' : List K} (ht : tar ≠ []) (hn : non ≠ []) (ht' : tar' ≠ []) (hn' : non' ≠ [])
    (h : ∀ θ, ∃ θ', pMissAt tar θ' ≤ pFaAt non' θ ∧ pFaAt non θ' ≤ pMissAt tar' θ) {e e' : K} (he : computeEer tar non = some e) (he' : computeEer tar' non' = some e') : e ≤ e' := by
  obtain ⟨e1, h1, g1⟩ := eer_gameValue ht hn
  obtain ⟨e2, h2, g2⟩ := eer_gameValue ht' hn'
  rw [h1] at he; cases he
  rw [h2] at he'; cases he'
  obtain ⟨p, p0, p1, hp⟩ := g1.2
  obtain ⟨θ, hθ⟩ := g2.1 (1 - p) (by linarith) (by linarith)
  obtain ⟨θ', a, b⟩ := h θ
  refine (hp θ').trans (le_trans ?_ hθ)
  rw [cost_eq, cost_eq]
  have := mul_le_mul_of_nonneg_left a p0
  have := mul_le_mul_of_nonneg_left b (sub_nonneg.2 p1)
  linarith

/-! ### strictly increasing maps and permutations: the whole hull is the same -/

omit [IsStrictOrderedRing K] in
theorem sortedLabels_map {K' : Type} [Field K'] [LinearOrder K'] (f : K → K) (tar non : List K) (hf : ∀ x ∈ tar ++ non, ∀ y ∈ tar ++ non, x < y → f x < f y) :
    sortedLabels (tar.map f) (non.map f) = sortedLabels tar non := by
  unfold sortedLabels
  have : stableArgsort (tar.map f ++ non.map f) = stableArgsort (tar ++ non) := by
    rw [← List.map_append]
    generalize tar ++ non = l at hf
    have hp1 := stableArgsort_perm (l.map f)
    rw [List.length_map] at hp1
    have hp2 := stableArgsort_perm l
    have s1 := stableArgsort_sorted (l.map f)
    have s2 := stableArgsort_sorted l
    refine List.Perm.eq_of_pairwise (le := fun i j => stableBefore l i j = true) ?_ ?_ s2 (hp1.trans hp2.symm)
    · intro a b _ _ h1 h2
      simp only [stableBefore, decide_eq_true_eq] at h1 h2
      rcases h1 with h1 | h1 <;> rcases h2 with h2 | h2
      · exact absurd h1 (lt_asymm h2)
      · rw [h2.1] at h1; exact absurd h1 (lt_irrefl _)
      · rw [h1.1] at h2; exact absurd h2 (lt_irrefl _)
      · omega
    · refine List.Pairwise.imp_of_mem ?_ s1
      intro i j hi hj h
      have hi' : i < l.length := List.mem_range.1 (hp1.mem_iff.1 hi)
      have hj' : j < l.length := List.mem_range.1 (hp1.mem_iff.1 hj)
      simp only [stableBefore, decide_eq_true_eq, List.getD, List.getElem?_map, List.getElem?_eq_getElem hi', List.getElem?_eq_getElem hj', Option.map_some, Option.getD_some] at h ⊢
      have h1 := hf _ (List.getElem_mem hi') _ (List.getElem_mem hj')
      have h2 := hf _ (List.getElem_mem hj') _ (List.getElem_mem hi')
      rcases lt_trichotomy l[i] l[j] with c | c | c
      · exact Or.inl c
      · rw [c] at h ⊢
        rcases h with h | h
        · exact absurd h (lt_irrefl _)
        · exact Or.inr ⟨rfl, h.2⟩
      · have := h2 c
        rcases h with h | h
        · exact absurd h (lt_asymm this)
        · rw [h.1] at this; exact absurd this (lt_irrefl _)
  rw [this, List.length_map, List.length_map]

/-- the sorted trials as pairs (score, is nontarget). -/
def sortedPairs (tar non : List K) : List (K × Bool) := (stableArgsort (tar ++ non)).map (fun i => ((tar ++ non).getD i 0, decide (tar.length ≤ i)))

omit [IsStrictOrderedRing K] in
theorem sortedPairs_perm (tar non : List K) : (sortedPairs tar non).Perm (tar.map (fun x => (x, false)) ++ non.map (fun x => (x, true))) := by
  unfold sortedPairs
  refine ((stableArgsort_perm (tar ++ non)).map _).trans ?_
  rw [List.length_append, List.range_add, List.map_append]
  refine List.Perm.of_eq ?_
  congr 1
  · have : tar.map (fun x => (x, false)) = (List.range tar.length).map (fun i => (tar.getD i 0, false)) := by
      conv_lhs => rw [← map_getD_range tar]
      rw [List.map_map]; rfl
    rw [this]
    apply List.map_congr_left
    intro i hi
    rw [List.mem_range] at hi
    rw [List.getD_append _ _ _ _ hi, decide_eq_false (by omega)]
  · have : non.map (fun x => (x, true)) = (List.range non.length).map (fun i => (non.getD i 0, true)) := by
      conv_lhs => rw [← map_getD_range non]
      rw [List.map_map]; rfl
    rw [this, List.map_map]
    apply List.map_congr_left
    intro i hi
    simp only [Function.comp]
    rw [List.getD_append_right _ _ _ _ (by omega), decide_eq_true (by omega)]
    congr 2
    omega

omit [IsStrictOrderedRing K] in
theorem sortedPairs_sorted (tar non : List K) : (sortedPairs tar non).Pairwise (fun a b => a.1 < b.1 ∨ (a.1 = b.1 ∧ (a.2 = true → b.2 = true))) := by
  unfold sortedPairs
  rw [List.pairwise_map]
  refine (stableArgsort_sorted (tar ++ non)).imp ?_
  intro i j h
  simp only [stableBefore, decide_eq_true_eq] at h ⊢
  rcases h with h | h
  · exact Or.inl h
  · exact Or.inr ⟨h.1, fun h' => by omega⟩

omit [IsStrictOrderedRing K] in
theorem sortedLabels_pairs (tar non : List K) : sortedLabels tar non = (sortedPairs tar non).map (fun a => if a.2 then 0 else 1) := by
  unfold sortedLabels sortedPairs
  rw [List.map_map]
  apply List.map_congr_left
  intro i hi
  simp only [Function.comp]
  by_cases h : tar.length ≤ i
  · simp only [h, decide_true, if_true]
    exact lab_non h
  · simp only [h, decide_false, Bool.false_eq_true, if_false]
    exact lab_tar (by omega)

omit [IsStrictOrderedRing K] in
theorem sortedLabels_perm {tar tar' non non' : List K} (ht : tar.Perm tar') (hn : non.Perm non') : sortedLabels tar non = sortedLabels tar' non' := by
  rw [sortedLabels_pairs, sortedLabels_pairs]
  congr 1
  refine List.Perm.eq_of_pairwise (le := fun a b : K × Bool => a.1 < b.1 ∨ (a.1 = b.1 ∧ (a.2 = true → b.2 = true))) ?_ (sortedPairs_sorted _ _) (sortedPairs_sorted _ _)
    ((sortedPairs_perm _ _).trans (((ht.map _).append (hn.map _)).trans (sortedPairs_perm _ _).symm))
  intro a b _ _ h1 h2
  rcases h1 with h1 | h1 <;> rcases h2 with h2 | h2
  · exact absurd h1 (lt_asymm h2)
  · rw [h2.1] at h1; exact absurd h1 (lt_irrefl _)
  · rw [h1.1] at h2; exact absurd h2 (lt_irrefl _)
  · refine Prod.ext h1.1 ?_
    cases ha : a.2 <;> cases hb : b.2
    · rfl
    · exact absurd (h2.2 hb) (by rw [ha]; simp)
    · exact absurd (h1.2 ha) (by rw [hb]; simp)
    · rfl

omit [IsStrictOrderedRing K] in
theorem same_metrics {tar tar' non non' : List K} (hl : tar'.length = tar.length) (hl' : non'.length = non.length) (h : sortedLabels tar' non' = sortedLabels tar non) :
    computeRoc tar' non' = computeRoc tar non ∧ computeRocch tar' non' = computeRocch tar non ∧ computeEer tar' non' = computeEer tar non ∧
    computePrbep tar' non' = computePrbep tar non ∧ ∀ p b, computeMinDcf tar' non' p b = computeMinDcf tar non p b := by
  have e1 : (tar' = [] ∨ non' = []) ↔ (tar = [] ∨ non = []) := by
    rw [← List.length_eq_zero_iff, ← List.length_eq_zero_iff (l := non'), hl, hl', List.length_eq_zero_iff, List.length_eq_zero_iff]
  have hr : computeRocch tar' non' = computeRocch tar non := by
    unfold computeRocch
    rw [h, hl, hl']
    simp only [e1]
  refine ⟨?_, hr, ?_, ?_, ?_⟩
  · unfold computeRoc
    rw [h, hl, hl']
    simp only [e1]
  · unfold computeEer; rw [hr]
  · unfold computePrbep; rw [hr, hl, hl']
  · intro p b
    unfold computeMinDcf; rw [hr]

omit [IsStrictOrderedRing K] in
/-- C122. A map that is strictly increasing on the scores (a calibration, say) leaves the ROC curve, its convex hull, the EER, the break-even point and the minimum
costs with their error rates as they are. -/
theorem C122_increasing_map (tar non : List K) (f : K → K) (hf : ∀ x ∈ tar ++ non, ∀ y ∈ tar ++ non, x < y → f x < f y) :
    computeRoc (tar.map f) (non.map f) = computeRoc tar non ∧ computeRocch (tar.map f) (non.map f) = computeRocch tar non ∧
    computeEer (tar.map f) (non.map f) = computeEer tar non ∧ computePrbep (tar.map f) (non.map f) = computePrbep tar non ∧
    ∀ p b, computeMinDcf (tar.map f) (non.map f) p b = computeMinDcf tar non p b :=
  same_metrics (by simp) (by simp) (sortedLabels_map (K' := K) f tar non hf)

omit [IsStrictOrderedRing K] in
/-- C122. The order in which the trials are listed does not matter. -/
theorem C122_permutation {tar tar' non non' : List K} (ht : tar'.Perm tar) (hn : non'.Perm non) :
    computeRoc tar' non' = computeRoc tar non ∧ computeRocch tar' non' = computeRocch tar non ∧ computeEer tar' non' = computeEer tar non ∧
    computePrbep tar' non' = computePrbep tar non ∧ ∀ p b, computeMinDcf tar' non' p b = computeMinDcf tar non p b :=
  same_metrics ht.length_eq hn.length_eq (sortedLabels_perm ht hn)

/-! ### replication, monotonicity, symmetry, separation -/

omit [IsStrictOrderedRing K] in
theorem countP_rep (l : List K) (P : K → Bool) (k : Nat) : ((List.replicate k l).flatten).countP P = k * l.countP P := by
  induction k with
  | zero => simp
  | succ k ih => rw [List.replicate_succ, List.flatten_cons, List.countP_append, ih]; ring

theorem rate_rep (l : List K) (P : K → Bool) {k : Nat} (hk : 0 < k) :
    ((((List.replicate k l).flatten).countP P : Nat) : K) / (((List.replicate k l).flatten).length : K) = ((l.countP P : Nat) : K) / (l.length : K) := by
  have hlen : ((List.replicate k l).flatten).length = k * l.length := by simp
  rw [countP_rep, hlen]
  push_cast
  rw [mul_div_mul_left]
  have : (k : K) ≠ 0 := by exact_mod_cast hk.ne'
  exact this

/-- a computed minimum cost is determined by the reachable costs. -/
theorem minDcf_le {tar non tar' non' : List K} (ht : tar ≠ []) (hn : non ≠ []) (ht' : tar' ≠ []) (hn' : non' ≠ []) {p q : K} (h0 : 0 < p) (h1 : p < 1) (q0 : 0 < q) (q1 : q < 1)
    (b : Bool) (hpq : q = p ∨ q = 1 - p) (h : ∀ θ, ∃ θ', cost tar non p θ' ≤ cost tar' non' q θ) {x x' : K × K × K} (he : computeMinDcf tar non p b = some x)
    (he' : computeMinDcf tar' non' q b = some x') : x.1 ≤ x'.1 := by
  obtain ⟨d, m, f, e1, _, e3⟩ := C31_min_dcf tar non ht hn p h0 h1 b
  obtain ⟨d', m', f', e1', ⟨θ, _, _, e2'⟩, _⟩ := C31_min_dcf tar' non' ht' hn' q q0 q1 b
  rw [e1] at he; cases he
  rw [e1'] at he'; cases he'
  obtain ⟨θ', hθ⟩ := h θ
  dsimp only
  refine (e3 θ').trans ?_
  rw [e2']
  have hmin : min q (1 - q) = min p (1 - p) := by
    rcases hpq with rfl | rfl
    · rfl
    · rw [sub_sub_cancel, min_comm]
  unfold costAt
  cases b
  · simpa [cost_eq] using hθ
  · simp only [if_true]
    rw [hmin]
    rw [cost_eq, cost_eq] at hθ
    exact div_le_div_of_nonneg_right hθ (le_min h0.le (by linarith))

/-- C122. Repeating the targets `k` times and the nontargets `m` times changes neither the EER nor the minimum cost: they do not depend on the proportion of
targets in the trial list. -/
theorem C122_proportions (tar non : List K) (ht : tar ≠ []) (hn : non ≠ []) (k m : Nat) (hk : 0 < k) (hm : 0 < m) :
    computeEer (List.replicate k tar).flatten (List.replicate m non).flatten = computeEer tar non ∧
    ∀ p b, 0 < p → p < 1 → (computeMinDcf (List.replicate k tar).flatten (List.replicate m non).flatten p b).map (fun x => x.1) =
      (computeMinDcf tar non p b).map (fun x => x.1) := by
  have hrep : ∀ (l : List K) (j : Nat), l ≠ [] → 0 < j → (List.replicate j l).flatten ≠ [] := by
    intro l j hl hj hc
    have := congrArg List.length hc
    rw [show ((List.replicate j l).flatten).length = j * l.length by simp, List.length_nil] at this
    have h2 := List.length_pos_of_ne_nil hl
    have := Nat.mul_pos hj h2
    omega
  have ht' := hrep tar k ht hk
  have hn' := hrep non m hn hm
  have hM : ∀ θ, pMissAt (List.replicate k tar).flatten θ = pMissAt tar θ := fun θ => rate_rep tar _ hk
  have hF : ∀ θ, pFaAt (List.replicate m non).flatten θ = pFaAt non θ := fun θ => rate_rep non _ hm
  constructor
  · obtain ⟨e, h1, _⟩ := eer_gameValue ht hn
    obtain ⟨e', h1', _⟩ := eer_gameValue ht' hn'
    rw [h1, h1']
    congr 1
    exact le_antisymm (eer_le ht' hn' ht hn (fun θ => ⟨θ, (hM θ).le, (hF θ).le⟩) h1' h1) (eer_le ht hn ht' hn' (fun θ => ⟨θ, (hM θ).ge, (hF θ).ge⟩) h1 h1')
  · intro p b p0 p1
    obtain ⟨d, x, y, e1, _, _⟩ := C31_min_dcf tar non ht hn p p0 p1 b
    obtain ⟨d', x', y', e1', _, _⟩ := C31_min_dcf _ _ ht' hn' p p0 p1 b
    rw [e1, e1']
    simp only [Option.map_some, Option.some.injEq]
    exact le_antisymm (minDcf_le ht' hn' ht hn p0 p1 p0 p1 b (Or.inl rfl) (fun θ => ⟨θ, by rw [cost_eq, cost_eq, hM, hF]⟩) e1' e1)
      (minDcf_le ht hn ht' hn' p0 p1 p0 p1 b (Or.inl rfl) (fun θ => ⟨θ, by rw [cost_eq, cost_eq, hM, hF]⟩) e1 e1')

omit [Field K] [IsStrictOrderedRing K] in
theorem countP_forall2 {l l' : List K} {P Q : K → Bool} (h : List.Forall₂ (fun x y => P y = true → Q x = true) l l') : l'.countP P ≤ l.countP Q := by
  induction h with
  | nil => simp
  | cons hxy _ ih =>
    rw [List.countP_cons, List.countP_cons]
    split
    · rename_i h
      rw [if_pos (hxy h)]; omega
    · split <;> omega

/-- C122. Raising target scores and lowering nontarget scores can only lower the EER and the minimum cost. -/
theorem C122_monotone (tar tar' non non' : List K) (ht : tar ≠ []) (hn : non ≠ []) (h1 : List.Forall₂ (· ≤ ·) tar tar') (h2 : List.Forall₂ (· ≤ ·) non' non) :
    (∃ e e', computeEer tar non = some e ∧ computeEer tar' non' = some e' ∧ e' ≤ e) ∧
    ∀ p b, 0 < p → p < 1 → ∃ x x', computeMinDcf tar non p b = some x ∧ computeMinDcf tar' non' p b = some x' ∧ x'.1 ≤ x.1 := by
  have hl1 := h1.length_eq
  have hl2 := h2.length_eq
  have ht' : tar' ≠ [] := by rintro rfl; exact ht (List.length_eq_zero_iff.1 hl1)
  have hn' : non' ≠ [] := by rintro rfl; exact hn (List.length_eq_zero_iff.1 hl2.symm)
  have hM : ∀ θ, pMissAt tar' θ ≤ pMissAt tar θ := by
    intro θ
    unfold pMissAt
    rw [hl1]
    apply div_le_div_of_nonneg_right _ (Nat.cast_nonneg _)
    have := countP_forall2 (P := fun x => decide (x < θ)) (Q := fun x => decide (x < θ)) (h1.imp (fun a b hab hb => by
      simp only [decide_eq_true_eq] at hb ⊢; exact lt_of_le_of_lt hab hb))
    exact_mod_cast this
  have hF : ∀ θ, pFaAt non' θ ≤ pFaAt non θ := by
    intro θ
    unfold pFaAt
    rw [hl2]
    apply div_le_div_of_nonneg_right _ (Nat.cast_nonneg _)
    have h2' : List.Forall₂ (fun a b => b ≤ a) non non' := h2.flip
    have := countP_forall2 (P := fun x => decide (θ ≤ x)) (Q := fun x => decide (θ ≤ x)) (h2'.imp (fun a b hab hb => by
      simp only [decide_eq_true_eq] at hb ⊢; exact hb.trans hab))
    exact_mod_cast this
  constructor
  · obtain ⟨e, g1, _⟩ := eer_gameValue ht hn
    obtain ⟨e', g1', _⟩ := eer_gameValue ht' hn'
    exact ⟨e, e', g1, g1', eer_le ht' hn' ht hn (fun θ => ⟨θ, hM θ, hF θ⟩) g1' g1⟩
  · intro p b p0 p1
    obtain ⟨d, x, y, e1, _, _⟩ := C31_min_dcf tar non ht hn p p0 p1 b
    obtain ⟨d', x', y', e1', _, _⟩ := C31_min_dcf tar' non' ht' hn' p p0 p1 b
    refine ⟨_, _, e1, e1', minDcf_le ht' hn' ht hn p0 p1 p0 p1 b (Or.inl rfl) (fun θ => ⟨θ, ?_⟩) e1' e1⟩
    rw [cost_eq, cost_eq]
    have := mul_le_mul_of_nonneg_left (hM θ) p0.le
    have := mul_le_mul_of_nonneg_left (hF θ) (sub_nonneg.2 p1.le)
    linarith

/-- between two finite sets of numbers a threshold separates "at least" as well as "more than". -/
theorem shift_threshold (l : List K) (θ : K) : ∃ θ', ∀ x ∈ l, (x < θ' ↔ x ≤ θ) := by
  by_cases h : ∃ x ∈ l, θ < x
  · obtain ⟨m, hm, hmin⟩ : ∃ m ∈ l.filter (fun x => decide (θ < x)), ∀ y ∈ l.filter (fun x => decide (θ < x)), m ≤ y := by
      have hne : (l.filter (fun x => decide (θ < x))).toFinset.Nonempty := by
        obtain ⟨x, hx, hlt⟩ := h
        exact ⟨x, by simp [hx, hlt]⟩
      obtain ⟨m, hm, hmin⟩ := Finset.exists_min_image _ id hne
      exact ⟨m, by simpa using hm, fun y hy => hmin y (by simpa using hy)⟩
    rw [List.mem_filter, decide_eq_true_eq] at hm
    refine ⟨m, fun x hx => ⟨fun hlt => ?_, fun hle => lt_of_le_of_lt hle hm.2⟩⟩
    by_contra hcon
    exact absurd (hmin x (List.mem_filter.2 ⟨hx, by simpa using not_le.1 hcon⟩)) (not_le.2 hlt)
  · push Not at h
    exact ⟨θ + 1, fun x hx => ⟨fun _ => h x hx, fun hle => by linarith⟩⟩

/-- C122. Exchanging the roles of targets and nontargets and changing the sign of the scores does not change the EER; the minimum cost for the complementary prior
is the same. -/
theorem C122_symmetry (tar non : List K) (ht : tar ≠ []) (hn : non ≠ []) :
    computeEer (non.map (fun x => -x)) (tar.map (fun x => -x)) = computeEer tar non ∧
    ∀ p b, 0 < p → p < 1 → (computeMinDcf (non.map (fun x => -x)) (tar.map (fun x => -x)) (1 - p) b).map (fun x => x.1) = (computeMinDcf tar non p b).map (fun x => x.1) := by
  have key : ∀ (tar non : List K) (θ : K), ∃ θ', pMissAt (non.map (fun x => -x)) θ' = pFaAt non θ ∧ pFaAt (tar.map (fun x => -x)) θ' = pMissAt tar θ := by
    intro tar non θ
    obtain ⟨θ', h⟩ := shift_threshold ((tar ++ non).map (fun x => -x)) (-θ)
    refine ⟨θ', ?_, ?_⟩
    · unfold pMissAt pFaAt
      rw [List.countP_map, List.length_map]
      congr 2
      apply List.countP_congr
      intro x hx
      have := h (-x) (List.mem_map.2 ⟨x, by simp [hx], rfl⟩)
      simp only [Function.comp, decide_eq_true_eq]
      rw [this, neg_le_neg_iff]
    · unfold pMissAt pFaAt
      rw [List.countP_map, List.length_map]
      congr 2
      apply List.countP_congr
      intro x hx
      have := h (-x) (List.mem_map.2 ⟨x, by simp [hx], rfl⟩)
      simp only [Function.comp, decide_eq_true_eq]
      rw [← not_lt, this, not_le, neg_lt_neg_iff]
  have key' : ∀ (θ : K), ∃ θ', pFaAt non θ' = pMissAt (non.map (fun x => -x)) θ ∧ pMissAt tar θ' = pFaAt (tar.map (fun x => -x)) θ := by
    intro θ
    obtain ⟨θ', h1, h2⟩ := key (non.map (fun x => -x)) (tar.map (fun x => -x)) θ
    have hnn : ∀ l : List K, (l.map (fun x => -x)).map (fun x => -x) = l := by intro l; rw [List.map_map]; simp [Function.comp_def]
    rw [hnn] at h1 h2
    exact ⟨θ', h2, h1⟩
  have ht' : tar.map (fun x => -x) ≠ [] := by simpa using ht
  have hn' : non.map (fun x => -x) ≠ [] := by simpa using hn
  constructor
  · obtain ⟨e, h1, _⟩ := eer_gameValue ht hn
    obtain ⟨e', h1', _⟩ := eer_gameValue hn' ht'
    rw [h1, h1']
    congr 1
    refine le_antisymm (eer_le_swap hn' ht' ht hn (fun θ => ?_) h1' h1) (eer_le_swap ht hn hn' ht' (fun θ => ?_) h1 h1')
    · obtain ⟨θ', a, b⟩ := key tar non θ
      exact ⟨θ', a.le, b.le⟩
    · obtain ⟨θ', a, b⟩ := key' θ
      exact ⟨θ', b.le, a.le⟩
  · intro p b p0 p1
    have q0 : 0 < 1 - p := by linarith
    have q1 : 1 - p < 1 := by linarith
    obtain ⟨d, x, y, e1, _, _⟩ := C31_min_dcf tar non ht hn p p0 p1 b
    obtain ⟨d', x', y', e1', _, _⟩ := C31_min_dcf _ _ hn' ht' (1 - p) q0 q1 b
    rw [e1, e1']
    simp only [Option.map_some, Option.some.injEq]
    refine le_antisymm (minDcf_le hn' ht' ht hn q0 q1 p0 p1 b (Or.inr (by ring)) (fun θ => ?_) e1' e1) (minDcf_le ht hn hn' ht' p0 p1 q0 q1 b (Or.inr rfl) (fun θ => ?_) e1 e1')
    · obtain ⟨θ', a, c⟩ := key tar non θ
      refine ⟨θ', ?_⟩
      rw [cost_eq, cost_eq, a, c]
      linarith
    · obtain ⟨θ', a, c⟩ := key' θ
      refine ⟨θ', ?_⟩
      rw [cost_eq, cost_eq, a, c]
      linarith

/-- C122. The EER is zero exactly when the scores are separated: every nontarget below every target. -/
theorem C122_zero_iff (tar non : List K) (ht : tar ≠ []) (hn : non ≠ []) : computeEer tar non = some 0 ↔ ∀ t ∈ tar, ∀ n ∈ non, n < t := by
  have hM0 : ∀ θ, 0 ≤ pMissAt tar θ := fun θ => by unfold pMissAt; positivity
  have hF0 : ∀ θ, 0 ≤ pFaAt non θ := fun θ => by unfold pFaAt; positivity
  have hMz : ∀ θ, pMissAt tar θ = 0 ↔ ∀ t ∈ tar, θ ≤ t := by
    intro θ
    have : (tar.length : K) ≠ 0 := by simpa using ht
    unfold pMissAt
    rw [div_eq_zero_iff, or_iff_left this, Nat.cast_eq_zero, List.countP_eq_zero]
    simp
  have hFz : ∀ θ, pFaAt non θ = 0 ↔ ∀ t ∈ non, t < θ := by
    intro θ
    have : (non.length : K) ≠ 0 := by simpa using hn
    unfold pFaAt
    rw [div_eq_zero_iff, or_iff_left this, Nat.cast_eq_zero, List.countP_eq_zero]
    simp
  obtain ⟨e, h1, g⟩ := eer_gameValue ht hn
  constructor
  · intro h
    rw [h1] at h
    cases h
    obtain ⟨θ, hθ⟩ := g.1 (1 / 2) (by norm_num) (by norm_num)
    rw [cost_eq] at hθ
    have a := hM0 θ
    have b := hF0 θ
    have hm : pMissAt tar θ = 0 := by linarith
    have hf : pFaAt non θ = 0 := by linarith
    intro t ht' n hn'
    exact lt_of_lt_of_le ((hFz θ).1 hf n hn') ((hMz θ).1 hm t ht')
  · intro h
    obtain ⟨m, hm, hmin⟩ := Finset.exists_min_image tar.toFinset id (by
      obtain ⟨x, hx⟩ := List.exists_mem_of_ne_nil _ ht
      exact ⟨x, by simpa using hx⟩)
    have hm' : m ∈ tar := by simpa using hm
    have z1 : pMissAt tar m = 0 := (hMz m).2 (fun t ht' => hmin t (by simpa using ht'))
    have z2 : pFaAt non m = 0 := (hFz m).2 (fun n hn' => h m hm' n hn')
    have hg : IsGameValue tar non 0 := by
      refine ⟨fun p _ _ => ⟨m, by rw [cost_eq, z1, z2]; simp⟩, 1 / 2, by norm_num, by norm_num, fun θ => ?_⟩
      rw [cost_eq]
      have a := hM0 θ
      have b := hF0 θ
      linarith
    rw [h1, gameValue_unique g hg]

/-- a case: one tie; the worst prior is 1/2, and doubling all scores or listing them in another order changes nothing. -/
example : computeEer [(1 : ℚ), 3] [1, 0] = some (1/4) ∧ computeEer [(6 : ℚ), 2] [2, 0] = some (1/4) := by
  have h : computeEer [(1 : ℚ), 3] [1, 0] = some (1/4) := by
    simp only [computeEer, hull_example, Option.bind_some]
    norm_num [rocch2eer, eerLoop, eerSeg]
  refine ⟨h, ?_⟩
  have h1 := (C122_permutation (tar := [(3 : ℚ), 1]) (tar' := [1, 3]) (non := [1, 0]) (non' := [1, 0]) (List.Perm.swap _ _ _) (List.Perm.refl _)).2.2.1
  have h2 := (C122_increasing_map [(3 : ℚ), 1] [1, 0] (fun x => 2 * x) (fun x _ y _ hxy => by linarith)).2.2.1
  rw [h1] at h
  norm_num at h2
  rw [h2]; exact h

end Hyp.Metrics
