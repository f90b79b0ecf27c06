import Verif.Metrics.ActDcfProps

/-!
# C54: optimal log-likelihood ratios (`opt_loglr`, Laplace method)
-/

namespace Hyp.Metrics

section order
variable {K : Type} [Field K] [LinearOrder K]

theorem idxOf_lt (l : List K) {i j : Nat} (hi : i < l.length) (hj : j < l.length) (hne : i ≠ j) (hb : stableBefore l i j = true) :
    (stableArgsort l).idxOf i < (stableArgsort l).idxOf j := by
  have mi : i ∈ stableArgsort l := (stableArgsort_perm l).mem_iff.2 (List.mem_range.2 hi)
  have mj : j ∈ stableArgsort l := (stableArgsort_perm l).mem_iff.2 (List.mem_range.2 hj)
  have li := List.idxOf_lt_length_iff.2 mi
  have lj := List.idxOf_lt_length_iff.2 mj
  have gi := List.getElem_idxOf li
  have gj := List.getElem_idxOf lj
  by_contra hc
  rcases Nat.lt_or_eq_of_le (not_lt.1 hc) with h | h
  · have := List.pairwise_iff_getElem.1 (stableArgsort_sorted l) _ _ lj li h
    rw [gi, gj] at this
    simp only [stableBefore, decide_eq_true_eq] at this hb
    rcases this with h1 | ⟨h1, h1'⟩ <;> rcases hb with h4 | ⟨h4, h4'⟩
    · exact absurd (h1.trans h4) (lt_irrefl _)
    · exact absurd h1 (by rw [h4]; exact lt_irrefl _)
    · exact absurd h4 (by rw [h1]; exact lt_irrefl _)
    · omega
  · apply hne
    rw [← gi, ← gj]
    congr 1
    exact h.symm

variable [IsStrictOrderedRing K]

theorem ghat_range (y : List K) (hm : ∀ x ∈ y, x = 0 ∨ x = 1) (hh : y.head? = some 1) (hl : y.getLast? = some 0) (r : Pav K)
    (hr : pavx y = some r) : r.ghat.length = y.length ∧ r.ghat.Pairwise (· ≤ ·) ∧ ∀ x ∈ r.ghat, 0 < x ∧ x < 1 := by
  have hy : y ≠ [] := by intro h; rw [h] at hh; cases hh
  obtain ⟨r', h1, h2, h3, _⟩ := C29_shape y hy
  rw [hr] at h1
  cases h1
  obtain ⟨r', segs, e1, e2, e3, e4, e5, e6, e7, e8⟩ := pavx_segs y hy
  rw [hr] at e1
  cases e1
  refine ⟨h2, h3, ?_⟩
  have hne : segs ≠ [] := by intro h; rw [h] at e2; exact hy e2.symm
  have hpos : 0 < segs.length := List.length_pos_of_ne_nil hne
  rw [e5] at e7
  have hbin : ∀ s ∈ segs, ∀ x ∈ s, x = 0 ∨ x = 1 := fun s hs x hx => hm x (by rw [← e2]; exact List.mem_flatten.2 ⟨s, hs, hx⟩)
  have hsum0 : ∀ s : List K, (∀ x ∈ s, x = 0 ∨ x = 1) → 0 ≤ s.sum ∧ s.sum ≤ (s.length : K) ∧ (1 ∈ s → 0 < s.sum) ∧ (0 ∈ s → s.sum < (s.length : K)) := by
    intro s
    induction s with
    | nil => intro _; simp
    | cons a s ih =>
      intro h
      obtain ⟨i1, i2, i3, i4⟩ := ih (fun x hx => h x (by simp [hx]))
      have ha := h a (by simp)
      simp only [List.sum_cons, List.length_cons, Nat.cast_add, Nat.cast_one, List.mem_cons]
      refine ⟨by rcases ha with rfl | rfl <;> linarith, by rcases ha with rfl | rfl <;> linarith, ?_, ?_⟩
      · rintro (rfl | h1)
        · linarith
        · have := i3 h1; rcases ha with rfl | rfl <;> linarith
      · rintro (rfl | h1)
        · linarith
        · have := i4 h1; rcases ha with rfl | rfl <;> linarith
  have hfirst : (0 : K) < avg segs[0] := by
    have hs := List.getElem_mem hpos
    have hn : (0 : K) < (segs[0].length : K) := len_pos e3 hpos
    have : (1 : K) ∈ segs[0] := by
      have hs0 : segs[0] ≠ [] := e3 _ hs
      have hd : segs = segs[0] :: segs.drop 1 := by
        conv_lhs => rw [← List.drop_zero (l := segs), List.drop_eq_getElem_cons hpos]
      have := congrArg List.flatten hd
      rw [e2, List.flatten_cons] at this
      rw [this, List.head?_append] at hh
      rw [List.head?_eq_some_head hs0] at hh
      have : segs[0].head hs0 = 1 := by simpa using hh
      rw [← this]
      exact List.head_mem hs0
    exact div_pos ((hsum0 _ (hbin _ hs)).2.2.1 this) hn
  have hlast : avg (segs[segs.length - 1]'(by omega)) < 1 := by
    have hs := List.getElem_mem (show segs.length - 1 < segs.length by omega)
    have hn := len_pos (K := K) e3 (show segs.length - 1 < segs.length by omega)
    have : (0 : K) ∈ segs[segs.length - 1]'(by omega) := by
      have hs0 := e3 _ hs
      have hd : segs = segs.take (segs.length - 1) ++ [segs[segs.length - 1]'(by omega)] := by
        rw [← List.take_succ_eq_append_getElem (by omega), show segs.length - 1 + 1 = segs.length by omega, List.take_length]
      have := congrArg List.flatten hd
      rw [e2, List.flatten_append] at this
      simp only [List.flatten_singleton] at this
      rw [this, List.getLast?_append, List.getLast?_eq_some_getLast hs0] at hl
      have : (segs[segs.length - 1]'(by omega)).getLast hs0 = 0 := by simpa using hl
      rw [← this]
      exact List.getLast_mem hs0
    unfold avg
    rw [div_lt_one hn]
    exact (hsum0 _ (hbin _ hs)).2.2.2 this
  intro x hx
  rw [e6] at hx
  obtain ⟨b, hb, hxb⟩ := List.mem_flatten.1 hx
  obtain ⟨s, hs, rfl⟩ := List.mem_map.1 hb
  have hx' := List.eq_of_mem_replicate hxb
  subst hx'
  obtain ⟨i, hi, rfl⟩ := List.getElem_of_mem hs
  exact ⟨lt_of_lt_of_le hfirst (avg_le e7 (Nat.zero_le i) hi), lt_of_le_of_lt (avg_le e7 (by omega) (by omega)) hlast⟩

end order

/-- `opt_loglr(tar, non, 'laplace')` never fails on non-empty lists; it returns one value per trial, all logarithms are
taken of numbers strictly between 0 and 1 (so the values are finite), and a higher score gets a strictly higher
log-likelihood ratio. -/
theorem C54_opt_loglr (tar non : List ℝ) (ht : tar ≠ []) (hn : non ≠ []) :
    ∃ (tarLlr nonLlr : List ℝ), optLoglrLaplace tar non = some (tarLlr, nonLlr) ∧
      tarLlr.length = tar.length ∧ nonLlr.length = non.length ∧
      (∀ x ∈ tarLlr ++ nonLlr, ∃ p e : ℝ, 0 < p ∧ p < 1 ∧ 0 ≤ e ∧ e ≤ 1 / 1000000 ∧
        x = Real.log (p / (1 - p)) - Real.log ((tar.length : ℝ) / non.length) + e) ∧
      (∀ i j : Nat, i < tar.length + non.length → j < tar.length + non.length →
        (tar ++ non).getD i 0 < (tar ++ non).getD j 0 → (tarLlr ++ nonLlr).getD i 0 < (tarLlr ++ nonLlr).getD j 0) ∧
      (∀ i j : Nat, j < tar.length + non.length → i < j →
        (tar ++ non).getD i 0 = (tar ++ non).getD j 0 → (tarLlr ++ nonLlr).getD i 0 < (tarLlr ++ nonLlr).getD j 0) := by
  set n := tar.length + non.length with hndef
  have hnpos : (0 : ℝ) < (n : ℝ) := by
    have : 0 < n := by have := List.length_pos_of_ne_nil ht; omega
    exact_mod_cast this
  set y : List ℝ := [1, 0] ++ sortedLabels tar non ++ [1, 0] with hy
  have hyne : y ≠ [] := by simp [hy]
  obtain ⟨r, segs, hr, _⟩ := pavx_segs y hyne
  obtain ⟨g1, g2, g3⟩ := ghat_range y (by
    intro x hx
    rw [hy] at hx
    simp only [List.mem_append, List.mem_cons, List.not_mem_nil, or_false] at hx
    rcases hx with ((h | h) | h) | (h | h)
    · exact Or.inr h
    · exact Or.inl h
    · exact labels_mem tar non x h
    · exact Or.inr h
    · exact Or.inl h) (by simp [hy]) (by rw [hy, List.getLast?_append]; rfl) r hr
  have hylen : y.length = n + 4 := by
    rw [hy]; simp only [List.length_append, sortedLabels_length, List.length_cons, List.length_nil]; omega
  set pOpt := (r.ghat.drop 2).dropLast.dropLast with hpOpt
  have hplen : pOpt.length = n := by
    rw [hpOpt]; simp only [List.length_dropLast, List.length_drop]; omega
  have hsub : pOpt.Sublist r.ghat :=
    ((List.dropLast_sublist _).trans (List.dropLast_sublist _)).trans (List.drop_sublist _ _)
  have p1 : pOpt.Pairwise (· ≤ ·) := g2.sublist hsub
  have p2 : ∀ x ∈ pOpt, 0 < x ∧ x < 1 := fun x hx => g3 x (hsub.subset hx)
  set c := Real.log ((tar.length : ℝ) / (non.length : ℝ)) with hc
  set llr := pOpt.mapIdx (fun i p => Real.log p - Real.log (1 - p) - c + 1 / 1000000 * (i : ℝ) / (n : ℝ)) with hllr
  have hllen : llr.length = n := by rw [hllr, List.length_mapIdx, hplen]
  have hget : ∀ (k : Nat) (hk : k < n), llr.getD k 0 =
      Real.log (pOpt[k]'(by omega)) - Real.log (1 - pOpt[k]'(by omega)) - c + 1 / 1000000 * (k : ℝ) / (n : ℝ) := by
    intro k hk
    rw [List.getD_eq_getElem?_getD, List.getElem?_eq_getElem (by omega)]
    simp [hllr, List.getElem_mapIdx]
  have hmono : ∀ (k k' : Nat), k < k' → k' < n → llr.getD k 0 < llr.getD k' 0 := by
    intro k k' hkk hk'
    rw [hget k (by omega), hget k' hk']
    have q1 := p2 _ (List.getElem_mem (show k < pOpt.length by omega))
    have q2 := p2 _ (List.getElem_mem (show k' < pOpt.length by omega))
    have q3 := List.pairwise_iff_getElem.1 p1 k k' (by omega) (by omega) hkk
    have l1 := Real.log_le_log q1.1 q3
    have l2 := Real.log_le_log (show 0 < 1 - pOpt[k']'(by omega) by linarith [q2.2]) (show 1 - pOpt[k']'(by omega) ≤ 1 - pOpt[k]'(by omega) by linarith)
    have l3 : 1 / 1000000 * (k : ℝ) / (n : ℝ) < 1 / 1000000 * (k' : ℝ) / (n : ℝ) := by
      apply div_lt_div_of_pos_right _ hnpos
      have : (k : ℝ) < (k' : ℝ) := by exact_mod_cast hkk
      linarith
    linarith
  set π := stableArgsort (tar ++ non) with hπ
  have hπl : (tar ++ non).length = n := by rw [List.length_append]
  set out := (List.range n).map (fun i => llr.getD (π.idxOf i) 0) with hout
  have holen : out.length = n := by simp [hout]
  have hidx : ∀ i, i < n → π.idxOf i < n := by
    intro i hi
    have : i ∈ π := (stableArgsort_perm (tar ++ non)).mem_iff.2 (List.mem_range.2 (by omega))
    have := List.idxOf_lt_length_iff.2 this
    rwa [hπ, stableArgsort_length, hπl] at this
  have hog : ∀ i, i < n → out.getD i 0 = llr.getD (π.idxOf i) 0 := by
    intro i hi
    rw [List.getD_eq_getElem?_getD, hout, List.getElem?_map, List.getElem?_range hi]
    rfl
  refine ⟨out.take tar.length, out.drop tar.length, ?_, ?_, ?_, ?_, ?_, ?_⟩
  · unfold optLoglrLaplace
    rw [if_neg (by simp [ht, hn])]
    dsimp only
    rw [← hy, hr]
    rfl
  · rw [List.length_take]; omega
  · rw [List.length_drop]; omega
  · intro x hx
    rw [List.take_append_drop] at hx
    obtain ⟨i, hi, rfl⟩ := List.getElem_of_mem hx
    have hi' : i < n := by omega
    have e := hog i hi'
    rw [List.getD_eq_getElem?_getD, List.getElem?_eq_getElem hi, Option.getD_some, hget _ (hidx i hi')] at e
    have q := p2 _ (List.getElem_mem (show π.idxOf i < pOpt.length by have := hidx i hi'; omega))
    refine ⟨pOpt[π.idxOf i]'(by have := hidx i hi'; omega), 1 / 1000000 * (π.idxOf i : ℝ) / (n : ℝ), q.1, q.2, by positivity, ?_, ?_⟩
    · rw [div_le_iff₀ hnpos]
      have : (π.idxOf i : ℝ) ≤ (n : ℝ) := by exact_mod_cast (hidx i hi').le
      linarith
    · rw [e, Real.log_div q.1.ne' (by linarith [q.2])]
  · intro i j hi hj hlt
    rw [List.take_append_drop, hog i hi, hog j hj]
    apply hmono _ _ _ (hidx j hj)
    apply idxOf_lt _ (by omega) (by omega)
    · intro h; rw [h] at hlt; exact lt_irrefl _ hlt
    · simp only [stableBefore, decide_eq_true_eq]; exact Or.inl hlt
  · intro i j hj hij heq
    rw [List.take_append_drop, hog i (by omega), hog j hj]
    apply hmono _ _ _ (hidx j hj)
    apply idxOf_lt _ (by omega) (by omega) (by omega)
    simp only [stableBefore, decide_eq_true_eq]; exact Or.inr ⟨heq, hij.le⟩

/-- Consequence: equal scores do not get equal values; of two trials with the same score, the one listed first (targets
before nontargets) gets the lower one. -/
theorem C54_ties_split : ∃ a b : ℝ, optLoglrLaplace [0] [0] = some ([a], [b]) ∧ a < b := by
  obtain ⟨x, y, h1, h2, h3, _, _, h6⟩ := C54_opt_loglr [0] [0] (by simp) (by simp)
  obtain ⟨a, rfl⟩ := List.length_eq_one_iff.1 h2
  obtain ⟨b, rfl⟩ := List.length_eq_one_iff.1 h3
  exact ⟨a, b, h1, by simpa using h6 0 1 (by simp) (by simp) (by simp)⟩

end Hyp.Metrics
