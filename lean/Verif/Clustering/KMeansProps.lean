import Verif.Clustering.KMeans
import Verif.NpLemmas
import Mathlib.Algebra.Order.BigOperators.Group.Finset
import Mathlib.Algebra.Order.BigOperators.Group.List
import Mathlib.Algebra.BigOperators.Fin
import Mathlib.Tactic.Ring
import Mathlib.Tactic.FieldSimp
import Mathlib.Tactic.Linarith
import Mathlib.Tactic.NormNum

/-! Property C53: k-means. -/

namespace Hyp.KMeans

variable {K : Type} [Field K] [LinearOrder K] {d : Nat}

theorem argmin_spec {l : List K} {i : Nat} {b : K} (h : argmin l = some (i, b)) :
    l[i]? = some b ∧ ∀ (j : Nat) (c : K), l[j]? = some c → b ≤ c ∧ (j < i → b < c) := by
  induction l generalizing i b with
  | nil => simp [argmin] at h
  | cons a l ih =>
    unfold argmin at h
    rcases hl : argmin l with _ | ⟨i', b'⟩
    · rw [hl] at h
      simp only [Option.some.injEq, Prod.mk.injEq] at h
      obtain ⟨rfl, rfl⟩ := h
      have hnil : l = [] := by
        cases l with
        | nil => rfl
        | cons x l =>
          unfold argmin at hl
          rcases hh : argmin l with _ | ⟨u, v⟩
          · rw [hh] at hl; simp at hl
          · rw [hh] at hl; dsimp only at hl; split at hl <;> simp at hl
      subst hnil
      refine ⟨rfl, ?_⟩
      intro j c hj
      cases j with
      | zero => simp at hj; subst hj; exact ⟨le_refl _, fun h => absurd h (by omega)⟩
      | succ j => simp at hj
    · rw [hl] at h
      obtain ⟨h1, h2⟩ := ih hl
      dsimp only at h
      split at h
      · rename_i hlt
        simp only [Option.some.injEq, Prod.mk.injEq] at h
        obtain ⟨rfl, rfl⟩ := h
        refine ⟨by simpa using h1, ?_⟩
        intro j c hj
        cases j with
        | zero => simp at hj; subst hj; exact ⟨hlt.le, fun _ => hlt⟩
        | succ j =>
          have := h2 j c (by simpa using hj)
          exact ⟨this.1, fun h => this.2 (by omega)⟩
      · rename_i hlt
        simp only [Option.some.injEq, Prod.mk.injEq] at h
        obtain ⟨rfl, rfl⟩ := h
        refine ⟨rfl, ?_⟩
        intro j c hj
        refine ⟨?_, fun h => absurd h (by omega)⟩
        cases j with
        | zero => simp at hj; exact hj.le
        | succ j => exact (not_lt.1 hlt).trans (h2 j c (by simpa using hj)).1

theorem argmin_isSome {l : List K} (h : l ≠ []) : ∃ i b, argmin l = some (i, b) := by
  cases l with
  | nil => exact absurd rfl h
  | cons a l =>
    unfold argmin
    rcases argmin l with _ | ⟨u, v⟩
    · exact ⟨_, _, rfl⟩
    · dsimp only; split <;> exact ⟨_, _, rfl⟩

theorem argmax_spec {l : List K} {i : Nat} {b : K} (h : argmax l = some (i, b)) :
    l[i]? = some b ∧ ∀ c ∈ l, c ≤ b := by
  induction l generalizing i b with
  | nil => simp [argmax] at h
  | cons a l ih =>
    unfold argmax at h
    rcases hl : argmax l with _ | ⟨i', b'⟩
    · rw [hl] at h
      simp only [Option.some.injEq, Prod.mk.injEq] at h
      obtain ⟨rfl, rfl⟩ := h
      have hnil : l = [] := by
        cases l with
        | nil => rfl
        | cons x l =>
          unfold argmax at hl
          rcases hh : argmax l with _ | ⟨u, v⟩
          · rw [hh] at hl; simp at hl
          · rw [hh] at hl; dsimp only at hl; split at hl <;> simp at hl
      subst hnil
      simp
    · rw [hl] at h
      obtain ⟨h1, h2⟩ := ih hl
      dsimp only at h
      split at h
      · rename_i hlt
        simp only [Option.some.injEq, Prod.mk.injEq] at h
        obtain ⟨rfl, rfl⟩ := h
        refine ⟨by simpa using h1, ?_⟩
        intro c hc
        rcases List.mem_cons.1 hc with rfl | hc
        · exact hlt.le
        · exact h2 c hc
      · rename_i hlt
        simp only [Option.some.injEq, Prod.mk.injEq] at h
        obtain ⟨rfl, rfl⟩ := h
        refine ⟨rfl, ?_⟩
        intro c hc
        rcases List.mem_cons.1 hc with rfl | hc
        · exact le_refl _
        · exact (h2 c hc).trans (not_lt.1 hlt)

theorem argmax_isSome {l : List K} (h : l ≠ []) : ∃ i b, argmax l = some (i, b) := by
  cases l with
  | nil => exact absurd rfl h
  | cons a l =>
    unfold argmax
    rcases argmax l with _ | ⟨u, v⟩
    · exact ⟨_, _, rfl⟩
    · dsimp only; split <;> exact ⟨_, _, rfl⟩

/-- C53. Every point gets the number of a nearest centroid (the first one among equals) and the squared distance to it. -/
theorem C53_predict {mu x : List (Fin d → K)} {r : List (Nat × K)} (h : predict mu x = some r) :
    r.length = x.length ∧
    ∀ (t : Nat) (p : Fin d → K) (i : Nat) (e : K), x[t]? = some p → r[t]? = some (i, e) →
      ∃ m, mu[i]? = some m ∧ e = (∑ a, (p a - m a) ^ 2) ∧
        ∀ (j : Nat) (m' : Fin d → K), mu[j]? = some m' → e ≤ (∑ a, (p a - m' a) ^ 2) ∧ (j < i → e < ∑ a, (p a - m' a) ^ 2) := by
  unfold predict at h
  rw [mapM_eq_some_iff] at h
  have hlen : r.length = x.length := by have := congrArg List.length h; simpa using this.symm
  refine ⟨hlen, ?_⟩
  intro t p i e hp hr
  have ht : (x.map (fun p => argmin (mu.map (dist2 p))))[t]? = (r.map some)[t]? := by rw [h]
  rw [List.getElem?_map, List.getElem?_map, hp, hr] at ht
  simp only [Option.map_some, Option.some.injEq] at ht
  obtain ⟨h1, h2⟩ := argmin_spec ht
  rw [List.getElem?_map] at h1
  rcases Option.eq_none_or_eq_some (mu[i]?) with hm | ⟨m, hm⟩
  · rw [hm] at h1; simp at h1
  · rw [hm] at h1
    simp only [Option.map_some, Option.some.injEq] at h1
    refine ⟨m, hm, h1.symm, ?_⟩
    intro j m' hj
    exact h2 j (dist2 p m') (by rw [List.getElem?_map, hj]; rfl)

theorem predict_isSome {mu : List (Fin d → K)} (hmu : mu ≠ []) (x : List (Fin d → K)) : ∃ r, predict mu x = some r := by
  unfold predict
  rcases Option.eq_none_or_eq_some (x.mapM (fun p => argmin (mu.map (dist2 p)))) with h | ⟨r, h⟩
  · rw [mapM_eq_none_iff] at h
    obtain ⟨p, _, hp⟩ := h
    obtain ⟨i, b, hib⟩ := argmin_isSome (l := mu.map (dist2 p)) (by simpa using hmu)
    rw [hib] at hp
    simp at hp
  · exact ⟨r, h⟩

section Order
variable [IsStrictOrderedRing K]

theorem sum_sq_mean (l : List K) (hl : l ≠ []) (c : K) :
    (l.map (fun y => (y - l.sum / (l.length : K)) ^ 2)).sum ≤ (l.map (fun y => (y - c) ^ 2)).sum := by
  have key : ∀ (l : List K) (m c : K), (l.map (fun y => (y - c) ^ 2)).sum =
      (l.map (fun y => (y - m) ^ 2)).sum + 2 * (m - c) * (l.sum - (l.length : K) * m) + (l.length : K) * (m - c) ^ 2 := by
    intro l m c
    induction l with
    | nil => simp
    | cons y l ih =>
      simp only [List.map_cons, List.sum_cons, List.length_cons, Nat.cast_add, Nat.cast_one]
      rw [ih]
      ring
  have hn : (l.length : K) ≠ 0 := by
    have : 0 < l.length := List.length_pos_iff.2 hl
    exact_mod_cast this.ne'
  rw [key l (l.sum / (l.length : K)) c]
  have h0 : l.sum - (l.length : K) * (l.sum / (l.length : K)) = 0 := by field_simp; ring
  rw [h0]
  have : 0 ≤ (l.length : K) * (l.sum / (l.length : K) - c) ^ 2 := mul_nonneg (Nat.cast_nonneg _) (sq_nonneg _)
  linarith

theorem dist2_nonneg (p m : Fin d → K) : 0 ≤ dist2 p m := Finset.sum_nonneg (fun _ _ => sq_nonneg _)

theorem sum_dist2 (l : List (Fin d → K)) (m : Fin d → K) : (l.map (fun p => dist2 p m)).sum = ∑ a, (l.map (fun p => (p a - m a) ^ 2)).sum := by
  induction l with
  | nil => simp
  | cons p l ih =>
    simp only [List.map_cons, List.sum_cons]
    rw [ih, Finset.sum_add_distrib]
    rfl

/-- the mean minimises the sum of squared distances. -/
theorem mean_min {l : List (Fin d → K)} (hl : l ≠ []) (c : Fin d → K) :
    (l.map (fun p => dist2 p (mean l))).sum ≤ (l.map (fun p => dist2 p c)).sum := by
  rw [sum_dist2, sum_dist2]
  apply Finset.sum_le_sum
  intro a _
  have := sum_sq_mean (l.map (fun p => p a)) (by simpa using hl) (c a)
  simpa [List.map_map, Function.comp_def, mean] using this

/-- a sum over points can be taken cluster by cluster. -/
theorem sum_by_cluster (nc : Nat) (z : List ((Fin d → K) × Nat)) (f : (Fin d → K) → Nat → K) (h : ∀ p ∈ z, p.2 < nc) :
    (z.map (fun p => f p.1 p.2)).sum = ∑ k ∈ Finset.range nc, (((z.filter (fun p => decide (p.2 = k))).map Prod.fst).map (fun p => f p k)).sum := by
  induction z with
  | nil => simp
  | cons p z ih =>
    have hp : p.2 ∈ Finset.range nc := Finset.mem_range.2 (h p (by simp))
    rw [List.map_cons, List.sum_cons, ih (fun q hq => h q (List.mem_cons_of_mem _ hq))]
    rw [← Finset.add_sum_erase _ _ hp, ← Finset.add_sum_erase (Finset.range nc) (fun k => ((((p :: z).filter (fun p => decide (p.2 = k))).map Prod.fst).map (fun p => f p k)).sum) hp]
    have e1 : ∀ k ∈ (Finset.range nc).erase p.2, ((((p :: z).filter (fun p => decide (p.2 = k))).map Prod.fst).map (fun p => f p k)).sum =
        (((z.filter (fun p => decide (p.2 = k))).map Prod.fst).map (fun p => f p k)).sum := by
      intro k hk
      rw [List.filter_cons_of_neg]
      simp only [decide_eq_true_eq]
      exact fun h => (Finset.ne_of_mem_erase hk) h.symm
    rw [Finset.sum_congr rfl e1]
    simp [add_assoc]

theorem centroids_get {nc k : Nat} (hk : k < nc) (x : List (Fin d → K)) (index : List Nat) :
    (centroids nc x index)[k]? = some (if pointsOf x index k = [] then 0 else mean (pointsOf x index k)) := by
  unfold centroids
  rw [List.getElem?_map, List.getElem?_range hk]
  rfl

/-- the pointwise comparison behind the descent: total error after re-estimation against the total error of an assignment. -/
theorem total_le {mu x : List (Fin d → K)} {nc : Nat} (hmu : mu.length = nc) {r r' : List (Nat × K)} (h : predict mu x = some r)
    (h' : predict (centroids nc x (r.map Prod.fst)) x = some r') : (r'.map Prod.snd).sum ≤ (r.map Prod.snd).sum := by
  obtain ⟨hl, hs⟩ := C53_predict h
  obtain ⟨hl', hs'⟩ := C53_predict h'
  set cen := centroids nc x (r.map Prod.fst) with hcen
  set z := x.zip (r.map Prod.fst) with hz
  have hzlt : ∀ p ∈ z, p.2 < nc := by
    intro p hp
    have : p.2 ∈ r.map Prod.fst := by rw [hz] at hp; exact (List.of_mem_zip (show (p.1, p.2) ∈ _ from hp)).2
    obtain ⟨q, hq, he⟩ := List.mem_map.1 this
    obtain ⟨t, ht⟩ := List.mem_iff_getElem?.1 hq
    have htx : t < x.length := by rw [← hl]; exact (List.getElem?_eq_some_iff.1 ht).1
    obtain ⟨m, hm, _⟩ := hs t x[t] q.1 q.2 (List.getElem?_eq_getElem htx) ht
    rw [← he, ← hmu]
    exact (List.getElem?_eq_some_iff.1 hm).1
  have hzlen : z.length = x.length := by rw [hz, List.length_zip]; simp [hl]
  -- the old error
  have e1 : (r.map Prod.snd).sum = (z.map (fun p => dist2 p.1 ((mu[p.2]?).getD 0))).sum := by
    congr 1
    apply List.ext_getElem?
    intro t
    by_cases ht : t < x.length
    · have hr : r[t]? = some r[t] := List.getElem?_eq_getElem (by omega)
      have hx : x[t]? = some x[t] := List.getElem?_eq_getElem ht
      obtain ⟨m, hm, he, _⟩ := hs t x[t] r[t].1 r[t].2 hx hr
      have hzt : z[t]? = some (x[t], r[t].1) := List.getElem?_zip_eq_some.2 ⟨hx, by rw [List.getElem?_map, hr]; rfl⟩
      rw [List.getElem?_map, hr, List.getElem?_map, hzt]
      simp only [Option.map_some, hm, Option.getD_some]
      rw [he]; rfl
    · rw [List.getElem?_eq_none (by simp; omega), List.getElem?_eq_none (by simp; omega)]
  -- the new error, against the old assignment with the new centroids
  have e2 : (r'.map Prod.snd).sum ≤ (z.map (fun p => dist2 p.1 ((cen[p.2]?).getD 0))).sum := by
    apply List.Forall₂.sum_le_sum
    rw [List.forall₂_iff_get]
    refine ⟨by simp; omega, ?_⟩
    intro t h1 h2
    simp only [List.length_map] at h1 h2
    have ht : t < x.length := by omega
    have hr : r[t]? = some r[t] := List.getElem?_eq_getElem (by omega)
    have hr' : r'[t]? = some r'[t] := List.getElem?_eq_getElem (by omega)
    have hx : x[t]? = some x[t] := List.getElem?_eq_getElem ht
    obtain ⟨_, _, _, hmin⟩ := hs' t x[t] r'[t].1 r'[t].2 hx hr'
    have hzt : z[t]? = some (x[t], r[t].1) := List.getElem?_zip_eq_some.2 ⟨hx, by rw [List.getElem?_map, hr]; rfl⟩
    have hzt' : z[t] = (x[t], r[t].1) := (List.getElem?_eq_some_iff.1 hzt).2
    have hk : r[t].1 < nc := by
      have := hzlt _ (List.getElem_mem (l := z) (n := t) (by omega))
      rw [hzt'] at this
      exact this
    have hc := centroids_get hk x (r.map Prod.fst)
    simp only [List.get_eq_getElem, List.getElem_map, hzt']
    rw [← hcen] at hc
    rw [hc]
    exact (hmin _ _ hc).1
  -- the new centroids, cluster by cluster
  have e3 : (z.map (fun p => dist2 p.1 ((cen[p.2]?).getD 0))).sum ≤ (z.map (fun p => dist2 p.1 ((mu[p.2]?).getD 0))).sum := by
    rw [sum_by_cluster nc z (fun p k => dist2 p ((cen[k]?).getD 0)) hzlt, sum_by_cluster nc z (fun p k => dist2 p ((mu[k]?).getD 0)) hzlt]
    apply Finset.sum_le_sum
    intro k hk
    rw [Finset.mem_range] at hk
    have hc := centroids_get hk x (r.map Prod.fst)
    rw [← hcen] at hc
    rw [hc, Option.getD_some]
    change ((pointsOf x (r.map Prod.fst) k).map _).sum ≤ ((pointsOf x (r.map Prod.fst) k).map _).sum
    by_cases hp : pointsOf x (r.map Prod.fst) k = []
    · rw [hp]; simp
    · rw [if_neg hp]
      exact mean_min hp _
  rw [e1]
  exact e2.trans e3

theorem meanErr_le {mu x : List (Fin d → K)} {nc : Nat} (hmu : mu.length = nc) {r r' : List (Nat × K)} (h : predict mu x = some r)
    (h' : predict (centroids nc x (r.map Prod.fst)) x = some r') : meanErr r' ≤ meanErr r := by
  have := total_le hmu h h'
  unfold meanErr
  rw [(C53_predict h).1, (C53_predict h').1]
  exact div_le_div_of_nonneg_right this (Nat.cast_nonneg _)

theorem centroids_length (nc : Nat) (x : List (Fin d → K)) (index : List Nat) : (centroids nc x index).length = nc := by simp [centroids]

/-- what the loop guarantees. -/
theorem loop_spec {nc : Nat} {rtol : K} {x : List (Fin d → K)} {n : Nat} {prev : Option K} {mu : List (Fin d → K)} {r : List (Nat × K)}
    (hmu : mu.length = nc) (hr : predict mu x = some r) (hprev : ∀ p, prev = some p → p = meanErr r)
    {mu' : List (Fin d → K)} {ls : List K} {r' : List (Nat × K)} (h : loop nc rtol x n prev mu r = some (mu', ls, r')) :
    mu'.length = nc ∧ predict mu' x = some r' ∧ (meanErr r :: ls).IsChain (fun a b => b ≤ a) ∧ ls.length ≤ n ∧
      (meanErr r :: ls).getLast? = some (meanErr r') ∧ (n ≠ 0 → ls ≠ []) ∧
      (ls.length < n → ∃ init a b, prev.toList ++ ls = init ++ [a, b] ∧ small rtol a b = true) := by
  induction n generalizing prev mu r ls with
  | zero =>
    simp only [loop, Option.some.injEq, Prod.mk.injEq] at h
    obtain ⟨rfl, rfl, rfl⟩ := h
    simp [hmu, hr]
  | succ n ih =>
    rw [loop] at h
    rcases Option.eq_none_or_eq_some (predict (centroids nc x (r.map Prod.fst)) x) with hq | ⟨q, hq⟩
    · rw [hq] at h; simp at h
    · rw [hq] at h
      dsimp only at h
      have hle := meanErr_le hmu hr hq
      by_cases hc : stops rtol prev (meanErr q) = true
      · rw [if_pos hc] at h
        simp only [Option.some.injEq, Prod.mk.injEq] at h
        obtain ⟨rfl, rfl, rfl⟩ := h
        refine ⟨centroids_length _ _ _, hq, by simpa using hle, by simp, by simp, by simp, ?_⟩
        intro _
        cases prev with
        | none => simp [stops] at hc
        | some p => exact ⟨[], p, meanErr q, rfl, hc⟩
      · rw [if_neg hc] at h
        rcases hl : loop nc rtol x n (some (meanErr q)) (centroids nc x (r.map Prod.fst)) q with _ | ⟨mu2, ls2, r2⟩
        · rw [hl] at h; simp at h
        · rw [hl] at h
          simp only [Option.some.injEq, Prod.mk.injEq] at h
          obtain ⟨rfl, rfl, rfl⟩ := h
          obtain ⟨i1, i2, i3, i4, i5, _, i7⟩ := ih (centroids_length _ _ _) hq (by intro p hp; simpa using hp.symm) hl
          refine ⟨i1, i2, List.IsChain.cons_cons hle i3, by simpa using i4, ?_, by simp, ?_⟩
          · rw [List.getLast?_cons_cons]; exact i5
          · intro hlt
            obtain ⟨init, a, b, e, hs⟩ := i7 (by simpa using hlt)
            refine ⟨prev.toList ++ init, a, b, ?_, hs⟩
            simp only [Option.toList_some, List.singleton_append] at e
            rw [e, List.append_assoc]

theorem addSeeds_spec {x : List (Fin d → K)} {n : Nat} {mu mu' : List (Fin d → K)} (hmu : ∀ m ∈ mu, m ∈ x) (h : addSeeds x n mu = some mu') :
    mu'.length = mu.length + n ∧ (∀ m ∈ mu', m ∈ x) ∧ mu <+: mu' := by
  induction n generalizing mu with
  | zero => simp only [addSeeds, Option.some.injEq] at h; subst h; exact ⟨rfl, hmu, List.prefix_rfl⟩
  | succ n ih =>
    unfold addSeeds at h
    rcases hs : nextSeed x mu with _ | m
    · rw [hs] at h; simp at h
    · rw [hs] at h
      dsimp only at h
      have hm : m ∈ x := by
        unfold nextSeed at hs
        split at hs
        · simp at hs
        · exact List.mem_of_getElem? hs
      obtain ⟨h1, h2, h3⟩ := ih (by
        intro a ha
        rcases List.mem_append.1 ha with ha | ha
        · exact hmu a ha
        · simp at ha; subst ha; exact hm) h
      refine ⟨by rw [h1]; simp; omega, h2, (List.prefix_append _ _).trans h3⟩

theorem addSeeds_isSome {x : List (Fin d → K)} (hx : x ≠ []) (n : Nat) (mu : List (Fin d → K)) : ∃ mu', addSeeds x n mu = some mu' := by
  induction n generalizing mu with
  | zero => exact ⟨mu, rfl⟩
  | succ n ih =>
    unfold addSeeds
    have : ∃ m, nextSeed x mu = some m := by
      unfold nextSeed
      obtain ⟨i, b, hib⟩ := argmax_isSome (l := x.map (fun p => (mu.map (fun m => dist2 p m)).sum)) (by simpa using hx)
      rw [hib]
      dsimp only
      have := (argmax_spec hib).1
      rw [List.getElem?_map] at this
      rcases Option.eq_none_or_eq_some (x[i]?) with h | ⟨m, h⟩
      · rw [h] at this; simp at this
      · exact ⟨m, h⟩
    obtain ⟨m, hm⟩ := this
    rw [hm]
    exact ih _

/-- C53. The seeds are data points, as many as clusters, the first being the first data point. -/
theorem C53_seeds {nc : Nat} {x mu : List (Fin d → K)} (h : chooseSeeds nc x = some mu) : mu.length = nc ∧ (∀ m ∈ mu, m ∈ x) ∧ mu.head? = x.head? := by
  unfold chooseSeeds at h
  split at h
  · simp at h
  · simp at h
  · obtain ⟨h1, h2, t, h3⟩ := addSeeds_spec (by simp) h
    refine ⟨by rw [h1]; simp; omega, h2, ?_⟩
    rw [← h3]
    rfl

theorem loop_isSome {nc : Nat} (hnc : 0 < nc) (rtol : K) (x : List (Fin d → K)) (n : Nat) (prev : Option K) (mu : List (Fin d → K)) (r : List (Nat × K)) :
    ∃ res, loop nc rtol x n prev mu r = some res := by
  induction n generalizing prev mu r with
  | zero => exact ⟨_, rfl⟩
  | succ k ih =>
    have hcl := centroids_length nc x (r.map Prod.fst)
    obtain ⟨q, hq⟩ := predict_isSome (mu := centroids nc x (r.map Prod.fst)) (by intro h; rw [h] at hcl; simp at hcl; omega) x
    rw [loop, hq]
    dsimp only
    by_cases hc : stops rtol prev (meanErr q) = true
    · rw [if_pos hc]; exact ⟨_, rfl⟩
    · rw [if_neg hc]
      obtain ⟨res, hres⟩ := ih (some (meanErr q)) (centroids nc x (r.map Prod.fst)) q
      rw [hres]
      exact ⟨_, rfl⟩

/-- C53. `fit` with at least one cluster and one point always returns. -/
theorem C53_fit_returns (nc : Nat) (hnc : 0 < nc) (rtol : K) (x : List (Fin d → K)) (hx : x ≠ []) (epochs : Nat) : ∃ res, fit nc rtol x epochs = some res := by
  obtain ⟨n, rfl⟩ : ∃ n, nc = n + 1 := ⟨nc - 1, by omega⟩
  obtain ⟨p, x', rfl⟩ := List.exists_cons_of_ne_nil hx
  obtain ⟨mu, hmu⟩ := addSeeds_isSome hx n [p]
  have hmu' : chooseSeeds (n + 1) (p :: x') = some mu := hmu
  have hlen := (C53_seeds hmu').1
  obtain ⟨r, hr⟩ := predict_isSome (mu := mu) (by intro h; rw [h] at hlen; simp at hlen) (p :: x')
  unfold fit
  rw [hmu']
  dsimp only
  rw [hr]
  dsimp only
  exact loop_isSome (by omega) rtol _ _ _ _ _

/-- C53. For every data set, number of clusters, tolerance and number of epochs: the losses returned by `fit` never increase and are bounded by the mean error of the
seeds; there are at most `epochs`; the last one is the mean of the squared errors of the returned assignment, which assigns each point to a nearest one of the
centroids left in the model; and when `fit` stops early the relative change of the last two losses is below the tolerance. -/
theorem C53_fit {nc : Nat} {rtol : K} {x : List (Fin d → K)} {epochs : Nat} {mu : List (Fin d → K)} {ls : List K} {r : List (Nat × K)}
    (h : fit nc rtol x epochs = some (mu, ls, r)) :
    mu.length = nc ∧ predict mu x = some r ∧ ls.IsChain (fun a b => b ≤ a) ∧ ls.length ≤ epochs ∧ (epochs ≠ 0 → ls.getLast? = some ((r.map Prod.snd).sum / (x.length : K))) ∧
    (∃ seeds r0, chooseSeeds nc x = some seeds ∧ predict seeds x = some r0 ∧ ∀ l ∈ ls, l ≤ (r0.map Prod.snd).sum / (x.length : K)) ∧
    (ls.length < epochs → ∃ init a b, ls = init ++ [a, b] ∧ a ≠ 0 ∧ |a - b| / a < rtol) := by
  unfold fit at h
  rcases hs : chooseSeeds nc x with _ | seeds
  · rw [hs] at h; simp at h
  · rw [hs] at h
    dsimp only at h
    rcases hp : predict seeds x with _ | r0
    · rw [hp] at h; simp at h
    · rw [hp] at h
      dsimp only at h
      obtain ⟨i1, i2, i3, i4, i5, i6, i7⟩ := loop_spec (C53_seeds hs).1 hp (by intro p hp; simp at hp) h
      have hml : meanErr r = (r.map Prod.snd).sum / (x.length : K) := by unfold meanErr; rw [(C53_predict i2).1]
      refine ⟨i1, i2, i3.of_cons, i4, ?_, ?_, ?_⟩
      · intro he
        have hne := i6 he
        obtain ⟨a, l, rfl⟩ := List.exists_cons_of_ne_nil hne
        rw [List.getLast?_cons_cons] at i5
        rw [i5, hml]
      · refine ⟨seeds, r0, rfl, hp, ?_⟩
        intro l hl
        have hml0 : meanErr r0 = (r0.map Prod.snd).sum / (x.length : K) := by unfold meanErr; rw [(C53_predict hp).1]
        rw [← hml0]
        have hpw := List.isChain_iff_pairwise.1 i3
        exact (List.pairwise_cons.1 hpw).1 l hl
      · intro hlt
        obtain ⟨init, a, b, e, hsm⟩ := i7 hlt
        refine ⟨init, a, b, by simpa using e, ?_⟩
        unfold small at hsm
        simpa using hsm

end Order

/-- C53. An empty cluster gets the zero vector as centroid, a non-empty one its mean. -/
theorem C53_centroids {nc k : Nat} (hk : k < nc) (x : List (Fin d → K)) (index : List Nat) :
    (pointsOf x index k = [] → (centroids nc x index)[k]? = some 0) ∧
    (pointsOf x index k ≠ [] → ∃ m, (centroids nc x index)[k]? = some m ∧
      ∀ a, m a = ((pointsOf x index k).map (fun p => p a)).sum / ((pointsOf x index k).length : K)) := by
  unfold centroids
  rw [List.getElem?_map, List.getElem?_range hk]
  constructor
  · intro h; simp [h]
  · intro h; exact ⟨mean (pointsOf x index k), by simp only [Option.map_some]; rw [if_neg h], fun a => rfl⟩

/-! a concrete data set: three distinct points on a line, three clusters. -/

/-- a point of the line. -/
def pt (q : ℚ) : Fin 1 → ℚ := fun _ => q

theorem dist2_pt (a b : ℚ) : dist2 (pt a) (pt b) = (a - b) ^ 2 := by simp [dist2, pt]

/-- the points 100, 110, 105. -/
def threePts : List (Fin 1 → ℚ) := [pt 100, pt 110, pt 105]

/-- C53 (a defect): seeding by the sum of the distances to the previous seeds picks the same point twice although the three points are distinct. -/
theorem C53_seeds_repeat : chooseSeeds 3 threePts = some [pt 100, pt 110, pt 100] := by
  have n1 : nextSeed threePts [pt 100] = some (pt 110) := by
    norm_num [nextSeed, threePts, argmax, dist2_pt]
  have n2 : nextSeed threePts [pt 100, pt 110] = some (pt 100) := by
    norm_num [nextSeed, threePts, argmax, dist2_pt]
  have : addSeeds threePts 2 [pt 100] = some [pt 100, pt 110, pt 100] := by
    simp [addSeeds, n1, n2]
  exact this

theorem pred_seeds : predict [pt 100, pt 110, pt 100] threePts = some [(0, 0), (1, 0), (0, 25)] := by
  norm_num [predict, threePts, argmin, dist2_pt]

theorem mean_pair : mean [pt 100, pt 105] = pt (205 / 2) := by
  funext i; norm_num [mean, pt]

theorem mean_one : mean [pt 110] = pt 110 := by
  funext i; norm_num [mean, pt]

theorem cents {e0 e1 e2 : ℚ} : centroids 3 threePts ([(0, e0), (1, e1), (0, e2)].map Prod.fst) = [pt (205 / 2), pt 110, pt 0] := by
  have h0 : (0 : Fin 1 → ℚ) = pt 0 := rfl
  simp [centroids, List.range_succ, pointsOf, threePts, mean_pair, mean_one, h0]

theorem pred_cents : predict [pt (205 / 2), pt 110, pt 0] threePts = some [(0, 25 / 4), (1, 0), (0, 25 / 4)] := by
  norm_num [predict, threePts, argmin, dist2_pt]

/-- C53 (a defect): with three distinct points and three clusters `fit` never uses the third cluster, whatever the tolerance and the number of epochs: two of the points
share a cluster for ever. -/
theorem C53_cluster_lost (rtol : ℚ) (epochs : Nat) {mu : List (Fin 1 → ℚ)} {ls : List ℚ} {r : List (Nat × ℚ)} (h : fit 3 rtol threePts epochs = some (mu, ls, r)) :
    r.map Prod.fst = [0, 1, 0] := by
  unfold fit at h
  rw [C53_seeds_repeat] at h
  dsimp only at h
  rw [pred_seeds] at h
  dsimp only at h
  have key : ∀ (n : Nat) (prev : Option ℚ) (mu0 : List (Fin 1 → ℚ)) (e0 e1 e2 : ℚ) (ls : List ℚ),
      loop 3 rtol threePts n prev mu0 [(0, e0), (1, e1), (0, e2)] = some (mu, ls, r) → r.map Prod.fst = [0, 1, 0] := by
    intro n
    induction n with
    | zero =>
      intro prev mu0 e0 e1 e2 ls h
      simp only [loop, Option.some.injEq, Prod.mk.injEq] at h
      rw [← h.2.2]; rfl
    | succ n ih =>
      intro prev mu0 e0 e1 e2 ls h
      rw [loop, cents, pred_cents] at h
      dsimp only at h
      by_cases hc : stops rtol prev (meanErr [(0, 25 / 4), (1, (0 : ℚ)), (0, 25 / 4)]) = true
      · rw [if_pos hc] at h
        simp only [Option.some.injEq, Prod.mk.injEq] at h
        rw [← h.2.2]; rfl
      · rw [if_neg hc] at h
        rcases hl : loop 3 rtol threePts n (some (meanErr [(0, 25 / 4), (1, (0 : ℚ)), (0, 25 / 4)])) [pt (205 / 2), pt 110, pt 0] [(0, 25 / 4), (1, 0), (0, 25 / 4)] with _ | ⟨a, b, c⟩
        · rw [hl] at h; simp at h
        · rw [hl] at h
          simp only [Option.some.injEq, Prod.mk.injEq] at h
          obtain ⟨rfl, _, rfl⟩ := h
          exact ih _ _ _ _ _ _ hl
  exact key _ _ _ _ _ _ _ h

/-- non-vacuity: `fit` returns on the concrete data set. -/
example : ∃ res, fit 3 (1 / 1000 : ℚ) threePts 100 = some res := C53_fit_returns 3 (by decide) _ _ (by simp [threePts]) 100

end Hyp.KMeans
