import Verif.Pdfs.DiagGmmProps

/-! Property C71: `NormalDiagCov.fit` returns the maximum likelihood Gaussian among those that respect the variance floor. -/

namespace Hyp.Pdfs
open scoped BigOperators
open Hyp.MathUtils

variable {d : Nat}

theorem nStats_append (a b : List (Row (Fin d ⊕ Fin d))) : nStats (a ++ b) = nStats a + nStats b := by
  unfold nStats
  ext <;> simp

theorem normal_fit_some (cfg : NormCfg) (g : Normal d) (rows : List (XRow d)) (bs : Option Nat) (e : ℝ) (g' : Normal d)
    (h : g.fit cfg rows bs = some (e, g')) :
    g.mstep cfg (nStats (xRows rows)) = some g' ∧ e = g'.elbo (nStats (xRows rows)) := by
  have hst : Normal.estep rows bs = some (nStats (xRows rows)) ∨ g.fit cfg rows bs = none := by
    cases bs with
    | none => exact Or.inl rfl
    | some n =>
      rcases Nat.eq_zero_or_pos n with rfl | hn
      · right; simp [Normal.fit, Normal.estep, accumBatches]
      · by_cases hr : xRows rows = []
        · right; simp [Normal.fit, Normal.estep, accumBatches, hr, batches]
        · left; exact accumBatches_eq _ nStats_append n (xRows rows) hn hr
  rcases hst with hst | hst
  · unfold Normal.fit at h
    rw [hst] at h
    simp only [Option.bind_eq_bind, Option.bind_some] at h
    cases hm : g.mstep cfg (nStats (xRows rows)) with
    | none => rw [hm] at h; exact absurd h (by simp)
    | some g1 =>
      rw [hm] at h
      simp only [Option.bind_some, Option.pure_def, Option.some.injEq, Prod.mk.injEq] at h
      obtain ⟨h1, rfl⟩ := h
      exact ⟨rfl, h1.symm⟩
  · rw [hst] at h; exact absurd h (by simp)

theorem nStats_eq (rows : List (XRow d)) :
    (nStats (xRows rows)).1 = (rows.map (fun r => r.2)).sum ∧
    (∀ i, (nStats (xRows rows)).2 (.inl i) = (rows.map (fun x => x.2 * x.1 i)).sum) ∧
    ∀ i, (nStats (xRows rows)).2 (.inr i) = (rows.map (fun x => x.2 * (x.1 i * x.1 i))).sum := by
  refine ⟨?_, fun i => ?_, fun i => ?_⟩ <;> simp only [nStats, xRows, List.map_map, Function.comp_def, suffStats, mul_comm]

/-- C71: what `fit` returns: the weighted mean, the weighted variance or the floor if it is larger; the reported value is
the log-likelihood of the data under the fitted Gaussian. -/
theorem C71_fit (cfg : NormCfg) (hu : cfg.updateMu = true) (hl : cfg.updateLambda = true) (hfl : 0 ≤ cfg.varFloor)
    (g : Normal d) (rows : List (XRow d)) (hw : ∀ r ∈ rows, 0 ≤ r.2) (bs : Option Nat) (e : ℝ) (g' : Normal d)
    (h : g.fit cfg rows bs = some (e, g')) :
    (∀ i, g'.mu i = wMean rows (fun r => r.2) i) ∧
    (∀ i, 0 < g'.Lambda i ∧ 1 / g'.Lambda i = max (wVar rows (fun r => r.2) i) cfg.varFloor) ∧
    e = logLik1 g'.mu g'.Lambda rows := by
  obtain ⟨hm, he⟩ := normal_fit_some cfg g rows bs e g' h
  obtain ⟨s0, s1, s2⟩ := nStats_eq rows
  unfold Normal.mstep at hm
  split at hm
  · exact absurd hm (by simp)
  · next hN =>
    simp only [hu, hl, if_true, true_and] at hm
    split at hm
    · exact absurd hm (by simp)
    · next hS =>
      injection hm with hm
      have hmu : ∀ i, g'.mu i = wMean rows (fun r => r.2) i := by
        intro i; rw [← hm]; simp only [wMean, s0, s1]
      have hN' : (rows.map (fun r => r.2)).sum ≠ 0 := by rw [← s0]; exact hN
      have hS' : ∀ i, (if (nStats (xRows rows)).2 (.inr i) / (nStats (xRows rows)).1 -
            ((nStats (xRows rows)).2 (.inl i) / (nStats (xRows rows)).1) ^ 2 < cfg.varFloor then cfg.varFloor
          else (nStats (xRows rows)).2 (.inr i) / (nStats (xRows rows)).1 -
            ((nStats (xRows rows)).2 (.inl i) / (nStats (xRows rows)).1) ^ 2) = max (wVar rows (fun r => r.2) i) cfg.varFloor := by
        intro i
        have hv : (nStats (xRows rows)).2 (.inr i) / (nStats (xRows rows)).1 -
            ((nStats (xRows rows)).2 (.inl i) / (nStats (xRows rows)).1) ^ 2 = wVar rows (fun r => r.2) i := by
          rw [wVar_eq _ _ _ hN', s0, s1, s2]; rfl
        rw [hv]
        split
        · next hlt => rw [max_eq_right hlt.le]
        · next hge => rw [max_eq_left (not_lt.mp hge)]
      have hpos : ∀ i, 0 < max (wVar rows (fun r => r.2) i) cfg.varFloor := by
        intro i
        apply lt_of_le_of_ne (le_max_of_le_right hfl)
        intro hz
        exact hS ⟨i, by rw [hS' i, ← hz]⟩
      have hL : ∀ i, g'.Lambda i = 1 / max (wVar rows (fun r => r.2) i) cfg.varFloor := by
        intro i; rw [← hm]; simp only; rw [hS' i]
      refine ⟨hmu, fun i => ⟨by rw [hL]; have := hpos i; positivity, by rw [hL, one_div_one_div]⟩, ?_⟩
      have hLpos : ∀ i, 0 < g'.Lambda i := by intro i; rw [hL]; have := hpos i; positivity
      rw [he]
      unfold Normal.elbo logLik1
      clear hS' hS hm hmu hL hpos he h hw hN' s0 s1 s2 hN
      induction rows with
      | nil => simp [nStats, xRows]
      | cons r rs ih =>
        have e1 : nStats (xRows (r :: rs)) = nStats (xRows [r]) + nStats (xRows rs) := nStats_append (xRows [r]) (xRows rs)
        rw [e1, List.map_cons, List.sum_cons, ← ih, ← nat_log _ _ _ hLpos]
        simp only [Prod.fst_add, Prod.snd_add, Pi.add_apply, add_mul, Finset.sum_add_distrib]
        have e2 : ∑ i, (nStats (xRows [r])).2 i * computeEta g'.mu g'.Lambda i =
            r.2 * ∑ i, suffStats r.1 i * computeEta g'.mu g'.Lambda i := by
          rw [Finset.mul_sum]
          exact Finset.sum_congr rfl (fun i _ => by simp [nStats, xRows]; ring)
        have e3 : (nStats (xRows [r])).1 = r.2 := by simp [nStats, xRows]
        rw [e2, e3]
        ring

/-- C71: no Gaussian that respects the variance floor has a higher log-likelihood. -/
theorem C71_maximum_likelihood (cfg : NormCfg) (hu : cfg.updateMu = true) (hl : cfg.updateLambda = true) (hfl : 0 ≤ cfg.varFloor)
    (g : Normal d) (rows : List (XRow d)) (hw : ∀ r ∈ rows, 0 ≤ r.2) (bs : Option Nat) (e : ℝ) (g' : Normal d)
    (h : g.fit cfg rows bs = some (e, g')) (mu lam : Fin d → ℝ) (hp : ∀ i, 0 < lam i) (hv : ∀ i, cfg.varFloor ≤ 1 / lam i) :
    logLik1 mu lam rows ≤ e := by
  obtain ⟨h1, h2, h3⟩ := C71_fit cfg hu hl hfl g rows hw bs e g' h
  have hN0 : (rows.map (fun r => r.2)).sum ≠ 0 := by
    obtain ⟨hm, _⟩ := normal_fit_some cfg g rows bs e g' h
    intro hz
    unfold Normal.mstep at hm
    rw [if_pos (by rw [(nStats_eq rows).1]; exact hz)] at hm
    exact absurd hm (by simp)
  have hN : 0 < (rows.map (fun r => r.2)).sum := by
    apply lt_of_le_of_ne _ (Ne.symm hN0)
    apply List.sum_nonneg
    intro y hy
    obtain ⟨x, hx, rfl⟩ := List.mem_map.mp hy
    exact hw x hx
  rw [h3]
  unfold logLik1
  rw [sum_log_gauss rows (fun r => r.2) mu lam hp, sum_log_gauss rows (fun r => r.2) g'.mu g'.Lambda (fun i => (h2 i).1)]
  apply Finset.sum_le_sum
  intro i _
  apply sub_le_sub_right
  have hV := wVar_eq rows (fun r => r.2) i hN0
  have hgp := (h2 i).1
  have key := coord_opt (rows.map (fun r => r.2)).sum (rows.map (fun x => x.2 * x.1 i)).sum
      (rows.map (fun x => x.2 * (x.1 i * x.1 i))).sum (mu i) (lam i) (1 / g'.Lambda i) hN (hp i) (by positivity) (by
        rw [(h2 i).2]
        rcases le_total (wVar rows (fun r => r.2) i) cfg.varFloor with hc | hc
        · right
          rw [max_eq_right hc]
          refine ⟨?_, hv i⟩
          rw [hV] at hc; exact hc
        · left; rw [max_eq_left hc, hV]; rfl)
  rw [one_div_one_div] at key
  rw [h1 i]
  exact key

/-- C71: the fitted Gaussian does not depend on the batch size. -/
theorem C71_batch_size (cfg : NormCfg) (g : Normal d) (rows : List (XRow d)) (h : rows ≠ []) (n : Nat) (hn : 0 < n) :
    g.fit cfg rows (some n) = g.fit cfg rows none := by
  unfold Normal.fit
  have hr : xRows rows ≠ [] := by simpa [xRows] using h
  simp only [Normal.estep, accumBatches_eq _ nStats_append n (xRows rows) hn hr]

/-- C71 (limit of the claim): with a fixed mean the variance is not the maximum likelihood variance around that mean: data
0, mean 1 and floor 1/100000 give the variance 1/100000 instead of 1. -/
theorem C71_fixed_mean : ∃ (e : ℝ) (g' : Normal 1),
    Normal.fit ⟨1 / 100000, false, true⟩ ⟨fun _ => 1, fun _ => 1⟩ [(fun _ => 0, 1)] none = some (e, g') ∧
    g'.mu 0 = 1 ∧ 1 / g'.Lambda 0 = 1 / 100000 := by
  have hs0 : (nStats (xRows ([(fun _ => 0, 1)] : List (XRow 1)))).1 = 1 := by simp [nStats, xRows]
  have hs2 : ∀ i, (nStats (xRows ([(fun _ => 0, 1)] : List (XRow 1)))).2 (.inr i) = 0 := by intro i; simp [nStats, xRows, suffStats]
  have hm : Normal.mstep ⟨1 / 100000, false, true⟩ ⟨fun _ => 1, fun _ => 1⟩ (nStats (xRows ([(fun _ => 0, 1)] : List (XRow 1)))) =
      some ⟨fun _ => 1, fun _ => 1 / (1 / 100000)⟩ := by
    unfold Normal.mstep
    rw [if_neg (by rw [hs0]; norm_num)]
    simp only [hs0, hs2]
    norm_num
  refine ⟨Normal.elbo ⟨fun _ => 1, fun _ => 1 / (1 / 100000)⟩ (nStats (xRows ([(fun _ => 0, 1)] : List (XRow 1)))),
    ⟨fun _ => 1, fun _ => 1 / (1 / 100000)⟩, ?_, rfl, by norm_num⟩
  unfold Normal.fit
  simp only [Normal.estep, Option.bind_eq_bind, Option.bind_some, hm]
  rfl

/-- the hypotheses of C71 can be met: two points -/
example : ∃ (e : ℝ) (g' : Normal 1), Normal.fit ⟨1 / 100000, true, true⟩ ⟨fun _ => 0, fun _ => 1⟩
    [(fun _ => 0, 1), (fun _ => 2, 1)] (some 1) = some (e, g') := by
  rw [C71_batch_size _ _ _ (by simp) 1 one_pos]
  have hs0 : (nStats (xRows ([(fun _ => 0, 1), (fun _ => 2, 1)] : List (XRow 1)))).1 = 2 := by simp [nStats, xRows]; norm_num
  have hs1 : ∀ i, (nStats (xRows ([(fun _ => 0, 1), (fun _ => 2, 1)] : List (XRow 1)))).2 (.inl i) = 2 := by
    intro i; simp [nStats, xRows, suffStats]
  have hs2 : ∀ i, (nStats (xRows ([(fun _ => 0, 1), (fun _ => 2, 1)] : List (XRow 1)))).2 (.inr i) = 4 := by
    intro i; simp [nStats, xRows, suffStats]; norm_num
  have hm : Normal.mstep ⟨1 / 100000, true, true⟩ ⟨fun _ => 0, fun _ => 1⟩
      (nStats (xRows ([(fun _ => 0, 1), (fun _ => 2, 1)] : List (XRow 1)))) = some ⟨fun _ => 1, fun _ => 1⟩ := by
    unfold Normal.mstep
    rw [if_neg (by rw [hs0]; norm_num)]
    simp only [hs0, hs1, hs2]
    norm_num
  refine ⟨Normal.elbo ⟨fun _ => 1, fun _ => 1⟩ (nStats (xRows ([(fun _ => 0, 1), (fun _ => 2, 1)] : List (XRow 1)))),
    ⟨fun _ => 1, fun _ => 1⟩, ?_⟩
  unfold Normal.fit
  simp only [Normal.estep, Option.bind_eq_bind, Option.bind_some, hm]
  rfl

end Hyp.Pdfs
