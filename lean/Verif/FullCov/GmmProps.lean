import Verif.FullCov.NormProps
import Verif.Pdfs.DiagGmmProps

/-! Property C111: mixtures of full-covariance Gaussians. -/

namespace Hyp.FullCov
open scoped BigOperators
open Matrix Hyp.Plda Hyp.MathUtils
open Hyp.Pdfs (Mix Row)

variable {K d : Nat} {svd : (n : Nat) → Mat n n → Mat n n × Vec n} {chol : (n : Nat) → Mat n n → Mat n n}

/-! ### specification -/

/-- density of a mixture with weights `a`, means `mu` and precisions `P` -/
noncomputable def mixPdf (a : Fin (K + 1) → ℝ) (mu : Fin (K + 1) → Vec d) (P : Fin (K + 1) → Mat d d) (x : Vec d) : ℝ := ∑ k, a k * gaussPdf (mu k) (P k) x

/-- weighted log likelihood -/
noncomputable def logLik (a : Fin (K + 1) → ℝ) (mu : Fin (K + 1) → Vec d) (P : Fin (K + 1) → Mat d d) (rows : List (XRow d)) : ℝ :=
  (rows.map (fun r => r.2 * Real.log (mixPdf a mu P r.1))).sum

/-- the natural parameters belong to the means and precisions, which are positive definite -/
def Gmm.WF (chol : (n : Nat) → Mat n n → Mat n n) (g : Gmm K d) : Prop :=
  (∀ k, (g.L k).PosDef) ∧ (∀ k, g.mix.eta k = computeEta (g.mu k) (g.L k)) ∧ ∀ k, g.mix.A k = computeANat chol (computeEta (g.mu k) (g.L k))

/-- the mixture weights with which a model computes posteriors and scores -/
noncomputable def Gmm.usedWeights (g : Gmm K d) (k : Fin (K + 1)) : ℝ := Real.exp (g.mix.logPiVal k)

/-- the share of row `r` that belongs to component `k`: sample weight times Bayes posterior -/
noncomputable def Gmm.share (g : Gmm K d) (k : Fin (K + 1)) (r : XRow d) : ℝ :=
  r.2 * (g.usedWeights k * gaussPdf (g.mu k) (g.L k) r.1 / mixPdf g.usedWeights g.mu g.L r.1)

/-- the minimum covariance of an epoch: `var_floor` times the mean over the components of their weighted covariances -/
noncomputable def Gmm.minCov (g : Gmm K d) (f : ℝ) (rows : List (XRow d)) : Mat d d := f • ((1 / (K + 1 : ℝ)) • ∑ k, wCov rows (g.share k))

/-! ### lemmas -/

theorem usedWeights_pos (g : Gmm K d) (k : Fin (K + 1)) : 0 < g.usedWeights k := Real.exp_pos _

theorem mixPdf_pos {a : Fin (K + 1) → ℝ} (ha : ∀ k, 0 < a k) {mu : Fin (K + 1) → Vec d} {P : Fin (K + 1) → Mat d d} (hP : ∀ k, (P k).PosDef) (x : Vec d) :
    0 < mixPdf a mu P x := Finset.sum_pos (fun j _ => mul_pos (ha j) (gauss_pos _ (hP j) x)) ⟨0, Finset.mem_univ _⟩

theorem Gmm.logr_eq (hc : IsCholesky chol) (g : Gmm K d) (hg : g.WF chol) (x : Vec d) (k : Fin (K + 1)) :
    g.mix.logr (suff x) k = g.mix.logPiVal k + Real.log (gaussPdf (g.mu k) (g.L k) x) := by
  unfold Mix.logr
  rw [hg.2.1 k, hg.2.2 k, ((C110_parameters hc).1 (g.mu k) (g.L k) (hg.1 k)).2, nat_log hc _ (hg.1 k)]
  ring

theorem mixPdf_eq (hc : IsCholesky chol) (g : Gmm K d) (hg : g.WF chol) (x : Vec d) :
    ∑ k, Real.exp (g.mix.logr (suff x) k) = mixPdf g.usedWeights g.mu g.L x := by
  unfold mixPdf
  refine Finset.sum_congr rfl (fun k _ => ?_)
  rw [g.logr_eq hc hg, Real.exp_add, Real.exp_log (gauss_pos _ (hg.1 k) x)]
  rfl

theorem new_wf (pi : Fin (K + 1) → ℝ) (mu : Fin (K + 1) → Vec d) (L : Fin (K + 1) → Mat d d) (g : Gmm K d) (h : Gmm.new chol pi mu L = some g) :
    g.WF chol ∧ g.mu = mu ∧ g.L = L ∧ g.mix.pi = pi ∧ g.mix.logPi = none := by
  unfold Gmm.new at h
  split at h
  · next hl =>
    injection h with h
    subst h
    exact ⟨⟨hl, fun _ => rfl, fun _ => rfl⟩, rfl, rfl, rfl, rfl⟩
  · exact absurd h (by simp)

theorem pz_share (hc : IsCholesky chol) (g : Gmm K d) (hg : g.WF chol) (r : XRow d) (k : Fin (K + 1)) : g.mix.pz (suff r.1) k * r.2 = g.share k r := by
  unfold Mix.pz Gmm.share
  rw [C66_softmax_value, mixPdf_eq hc g hg, g.logr_eq hc hg, Real.exp_add, Real.exp_log (gauss_pos _ (hg.1 k) _)]
  unfold Gmm.usedWeights
  ring

theorem share_nonneg (g : Gmm K d) (hg : g.WF chol) (r : XRow d) (h : 0 ≤ r.2) (k : Fin (K + 1)) : 0 ≤ g.share k r := by
  unfold Gmm.share
  have h1 := gauss_pos (g.mu k) (hg.1 k) r.1
  have h2 := mixPdf_pos (usedWeights_pos g) (mu := g.mu) hg.1 r.1
  have h3 := usedWeights_pos g k
  positivity

theorem share_pos (g : Gmm K d) (hg : g.WF chol) (r : XRow d) (h : 0 < r.2) (k : Fin (K + 1)) : 0 < g.share k r := by
  unfold Gmm.share
  have h1 := gauss_pos (g.mu k) (hg.1 k) r.1
  have h2 := mixPdf_pos (usedWeights_pos g) (mu := g.mu) hg.1 r.1
  have h3 := usedWeights_pos g k
  positivity

theorem estep_stats (hc : IsCholesky chol) (g : Gmm K d) (hg : g.WF chol) (rows : List (XRow d)) (bs : Option Nat) (st : Pdfs.Stats K (Ix d))
    (h : g.mix.accumSuffStats (xRows rows) bs = some st) :
    (∀ k, st.1 k = (rows.map (g.share k)).sum) ∧ (∀ k i, st.2 k (.inl i) = (rows.map (fun x => g.share k x * x.1 i)).sum) ∧
    ∀ (k : Fin (K + 1)) (p : Up d), st.2 k (.inr p) = (rows.map (fun x => g.share k x * x.1 p.1.1 * x.1 p.1.2)).sum := by
  have hst : st = Pdfs.stats1 g.mix.pz (xRows rows) := by
    cases bs with
    | none => exact (Option.some.inj h).symm
    | some n =>
      rcases Nat.eq_zero_or_pos n with rfl | hn
      · simp [Mix.accumSuffStats, Pdfs.accumBatches] at h
      · by_cases hr : xRows rows = []
        · rw [hr] at h; simp [Mix.accumSuffStats, Pdfs.accumBatches, Pdfs.batches] at h
        · have := Pdfs.accumBatches_eq _ (Pdfs.stats1_append (K := K) g.mix.pz) n (xRows rows) hn hr
          unfold Mix.accumSuffStats at h
          simp only at h
          rw [this] at h
          exact (Option.some.inj h).symm
  subst hst
  refine ⟨fun k => ?_, fun k i => ?_, fun k p => ?_⟩ <;>
    simp only [Pdfs.stats1, xRows, List.map_map, Function.comp_def, pz_share hc g hg, suff, ← mul_assoc]

/-- the possible outcomes of an M step -/
theorem mstep_some (cfg : GmmCfg) (g g' : Gmm K d) (st : Pdfs.Stats K (Ix d)) :
    g.mstep svd chol cfg st = some g' ↔ (∀ k, st.1 k ≠ 0) ∧
      (cfg.updateL = true → (floorCov cfg (fun k => rawCov (st.1 k) (st.2 k) (newMu cfg st g.mu k))).PosDef) ∧
      g' = Gmm.natParams chol ⟨g.mix, newMu cfg st g.mu, if cfg.updateL then (fun k => pdInv chol (varfloor svd chol
        (rawCov (st.1 k) (st.2 k) (newMu cfg st g.mu k)) (chol d (floorCov cfg (fun k => rawCov (st.1 k) (st.2 k) (newMu cfg st g.mu k)))) true false))
        else g.L⟩ := by
  unfold Gmm.mstep
  by_cases h0 : ∃ k, st.1 k = 0
  · simp only [if_pos h0]
    constructor
    · intro h; cases h
    · rintro ⟨h1, _⟩
      obtain ⟨k, hk⟩ := h0
      exact absurd hk (h1 k)
  · simp only [if_neg h0]
    have h1 : ∀ k, st.1 k ≠ 0 := fun k hk => h0 ⟨k, hk⟩
    by_cases hl : cfg.updateL = true
    · simp only [if_pos hl]
      unfold cholPd
      by_cases hp : (floorCov cfg (fun k => rawCov (st.1 k) (st.2 k) (newMu cfg st g.mu k))).PosDef
      · rw [if_pos hp]
        simp only [Option.map_some, Option.some.injEq]
        exact ⟨fun h => ⟨h1, fun _ => hp, h.symm⟩, fun h => h.2.2.symm⟩
      · rw [if_neg hp]
        simp only [Option.map_none]
        exact ⟨fun h => (by cases h), fun h => absurd (h.2.1 hl) hp⟩
    · simp only [if_neg hl, Option.some.injEq]
      exact ⟨fun h => ⟨h1, fun h => absurd h hl, h.symm⟩, fun h => h.2.2.symm⟩

theorem epoch_iff (cfg : GmmCfg) (g : Gmm K d) (rows : List (XRow d)) (bs : Option Nat) (e : ℝ) (g' : Gmm K d) :
    g.epoch svd chol cfg rows bs = some (e, g') ↔ ∃ st, g.mix.accumSuffStats (xRows rows) bs = some st ∧
      Gmm.mstep svd chol cfg { g with mix := g.mix.touchLogPi } st = some g' ∧ e = g.mix.touchLogPi.elbo st := by
  unfold Gmm.epoch
  rcases hst : g.mix.accumSuffStats (xRows rows) bs with _ | st
  · simp
  · simp only [Option.bind_eq_bind, Option.bind_some]
    rcases hm : Gmm.mstep svd chol cfg { g with mix := g.mix.touchLogPi } st with _ | g2
    · simp [hm]
    · simp only [Option.bind_some, Option.pure_def, Option.some.injEq, Prod.mk.injEq]
      constructor
      · rintro ⟨h1, h2⟩
        exact ⟨st, rfl, by rw [hm, h2], h1.symm⟩
      · rintro ⟨st', h1, h2, h3⟩
        subst h1
        rw [hm] at h2
        exact ⟨h3.symm, Option.some.inj h2⟩

theorem used_of_logPi (g g' : Gmm K d) (h : g'.mix.logPi = some g.mix.logPiVal) : g'.usedWeights = g.usedWeights := by
  funext k
  unfold Gmm.usedWeights
  congr 1
  simp only [Mix.logPiVal, h]

/-- everything an epoch does, in terms of the shares -/
theorem epoch_spec (hc : IsCholesky chol) (cfg : GmmCfg) (g : Gmm K d) (hg : g.WF chol) (rows : List (XRow d)) (bs : Option Nat) (e : ℝ)
    (g' : Gmm K d) (h : g.epoch svd chol cfg rows bs = some (e, g')) :
    (∀ k, (rows.map (g.share k)).sum ≠ 0) ∧ g'.mix.pi = g.mix.pi ∧ g'.mix.logPi = some g.mix.logPiVal ∧
    (∀ k, g'.mu k = if cfg.updateMu then wMean rows (g.share k) else g.mu k) ∧ (cfg.updateL = false → g'.L = g.L) ∧
    (cfg.updateL = true → cfg.updateMu = true → (g.minCov cfg.varFloor rows).PosDef ∧
      ∀ k, g'.L k = pdInv chol (varfloor svd chol (wCov rows (g.share k)) (chol d (g.minCov cfg.varFloor rows)) true false)) ∧
    (∀ k, g'.mix.eta k = computeEta (g'.mu k) (g'.L k)) ∧ ∀ k, g'.mix.A k = computeANat chol (computeEta (g'.mu k) (g'.L k)) := by
  obtain ⟨st, hst, hm, _⟩ := (epoch_iff cfg g rows bs e g').1 h
  obtain ⟨s0, s1, s2⟩ := estep_stats hc g hg rows bs st hst
  obtain ⟨h1, h2, h3⟩ := (mstep_some cfg _ g' st).1 hm
  have hmu : ∀ k, newMu cfg st g.mu k = if cfg.updateMu then wMean rows (g.share k) else g.mu k := by
    intro k
    unfold newMu
    by_cases hu : cfg.updateMu = true
    · rw [if_pos hu, if_pos hu]
      funext i
      rw [s0, s1]
      rfl
    · rw [if_neg hu, if_neg hu]
  have hraw : cfg.updateMu = true → ∀ k, rawCov (st.1 k) (st.2 k) (newMu cfg st g.mu k) = wCov rows (g.share k) := by
    intro hu k
    rw [hmu, if_pos hu]
    exact rawCov_eq rows (g.share k) _ _ (s0 k) (h1 k) (fun p => s2 k p)
  refine ⟨fun k => by rw [← s0]; exact h1 k, by rw [h3]; rfl, by rw [h3]; rfl, fun k => by rw [h3]; exact hmu k, fun hl => ?_, fun hl hu => ?_,
    fun k => by rw [h3]; rfl, fun k => by rw [h3]; rfl⟩
  · rw [h3]
    simp only [Gmm.natParams, hl, Bool.false_eq_true, if_false]
  · have hF : floorCov cfg (fun k => rawCov (st.1 k) (st.2 k) (newMu cfg st g.mu k)) = g.minCov cfg.varFloor rows := by
      unfold floorCov Gmm.minCov
      simp only [hraw hu]
    have hp := h2 hl
    simp only at hp
    rw [hF] at hp
    refine ⟨hp, fun k => ?_⟩
    rw [h3]
    simp only [Gmm.natParams, hl, if_true]
    rw [hF, hraw hu]

theorem em_step (a : Fin (K + 1) → ℝ) (ha : ∀ k, 0 < a k) (mu mu' : Fin (K + 1) → Vec d) (P P' : Fin (K + 1) → Mat d d)
    (hl : ∀ k, (P k).PosDef) (hl' : ∀ k, (P' k).PosDef) (rows : List (XRow d)) (hw : ∀ r ∈ rows, 0 ≤ r.2)
    (hQ : ∀ k, (rows.map (fun r => r.2 * (a k * gaussPdf (mu k) (P k) r.1 / mixPdf a mu P r.1) * Real.log (gaussPdf (mu k) (P k) r.1))).sum ≤
      (rows.map (fun r => r.2 * (a k * gaussPdf (mu k) (P k) r.1 / mixPdf a mu P r.1) * Real.log (gaussPdf (mu' k) (P' k) r.1))).sum) :
    logLik a mu P rows ≤ logLik a mu' P' rows := by
  have h1 : logLik a mu P rows + (rows.map (fun r => ∑ k, r.2 * (a k * gaussPdf (mu k) (P k) r.1 / mixPdf a mu P r.1) *
      (Real.log (gaussPdf (mu' k) (P' k) r.1) - Real.log (gaussPdf (mu k) (P k) r.1)))).sum ≤ logLik a mu' P' rows := by
    unfold logLik
    rw [← List.sum_map_add]
    apply List.sum_le_sum
    intro r hr
    have hp : ∀ k, 0 < a k * gaussPdf (mu k) (P k) r.1 := fun k => mul_pos (ha k) (gauss_pos _ (hl k) _)
    have hp' : ∀ k, 0 < a k * gaussPdf (mu' k) (P' k) r.1 := fun k => mul_pos (ha k) (gauss_pos _ (hl' k) _)
    have := Pdfs.jensen _ _ hp hp'
    have h2 := mul_le_mul_of_nonneg_left this (hw r hr)
    rw [mul_add, Finset.mul_sum] at h2
    refine le_trans (le_of_eq ?_) h2
    congr 1
    refine Finset.sum_congr rfl (fun k _ => ?_)
    rw [Real.log_mul (ha k).ne' (gauss_pos _ (hl' k) _).ne', Real.log_mul (ha k).ne' (gauss_pos _ (hl k) _).ne']
    unfold mixPdf
    ring
  rw [Pdfs.list_sum_finset] at h1
  have h3 : 0 ≤ ∑ k, (rows.map (fun r => r.2 * (a k * gaussPdf (mu k) (P k) r.1 / mixPdf a mu P r.1) *
      (Real.log (gaussPdf (mu' k) (P' k) r.1) - Real.log (gaussPdf (mu k) (P k) r.1)))).sum := by
    apply Finset.sum_nonneg
    intro k _
    have := hQ k
    have e : (rows.map (fun r => r.2 * (a k * gaussPdf (mu k) (P k) r.1 / mixPdf a mu P r.1) *
        (Real.log (gaussPdf (mu' k) (P' k) r.1) - Real.log (gaussPdf (mu k) (P k) r.1)))).sum =
      (rows.map (fun r => r.2 * (a k * gaussPdf (mu k) (P k) r.1 / mixPdf a mu P r.1) * Real.log (gaussPdf (mu' k) (P' k) r.1))).sum -
      (rows.map (fun r => r.2 * (a k * gaussPdf (mu k) (P k) r.1 / mixPdf a mu P r.1) * Real.log (gaussPdf (mu k) (P k) r.1))).sum := by
      clear hQ h1 this hw
      induction rows with
      | nil => simp
      | cons r rs ih => simp only [List.map_cons, List.sum_cons]; rw [ih]; ring
    rw [e]; linarith
  linarith

/-! ### C111 -/

/-- C111: a new model scores a vector with the logarithm of its mixture density (weights `pi + 1e-15`) within 1e-20, with natural and with standard
parameters alike; it can be created exactly when all precisions are positive definite. -/
theorem C111_log_prob (hc : IsCholesky chol) (pi : Fin (K + 1) → ℝ) (hpi : ∀ k, 0 ≤ pi k) (mu : Fin (K + 1) → Vec d) (P : Fin (K + 1) → Mat d d) :
    ((∃ g, Gmm.new chol pi mu P = some g) ↔ ∀ k, (P k).PosDef) ∧
    ∀ g, Gmm.new chol pi mu P = some g → ∀ x : Vec d, g.logProb x = g.logProbStd chol x ∧
      Real.log (mixPdf (fun k => pi k + 1 / 10 ^ 15) mu P x) ≤ g.logProb x ∧
      g.logProb x ≤ Real.log (mixPdf (fun k => pi k + 1 / 10 ^ 15) mu P x) + 1 / 10 ^ 20 := by
  constructor
  · unfold Gmm.new
    by_cases h : ∀ k, (P k).PosDef
    · rw [if_pos h]
      exact ⟨fun _ => h, fun _ => ⟨_, rfl⟩⟩
    · rw [if_neg h]
      exact ⟨fun ⟨g, hg⟩ => (by cases hg), fun h' => absurd h' h⟩
  · intro g h x
    obtain ⟨hg, h1, h2, h3, h4⟩ := new_wf pi mu P g h
    have e := mixPdf_eq hc g hg x
    have e2 : mixPdf g.usedWeights g.mu g.L x = mixPdf (fun k => pi k + 1 / 10 ^ 15) mu P x := by
      unfold mixPdf
      refine Finset.sum_congr rfl (fun k _ => ?_)
      have : 0 < pi k + 1 / 10 ^ 15 := by have := hpi k; positivity
      rw [h1, h2]
      simp only [Gmm.usedWeights, Mix.logPiVal, h3, h4, Real.exp_log this]
    refine ⟨?_, ?_⟩
    · unfold Gmm.logProb Mix.logProb Gmm.logProbStd
      congr 1
      funext k
      rw [g.logr_eq hc hg]
      have := (C110_log_prob hc ⟨g.mu k, g.L k⟩ (hg.1 k) x).2
      simp only at this
      rw [← this]
      unfold Norm.logProbStd
      ring
    · rw [← e2, ← e]
      exact C66_logsumexp _

/-- C111: one epoch of training with both updates. The new means are the weighted means; the new covariances are at least the minimum covariance and at least
the weighted covariance, equal to the weighted covariance where that is above the minimum, and have the highest expected likelihood of all covariances above
the minimum. The weights do not change. -/
theorem C111_update (hs : IsSvd svd) (hc : IsCholesky chol) (cfg : GmmCfg) (hu : cfg.updateMu = true) (hl : cfg.updateL = true) (g : Gmm K d)
    (hg : g.WF chol) (rows : List (XRow d)) (hw : ∀ r ∈ rows, 0 ≤ r.2) (bs : Option Nat) (e : ℝ) (g' : Gmm K d)
    (h : g.epoch svd chol cfg rows bs = some (e, g')) :
    g'.WF chol ∧ g'.mix.pi = g.mix.pi ∧ g'.usedWeights = g.usedWeights ∧ ∀ k, g'.mu k = wMean rows (g.share k) ∧
      ((g'.L k)⁻¹ - g.minCov cfg.varFloor rows).PosSemidef ∧ ((g'.L k)⁻¹ - wCov rows (g.share k)).PosSemidef ∧
      ((wCov rows (g.share k) - g.minCov cfg.varFloor rows).PosSemidef → (g'.L k)⁻¹ = wCov rows (g.share k)) ∧
      ∀ X : Mat d d, X.PosDef → (X - g.minCov cfg.varFloor rows).PosSemidef →
        (rows.map (fun r => g.share k r * Real.log (gaussPdf (g'.mu k) X⁻¹ r.1))).sum ≤
          (rows.map (fun r => g.share k r * Real.log (gaussPdf (g'.mu k) (g'.L k) r.1))).sum := by
  obtain ⟨h1, h2, h3, h4, _, h6, h7, h8⟩ := epoch_spec hc cfg g hg rows bs e g' h
  obtain ⟨hp, hL⟩ := h6 hl hu
  have spec := fun k => varfloorChol_spec hs (wCov_psd rows (g.share k) (fun x hx => share_nonneg g hg x (hw x hx) k)) hp (hc d _ hp).2.2
  have hLi : ∀ k, g'.L k = (varfloorChol svd (wCov rows (g.share k)) (chol d (g.minCov cfg.varFloor rows)))⁻¹ := by
    intro k
    rw [hL k]
    exact pdInv_eq hc (spec k).1
  have hLd : ∀ k, (g'.L k).PosDef := by
    intro k
    rw [hLi k]
    exact (spec k).1.inv
  have hV : ∀ k, (g'.L k)⁻¹ = varfloorChol svd (wCov rows (g.share k)) (chol d (g.minCov cfg.varFloor rows)) := by
    intro k
    rw [hLi k, Matrix.nonsing_inv_nonsing_inv _ (PosDef.det_ne (spec k).1)]
  refine ⟨⟨hLd, h7, h8⟩, h2, used_of_logPi g g' h3, fun k => ?_⟩
  have hm : g'.mu k = wMean rows (g.share k) := by rw [h4 k, if_pos hu]
  refine ⟨hm, ?_, ?_, ?_, fun X hX hXF => ?_⟩
  · rw [hV k]; exact (spec k).2.1
  · rw [hV k]; exact (spec k).2.2.1
  · rw [hV k]; exact (spec k).2.2.2.1
  · rw [sum_log_gauss rows (g.share k) (h1 k) _ hX.inv, sum_log_gauss rows (g.share k) (h1 k) _ (hLd k), hm, sub_self, zero_dotProduct, zero_dotProduct]
    have hN : 0 ≤ (rows.map (g.share k)).sum := by
      apply List.sum_nonneg
      intro y hy
      obtain ⟨x, hx, rfl⟩ := List.mem_map.mp hy
      exact share_nonneg g hg x (hw x hx) k
    apply mul_le_mul_of_nonneg_left _ (by linarith)
    have := (spec k).2.2.2.2 X hX hXF
    rw [← hLi k] at this
    linarith

/-- C111: an epoch with both updates succeeds exactly when the minimum covariance is positive definite (for data with nonnegative weights, one of them
positive). In particular it raises for every `var_floor` that is not positive, so covariances cannot be trained without a floor. -/
theorem C111_succeeds (hc : IsCholesky chol) (cfg : GmmCfg) (hu : cfg.updateMu = true) (hl : cfg.updateL = true) (g : Gmm K d)
    (hg : g.WF chol) (rows : List (XRow d)) (hw : ∀ r ∈ rows, 0 ≤ r.2) (hp : ∃ r ∈ rows, 0 < r.2) (bs : Option Nat) (hb : bs ≠ some 0) :
    ((∃ e g', g.epoch svd chol cfg rows bs = some (e, g')) ↔ (g.minCov cfg.varFloor rows).PosDef) ∧
    (0 < d → cfg.varFloor ≤ 0 → g.epoch svd chol cfg rows bs = none) := by
  have first : (∃ e g', g.epoch svd chol cfg rows bs = some (e, g')) ↔ (g.minCov cfg.varFloor rows).PosDef := by
    constructor
    · rintro ⟨e, g', h⟩
      exact ((epoch_spec hc cfg g hg rows bs e g' h).2.2.2.2.2.1 hl hu).1
    · intro hF
      obtain ⟨r, hr, hr0⟩ := hp
      have hne : xRows rows ≠ [] := by
        intro h0
        have : rows = [] := List.map_eq_nil_iff.1 h0
        rw [this] at hr
        cases hr
      obtain ⟨st, hst, _⟩ := Pdfs.C67_stats g.mix (xRows rows) hne bs hb
      obtain ⟨s0, s1, s2⟩ := estep_stats hc g hg rows bs st hst
      have h1 : ∀ k, st.1 k ≠ 0 := by
        intro k
        rw [s0]
        have a : g.share k r ≤ (rows.map (g.share k)).sum := by
          apply List.single_le_sum
          · intro y hy
            obtain ⟨x, hx, rfl⟩ := List.mem_map.mp hy
            exact share_nonneg g hg x (hw x hx) k
          · exact List.mem_map_of_mem hr
        exact (lt_of_lt_of_le (share_pos g hg r hr0 k) a).ne'
      have hraw : ∀ k, rawCov (st.1 k) (st.2 k) (newMu cfg st g.mu k) = wCov rows (g.share k) := by
        intro k
        have : newMu cfg st g.mu k = wMean rows (g.share k) := by
          unfold newMu
          rw [if_pos hu]
          funext i
          rw [s0, s1]
          rfl
        rw [this]
        exact rawCov_eq rows (g.share k) _ _ (s0 k) (h1 k) (fun p => s2 k p)
      refine ⟨g.mix.touchLogPi.elbo st, _, (epoch_iff cfg g rows bs _ _).2 ⟨st, hst, (mstep_some cfg _ _ st).2 ⟨h1, fun _ => ?_, rfl⟩, rfl⟩⟩
      unfold floorCov
      simp only [hraw]
      exact hF
  refine ⟨first, fun hd hf => ?_⟩
  rcases he : g.epoch svd chol cfg rows bs with _ | ⟨e, g'⟩
  · rfl
  · exfalso
    have hF := first.1 ⟨e, g', he⟩
    have hC : ((1 / (K + 1 : ℝ)) • ∑ k, wCov rows (g.share k)).PosSemidef := by
      apply Matrix.PosSemidef.smul _ (by positivity)
      exact Matrix.posSemidef_sum _ (fun k _ => wCov_psd rows (g.share k) (fun x hx => share_nonneg g hg x (hw x hx) k))
    let v : Vec d := fun _ => 1
    have hv : v ≠ 0 := fun h => one_ne_zero (congrFun h ⟨0, hd⟩)
    have a := PosDef.quad hF v hv
    have b := PosSemidef.quad hC v
    unfold Gmm.minCov at a
    rw [Matrix.smul_mulVec, dotProduct_smul, smul_eq_mul] at a
    nlinarith

/-- C111: training never changes the weights, and every scoring uses the weights of the start, however many epochs are run. -/
theorem C111_weights_frozen (hc : IsCholesky chol) (cfg : GmmCfg) (hl : cfg.updateL = true → cfg.updateMu = true) (hs : IsSvd svd) (rows : List (XRow d))
    (hw : ∀ r ∈ rows, 0 ≤ r.2) (bs : Option Nat) (n : Nat) (g : Gmm K d)
    (hg : g.WF chol) (es : List ℝ) (g' : Gmm K d) (h : Gmm.fit svd chol cfg rows bs n g = some (es, g')) :
    es.length = n ∧ g'.WF chol ∧ g'.mix.pi = g.mix.pi ∧ g'.usedWeights = g.usedWeights := by
  induction n generalizing g es with
  | zero =>
    simp only [Gmm.fit, Option.some.injEq, Prod.mk.injEq] at h
    obtain ⟨rfl, rfl⟩ := h
    exact ⟨rfl, hg, rfl, rfl⟩
  | succ n ih =>
    unfold Gmm.fit at h
    cases h1 : g.epoch svd chol cfg rows bs with
    | none => rw [h1] at h; exact absurd h (by simp)
    | some r =>
      obtain ⟨e, g1⟩ := r
      rw [h1] at h
      simp only [Option.bind_eq_bind, Option.bind_some] at h
      cases h2 : Gmm.fit svd chol cfg rows bs n g1 with
      | none => rw [h2] at h; exact absurd h (by simp)
      | some r2 =>
        obtain ⟨es2, g2⟩ := r2
        rw [h2] at h
        simp only [Option.bind_some, Option.pure_def, Option.some.injEq, Prod.mk.injEq] at h
        obtain ⟨rfl, rfl⟩ := h
        obtain ⟨_, a2, a3, _, a5, _, a7, a8⟩ := epoch_spec hc cfg g hg rows bs e g1 h1
        have hg1 : g1.WF chol := by
          by_cases hu : cfg.updateL = true
          · exact (C111_update hs hc cfg (hl hu) hu g hg rows hw bs e g1 h1).1
          · exact ⟨by rw [a5 (by simpa using hu)]; exact hg.1, a7, a8⟩
        obtain ⟨i1, i2, i3, i4⟩ := ih g1 hg1 es2 h2
        exact ⟨by simp [i1], i2, by rw [i3, a2], by rw [i4, used_of_logPi g g1 a3]⟩

/-- C111, partial: an epoch does not decrease the log likelihood when for every component the weighted covariance or the covariance of the model before the
epoch is at least the minimum covariance. Without the condition the claim is false (`C111_floor_decreases`). -/
theorem C111_em_step_partial (hs : IsSvd svd) (hc : IsCholesky chol) (cfg : GmmCfg) (hopt : cfg.updateL = true → cfg.updateMu = true) (g : Gmm K d)
    (hg : g.WF chol) (rows : List (XRow d)) (hw : ∀ r ∈ rows, 0 ≤ r.2) (bs : Option Nat) (e : ℝ) (g' : Gmm K d)
    (h : g.epoch svd chol cfg rows bs = some (e, g'))
    (hfl : cfg.updateL = true → ∀ k, (wCov rows (g.share k) - g.minCov cfg.varFloor rows).PosSemidef ∨ ((g.L k)⁻¹ - g.minCov cfg.varFloor rows).PosSemidef) :
    g'.WF chol ∧ logLik g.usedWeights g.mu g.L rows ≤ logLik g'.usedWeights g'.mu g'.L rows := by
  obtain ⟨h1, h2, h3, h4, h5, h6, h7, h8⟩ := epoch_spec hc cfg g hg rows bs e g' h
  have hg' : g'.WF chol := by
    by_cases hu : cfg.updateL = true
    · exact (C111_update hs hc cfg (hopt hu) hu g hg rows hw bs e g' h).1
    · exact ⟨by rw [h5 (by simpa using hu)]; exact hg.1, h7, h8⟩
  refine ⟨hg', ?_⟩
  rw [used_of_logPi g g' h3]
  apply em_step g.usedWeights (usedWeights_pos g) g.mu g'.mu g.L g'.L hg.1 hg'.1 rows hw
  intro k
  show (rows.map (fun r => g.share k r * Real.log (gaussPdf (g.mu k) (g.L k) r.1))).sum ≤
    (rows.map (fun r => g.share k r * Real.log (gaussPdf (g'.mu k) (g'.L k) r.1))).sum
  have hN : 0 ≤ (rows.map (g.share k)).sum := by
    apply List.sum_nonneg
    intro y hy
    obtain ⟨x, hx, rfl⟩ := List.mem_map.mp hy
    exact share_nonneg g hg x (hw x hx) k
  rw [sum_log_gauss rows (g.share k) (h1 k) _ (hg.1 k), sum_log_gauss rows (g.share k) (h1 k) _ (hg'.1 k)]
  apply mul_le_mul_of_nonneg_left _ (by linarith)
  have q := PosSemidef.quad (hg.1 k).posSemidef (wMean rows (g.share k) - g.mu k)
  by_cases hl : cfg.updateL = true
  · obtain ⟨hp, hL⟩ := h6 hl (hopt hl)
    have spec := varfloorChol_spec hs (wCov_psd rows (g.share k) (fun x hx => share_nonneg g hg x (hw x hx) k)) hp (hc d _ hp).2.2
    have hLi : g'.L k = (varfloorChol svd (wCov rows (g.share k)) (chol d (g.minCov cfg.varFloor rows)))⁻¹ := by
      rw [hL k]
      exact pdInv_eq hc spec.1
    rw [h4 k, if_pos (hopt hl), sub_self, zero_dotProduct]
    have key : Real.log (g.L k).det - (g.L k * wCov rows (g.share k)).trace ≤ Real.log (g'.L k).det - (g'.L k * wCov rows (g.share k)).trace := by
      rcases hfl hl k with hf | hf
      · have hV := spec.2.2.2.1 hf
        have hd : (wCov rows (g.share k)).PosDef := by rw [← hV]; exact spec.1
        rw [hLi, hV]
        exact best_full hd (hg.1 k)
      · have := spec.2.2.2.2 (g.L k)⁻¹ (hg.1 k).inv hf
        rw [Matrix.nonsing_inv_nonsing_inv _ (PosDef.det_ne (hg.1 k)), ← hLi] at this
        exact this
    linarith
  · rw [h5 (by simpa using hl), h4 k]
    by_cases hu : cfg.updateMu = true
    · rw [if_pos hu, sub_self, zero_dotProduct]
      linarith
    · rw [if_neg hu]

/-- C111: training of the means alone never decreases the log likelihood, over any number of epochs. -/
theorem C111_fit_means (hs : IsSvd svd) (hc : IsCholesky chol) (cfg : GmmCfg) (hl : cfg.updateL = false) (rows : List (XRow d))
    (hw : ∀ r ∈ rows, 0 ≤ r.2) (bs : Option Nat) (n : Nat) (g : Gmm K d) (hg : g.WF chol) (es : List ℝ) (g' : Gmm K d)
    (h : Gmm.fit svd chol cfg rows bs n g = some (es, g')) : logLik g.usedWeights g.mu g.L rows ≤ logLik g'.usedWeights g'.mu g'.L rows := by
  induction n generalizing g es with
  | zero =>
    simp only [Gmm.fit, Option.some.injEq, Prod.mk.injEq] at h
    rw [h.2]
  | succ n ih =>
    unfold Gmm.fit at h
    cases h1 : g.epoch svd chol cfg rows bs with
    | none => rw [h1] at h; exact absurd h (by simp)
    | some r =>
      obtain ⟨e, g1⟩ := r
      rw [h1] at h
      simp only [Option.bind_eq_bind, Option.bind_some] at h
      cases h2 : Gmm.fit svd chol cfg rows bs n g1 with
      | none => rw [h2] at h; exact absurd h (by simp)
      | some r2 =>
        obtain ⟨es2, g2⟩ := r2
        rw [h2] at h
        simp only [Option.bind_some, Option.pure_def, Option.some.injEq, Prod.mk.injEq] at h
        obtain ⟨rfl, rfl⟩ := h
        obtain ⟨a, b⟩ := C111_em_step_partial hs hc cfg (fun h => by rw [hl] at h; cases h) g hg rows hw bs e g1 h1
          (fun h => by rw [hl] at h; cases h)
        exact le_trans b (ih g1 a es2 h2)

/-- C111: the bound reported for an epoch is the log likelihood of the model at its start minus the weighted entropy of the posteriors. -/
theorem C111_reported_bound (hc : IsCholesky chol) (cfg : GmmCfg) (g : Gmm K d) (hg : g.WF chol) (rows : List (XRow d)) (hw : ∀ r ∈ rows, 0 ≤ r.2)
    (bs : Option Nat) (e : ℝ) (g' : Gmm K d) (h : g.epoch svd chol cfg rows bs = some (e, g')) :
    e = logLik g.usedWeights g.mu g.L rows +
      (rows.map (fun r => ∑ k, g.share k r * Real.log (g.usedWeights k * gaussPdf (g.mu k) (g.L k) r.1 / mixPdf g.usedWeights g.mu g.L r.1))).sum ∧
    e ≤ logLik g.usedWeights g.mu g.L rows := by
  have first : e = logLik g.usedWeights g.mu g.L rows +
      (rows.map (fun r => ∑ k, g.share k r * Real.log (g.usedWeights k * gaussPdf (g.mu k) (g.L k) r.1 / mixPdf g.usedWeights g.mu g.L r.1))).sum := by
    obtain ⟨st, hst, _, he⟩ := (epoch_iff cfg g rows bs e g').1 h
    obtain ⟨s0, s1, s2⟩ := estep_stats hc g hg rows bs st hst
    have hu : ∀ k i, st.2 k i = (rows.map (fun x => g.share k x * suff x.1 i)).sum := by
      intro k i
      rcases i with i | p
      · exact s1 k i
      · rw [s2]
        simp only [suff, mul_assoc]
    have helbo : e = ∑ k, (rows.map (fun r => g.share k r * g.mix.logr (suff r.1) k)).sum := by
      rw [he]
      have ht : g.mix.touchLogPi.logPiVal = g.mix.logPiVal := rfl
      unfold Mix.elbo
      rw [ht, ← Finset.sum_add_distrib]
      refine Finset.sum_congr rfl (fun k _ => ?_)
      change (∑ i, st.2 k i * g.mix.eta k i) + st.1 k * (g.mix.logPiVal k - g.mix.A k) = _
      simp only [s0, hu]
      clear he hst s0 s1 s2 h hw hu
      induction rows with
      | nil => simp
      | cons r rs ih =>
        simp only [List.map_cons, List.sum_cons]
        rw [← ih]
        unfold Mix.logr
        simp only [add_mul, Finset.sum_add_distrib]
        have e1 : ∑ x, g.share k r * suff r.1 x * g.mix.eta k x = g.share k r * ∑ x, suff r.1 x * g.mix.eta k x := by
          rw [Finset.mul_sum]; exact Finset.sum_congr rfl (fun i _ => by ring)
        rw [e1]
        ring
    rw [helbo, ← Pdfs.list_sum_finset]
    unfold logLik
    rw [← List.sum_map_add]
    congr 1
    apply List.map_congr_left
    intro r _
    have hM := mixPdf_pos (usedWeights_pos g) (mu := g.mu) hg.1 r.1
    have hlog : ∀ k, Real.log (g.usedWeights k * gaussPdf (g.mu k) (g.L k) r.1 / mixPdf g.usedWeights g.mu g.L r.1) =
        g.mix.logr (suff r.1) k - Real.log (mixPdf g.usedWeights g.mu g.L r.1) := by
      intro k
      rw [Real.log_div (mul_pos (usedWeights_pos g k) (gauss_pos _ (hg.1 k) _)).ne' hM.ne',
        Real.log_mul (usedWeights_pos g k).ne' (gauss_pos _ (hg.1 k) _).ne', g.logr_eq hc hg]
      unfold Gmm.usedWeights
      rw [Real.log_exp]
    simp only [hlog, mul_sub, Finset.sum_sub_distrib]
    rw [← Finset.sum_mul]
    have hsum : ∑ k, g.share k r = r.2 := by
      simp only [← pz_share hc g hg]
      rw [← Finset.sum_mul, (Pdfs.C67_posterior g.mix (suff r.1)).2.2, one_mul]
    rw [hsum]
    ring
  refine ⟨first, ?_⟩
  rw [first]
  have : (rows.map (fun r => ∑ k, g.share k r * Real.log (g.usedWeights k * gaussPdf (g.mu k) (g.L k) r.1 / mixPdf g.usedWeights g.mu g.L r.1))).sum ≤ 0 := by
    apply Pdfs.list_sum_nonpos
    intro y hy
    obtain ⟨r, hr, rfl⟩ := List.mem_map.mp hy
    apply Finset.sum_nonpos
    intro k _
    have hM := mixPdf_pos (usedWeights_pos g) (mu := g.mu) hg.1 r.1
    have hk := mul_pos (usedWeights_pos g k) (gauss_pos (g.mu k) (hg.1 k) r.1)
    apply mul_nonpos_of_nonneg_of_nonpos (share_nonneg g hg r (hw r hr) k)
    apply Real.log_nonpos (by positivity)
    rw [div_le_one hM]
    exact Finset.single_le_sum (f := fun k => g.usedWeights k * gaussPdf (g.mu k) (g.L k) r.1)
      (fun j _ => (mul_pos (usedWeights_pos g j) (gauss_pos (g.mu j) (hg.1 j) r.1)).le) (Finset.mem_univ k)
  linarith

theorem psd1 {a : ℝ} {M : Mat 1 1} (h : M 0 0 = a) (ha : 0 ≤ a) : M.PosSemidef := by
  have : M = a • (1 : Mat 1 1) := by
    ext i j
    fin_cases i; fin_cases j
    simp [h]
  rw [this]
  exact Matrix.PosSemidef.one.smul ha

/-- C111, negative: with a floor above the covariance of the data an epoch decreases the log likelihood. One component at the maximum likelihood solution for
the data 1, -1, `var_floor = 2`. The same case shows that the hypotheses of the theorems above can be met. -/
theorem C111_floor_decreases (hs : IsSvd svd) (hc : IsCholesky chol) :
    ∃ (g : Gmm 0 1) (rows : List (XRow 1)) (e : ℝ) (g' : Gmm 0 1), Gmm.new chol (fun _ => 1) (fun _ => 0) (fun _ => 1) = some g ∧
      (∀ r ∈ rows, 0 ≤ r.2) ∧ g.epoch svd chol ⟨2, true, true⟩ rows none = some (e, g') ∧
      logLik g'.usedWeights g'.mu g'.L rows < logLik g.usedWeights g.mu g.L rows := by
  have hone : ∀ k : Fin (0 + 1), ((fun _ => 1) k : Mat 1 1).PosDef := fun _ => Matrix.PosDef.one
  obtain ⟨g, hnew⟩ := (C111_log_prob (d := 1) hc (fun _ : Fin (0 + 1) => (1 : ℝ)) (fun _ => zero_le_one) (fun _ => 0) (fun _ => 1)).1.2 hone
  obtain ⟨hg, hmu, hL, _, _⟩ := new_wf _ _ _ g hnew
  obtain ⟨rows, hrows⟩ : ∃ rows : List (XRow 1), rows = [(fun _ => 1, 1), (fun _ => -1, 1)] := ⟨_, rfl⟩
  have hw : ∀ r ∈ rows, 0 ≤ r.2 := by rw [hrows]; simp
  have hshare : ∀ r : XRow 1, g.share 0 r = r.2 := by
    intro r
    rw [← pz_share hc g hg]
    have := (Pdfs.C67_posterior g.mix (suff r.1)).2.2
    rw [Fin.sum_univ_one] at this
    rw [this, one_mul]
  have hm0 : wMean rows (g.share 0) = 0 := by
    funext i
    unfold wMean
    rw [hrows]
    simp [hshare]
  have hC0 : wCov rows (g.share 0) = 1 := by
    ext i j
    fin_cases i; fin_cases j
    unfold wCov
    simp only [Matrix.of_apply, hm0]
    rw [hrows]
    simp [hshare]
  have hF : g.minCov 2 rows = (2 : ℝ) • (1 : Mat 1 1) := by
    unfold Gmm.minCov
    rw [Fin.sum_univ_one, hC0]
    norm_num
  have hFp : (g.minCov 2 rows).PosDef := by rw [hF]; exact Matrix.PosDef.one.smul (by norm_num)
  obtain ⟨e, g', he⟩ := (C111_succeeds (svd := svd) hc ⟨2, true, true⟩ rfl rfl g hg rows hw ⟨_, by rw [hrows]; exact List.mem_cons_self, by norm_num⟩ none
    (by simp)).1.2 hFp
  refine ⟨g, rows, e, g', hnew, hw, he, ?_⟩
  obtain ⟨hg', _, hused, up⟩ := C111_update hs hc ⟨2, true, true⟩ rfl rfl g hg rows hw none e g' he
  obtain ⟨um, uF, _⟩ := up 0
  have hN : (rows.map (g.share 0)).sum = 2 := by rw [hrows]; simp [hshare]; norm_num
  have hlog : ∀ (m : Fin (0 + 1) → Vec 1) (P : Fin (0 + 1) → Mat 1 1), (∀ k, (P k).PosDef) →
      logLik g.usedWeights m P rows = 2 * Real.log (g.usedWeights 0) + (rows.map (fun r => g.share 0 r * Real.log (gaussPdf (m 0) (P 0) r.1))).sum := by
    intro m P hP
    unfold logLik mixPdf
    have s1 : ∀ f : Fin (0 + 1) → ℝ, ∑ k, f k = f 0 := fun f => Fin.sum_univ_one f
    rw [hrows]
    simp only [List.map_cons, List.map_nil, List.sum_cons, List.sum_nil, s1, hshare]
    rw [Real.log_mul (usedWeights_pos g 0).ne' (gauss_pos _ (hP 0) _).ne', Real.log_mul (usedWeights_pos g 0).ne' (gauss_pos _ (hP 0) _).ne']
    ring
  rw [hused, hlog _ _ hg'.1, hlog _ _ hg.1, sum_log_gauss rows (g.share 0) (by rw [hN]; norm_num) _ (hg'.1 0),
    sum_log_gauss rows (g.share 0) (by rw [hN]; norm_num) _ (hg.1 0), hN, um, hm0, hmu, hL, hC0, sub_self, zero_dotProduct]
  have hp : 0 < g'.L 0 0 0 := by
    have := (hg'.1 0).det_pos
    rwa [Matrix.det_fin_one] at this
  have hinv : (g'.L 0)⁻¹ 0 0 = (g'.L 0 0 0)⁻¹ := by
    have hmul := congrFun (congrFun (Matrix.nonsing_inv_mul _ (PosDef.det_ne (hg'.1 0))) 0) 0
    rw [Matrix.mul_apply, Fin.sum_univ_one, Matrix.one_apply_eq] at hmul
    exact eq_inv_of_mul_eq_one_left hmul
  have hq := PosSemidef.quad uF (fun _ => 1)
  rw [hF] at hq
  simp only [dotProduct, Matrix.mulVec, Fin.sum_univ_one, Matrix.sub_apply, Matrix.smul_apply, Matrix.one_apply_eq, smul_eq_mul, mul_one, one_mul] at hq
  rw [hinv] at hq
  have hhalf : g'.L 0 0 0 ≤ 1 / 2 := by
    have : g'.L 0 0 0 * (g'.L 0 0 0)⁻¹ = 1 := mul_inv_cancel₀ hp.ne'
    nlinarith
  have hlt := Real.log_lt_sub_one_of_pos hp (by linarith)
  simp only [Matrix.det_fin_one, Matrix.trace_fin_one, Matrix.mul_one, Matrix.one_apply_eq, Real.log_one]
  rw [zero_dotProduct]
  linarith

/-- non-vacuity: there are factorisations as assumed, a model, and data on which an epoch succeeds with the condition of `C111_em_step_partial` met -/
example : ∃ svd chol, IsSvd svd ∧ IsCholesky chol ∧ ∃ (g : Gmm 0 1) (rows : List (XRow 1)) (e : ℝ) (g' : Gmm 0 1), g.WF chol ∧ (∀ r ∈ rows, 0 ≤ r.2) ∧
    g.epoch svd chol ⟨1 / 2, true, true⟩ rows none = some (e, g') ∧ ∀ k, (wCov rows (g.share k) - g.minCov (1 / 2) rows).PosSemidef := by
  obtain ⟨svd, hs⟩ := exists_isSvd
  obtain ⟨chol, hc⟩ := exists_isCholesky
  have hone : ∀ k : Fin (0 + 1), ((fun _ => 1) k : Mat 1 1).PosDef := fun _ => Matrix.PosDef.one
  obtain ⟨g, hnew⟩ := (C111_log_prob (d := 1) hc (fun _ : Fin (0 + 1) => (1 : ℝ)) (fun _ => zero_le_one) (fun _ => 0) (fun _ => 1)).1.2 hone
  obtain ⟨hg, hmu, hL, _, _⟩ := new_wf _ _ _ g hnew
  obtain ⟨rows, hrows⟩ : ∃ rows : List (XRow 1), rows = [(fun _ => 1, 1), (fun _ => -1, 1)] := ⟨_, rfl⟩
  have hw : ∀ r ∈ rows, 0 ≤ r.2 := by rw [hrows]; simp
  have hshare : ∀ r : XRow 1, g.share 0 r = r.2 := by
    intro r
    rw [← pz_share hc g hg]
    have := (Pdfs.C67_posterior g.mix (suff r.1)).2.2
    rw [Fin.sum_univ_one] at this
    rw [this, one_mul]
  have hm0 : wMean rows (g.share 0) = 0 := by
    funext i
    unfold wMean
    rw [hrows]
    simp [hshare]
  have hC0 : wCov rows (g.share 0) = 1 := by
    ext i j
    fin_cases i; fin_cases j
    unfold wCov
    simp only [Matrix.of_apply, hm0]
    rw [hrows]
    simp [hshare]
  have hF : g.minCov (1 / 2) rows = (1 / 2 : ℝ) • (1 : Mat 1 1) := by
    unfold Gmm.minCov
    rw [Fin.sum_univ_one, hC0]
    norm_num
  have hFp : (g.minCov (1 / 2) rows).PosDef := by rw [hF]; exact Matrix.PosDef.one.smul (by norm_num)
  obtain ⟨e, g', he⟩ := (C111_succeeds (svd := svd) hc ⟨1 / 2, true, true⟩ rfl rfl g hg rows hw ⟨_, by rw [hrows]; exact List.mem_cons_self, by norm_num⟩ none
    (by simp)).1.2 hFp
  refine ⟨svd, chol, hs, hc, g, rows, e, g', hg, hw, he, fun k => ?_⟩
  have hk : k = 0 := Subsingleton.elim (α := Fin 1) k 0
  rw [hk, hC0, hF]
  exact psd1 (a := 1 / 2) (by norm_num) (by norm_num)

end Hyp.FullCov
