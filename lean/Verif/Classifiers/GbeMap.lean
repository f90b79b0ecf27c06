import Verif.Classifiers.GbeFit

/-! C103: MAP adaptation of the Gaussian back-end, sequential adaptation, class labels. -/

namespace Hyp.Gbe
open scoped BigOperators
open Matrix Hyp.Plda

variable {K n : Nat} {chol : (n : Nat) → Mat n n → Mat n n}

/-- relevance factors in use: the option of the constructor or the ones of the prior model -/
noncomputable def useBeta (cfg : Cfg) (p : Model K n) (k : Fin K) : ℝ := cfg.priorBeta.getD (p.beta k)
noncomputable def useNu (cfg : Cfg) (p : Model K n) : ℝ := (cfg.priorNu.map (fun v => (K : ℝ) * v)).getD p.nu

theorem loadPrior_beta (cfg : Cfg) (p : Model K n) : (loadPrior cfg p).beta = useBeta cfg p := by
  funext k
  unfold loadPrior useBeta
  rcases cfg.priorBeta with _ | b <;> rfl

theorem loadPrior_nu (cfg : Cfg) (p : Model K n) : (loadPrior cfg p).nu = useNu cfg p := by
  unfold loadPrior useNu
  rcases cfg.priorNu with _ | b <;> rfl

theorem loadPrior_mu (cfg : Cfg) (p : Model K n) : (loadPrior cfg p).mu = p.mu := rfl
theorem loadPrior_W (cfg : Cfg) (p : Model K n) : (loadPrior cfg p).W = p.W := rfl

theorem map_mean (rows : List (Vec n × (Fin K → ℝ))) (b : Fin K → ℝ) (m0 : Fin K → Vec n) (k : Fin K) (hN : cN rows k ≠ 0)
    (h : cN rows k + b k ≠ 0) :
    (1 - cN rows k / (cN rows k + b k)) • m0 k + (cN rows k / (cN rows k + b k)) • ((1 / cN rows k) • cF rows k) = best rows b m0 k := by
  funext i
  unfold best
  simp only [Pi.smul_apply, Pi.add_apply, smul_eq_mul]
  field_simp
  ring

/-- C103: maximum a posteriori. With a prior model `p` (relevance factors `b k = prior_beta` and `v = prior_nu * num_classes`, or
those of the prior model), for every combination of update flags, training maximises over the parameters that it may change
the log likelihood plus the log density of the conjugate prior: `b k` pseudo-observations of the mean of class `k` at its prior mean (when
the means are updated) and `v / num_classes` pseudo-observations per class with the prior covariance. Without
`balance_class_weight` all terms have weight one; with it the terms of a class are divided by its number of observations and
pseudo-observations. -/
theorem C103_map (hc : IsCholesky chol) (cfg : Cfg) (p cur g : Model K n) (rows : List (Vec n × (Fin K → ℝ)))
    (hp : ∀ r ∈ rows, ∀ k, 0 ≤ r.2 k) (hb0 : ∀ k, 0 ≤ cfg.priorBeta.getD (p.beta k))
    (hv0 : 0 ≤ (cfg.priorNu.map (fun v => (K : ℝ) * v)).getD p.nu) (h : fit chol cfg (some p) cur rows = some g)
    (mu' : Fin K → Vec n) (W' : Mat n n) (hP : W'.PosDef) (h1 : cfg.updateMu = false → mu' = cur.mu)
    (h2 : cfg.updateW = false → W' = cur.W)
    (b : Fin K → ℝ) (hb : b = fun k => if cfg.updateMu then cfg.priorBeta.getD (p.beta k) else 0)
    (v : ℝ) (hv : v = (cfg.priorNu.map (fun v => (K : ℝ) * v)).getD p.nu) :
    (cfg.balance = false →
      ∑ k, ((rows.map (fun r => r.2 k * Real.log (gaussPdf (mu' k) W' r.1))).sum -
          1 / 2 * b k * ((mu' k - p.mu k) ⬝ᵥ (W' *ᵥ (mu' k - p.mu k))) +
          v / K * (1 / 2 * Real.log W'.det - 1 / 2 * (W' * p.W⁻¹).trace)) ≤
        ∑ k, ((rows.map (fun r => r.2 k * Real.log (gaussPdf (g.mu k) g.W r.1))).sum -
          1 / 2 * b k * ((g.mu k - p.mu k) ⬝ᵥ (g.W *ᵥ (g.mu k - p.mu k))) +
          v / K * (1 / 2 * Real.log g.W.det - 1 / 2 * (g.W * p.W⁻¹).trace))) ∧
    (cfg.balance = true →
      ∑ k, 1 / ((rows.map (fun r => r.2 k)).sum + v / K) * ((rows.map (fun r => r.2 k * Real.log (gaussPdf (mu' k) W' r.1))).sum -
          1 / 2 * b k * ((mu' k - p.mu k) ⬝ᵥ (W' *ᵥ (mu' k - p.mu k))) +
          v / K * (1 / 2 * Real.log W'.det - 1 / 2 * (W' * p.W⁻¹).trace)) ≤
        ∑ k, 1 / ((rows.map (fun r => r.2 k)).sum + v / K) * ((rows.map (fun r => r.2 k * Real.log (gaussPdf (g.mu k) g.W r.1))).sum -
          1 / 2 * b k * ((g.mu k - p.mu k) ⬝ᵥ (g.W *ᵥ (g.mu k - p.mu k))) +
          v / K * (1 / 2 * Real.log g.W.det - 1 / 2 * (g.W * p.W⁻¹).trace))) := by
  obtain ⟨hd, hS, hmu, hgW, hgW'⟩ := fit_some h
  have hN := cN_nonneg hp
  simp only [Option.map_some] at hd hS hmu hgW
  have ev : (loadPrior cfg p).nu = v := by rw [loadPrior_nu, hv]; rfl
  have eb : cfg.updateMu = true → (loadPrior cfg p).beta = b := by
    intro hu
    rw [loadPrior_beta, hb]
    funext k
    simp [useBeta, hu]
  rw [← hv] at hv0
  have hbn : ∀ k, 0 ≤ b k := fun k => by
    rw [hb]
    dsimp only
    split
    · exact hb0 k
    · exact le_rfl
  have hvK : 0 ≤ v / K := div_nonneg hv0 (Nat.cast_nonneg K)
  obtain ⟨d1, d2, d3, d4⟩ := hd
  have hpos : cfg.updateMu = true → ∀ k, 0 < cN rows k := fun hu k => lt_of_le_of_ne (hN k) (Ne.symm (d1 hu k))
  have hpos2 : cfg.updateMu = true → ∀ k, 0 < cN rows k + b k := fun hu k => add_pos_of_pos_of_nonneg (hpos hu k) (hbn k)
  have hg1 : cfg.updateMu = true → (∀ k, 0 < cN rows k + b k) ∧ g.mu = best rows b p.mu := by
    intro hu
    refine ⟨hpos2 hu, ?_⟩
    rw [hmu]
    unfold updMu
    rw [if_pos hu]
    funext k
    show (1 - cN rows k / (cN rows k + (loadPrior cfg p).beta k)) • (loadPrior cfg p).mu k +
      (cN rows k / (cN rows k + (loadPrior cfg p).beta k)) • xbar cfg cur rows k = _
    rw [eb hu, loadPrior_mu, ← map_mean rows b p.mu k (hpos hu k).ne' (hpos2 hu k).ne']
    simp [xbar, hu]
  have hg2 : cfg.updateMu = false → g.mu = cur.mu := by
    intro hu
    rw [hmu]
    simp [updMu, hu]
  have hT : ∀ k, Sk cfg cur (some (loadPrior cfg p)) rows k = cT rows b p.mu g.mu k := by
    intro k
    unfold Sk
    by_cases hu : cfg.updateMu = true
    · simp only [hu, if_true]
      rw [eb hu, loadPrior_mu, (hg1 hu).2]
      exact cT_code rows b p.mu k (hpos hu k).ne' (hpos2 hu k).ne' _ (by simp [xbar, hu])
    · have hu : cfg.updateMu = false := by simpa using hu
      simp only [hu]
      have : b k = 0 := by rw [hb]; simp [hu]
      unfold cT
      rw [this, zero_smul, add_zero, hg2 hu]
      have : xbar cfg cur rows = cur.mu := by
        funext k
        simp [xbar, hu]
      rw [this]
      rfl
  have eO : ∀ c mu W, obj c b (fun _ => v / K) p.mu p.W⁻¹ rows mu W = ∑ k, c k * ((rows.map (fun r => r.2 k * Real.log (gaussPdf (mu k) W r.1))).sum -
          1 / 2 * b k * ((mu k - p.mu k) ⬝ᵥ (W *ᵥ (mu k - p.mu k))) +
          v / K * (1 / 2 * Real.log W.det - 1 / 2 * (W * p.W⁻¹).trace)) := fun c mu W => rfl
  by_cases hK : K = 0
  · subst hK
    simp
  have hK' : (K : ℝ) ≠ 0 := by exact_mod_cast hK
  have hKv : ∑ _k : Fin K, v / K = v := by
    rw [Finset.sum_const, Finset.card_univ, Fintype.card_fin, nsmul_eq_mul]
    field_simp
  have hKC : ∀ C : Mat n n, ∑ _k : Fin K, (v / K) • C = v • C := by
    intro C
    rw [← Finset.sum_smul, hKv]
  constructor
  · intro hbal
    have key := opt_core hc cfg cur g rows 1 b (fun _ => v / K) (fun _ => zero_le_one) p.mu p.W⁻¹
      (covS chol cfg cur (some (loadPrior cfg p)) rows) hg1 hg2
      (fun hu => by
        have h0 := d4 hu hbal
        have hPW := (hS hu).2 (loadPrior cfg p) rfl
        rw [loadPrior_W] at hPW
        have e0 : ∑ k, (1 : Fin K → ℝ) k * (cN rows k + v / K) = v + ∑ k, cN rows k := by
          simp only [Pi.one_apply, one_mul, Finset.sum_add_distrib, hKv]
          ring
        have h0 : v + ∑ k, cN rows k ≠ 0 := by rw [← ev]; exact h0
        refine ⟨(hS hu).1, hgW hu, ?_, ?_⟩
        · rw [e0]
          exact lt_of_le_of_ne (add_nonneg hv0 (Finset.sum_nonneg (fun k _ => hN k))) (Ne.symm h0)
        · rw [e0]
          simp only [Pi.one_apply, one_smul, Finset.sum_add_distrib, hKC]
          unfold covS
          simp only [hbal, S0, nu0, ev, hT, loadPrior_W]
          rw [pdInv_eq hc hPW]
          simp [add_comm]) hgW' mu' W' hP h1 h2
    rw [eO, eO] at key
    simpa only [Pi.one_apply, one_mul] using key
  · intro hbal
    have hcp : ∀ k, 0 ≤ 1 / (cN rows k + v / K) := fun k => one_div_nonneg.2 (add_nonneg (hN k) hvK)
    have key := opt_core hc cfg cur g rows (fun k => 1 / (cN rows k + v / K)) b (fun _ => v / K) hcp p.mu p.W⁻¹
      (covS chol cfg cur (some (loadPrior cfg p)) rows) hg1 hg2
      (fun hu => by
        have h0 := d3 hu hbal
        have hPW := (hS hu).2 (loadPrior cfg p) rfl
        rw [loadPrior_W] at hPW
        have hne : ∀ k, cN rows k + v / K ≠ 0 := fun k => by
          have := h0.2 k
          simp only [nu0, ev] at this
          exact this
        have e0 : ∑ k, 1 / (cN rows k + v / K) * (cN rows k + v / K) = (K : ℝ) := by
          rw [Finset.sum_congr rfl (fun k _ => one_div_mul_cancel (hne k))]
          simp
        refine ⟨(hS hu).1, hgW hu, ?_, ?_⟩
        · rw [e0]
          exact_mod_cast Nat.pos_of_ne_zero hK
        · rw [e0]
          unfold covS
          simp only [hbal, S0, nu0, ev, hT, loadPrior_W, if_true]
          rw [pdInv_eq hc hPW]
          simp only [smul_add, Finset.sum_add_distrib, smul_smul]
          rw [← Finset.sum_smul]
          have e1 : (K : ℝ) - ∑ k, cN rows k / (cN rows k + v / K) = ∑ k, 1 / (cN rows k + v / K) * (v / K) := by
            rw [eq_comm, eq_sub_iff_add_eq, ← Finset.sum_add_distrib]
            rw [Finset.sum_congr rfl (fun k _ => (by
              have := hne k
              rw [one_div, ← div_eq_inv_mul, ← add_div, add_comm, div_self this] :
              1 / (cN rows k + v / K) * (v / K) + cN rows k / (cN rows k + v / K) = 1))]
            simp
          rw [e1, smul_smul]
          exact add_comm _ _) hgW' mu' W' hP h1 h2
    rw [eO, eO] at key
    exact key

/-- C103: the trained means, counts and degrees of freedom. Without a prior the mean of a class is the weighted mean of its vectors;
with a prior it is the mean of the vectors and `b` copies of the prior mean. `post_beta` and `post_nu` replace the counts. -/
theorem C103_values (cfg : Cfg) (prior : Option (Model K n)) (cur g : Model K n) (rows : List (Vec n × (Fin K → ℝ)))
    (h : fit chol cfg prior cur rows = some g) :
    (cfg.updateMu = true → prior = none → ∀ k, g.mu k = (1 / (rows.map (fun r => r.2 k)).sum) • (rows.map (fun r => r.2 k • r.1)).sum) ∧
    (cfg.updateMu = true → ∀ p, prior = some p → ∀ k,
      g.mu k = (1 / ((rows.map (fun r => r.2 k)).sum + cfg.priorBeta.getD (p.beta k))) •
        ((rows.map (fun r => r.2 k • r.1)).sum + cfg.priorBeta.getD (p.beta k) • p.mu k)) ∧
    (cfg.updateMu = false → g.mu = cur.mu) ∧ (cfg.updateW = false → g.W = cur.W) ∧
    (∀ k, g.beta k = cfg.postBeta.getD (if cfg.updateMu then
      (rows.map (fun r => r.2 k)).sum + (prior.map (fun p => cfg.priorBeta.getD (p.beta k))).getD 0 else cur.beta k)) ∧
    g.nu = (cfg.postNu.map (fun v => (K : ℝ) * v)).getD (if cfg.updateW then
      ∑ k, (rows.map (fun r => r.2 k)).sum + (prior.map (fun p => (cfg.priorNu.map (fun v => (K : ℝ) * v)).getD p.nu)).getD 0 else cur.nu) := by
  obtain ⟨hd, hS, hmu, hgW, hgW'⟩ := fit_some h
  have hbn : g.beta = (match cfg.postBeta with | some b => fun _ => b | none => (updMu cfg cur (prior.map (loadPrior cfg)) rows).beta) ∧
      g.nu = (match cfg.postNu with | some v => K * v | none => if cfg.updateW then ∑ k, cN rows k + nu0 (prior.map (loadPrior cfg)) else
        (updMu cfg cur (prior.map (loadPrior cfg)) rows).nu) := by
    unfold fit at h
    simp only [] at h
    split at h
    · simp only [Option.some.injEq] at h
      subst h
      by_cases hu : cfg.updateW = true
      · simp only [changePost, hu, if_true]
        exact ⟨rfl, rfl⟩
      · simp only [changePost, hu]
        exact ⟨rfl, rfl⟩
    · simp at h
  have hnu : (updMu cfg cur (prior.map (loadPrior cfg)) rows).nu = cur.nu := by
    unfold updMu
    split
    · split <;> rfl
    · rfl
  refine ⟨?_, ?_, ?_, hgW', ?_, ?_⟩
  · rintro hu rfl k
    rw [hmu]
    unfold updMu
    rw [if_pos hu]
    show xbar cfg cur rows k = _
    simp [xbar, hu, cN, cF]
  · rintro hu p rfl k
    have d1 := hd.1 hu k
    have d2 := hd.2.1 hu (loadPrior cfg p) rfl k
    rw [hmu]
    unfold updMu
    rw [if_pos hu]
    show (1 - cN rows k / (cN rows k + (loadPrior cfg p).beta k)) • (loadPrior cfg p).mu k +
      (cN rows k / (cN rows k + (loadPrior cfg p).beta k)) • xbar cfg cur rows k = _
    have hx : xbar cfg cur rows k = (1 / cN rows k) • cF rows k := by simp [xbar, hu]
    rw [hx, map_mean rows (loadPrior cfg p).beta (loadPrior cfg p).mu k d1 d2, loadPrior_beta]
    rfl
  · intro hu
    rw [hmu]
    simp [updMu, hu]
  · intro k
    rw [hbn.1]
    rcases cfg.postBeta with _ | b
    · show (updMu cfg cur (prior.map (loadPrior cfg)) rows).beta k = _
      rw [Option.getD_none]
      by_cases hu : cfg.updateMu = true
      · unfold updMu
        rw [if_pos hu, if_pos hu]
        rcases prior with _ | p
        · show cN rows k = _
          simp [cN]
        · show cN rows k + (loadPrior cfg p).beta k = _
          rw [loadPrior_beta]
          rfl
      · simp [updMu, hu]
    · rfl
  · rw [hbn.2]
    rcases cfg.postNu with _ | b
    · rw [Option.map_none, Option.getD_none]
      by_cases hu : cfg.updateW = true
      · simp only [hu, if_true]
        rcases prior with _ | p
        · rfl
        · show ∑ k, cN rows k + (loadPrior cfg p).nu = _
          rw [loadPrior_nu]
          rfl
      · simp only [hu]
        exact hnu
    · rfl

/-- C103: a class without observations (total weight 0) makes the result unusable when the means are updated, also when a prior
would determine the mean. -/
theorem C103_empty_class (cfg : Cfg) (hu : cfg.updateMu = true) (prior : Option (Model K n)) (cur : Model K n)
    (rows : List (Vec n × (Fin K → ℝ))) (k : Fin K) (h : (rows.map (fun r => r.2 k)).sum = 0) : fit chol cfg prior cur rows = none := by
  rcases hf : fit chol cfg prior cur rows with _ | g
  · rfl
  · exact absurd h ((fit_some hf).1.1 hu k)

/-! ### adaptation in steps -/

theorem cN_append (r1 r2 : List (Vec n × (Fin K → ℝ))) (k : Fin K) : cN (r1 ++ r2) k = cN r1 k + cN r2 k := by
  unfold cN
  rw [List.map_append, List.sum_append]

theorem cF_append (r1 r2 : List (Vec n × (Fin K → ℝ))) (k : Fin K) : cF (r1 ++ r2) k = cF r1 k + cF r2 k := by
  unfold cF
  rw [List.map_append, List.sum_append]

theorem cQ_append (r1 r2 : List (Vec n × (Fin K → ℝ))) (k : Fin K) : cQ (r1 ++ r2) k = cQ r1 k + cQ r2 k := by
  unfold cQ
  rw [List.map_append, List.sum_append]

theorem cT_seq (r1 r2 : List (Vec n × (Fin K → ℝ))) (b b1 : Fin K → ℝ) (m0 m1 : Fin K → Vec n) (k : Fin K) (h1 : cN r1 k + b k ≠ 0)
    (h2 : cN r2 k + (cN r1 k + b k) ≠ 0) (hb : b1 k = cN r1 k + b k) (hm : m1 k = best r1 b m0 k) :
    best r2 b1 m1 k = best (r1 ++ r2) b m0 k ∧
    cT r1 b m0 (best r1 b m0) k + cT r2 b1 m1 (best r2 b1 m1) k = cT (r1 ++ r2) b m0 (best (r1 ++ r2) b m0) k := by
  have h3 : cN r1 k + cN r2 k + b k ≠ 0 := by
    intro h
    apply h2
    linarith
  constructor
  · unfold best
    rw [hb, hm, cN_append, cF_append]
    unfold best
    funext i
    simp only [Pi.smul_apply, Pi.add_apply, smul_eq_mul]
    have e : cN r2 k + (cN r1 k + b k) = cN r1 k + cN r2 k + b k := by ring
    rw [e]
    field_simp
    ring
  · ext i j
    unfold cT
    simp only [Matrix.add_apply, scatter_entry, Matrix.smul_apply, Matrix.vecMulVec_apply, smul_eq_mul, Pi.sub_apply, cN_append, cF_append,
      cQ_append, Pi.add_apply]
    unfold best
    rw [hb, hm, cN_append, cF_append]
    unfold best
    simp only [Pi.smul_apply, Pi.add_apply, smul_eq_mul]
    have e : cN r2 k + (cN r1 k + b k) = cN r1 k + cN r2 k + b k := by ring
    rw [e]
    field_simp
    ring

/-- default options with `balance_class_weight=False` -/
def plainCfg : Cfg := ⟨true, true, false, none, none, none, none⟩

theorem loadPrior_plain (p : Model K n) : loadPrior plainCfg p = p := rfl

/-- the covariance of the trained model in terms of the prior -/
noncomputable def covT (p : Model K n) (rows : List (Vec n × (Fin K → ℝ))) : Mat n n :=
  (1 / (p.nu + ∑ k, cN rows k)) • (p.nu • p.W⁻¹ + ∑ k, cT rows p.beta p.mu (best rows p.beta p.mu) k)

theorem covS_plain (hc : IsCholesky chol) (p cur : Model K n) (rows : List (Vec n × (Fin K → ℝ))) (hP : p.W.PosDef)
    (h1 : ∀ k, cN rows k ≠ 0) (h2 : ∀ k, cN rows k + p.beta k ≠ 0) : covS chol plainCfg cur (some p) rows = covT p rows := by
  have hT : ∀ k, Sk plainCfg cur (some p) rows k = cT rows p.beta p.mu (best rows p.beta p.mu) k := fun k =>
    cT_code rows p.beta p.mu k (h1 k) (h2 k) _ rfl
  have e1 : covS chol plainCfg cur (some p) rows = (1 / (p.nu + ∑ k, cN rows k)) • (p.nu • pdInv chol p.W + ∑ k, Sk plainCfg cur (some p) rows k) := rfl
  rw [e1]
  unfold covT
  simp only [hT]
  rw [pdInv_eq hc hP]

theorem fit_plain (hc : IsCholesky chol) (p cur g : Model K n) (rows : List (Vec n × (Fin K → ℝ))) :
    fit chol plainCfg (some p) cur rows = some g ↔
      (∀ k, cN rows k ≠ 0) ∧ (∀ k, cN rows k + p.beta k ≠ 0) ∧ p.nu + ∑ k, cN rows k ≠ 0 ∧ p.W.PosDef ∧ (covT p rows).PosDef ∧
      g = ⟨best rows p.beta p.mu, (covT p rows)⁻¹, fun k => cN rows k + p.beta k, ∑ k, cN rows k + p.nu⟩ := by
  constructor
  · intro h
    obtain ⟨hd, hS, hmu, hgW, -⟩ := fit_some h
    obtain ⟨-, hv, -, -, hb, hnu⟩ := C103_values plainCfg (some p) cur g rows h
    have d1 := hd.1 rfl
    have d2 := hd.2.1 rfl p rfl
    have d4 := hd.2.2.2 rfl rfl
    have hS := hS rfl
    have hP := hS.2 p rfl
    have e : covS chol plainCfg cur ((some p).map (loadPrior plainCfg)) rows = covT p rows := covS_plain hc p cur rows hP d1 d2
    rw [e] at hS
    have hgW := hgW rfl
    rw [e, pdInv_eq hc hS.1] at hgW
    refine ⟨d1, d2, d4, hP, hS.1, ?_⟩
    refine Model.ext ?_ hgW ?_ hnu
    · funext k
      exact hv rfl p rfl k
    · funext k
      exact hb k
  · rintro ⟨d1, d2, d4, hP, hC, rfl⟩
    have e : covS chol plainCfg cur ((some p).map (loadPrior plainCfg)) rows = covT p rows := covS_plain hc p cur rows hP d1 d2
    obtain ⟨g, hg⟩ := fit_eq (chol := chol) (cfg := plainCfg) (prior := some p) (cur := cur) (rows := rows)
      ⟨fun _ => d1, fun _ q hq k => by
        have : p = q := by simpa [loadPrior_plain] using hq
        rw [← this]; exact d2 k, fun _ h => by simp [plainCfg] at h, fun _ _ => d4⟩
      (fun _ => ⟨by rw [e]; exact hC, fun q hq => by
        have : p = q := by simpa [loadPrior_plain] using hq
        rw [← this]; exact hP⟩)
    rw [hg]
    obtain ⟨hd, hS, hmu, hgW, -⟩ := fit_some hg
    obtain ⟨-, hv, -, -, hb, hnu⟩ := C103_values plainCfg (some p) cur g rows hg
    have hgW := hgW rfl
    rw [e, pdInv_eq hc hC] at hgW
    congr 1
    refine Model.ext ?_ hgW ?_ hnu
    · funext k
      exact hv rfl p rfl k
    · funext k
      exact hb k

/-- C103: adaptation in steps. With the default relevance factors and without class balancing, adapting to a first batch and using the
result as the prior for a second batch gives the same model as adapting once to all the data. -/
theorem C103_sequential (hc : IsCholesky chol) (p g1 g2 cur cur' cur'' : Model K n) (r1 r2 : List (Vec n × (Fin K → ℝ)))
    (hp1 : ∀ r ∈ r1, ∀ k, 0 ≤ r.2 k) (hp2 : ∀ r ∈ r2, ∀ k, 0 ≤ r.2 k) (hb : ∀ k, 0 ≤ p.beta k) (hv : 0 ≤ p.nu)
    (h1 : fit chol plainCfg (some p) cur r1 = some g1) (h2 : fit chol plainCfg (some g1) cur' r2 = some g2) :
    fit chol plainCfg (some p) cur'' (r1 ++ r2) = some g2 := by
  obtain ⟨a1, a2, a3, aP, aC, rfl⟩ := (fit_plain hc p cur g1 r1).1 h1
  obtain ⟨b1, b2, b3, bP, bC, rfl⟩ := (fit_plain hc _ cur' g2 r2).1 h2
  have n1 := cN_nonneg hp1
  have n2 := cN_nonneg hp2
  have p1 : ∀ k, 0 < cN r1 k := fun k => lt_of_le_of_ne (n1 k) (Ne.symm (a1 k))
  have hseq := fun k => cT_seq r1 r2 p.beta (fun k => cN r1 k + p.beta k) p.mu (best r1 p.beta p.mu) k (a2 k) (b2 k) rfl rfl
  have hbest : best r2 (fun k => cN r1 k + p.beta k) (best r1 p.beta p.mu) = best (r1 ++ r2) p.beta p.mu := funext (fun k => (hseq k).1)
  have hNs : ∑ k, cN (r1 ++ r2) k = ∑ k, cN r1 k + ∑ k, cN r2 k := by
    rw [← Finset.sum_add_distrib]
    exact Finset.sum_congr rfl (fun k _ => cN_append r1 r2 k)
  have hcov : covT ⟨best r1 p.beta p.mu, (covT p r1)⁻¹, fun k => cN r1 k + p.beta k, ∑ k, cN r1 k + p.nu⟩ r2 = covT p (r1 ++ r2) := by
    unfold covT at aC ⊢
    simp only []
    rw [Matrix.nonsing_inv_nonsing_inv _ (PosDef.det_ne aC), hNs]
    have e1 : ∑ k, cN r1 k + p.nu + ∑ k, cN r2 k = p.nu + (∑ k, cN r1 k + ∑ k, cN r2 k) := by ring
    have e2 : ∑ k, cN r1 k + p.nu = p.nu + ∑ k, cN r1 k := by ring
    rw [e1, e2, smul_smul, mul_one_div_cancel a3, one_smul, add_assoc]
    congr 2
    rw [← Finset.sum_congr rfl (fun k _ => (hseq k).2), Finset.sum_add_distrib]
  refine (fit_plain hc p cur'' _ (r1 ++ r2)).2 ⟨?_, ?_, ?_, aP, ?_, ?_⟩
  · intro k
    rw [cN_append]
    have := p1 k
    have := n2 k
    linarith
  · intro k
    rw [cN_append]
    have := p1 k
    have := n2 k
    have := hb k
    have h : 0 < cN r1 k + cN r2 k + p.beta k := by linarith
    exact h.ne'
  · rw [hNs]
    intro h
    apply b3
    show ∑ k, cN r1 k + p.nu + ∑ k, cN r2 k = 0
    linarith
  · rw [← hcov]
    exact bC
  · rw [hcov]
    refine Model.ext hbest rfl ?_ ?_
    · funext k
      show cN r2 k + (cN r1 k + p.beta k) = cN (r1 ++ r2) k + p.beta k
      rw [cN_append]
      ring
    · show ∑ k, cN r2 k + (∑ k, cN r1 k + p.nu) = ∑ k, cN (r1 ++ r2) k + p.nu
      rw [hNs]
      ring

/-! ### class numbers -/

theorem ids_N (rows : List (Vec n × Nat × ℝ)) (k : Fin K) :
    (rows.map ((fun r : Vec n × (Fin K → ℝ) => r.2 k) ∘ fun r => (r.1, fun k : Fin K => r.2.2 * if r.2.1 = k.1 then (1 : ℝ) else 0))).sum =
        ((rows.filter (fun r => r.2.1 = k.1)).map (fun r => r.2.2)).sum := by
  induction rows with
  | nil => rfl
  | cons r rows ih =>
    rw [List.map_cons, List.sum_cons, ih, List.filter_cons]
    by_cases hk : r.2.1 = k.1 <;> simp [hk]

theorem ids_F (rows : List (Vec n × Nat × ℝ)) (k : Fin K) :
    (rows.map ((fun r : Vec n × (Fin K → ℝ) => r.2 k • r.1) ∘ fun r => (r.1, fun k : Fin K => r.2.2 * if r.2.1 = k.1 then (1 : ℝ) else 0))).sum =
        ((rows.filter (fun r => r.2.1 = k.1)).map (fun r => r.2.2 • r.1)).sum := by
  induction rows with
  | nil => rfl
  | cons r rows ih =>
    rw [List.map_cons, List.sum_cons, ih, List.filter_cons]
    by_cases hk : r.2.1 = k.1 <;> simp [hk]

/-- C103: training with class numbers. The mean of a class is the weighted mean of the vectors with its number. -/
theorem C103_class_ids (cfg : Cfg) (hu : cfg.updateMu = true) (cur g : Model K n) (rows : List (Vec n × Nat × ℝ))
    (h : fitIds chol cfg none cur rows = some g) :
    (∀ r ∈ rows, r.2.1 < K) ∧
    ∀ k : Fin K, g.mu k = (1 / ((rows.filter (fun r => r.2.1 = k.1)).map (fun r => r.2.2)).sum) •
      ((rows.filter (fun r => r.2.1 = k.1)).map (fun r => r.2.2 • r.1)).sum := by
  unfold fitIds at h
  obtain ⟨q, hq, h⟩ := Option.bind_eq_some_iff.1 h
  unfold onehot at hq
  split at hq
  · rename_i hall
    simp only [Option.some.injEq] at hq
    subst hq
    refine ⟨fun r hr => by simpa using List.all_eq_true.1 hall r hr, fun k => ?_⟩
    rw [(C103_values cfg none cur g _ h).1 hu rfl k, List.map_map, List.map_map]
    rw [ids_N, ids_F]
  · simp at hq

/-- C103: a class number that is not smaller than the number of classes raises. -/
theorem C103_bad_id (cfg : Cfg) (prior : Option (Model K n)) (cur : Model K n) (rows : List (Vec n × Nat × ℝ))
    (r : Vec n × Nat × ℝ) (hr : r ∈ rows) (hk : K ≤ r.2.1) : fitIds chol cfg prior cur rows = none := by
  unfold fitIds onehot
  rw [if_neg]
  · rfl
  · intro h
    have := List.all_eq_true.1 h r hr
    simp at this
    omega

/-- C103: when the number of classes is not given it is one more than the largest class number, so the last class is not empty. -/
theorem C103_num_classes (ids : List Nat) (N : Nat) (h : numClasses none ids = some N) : (∀ i ∈ ids, i < N) ∧ N - 1 ∈ ids ∧ 0 < N := by
  unfold numClasses at h
  simp only [Option.map_eq_some_iff] at h
  obtain ⟨m, hm, rfl⟩ := h
  obtain ⟨h1, h2⟩ := List.max?_eq_some_iff.1 hm
  exact ⟨fun i hi => Nat.lt_succ_of_le (h2 i hi), by simpa using h1, Nat.succ_pos m⟩

/-! ### a case that meets the hypotheses -/

/-- two classes in one dimension: 1 and 3 in the first, -1 and -3 in the second -/
noncomputable def exRows : List (Vec 1 × (Fin 2 → ℝ)) :=
  [(fun _ => 1, fun k => if k = 0 then 1 else 0), (fun _ => 3, fun k => if k = 0 then 1 else 0),
   (fun _ => -1, fun k => if k = 0 then 0 else 1), (fun _ => -3, fun k => if k = 0 then 0 else 1)]

noncomputable def exPrior : Model 2 1 := ⟨fun _ => 0, 1, fun _ => 1, 2⟩

theorem one_dim_pos (C : Mat 1 1) (h : 0 < C 0 0) : C.PosDef := by
  have : C = Matrix.diagonal (fun _ => C 0 0) := by
    ext i j
    fin_cases i
    fin_cases j
    simp
  rw [this]
  exact Matrix.PosDef.diagonal (fun _ => h)

theorem ex_N (k : Fin 2) : cN exRows k = 2 := by
  fin_cases k <;> norm_num [cN, exRows]

theorem ex_cov : (covT exPrior exRows) 0 0 = 17 / 9 := by
  unfold covT
  simp only [Matrix.smul_apply, Matrix.add_apply, Finset.sum_apply, Matrix.sum_apply, smul_eq_mul, ex_N, Fin.sum_univ_two, cT, scatter_entry,
    Matrix.vecMulVec_apply, Pi.sub_apply]
  norm_num [best, cN, cF, cQ, exRows, exPrior, Matrix.vecMulVec_apply]

/-- non-vacuity of C103_map and C103_sequential -/
example (hc : IsCholesky chol) : ∃ g, fit chol plainCfg (some exPrior) exPrior exRows = some g :=
  ⟨_, (fit_plain hc exPrior exPrior _ exRows).2 ⟨fun k => by rw [ex_N]; norm_num, fun k => by rw [ex_N]; norm_num [exPrior],
    by norm_num [exPrior, ex_N], Matrix.PosDef.one, one_dim_pos _ (by rw [ex_cov]; norm_num), rfl⟩⟩

end Hyp.Gbe
