import Verif.Classifiers.GbeEval
import Mathlib.Algebra.Order.BigOperators.Group.List

/-! C103: training of the Gaussian back-end. -/

namespace Hyp.Gbe
open scoped BigOperators
open Matrix Hyp.Plda

variable {K n : Nat} {chol : (n : Nat) → Mat n n → Mat n n}

/-! ### scatter matrices -/

/-- second moment of a class -/
def cQ (rows : List (Vec n × (Fin K → ℝ))) (k : Fin K) : Mat n n := (rows.map (fun r => r.2 k • Matrix.vecMulVec r.1 r.1)).sum

theorem scatter_entry (rows : List (Vec n × (Fin K → ℝ))) (m : Fin K → Vec n) (k : Fin K) (i j : Fin n) :
    cS rows m k i j = cQ rows k i j - cF rows k i * m k j - m k i * cF rows k j + cN rows k * m k i * m k j := by
  unfold cS cQ cF cN
  induction rows with
  | nil => simp
  | cons r rows ih =>
    simp only [List.map_cons, List.sum_cons, Matrix.add_apply, Pi.add_apply, ih, Matrix.smul_apply, Matrix.vecMulVec_apply, smul_eq_mul,
      Pi.sub_apply, Pi.smul_apply]
    ring

theorem trace_scatter (W : Mat n n) (rows : List (Vec n × (Fin K → ℝ))) (m : Fin K → Vec n) (k : Fin K) :
    (W * cS rows m k).trace = (rows.map (fun r => r.2 k * ((r.1 - m k) ⬝ᵥ (W *ᵥ (r.1 - m k))))).sum := by
  unfold cS
  induction rows with
  | nil => simp
  | cons r rows ih =>
    simp only [List.map_cons, List.sum_cons, Matrix.mul_add, Matrix.trace_add, ih]
    rw [Matrix.mul_smul, Matrix.trace_smul, trace_outer, smul_eq_mul]

/-- scatter of a class around `m` with `b` pseudo-observations at `m0` -/
def cT (rows : List (Vec n × (Fin K → ℝ))) (b : Fin K → ℝ) (m0 m : Fin K → Vec n) (k : Fin K) : Mat n n :=
  cS rows m k + b k • Matrix.vecMulVec (m k - m0 k) (m k - m0 k)

/-- the regularised class mean -/
noncomputable def best (rows : List (Vec n × (Fin K → ℝ))) (b : Fin K → ℝ) (m0 : Fin K → Vec n) (k : Fin K) : Vec n :=
  (1 / (cN rows k + b k)) • (cF rows k + b k • m0 k)

theorem cT_best (rows : List (Vec n × (Fin K → ℝ))) (b : Fin K → ℝ) (m0 m : Fin K → Vec n) (k : Fin K) (h : cN rows k + b k ≠ 0) :
    cT rows b m0 m k = cT rows b m0 (best rows b m0) k +
      (cN rows k + b k) • Matrix.vecMulVec (m k - best rows b m0 k) (m k - best rows b m0 k) := by
  ext i j
  unfold cT
  simp only [Matrix.add_apply, scatter_entry, Matrix.smul_apply, Matrix.vecMulVec_apply, smul_eq_mul, Pi.sub_apply]
  have e : ∀ i, (cN rows k + b k) * best rows b m0 k i = cF rows k i + b k * m0 k i := fun i => by
    unfold best
    simp only [Pi.smul_apply, Pi.add_apply, smul_eq_mul]
    field_simp
  have ei := e i
  have ej := e j
  generalize best rows b m0 k i = mi at *
  generalize best rows b m0 k j = mj at *
  have : cF rows k i = (cN rows k + b k) * mi - b k * m0 k i := by linarith
  rw [this]
  have : cF rows k j = (cN rows k + b k) * mj - b k * m0 k j := by linarith
  rw [this]
  ring

/-- the correction term of the code -/
theorem cT_code (rows : List (Vec n × (Fin K → ℝ))) (b : Fin K → ℝ) (m0 : Fin K → Vec n) (k : Fin K) (hN : cN rows k ≠ 0)
    (h : cN rows k + b k ≠ 0) (xb : Fin K → Vec n) (hx : xb k = (1 / cN rows k) • cF rows k) :
    cS rows xb k + (cN rows k * (1 - cN rows k / (cN rows k + b k))) • Matrix.vecMulVec (xb k - m0 k) (xb k - m0 k) =
      cT rows b m0 (best rows b m0) k := by
  ext i j
  unfold cT best
  simp only [Matrix.add_apply, scatter_entry, Matrix.smul_apply, Matrix.vecMulVec_apply, smul_eq_mul, Pi.sub_apply, hx, Pi.smul_apply,
    Pi.add_apply]
  field_simp
  ring

/-! ### the objective -/

/-- weighted log likelihood of the training data with class weights `c`, minus half the weighted squared distance of the means to
prior means `m0`, plus the log likelihood of `v k` pseudo-observations with covariance `C0` -/
noncomputable def obj (c b v : Fin K → ℝ) (m0 : Fin K → Vec n) (C0 : Mat n n) (rows : List (Vec n × (Fin K → ℝ))) (mu : Fin K → Vec n)
    (W : Mat n n) : ℝ :=
  ∑ k, c k * ((rows.map (fun r => r.2 k * Real.log (gaussPdf (mu k) W r.1))).sum -
    1 / 2 * b k * ((mu k - m0 k) ⬝ᵥ (W *ᵥ (mu k - m0 k))) + v k * (1 / 2 * Real.log W.det - 1 / 2 * (W * C0).trace))

theorem obj_term {W : Mat n n} (hW : W.PosDef) (b v : Fin K → ℝ) (m0 : Fin K → Vec n) (C0 : Mat n n) (rows : List (Vec n × (Fin K → ℝ)))
    (mu : Fin K → Vec n) (k : Fin K) :
    (rows.map (fun r => r.2 k * Real.log (gaussPdf (mu k) W r.1))).sum -
      1 / 2 * b k * ((mu k - m0 k) ⬝ᵥ (W *ᵥ (mu k - m0 k))) + v k * (1 / 2 * Real.log W.det - 1 / 2 * (W * C0).trace) =
    (cN rows k + v k) * (1 / 2 * Real.log W.det) - cN rows k * (1 / 2 * n * Real.log (2 * Real.pi)) -
      1 / 2 * (W * (cT rows b m0 mu k + v k • C0)).trace := by
  have h : (rows.map (fun r => r.2 k * Real.log (gaussPdf (mu k) W r.1))).sum =
      cN rows k * (1 / 2 * Real.log W.det - 1 / 2 * n * Real.log (2 * Real.pi)) - 1 / 2 * (W * cS rows mu k).trace := by
    rw [trace_scatter]
    simp only [log_gaussPdf hW]
    unfold cN
    induction rows with
    | nil => simp
    | cons r rows ih =>
      simp only [List.map_cons, List.sum_cons, ih]
      ring
  rw [h]
  unfold cT
  rw [Matrix.mul_add, Matrix.mul_add, Matrix.trace_add, Matrix.trace_add, Matrix.mul_smul, Matrix.mul_smul, Matrix.trace_smul,
    Matrix.trace_smul, trace_outer, smul_eq_mul, smul_eq_mul]
  ring

theorem sum_mul_trace (W : Mat n n) (c : Fin K → ℝ) (T : Fin K → Mat n n) :
    (W * ∑ k, c k • T k).trace = ∑ k, c k * (W * T k).trace := by
  rw [Matrix.mul_sum, Matrix.trace_sum]
  exact Finset.sum_congr rfl (fun k _ => by rw [Matrix.mul_smul, Matrix.trace_smul, smul_eq_mul])

theorem obj_eq {W : Mat n n} (hW : W.PosDef) (c b v : Fin K → ℝ) (m0 : Fin K → Vec n) (C0 : Mat n n) (rows : List (Vec n × (Fin K → ℝ)))
    (mu : Fin K → Vec n) :
    obj c b v m0 C0 rows mu W = (∑ k, c k * (cN rows k + v k)) * (1 / 2 * Real.log W.det) -
      (∑ k, c k * cN rows k) * (1 / 2 * n * Real.log (2 * Real.pi)) -
      1 / 2 * (W * ∑ k, c k • (cT rows b m0 mu k + v k • C0)).trace := by
  unfold obj
  rw [sum_mul_trace, Finset.sum_mul, Finset.sum_mul, Finset.mul_sum, ← Finset.sum_sub_distrib, ← Finset.sum_sub_distrib]
  apply Finset.sum_congr rfl
  intro k _
  rw [obj_term hW]
  ring

/-- the means -/
theorem obj_mean {W : Mat n n} (hW : W.PosDef) (c b v : Fin K → ℝ) (hcp : ∀ k, 0 ≤ c k) (m0 : Fin K → Vec n) (C0 : Mat n n)
    (rows : List (Vec n × (Fin K → ℝ))) (mu : Fin K → Vec n) (hN : ∀ k, 0 < cN rows k + b k) :
    obj c b v m0 C0 rows mu W ≤ obj c b v m0 C0 rows (best rows b m0) W := by
  rw [obj_eq hW, obj_eq hW, sum_mul_trace, sum_mul_trace]
  have : ∑ k, c k * (W * (cT rows b m0 (best rows b m0) k + v k • C0)).trace ≤ ∑ k, c k * (W * (cT rows b m0 mu k + v k • C0)).trace := by
    apply Finset.sum_le_sum
    intro k _
    apply mul_le_mul_of_nonneg_left _ (hcp k)
    rw [cT_best rows b m0 mu k (hN k).ne', Matrix.mul_add, Matrix.mul_add, Matrix.mul_add, Matrix.trace_add, Matrix.trace_add,
      Matrix.trace_add, Matrix.mul_smul W (cN rows k + b k), Matrix.trace_smul, trace_outer, smul_eq_mul]
    have := mul_nonneg (hN k).le (PosSemidef.quad hW.posSemidef (mu k - best rows b m0 k))
    linarith
  linarith

/-- the precision -/
theorem obj_prec {W C : Mat n n} (hW : W.PosDef) (hC : C.PosDef) (c b v : Fin K → ℝ) (m0 : Fin K → Vec n) (C0 : Mat n n)
    (rows : List (Vec n × (Fin K → ℝ))) (mu : Fin K → Vec n) (hD : 0 < ∑ k, c k * (cN rows k + v k))
    (hCe : C = (1 / ∑ k, c k * (cN rows k + v k)) • ∑ k, c k • (cT rows b m0 mu k + v k • C0)) :
    obj c b v m0 C0 rows mu W ≤ obj c b v m0 C0 rows mu C⁻¹ := by
  have hs : ∑ k, c k • (cT rows b m0 mu k + v k • C0) = (∑ k, c k * (cN rows k + v k)) • C := by
    rw [hCe, smul_smul, mul_one_div_cancel hD.ne', one_smul]
  rw [obj_eq hW, obj_eq hC.inv, hs, Matrix.mul_smul, Matrix.mul_smul, Matrix.trace_smul, Matrix.trace_smul, smul_eq_mul, smul_eq_mul]
  have := mul_le_mul_of_nonneg_left (best_full hC hW) hD.le
  linarith

/-! ### the training function -/

theorem fit_some {cfg : Cfg} {prior : Option (Model K n)} {cur g : Model K n} {rows : List (Vec n × (Fin K → ℝ))}
    (h : fit chol cfg prior cur rows = some g) :
    divOk cfg (prior.map (loadPrior cfg)) rows ∧
    (cfg.updateW = true → (covS chol cfg cur (prior.map (loadPrior cfg)) rows).PosDef ∧ ∀ p ∈ prior.map (loadPrior cfg), p.W.PosDef) ∧
    g.mu = (updMu cfg cur (prior.map (loadPrior cfg)) rows).mu ∧
    (cfg.updateW = true → g.W = pdInv chol (covS chol cfg cur (prior.map (loadPrior cfg)) rows)) ∧
    (cfg.updateW = false → g.W = cur.W) := by
  have hWc : (updMu cfg cur (prior.map (loadPrior cfg)) rows).W = cur.W := by
    unfold updMu
    split
    · split <;> rfl
    · rfl
  unfold fit at h
  simp only [] at h
  split at h
  · rename_i hd
    refine ⟨hd.1, hd.2, ?_⟩
    simp only [Option.some.injEq] at h
    subst h
    by_cases hu : cfg.updateW = true
    · simp [changePost, hu]
    · simp [changePost, hu, hWc]
  · simp at h

theorem fit_eq {cfg : Cfg} {prior : Option (Model K n)} {cur : Model K n} {rows : List (Vec n × (Fin K → ℝ))}
    (h1 : divOk cfg (prior.map (loadPrior cfg)) rows)
    (h2 : cfg.updateW = true → (covS chol cfg cur (prior.map (loadPrior cfg)) rows).PosDef ∧ ∀ p ∈ prior.map (loadPrior cfg), p.W.PosDef) :
    ∃ g, fit chol cfg prior cur rows = some g := by
  unfold fit
  simp only []
  rw [if_pos ⟨h1, h2⟩]
  exact ⟨_, rfl⟩

theorem cN_nonneg {rows : List (Vec n × (Fin K → ℝ))} (hp : ∀ r ∈ rows, ∀ k, 0 ≤ r.2 k) (k : Fin K) : 0 ≤ cN rows k :=
  List.sum_nonneg (by
    intro y hy
    obtain ⟨r, hr, rfl⟩ := List.mem_map.1 hy
    exact hp r hr k)

/-- the optimality statement for abstract class weights and pseudo-counts -/
theorem opt_core (hc : IsCholesky chol) (cfg : Cfg) (cur g : Model K n) (rows : List (Vec n × (Fin K → ℝ)))
    (c b v : Fin K → ℝ) (hcp : ∀ k, 0 ≤ c k) (m0 : Fin K → Vec n) (C0 S : Mat n n)
    (hmu : cfg.updateMu = true → (∀ k, 0 < cN rows k + b k) ∧ g.mu = best rows b m0)
    (hmu' : cfg.updateMu = false → g.mu = cur.mu)
    (hW : cfg.updateW = true → S.PosDef ∧ g.W = pdInv chol S ∧ 0 < (∑ k, c k * (cN rows k + v k)) ∧
      S = (1 / ∑ k, c k * (cN rows k + v k)) • ∑ k, c k • (cT rows b m0 g.mu k + v k • C0))
    (hW' : cfg.updateW = false → g.W = cur.W)
    (mu' : Fin K → Vec n) (W' : Mat n n) (hP : W'.PosDef) (h1 : cfg.updateMu = false → mu' = cur.mu)
    (h2 : cfg.updateW = false → W' = cur.W) :
    obj c b v m0 C0 rows mu' W' ≤ obj c b v m0 C0 rows g.mu g.W := by
  have s1 : obj c b v m0 C0 rows mu' W' ≤ obj c b v m0 C0 rows g.mu W' := by
    by_cases hu : cfg.updateMu = true
    · rw [(hmu hu).2]
      exact obj_mean hP c b v hcp m0 C0 rows mu' (hmu hu).1
    · have hu : cfg.updateMu = false := by simpa using hu
      rw [h1 hu, hmu' hu]
  refine s1.trans ?_
  by_cases hu : cfg.updateW = true
  · obtain ⟨hS, hg, hD, he⟩ := hW hu
    rw [hg, pdInv_eq hc hS]
    exact obj_prec hP hS c b v m0 C0 rows g.mu hD he
  · have hu : cfg.updateW = false := by simpa using hu
    rw [h2 hu, hW' hu]

theorem best_zero (rows : List (Vec n × (Fin K → ℝ))) (m0 : Fin K → Vec n) : best rows 0 m0 = fun k => (1 / cN rows k) • cF rows k := by
  funext k
  unfold best
  simp

/-- C103: maximum likelihood. Without a prior, for every combination of update flags, training maximises the log likelihood of the
data over the parameters that it may change: class means `mu'` and a positive definite precision `W'`. Without
`balance_class_weight` every observation has its own weight; with it every class has the same total weight. -/
theorem C103_ml (hc : IsCholesky chol) (cfg : Cfg) (cur g : Model K n) (rows : List (Vec n × (Fin K → ℝ)))
    (hp : ∀ r ∈ rows, ∀ k, 0 ≤ r.2 k) (h : fit chol cfg none cur rows = some g)
    (mu' : Fin K → Vec n) (W' : Mat n n) (hP : W'.PosDef) (h1 : cfg.updateMu = false → mu' = cur.mu)
    (h2 : cfg.updateW = false → W' = cur.W) :
    (cfg.balance = false →
      ∑ k, (rows.map (fun r => r.2 k * Real.log (gaussPdf (mu' k) W' r.1))).sum ≤
        ∑ k, (rows.map (fun r => r.2 k * Real.log (gaussPdf (g.mu k) g.W r.1))).sum) ∧
    (cfg.balance = true →
      ∑ k, 1 / (rows.map (fun r => r.2 k)).sum * (rows.map (fun r => r.2 k * Real.log (gaussPdf (mu' k) W' r.1))).sum ≤
        ∑ k, 1 / (rows.map (fun r => r.2 k)).sum * (rows.map (fun r => r.2 k * Real.log (gaussPdf (g.mu k) g.W r.1))).sum) := by
  obtain ⟨hd, hS, hmu, hgW, hgW'⟩ := fit_some h
  have hN := cN_nonneg hp
  simp only [Option.map_none] at hd hS hmu hgW
  obtain ⟨d1, -, d3, d4⟩ := hd
  have eObj : ∀ c mu W, obj c 0 0 (0 : Fin K → Vec n) 0 rows mu W = ∑ k, c k * (rows.map (fun r => r.2 k * Real.log (gaussPdf (mu k) W r.1))).sum := by
    intro c mu W
    unfold obj
    simp
  have hg1 : cfg.updateMu = true → (∀ k, 0 < cN rows k + (0 : Fin K → ℝ) k) ∧ g.mu = best rows 0 0 := by
    intro hu
    refine ⟨fun k => ?_, ?_⟩
    · simp only [Pi.zero_apply, add_zero]
      exact lt_of_le_of_ne (hN k) (Ne.symm (d1 hu k))
    · rw [hmu, best_zero]
      unfold updMu
      rw [if_pos hu]
      show xbar cfg cur rows = _
      funext k
      simp [xbar, hu]
  have hg2 : cfg.updateMu = false → g.mu = cur.mu := by
    intro hu
    rw [hmu]
    simp [updMu, hu]
  have hx : xbar cfg cur rows = g.mu := by
    funext k
    by_cases hu : cfg.updateMu = true
    · rw [(hg1 hu).2, best_zero]
      simp [xbar, hu]
    · have hu : cfg.updateMu = false := by simpa using hu
      rw [hg2 hu]
      simp [xbar, hu]
  have hT : ∀ k, cT rows 0 0 g.mu k + (0 : Fin K → ℝ) k • (0 : Mat n n) = Sk cfg cur none rows k := by
    intro k
    unfold cT Sk
    rw [hx]
    simp
  constructor
  · intro hb
    have hcov : covS chol cfg cur none rows = (1 / ∑ k, cN rows k) • ∑ k, Sk cfg cur none rows k := by
      simp [covS, hb, S0, nu0]
    have key := opt_core hc cfg cur g rows 1 0 0 (fun _ => zero_le_one) 0 0 (covS chol cfg cur none rows) hg1 hg2
      (fun hu => ⟨(hS hu).1, hgW hu, by
        have h0 := d4 hu hb
        simp only [nu0, zero_add] at h0
        simp only [Pi.one_apply, one_mul, Pi.zero_apply, add_zero]
        exact lt_of_le_of_ne (Finset.sum_nonneg (fun k _ => hN k)) (Ne.symm h0), by
        simp only [hT, Pi.one_apply, one_mul, one_smul]
        rw [hcov]
        simp⟩) hgW' mu' W' hP h1 h2
    rw [eObj, eObj] at key
    simpa using key
  · intro hb
    have hcov : cfg.updateW = true → covS chol cfg cur none rows = (1 / (K : ℝ)) • ∑ k, (1 / cN rows k) • Sk cfg cur none rows k := by
      intro hu
      simp [covS, hb, S0, nu0]
    have key := opt_core hc cfg cur g rows (fun k => 1 / cN rows k) 0 0 (fun k => one_div_nonneg.2 (hN k)) 0 0
      (covS chol cfg cur none rows) hg1 hg2
      (fun hu => by
        have h0 := d3 hu hb
        have hne : ∀ k, cN rows k ≠ 0 := fun k => by simpa [nu0] using h0.2 k
        have hsum : ∑ k, 1 / cN rows k * (cN rows k + (0 : Fin K → ℝ) k) = (K : ℝ) := by
          rw [Finset.sum_congr rfl (fun k _ => (by rw [Pi.zero_apply, add_zero, one_div_mul_cancel (hne k)] : 1 / cN rows k * (cN rows k + (0 : Fin K → ℝ) k) = 1))]
          simp
        refine ⟨(hS hu).1, hgW hu, ?_, ?_⟩
        · rw [hsum]
          exact_mod_cast Nat.pos_of_ne_zero h0.1
        · rw [hsum, hcov hu]
          simp only [hT]) hgW' mu' W' hP h1 h2
    rw [eObj, eObj] at key
    exact key

end Hyp.Gbe
