import Verif.Plda.SpEm

namespace Hyp.Plda
open scoped BigOperators
open Matrix MeasureTheory

variable {k l n : Nat} {chol : (n : Nat) → Mat n n → Mat n n}

/-! ### best precision matrices -/

theorem best_full {C : Mat n n} (hC : C.PosDef) {W : Mat n n} (hW : W.PosDef) :
    Real.log W.det - (W * C).trace ≤ Real.log C⁻¹.det - (C⁻¹ * C).trace := by
  have := kl_det hW hC.inv
  rw [Matrix.nonsing_inv_nonsing_inv _ (PosDef.det_ne hC)] at this
  rw [Matrix.nonsing_inv_mul _ (PosDef.det_ne hC), Matrix.trace_one, Fintype.card_fin]
  linarith

theorem trace_diag_mul (d : Vec n) (C : Mat n n) : (Matrix.diagonal d * C).trace = ∑ i, d i * C i i := by
  unfold Matrix.trace
  exact Finset.sum_congr rfl (fun i _ => by rw [Matrix.diag_apply, Matrix.diagonal_mul])

theorem best_diag {C : Mat n n} (hC : ∀ i, 0 < C i i) {d : Vec n} (hd : ∀ i, 0 < d i) :
    Real.log (Matrix.diagonal d).det - (Matrix.diagonal d * C).trace ≤
      Real.log (Matrix.diagonal (fun i => 1 / C i i)).det - (Matrix.diagonal (fun i => 1 / C i i) * C).trace := by
  rw [Matrix.det_diagonal, Matrix.det_diagonal, trace_diag_mul, trace_diag_mul, Real.log_prod (fun i _ => (hd i).ne'),
    Real.log_prod (fun i _ => (one_div_pos.mpr (hC i)).ne'), ← Finset.sum_sub_distrib, ← Finset.sum_sub_distrib]
  apply Finset.sum_le_sum
  intro i _
  have h1 : Real.log (d i * C i i) ≤ d i * C i i - 1 := Real.log_le_sub_one_of_pos (mul_pos (hd i) (hC i))
  rw [Real.log_mul (hd i).ne' (hC i).ne'] at h1
  rw [one_div, Real.log_inv, inv_mul_cancel₀ (hC i).ne']
  linarith

/-! ### ML step: the data term -/

/-- what the `W` update needs: the new covariance is invertible (otherwise the code raises), and with diagonal covariances
the old one is diagonal as well -/
def WOk (cfg : SPCfg) (g : SP k n) (iW : Mat n n) : Prop :=
  cfg.updateW = true → (cfg.fullcovW = true → iW.PosDef) ∧
    (cfg.fullcovW = false → (∀ i, 0 < iW i i) ∧ ∃ d : Vec n, (∀ i, 0 < d i) ∧ g.W = Matrix.diagonal d)

theorem ml_W_pos (hc : IsCholesky chol) (cfg : SPCfg) (g : SP k n) (hW : g.W.PosDef) (a : SPAcc k n)
    (hok : WOk cfg g (SP.iW cfg (g.updVmu chol cfg a).1 (g.updVmu chol cfg a).2 a)) : (g.mstepML chol cfg a).W.PosDef := by
  unfold SP.mstepML
  simp only []
  by_cases hu : cfg.updateW = true
  · rw [if_pos hu]
    by_cases hf : cfg.fullcovW = true
    · rw [if_pos hf, pdInv_eq hc ((hok hu).1 hf)]
      exact ((hok hu).1 hf).inv
    · rw [if_neg hf]
      exact diag_pos (fun i => one_div_pos.mpr (((hok hu).2 (by simpa using hf)).1 i))
  · rw [if_neg hu]
    exact hW

/-- the `iW` of the code is the residual second moment over `N` -/
theorem iW_eq (hc : IsCholesky chol) (cfg : SPCfg) (g : SP k n) (a : SPAcc k n) (hR : (augR a.Ry a.Ry1 a.N).PosDef) :
    SP.iW cfg (g.updVmu chol cfg a).1 (g.updVmu chol cfg a).2 a = (1 / a.N) • resid (g.updVmu chol cfg a).1 (g.updVmu chol cfg a).2 a := by
  unfold SP.iW
  by_cases hb : (cfg.updateMu && cfg.updateV) = true
  · rw [if_pos hb]
    rw [Bool.and_eq_true] at hb
    congr 1
    have hVt : augV (g.updVmu chol cfg a).1 (g.updVmu chol cfg a).2 = (augR a.Ry a.Ry1 a.N)⁻¹ * (augC a.Cy a.F)ᵀ := by
      rw [← pdLeft_eq hc hR]
      ext i j
      unfold SP.updVmu
      rw [hb.1, hb.2]
      simp only []
      refine Fin.lastCases ?_ (fun i => ?_) i
      · rw [augV_last]
      · rw [augV_cast]; rfl
    unfold resid
    simp only []
    have hRV : augR a.Ry a.Ry1 a.N * augV (g.updVmu chol cfg a).1 (g.updVmu chol cfg a).2 = (augC a.Cy a.F)ᵀ := by
      rw [hVt, ← Matrix.mul_assoc, Matrix.mul_nonsing_inv _ (PosDef.det_ne hR), Matrix.one_mul]
    rw [Matrix.mul_assoc, hRV, Matrix.transpose_mul, sub_add_cancel, augC_augV]
    abel
  · rw [if_neg hb]
    rfl

theorem resid_V (V : Mat k n) (mu : Vec n) (a : SPAcc k n) (hR : a.Ryᵀ = a.Ry) : resid V mu a =
    (a.S - Matrix.vecMulVec a.F mu - (Matrix.vecMulVec a.F mu)ᵀ + a.N • Matrix.vecMulVec mu mu) -
      (a.Cyᵀ - Matrix.vecMulVec a.Ry1 mu)ᵀ * V - ((a.Cyᵀ - Matrix.vecMulVec a.Ry1 mu)ᵀ * V)ᵀ + Vᵀ * a.Ry * V := by
  rw [resid_eq]
  simp only [Matrix.transpose_sub, Matrix.transpose_transpose, Matrix.sub_mul, Matrix.transpose_vecMulVec, Matrix.vecMulVec_mul, Matrix.mul_vecMulVec,
    Matrix.mulVec_transpose, Matrix.transpose_add, Matrix.mul_assoc]
  abel

theorem resid_mu (V : Mat k n) (mu mu' : Vec n) (a : SPAcc k n) (hN : a.N ≠ 0) (hmu : mu' = fun j => (a.F j - (a.Ry1 ᵥ* V) j) / a.N) :
    resid V mu a = resid V mu' a + a.N • Matrix.vecMulVec (mu - mu') (mu - mu') := by
  have h : ∀ j, a.F j = a.N * mu' j + (a.Ry1 ᵥ* V) j := by
    intro j
    rw [hmu]
    field_simp
    ring
  rw [resid_eq, resid_eq]
  simp only [Matrix.mul_vecMulVec, Matrix.mulVec_transpose]
  ext i j
  simp only [Matrix.add_apply, Matrix.sub_apply, Matrix.transpose_apply, Matrix.vecMulVec_apply, Matrix.smul_apply, smul_eq_mul, Pi.sub_apply, h]
  ring

theorem vmu_best (hc : IsCholesky chol) (cfg : SPCfg) (g : SP k n) (hW : g.W.PosDef) (a : SPAcc k n) (hN : 0 < a.N)
    (hRy : a.Ry.PosDef) (hR : (augR a.Ry a.Ry1 a.N).PosDef) :
    (g.W * resid (g.updVmu chol cfg a).1 (g.updVmu chol cfg a).2 a).trace ≤ (g.W * resid g.V g.mu a).trace := by
  rcases cfg with ⟨um, uv, uw, fw⟩
  cases um <;> cases uv
  · exact le_refl _
  · have hV : (g.updVmu chol ⟨false, true, uw, fw⟩ a).1 = a.Ry⁻¹ * (a.Cyᵀ - Matrix.vecMulVec a.Ry1 g.mu) := pdLeft_eq hc hRy _
    have hm : (g.updVmu chol ⟨false, true, uw, fw⟩ a).2 = g.mu := rfl
    rw [hm, resid_V _ _ _ (PosDef.symm hRy), resid_V g.V _ _ (PosDef.symm hRy)]
    apply lsq hW _ _ hRy
    rw [hV, ← Matrix.mul_assoc, Matrix.mul_nonsing_inv _ (PosDef.det_ne hRy), Matrix.one_mul, Matrix.transpose_transpose]
  · have hV : (g.updVmu chol ⟨true, false, uw, fw⟩ a).1 = g.V := rfl
    rw [hV, resid_mu g.V g.mu _ a hN.ne' (show (g.updVmu chol ⟨true, false, uw, fw⟩ a).2 = _ from rfl), Matrix.mul_add, Matrix.trace_add, Matrix.mul_smul,
      Matrix.trace_smul, smul_eq_mul]
    have := mul_nonneg hN.le (trace_psd hW (vmv_psd (g.mu - (g.updVmu chol ⟨true, false, uw, fw⟩ a).2)))
    linarith
  · have hVt : augV (g.updVmu chol ⟨true, true, uw, fw⟩ a).1 (g.updVmu chol ⟨true, true, uw, fw⟩ a).2 = (augR a.Ry a.Ry1 a.N)⁻¹ * (augC a.Cy a.F)ᵀ := by
      rw [← pdLeft_eq hc hR]
      ext i j
      refine Fin.lastCases ?_ (fun i => ?_) i
      · rw [augV_last]; rfl
      · rw [augV_cast]; rfl
    apply lsq hW _ _ hR
    rw [hVt, ← Matrix.mul_assoc, Matrix.mul_nonsing_inv _ (PosDef.det_ne hR), Matrix.one_mul]

theorem data_best (hc : IsCholesky chol) (cfg : SPCfg) (g : SP k n) (hW : g.W.PosDef) (a : SPAcc k n) (hN : 0 < a.N)
    (hRy : a.Ry.PosDef) (hR : (augR a.Ry a.Ry1 a.N).PosDef)
    (hok : WOk cfg g (SP.iW cfg (g.updVmu chol cfg a).1 (g.updVmu chol cfg a).2 a)) :
    dataQ g.V g.mu g.W a ≤ dataQ (g.mstepML chol cfg a).V (g.mstepML chol cfg a).mu (g.mstepML chol cfg a).W a := by
  have hv := vmu_best hc cfg g hW a hN hRy hR
  have hi := iW_eq hc cfg g a hR
  have hV : (g.mstepML chol cfg a).V = (g.updVmu chol cfg a).1 := rfl
  have hm : (g.mstepML chol cfg a).mu = (g.updVmu chol cfg a).2 := rfl
  have hWd : (g.mstepML chol cfg a).W = if cfg.updateW then (if cfg.fullcovW then pdInv chol (SP.iW cfg (g.updVmu chol cfg a).1 (g.updVmu chol cfg a).2 a)
    else Matrix.diagonal (fun i => 1 / SP.iW cfg (g.updVmu chol cfg a).1 (g.updVmu chol cfg a).2 a i i)) else g.W := rfl
  rw [hV, hm, hWd]
  generalize (g.updVmu chol cfg a).1 = V' at *
  generalize (g.updVmu chol cfg a).2 = mu' at *
  generalize SP.iW cfg V' mu' a = C at *
  have hres : resid V' mu' a = a.N • C := by rw [hi, smul_smul, mul_one_div_cancel hN.ne', one_smul]
  have h1 : dataQ g.V g.mu g.W a ≤ a.N * (Real.log g.W.det - (g.W * C).trace) := by
    unfold dataQ
    rw [hres, Matrix.mul_smul, Matrix.trace_smul, smul_eq_mul] at hv
    linarith
  have h2 : ∀ W' : Mat n n, dataQ V' mu' W' a = a.N * (Real.log W'.det - (W' * C).trace) := by
    intro W'
    unfold dataQ
    rw [hres, Matrix.mul_smul, Matrix.trace_smul, smul_eq_mul]
    ring
  refine h1.trans ?_
  rw [h2]
  apply mul_le_mul_of_nonneg_left _ hN.le
  by_cases hu : cfg.updateW = true
  · rw [if_pos hu]
    by_cases hf : cfg.fullcovW = true
    · rw [if_pos hf, pdInv_eq hc ((hok hu).1 hf)]
      exact best_full ((hok hu).1 hf) hW
    · rw [if_neg hf]
      obtain ⟨hC, d, hd, hgd⟩ := (hok hu).2 (by simpa using hf)
      rw [hgd]
      exact best_diag hC hd
  · rw [if_neg hu]

/-! ### MD step: the prior, and the change of variables -/

theorem gaussPdf_cont (P : Mat n n) (f : Vec k → Vec n) (hf : Continuous f) (x : Vec n) : Continuous (fun y => gaussPdf (f y) P x) := by
  unfold gaussPdf
  apply Continuous.mul continuous_const
  apply Real.continuous_exp.comp
  apply Continuous.mul continuous_const
  unfold dotProduct Matrix.mulVec dotProduct
  fun_prop

theorem gaussPdf_cont' (m : Vec k) (P : Mat k k) : Continuous (fun y => gaussPdf m P y) := by
  unfold gaussPdf
  apply Continuous.mul continuous_const
  apply Real.continuous_exp.comp
  apply Continuous.mul continuous_const
  unfold dotProduct Matrix.mulVec dotProduct
  fun_prop

/-- minimum divergence: a Gaussian prior `N(m, R'R)` of the speaker variable can be absorbed into the mean and the speaker
subspace -/
theorem evidence_md (R : Mat k k) (hR : R.det ≠ 0) (m : Vec k) (mu : Vec n) (V : Mat k n) (W : Mat n n) (X : List (Vec n)) :
    evidence m (Rᵀ * R)⁻¹ mu V W X = evidence 0 1 (mu + m ᵥ* V) (R * V) W X := by
  unfold evidence
  have hcont : Continuous (fun y : Vec k => gaussPdf m (Rᵀ * R)⁻¹ (y + m) * (X.map (fun x => gaussPdf (mu + (y + m) ᵥ* V) W x)).prod) := by
    apply Continuous.mul
    · exact (gaussPdf_cont' m _).comp (continuous_id.add continuous_const)
    · induction X with
      | nil => exact continuous_const
      | cons x X ih =>
        simp only [List.map_cons, List.prod_cons]
        apply Continuous.mul _ ih
        apply gaussPdf_cont W (fun y => mu + (y + m) ᵥ* V)
        unfold Matrix.vecMul dotProduct
        fun_prop
  have hRt : (Rᵀ).det ≠ 0 := by rwa [Matrix.det_transpose]
  have hch := change Rᵀ hRt _ hcont
  rw [← integral_add_right_eq_self _ m]
  have habs : |Rᵀ.det| ≠ 0 := abs_ne_zero.mpr hRt
  have h2 : (∫ y : Vec k, gaussPdf m (Rᵀ * R)⁻¹ (y + m) * (X.map (fun x => gaussPdf (mu + (y + m) ᵥ* V) W x)).prod) =
      |Rᵀ.det| * ∫ y : Vec k, gaussPdf m (Rᵀ * R)⁻¹ (Rᵀ *ᵥ y + m) * (X.map (fun x => gaussPdf (mu + (Rᵀ *ᵥ y + m) ᵥ* V) W x)).prod := by
    rw [hch, ← mul_assoc, mul_inv_cancel₀ habs, one_mul]
  rw [h2, ← integral_const_mul]
  congr 1
  ext y
  rw [← mul_assoc]
  congr 1
  · unfold gaussPdf
    rw [add_sub_cancel_right, sub_zero]
    have hq : (Rᵀ *ᵥ y) ⬝ᵥ ((Rᵀ * R)⁻¹ *ᵥ (Rᵀ *ᵥ y)) = y ⬝ᵥ ((1 : Mat k k) *ᵥ y) := by
      rw [Matrix.mulVec_transpose, ← Matrix.dotProduct_mulVec, ← Matrix.mulVec_transpose R, Matrix.mulVec_mulVec, Matrix.mulVec_mulVec, Matrix.mul_inv_rev]
      congr 2
      rw [← Matrix.mul_assoc, Matrix.mul_nonsing_inv _ hR.isUnit, Matrix.one_mul, Matrix.nonsing_inv_mul _ hRt.isUnit]
    have hd : Real.sqrt ((Rᵀ * R)⁻¹).det = |Rᵀ.det|⁻¹ := by
      rw [Matrix.det_nonsing_inv, Ring.inverse_eq_inv', Real.sqrt_inv, det_factor, Matrix.det_transpose]
    rw [hq, hd, Matrix.det_one, Real.sqrt_one]
    field_simp
  · congr 1
    apply List.map_congr_left
    intro x _
    congr 1
    rw [Matrix.add_vecMul, Matrix.mulVec_transpose, Matrix.vecMul_vecMul]
    abel

/-- log likelihood of labelled data under simplified PLDA -/
noncomputable def SP.llk (g : SP k n) (rows : List (Vec n × Nat)) (M : Nat) : ℝ :=
  ((List.range M).map (fun c => Real.log (evidence 0 1 g.mu g.V g.W (classVecs rows c)))).sum

/-- the E step is right when the mean is zero or every speaker has exactly one vector -/
def Centred (g : SP k n) (D : Stats n) : Prop := g.mu = 0 ∨ ∀ c < D.M, D.N c = 1

theorem centred_fc {g : SP k n} {rows : List (Vec n × Nat)} {D : Stats n} (h : statsHard rows = some D) (hce : Centred g D) (c : Nat) (hcM : c < D.M) :
    D.F c - g.mu = ((classVecs rows c).map (fun x => x - g.mu)).sum := by
  obtain ⟨hN, hF, -, -⟩ := statsHard_some h
  have hX : ∀ X : List (Vec n), (X.map (fun x => x - g.mu)).sum = X.sum - (X.length : ℝ) • g.mu := by
    intro X
    induction X with
    | nil => simp
    | cons x X ih =>
      simp only [List.map_cons, List.sum_cons, ih, List.length_cons]
      push_cast
      rw [add_smul, one_smul]
      abel
  rw [hX, hF]
  rcases hce with h0 | h1
  · rw [h0, smul_zero]
  · have := h1 c hcM
    rw [hN] at this
    rw [this, one_smul]

theorem sp_gamma {W : Mat n n} (hW : W.PosDef) (V : Mat k n) (Fc : Vec n) : Fc ᵥ* (W * Vᵀ) = postLin 0 1 V W Fc := by
  unfold postLin
  rw [Matrix.mulVec_zero, zero_add, ← Matrix.vecMul_transpose, Matrix.transpose_mul, PosDef.symm hW]

theorem sp_prec (V : Mat k n) (W : Mat n n) (N : ℝ) : 1 + N • (V * (W * Vᵀ)) = postPrec 1 V W N := by
  unfold postPrec
  rw [Matrix.mul_assoc]

/-- closed form of the E step -/
theorem sp_post (hc : IsCholesky chol) (g : SP k n) (hW : g.W.PosDef) {rows : List (Vec n × Nat)} {D : Stats n} (h : statsHard rows = some D)
    (hce : Centred g D) (c : Nat) (hcM : c < D.M) :
    (g.posterior chol (D.N c) (D.F c)).2.1 = (postPrec 1 g.V g.W (classVecs rows c).length)⁻¹ ∧
    (g.posterior chol (D.N c) (D.F c)).1 = (postPrec 1 g.V g.W (classVecs rows c).length)⁻¹ *ᵥ
      postLin 0 1 g.V g.W ((classVecs rows c).map (fun x => x - g.mu)).sum := by
  obtain ⟨hN, -, -, -⟩ := statsHard_some h
  have hL := postPrec_pos (Matrix.PosDef.one (n := Fin k) (R := ℝ)) hW g.V (N := ((classVecs rows c).length : ℝ)) (Nat.cast_nonneg _)
  constructor
  · show pdInv chol (1 + D.N c • (g.V * (g.W * g.Vᵀ))) = _
    rw [sp_prec, hN, pdInv_eq hc hL]
  · show pdRight chol (1 + D.N c • (g.V * (g.W * g.Vᵀ))) ((D.F c - g.mu) ᵥ* (g.W * g.Vᵀ)) = _
    rw [sp_prec, hN, pdRight_eq hc hL, sp_gamma hW, centred_fc h hce c hcM]

theorem list_le_sum {α : Type} (cs : List α) (f g : α → ℝ) (h : ∀ c ∈ cs, f c ≤ g c) : (cs.map f).sum ≤ (cs.map g).sum := by
  induction cs with
  | nil => simp
  | cons c cs ih =>
    simp only [List.map_cons, List.sum_cons]
    exact add_le_add (h c List.mem_cons_self) (ih (fun d hd => h d (List.mem_cons_of_mem _ hd)))

theorem list_eq_sum {α : Type} (cs : List α) (f g : α → ℝ) (h : ∀ c ∈ cs, f c = g c) : (cs.map f).sum = (cs.map g).sum := by
  rw [List.map_congr_left h]

/-- gain of the likelihood from the gains of the prior and data terms -/
theorem sp_total (hc : IsCholesky chol) (g : SP k n) (hW : g.W.PosDef) {rows : List (Vec n × Nat)} {D : Stats n} (h : statsHard rows = some D)
    (hce : Centred g D) (m : Vec k) (B : Mat k k) (hB : B.PosDef) (mu : Vec n) (V : Mat k n) (W : Mat n n) (hW' : W.PosDef)
    (hd : dataQ g.V g.mu g.W (g.estep chol D) ≤ dataQ V mu W (g.estep chol D))
    (hp : ((List.range D.M).map (fun c => qPrior 0 1 (g.posterior chol (D.N c) (D.F c)).1 (g.posterior chol (D.N c) (D.F c)).2.1)).sum ≤
      ((List.range D.M).map (fun c => qPrior m B (g.posterior chol (D.N c) (D.F c)).1 (g.posterior chol (D.N c) (D.F c)).2.1)).sum) :
    g.llk rows D.M ≤ ((List.range D.M).map (fun c => Real.log (evidence m B mu V W (classVecs rows c)))).sum := by
  have h1 : (1 : Mat k k).PosDef := Matrix.PosDef.one
  have hpc : ∀ c ∈ List.range D.M, (g.posterior chol (D.N c) (D.F c)).2.1.PosDef := by
    intro c hcM
    rw [(sp_post hc g hW h hce c (List.mem_range.mp hcM)).1]
    exact (postPrec_pos h1 hW g.V (Nat.cast_nonneg _)).inv
  have e1 : g.llk rows D.M = ((List.range D.M).map (fun c => 1 / 2 * (qPrior 0 1 (g.posterior chol (D.N c) (D.F c)).1 (g.posterior chol (D.N c) (D.F c)).2.1 +
      qData g.mu g.V g.W (classVecs rows c) (g.posterior chol (D.N c) (D.F c)).1 (g.posterior chol (D.N c) (D.F c)).2.1 +
      Real.log (g.posterior chol (D.N c) (D.F c)).2.1.det + k))).sum := by
    unfold SP.llk
    apply list_eq_sum
    intro c hcM
    obtain ⟨hs, hy⟩ := sp_post hc g hW h hce c (List.mem_range.mp hcM)
    rw [var_tight h1 hW 0 g.mu g.V (classVecs rows c) _ _ hs (by rw [hy, hs])]
  have e2 := list_le_sum (List.range D.M) (fun c => 1 / 2 * (qPrior m B (g.posterior chol (D.N c) (D.F c)).1 (g.posterior chol (D.N c) (D.F c)).2.1 +
      qData mu V W (classVecs rows c) (g.posterior chol (D.N c) (D.F c)).1 (g.posterior chol (D.N c) (D.F c)).2.1 +
      Real.log (g.posterior chol (D.N c) (D.F c)).2.1.det + k)) (fun c => Real.log (evidence m B mu V W (classVecs rows c)))
      (fun c hcM => var_bound hB hW' m mu V _ _ _ (hpc c hcM))
  refine le_trans ?_ e2
  rw [e1]
  simp only [sum_scale]
  apply mul_le_mul_of_nonneg_left _ (by norm_num)
  simp only [List.sum_map_add]
  rw [qData_sum hW g.mu g.V rows D h (g.posterior chol), qData_sum hW' mu V rows D h (g.posterior chol)]
  unfold SP.estep at hd
  linarith

/-- what the statistics of the E step satisfy -/
theorem sp_acc_pos (hc : IsCholesky chol) (g : SP k n) (hW : g.W.PosDef) {rows : List (Vec n × Nat)} {D : Stats n} (h : statsHard rows = some D) :
    0 < (g.estep chol D).N ∧ (g.estep chol D).Ry.PosDef ∧ (augR (g.estep chol D).Ry (g.estep chol D).Ry1 (g.estep chol D).N).PosDef := by
  obtain ⟨hN, hF, hM, hS⟩ := statsHard_some h
  have h1 : (1 : Mat k k).PosDef := Matrix.PosDef.one
  have hpc : ∀ c, (g.posterior chol (D.N c) (D.F c)).2.1.PosDef := by
    intro c
    show (pdInv chol (1 + D.N c • (g.V * (g.W * g.Vᵀ)))).PosDef
    rw [sp_prec, hN, pdInv_eq hc (postPrec_pos h1 hW g.V (Nat.cast_nonneg _))]
    exact (postPrec_pos h1 hW g.V (Nat.cast_nonneg _)).inv
  have hNn : ∀ c, 0 ≤ D.N c := fun c => by rw [hN]; exact Nat.cast_nonneg _
  have hNt : 0 < ((List.range D.M).map D.N).sum := by
    have e : ((List.range D.M).map D.N).sum = rows.length := by
      have := sum_classes rows D.M (fun _ => (1 : ℝ)) hM
      simp only [List.map_const', List.sum_replicate, nsmul_eq_mul, mul_one] at this
      simp only [← hN] at this
      exact this
    rw [e, Nat.cast_pos]
    cases rows with
    | nil => simp [statsHard] at h
    | cons r rows => simp
  refine ⟨hNt, ?_, ?_⟩
  · exact (smul_pd_sum (List.range D.M) D.N hNn _ hpc hNt).add_posSemidef
      (smul_psd_sum (List.range D.M) D.N hNn _ (fun c => vmv_psd (g.posterior chol (D.N c) (D.F c)).1))
  · exact augR_pos (List.range D.M) D.N hNn (fun c => (g.posterior chol (D.N c) (D.F c)).2.1) hpc (fun c => (g.posterior chol (D.N c) (D.F c)).1) hNt

/-- C85: one epoch of simplified PLDA training (maximum likelihood step, then the optional minimum divergence step) does not
lower the likelihood of the training data, if the mean is zero or every speaker has one vector, the new covariance is
invertible, and the minimum divergence step is not run with the mean frozen and the subspace free -/
theorem C85_sp_epoch_partial (hc : IsCholesky chol) (cfg : SPCfg) (ml md : Bool) (g : SP k n) (hW : g.W.PosDef) (rows : List (Vec n × Nat)) (D : Stats n)
    (h : statsHard rows = some D) (hce : Centred g D)
    (hok : ml = true → WOk cfg g (SP.iW cfg (g.updVmu chol cfg (g.estep chol D)).1 (g.updVmu chol cfg (g.estep chol D)).2 (g.estep chol D)))
    (hmd : md = true → cfg.updateMu = true ∨ cfg.updateV = false) :
    g.llk rows D.M ≤ (g.epoch chol cfg ml md D).llk rows D.M ∧ (g.epoch chol cfg ml md D).W.PosDef := by
  obtain ⟨hN, hRy, hR⟩ := sp_acc_pos hc g hW h
  have h1 : (1 : Mat k k).PosDef := Matrix.PosDef.one
  -- the data part
  set g1 : SP k n := if ml then g.mstepML chol cfg (g.estep chol D) else g with hg1
  have hd : dataQ g.V g.mu g.W (g.estep chol D) ≤ dataQ g1.V g1.mu g1.W (g.estep chol D) ∧ g1.W.PosDef := by
    rw [hg1]
    cases ml with
    | true => exact ⟨data_best hc cfg g hW _ hN hRy hR (hok rfl), ml_W_pos hc cfg g hW _ (hok rfl)⟩
    | false => exact ⟨le_refl _, hW⟩
  have hstep : ∀ (m : Vec k) (B : Mat k k), B.PosDef → _ → g.llk rows D.M ≤ ((List.range D.M).map (fun c => Real.log (evidence m B g1.mu g1.V g1.W (classVecs rows c)))).sum :=
    fun m B hB hp => sp_total hc g hW h hce m B hB g1.mu g1.V g1.W hd.2 hd.1 hp
  have hep : g.epoch chol cfg ml md D = if md then g1.mstepMD chol cfg (g.estep chol D) else g1 := rfl
  rw [hep]
  cases md with
  | false => exact ⟨hstep 0 1 h1 (le_refl _), hd.2⟩
  | true =>
    simp only [if_true]
    refine ⟨?_, hd.2⟩
    have hMpos : (0 : ℝ) < D.M := Nat.cast_pos.mpr (stats_M_pos h)
    have hcs : List.range D.M ≠ [] := by
      intro h0
      rw [List.range_eq_nil] at h0
      have := stats_M_pos h
      omega
    set S : Nat → Mat k k := fun c => (g.posterior chol (D.N c) (D.F c)).2.1 with hSd
    set y : Nat → Vec k := fun c => (g.posterior chol (D.N c) (D.F c)).1 with hyd
    set a := g.estep chol D with ha
    have haM : a.M = D.M := rfl
    have haP : a.Py = ((List.range D.M).map S).sum + ((List.range D.M).map (fun c => Matrix.vecMulVec (y c) (y c))).sum := rfl
    have hay : a.y = ((List.range D.M).map y).sum := rfl
    set yb : Vec k := fun i => a.y i / a.M with hyb
    have hSpos : ∀ c, (S c).PosDef := by
      intro c
      obtain ⟨hNn, -, -, -⟩ := statsHard_some h
      show (pdInv chol (1 + D.N c • (g.V * (g.W * g.Vᵀ)))).PosDef
      rw [sp_prec, hNn, pdInv_eq hc (postPrec_pos h1 hW g.V (Nat.cast_nonneg _))]
      exact (postPrec_pos h1 hW g.V (Nat.cast_nonneg _)).inv
    have hCov : ((1 / (D.M : ℝ)) • a.Py - Matrix.vecMulVec yb yb).PosDef := by
      have := cov_pos (List.range D.M) hcs S (fun c _ => hSpos c) y
      rw [List.length_range] at this
      exact this
    have hybM : a.y = (D.M : ℝ) • yb := by
      ext i
      rw [Pi.smul_apply, smul_eq_mul, hyb, haM]
      field_simp
    have hobj : ∀ (B : Mat k k) (m : Vec k), B.PosDef → ((List.range D.M).map (fun c => qPrior m B (y c) (S c))).sum =
        D.M * (Real.log B.det - (B * ((1 / (D.M : ℝ)) • a.Py - Matrix.vecMulVec yb yb)).trace - (yb - m) ⬝ᵥ (B *ᵥ (yb - m))) := by
      intro B m hBp
      have := em_sum hBp m (List.range D.M) S y
      unfold qPrior
      rw [this, List.length_range, ← haP, ← hay]
      rw [Matrix.mul_sub, Matrix.trace_sub, trace_outer, Matrix.mul_smul, Matrix.trace_smul, smul_eq_mul, hybM, Matrix.mulVec_smul, dotProduct_smul,
        smul_eq_mul, Matrix.mulVec_sub, sub_dotProduct, dotProduct_sub, dotProduct_sub, symm_dot (PosDef.symm hBp) yb m]
      field_simp
      ring
    have hq0 : 0 ≤ (yb - 0) ⬝ᵥ ((1 : Mat k k) *ᵥ (yb - 0)) := PosSemidef.quad h1.posSemidef _
    by_cases hmu : cfg.updateMu = true
    · by_cases hv : cfg.updateV = true
      · -- both: prior N(yb, Cov)
        obtain ⟨ht, hdg, hRR⟩ := hc k _ hCov
        set R := chol k ((1 / (D.M : ℝ)) • a.Py - Matrix.vecMulVec yb yb) with hRdef
        have hRd : R.det ≠ 0 := (chol_det_pos hc hCov).ne'
        have hp := hstep yb (Rᵀ * R)⁻¹ (by rw [hRR]; exact hCov.inv) (by
          show ((List.range D.M).map (fun c => qPrior 0 1 (y c) (S c))).sum ≤ ((List.range D.M).map (fun c => qPrior yb (Rᵀ * R)⁻¹ (y c) (S c))).sum
          rw [hRR, hobj 1 0 h1, hobj _ yb hCov.inv]
          apply mul_le_mul_of_nonneg_left _ hMpos.le
          have := best_full hCov h1
          have hz : ∀ B : Mat k k, (yb - yb) ⬝ᵥ (B *ᵥ (yb - yb)) = 0 := fun B => by rw [sub_self, zero_dotProduct]
          rw [hz]
          linarith)
        refine hp.trans (le_of_eq ?_)
        simp only [evidence_md R hRd]
        have e : g1.mstepMD chol cfg a = { mu := g1.mu + yb ᵥ* g1.V, V := R * g1.V, W := g1.W } := by
          unfold SP.mstepMD
          simp only [hmu, hv, if_true, haM]
          rw [hRdef, hyb, haM]
        rw [e]
        rfl
      · -- mean only: prior N(yb, 1)
        have hp := hstep yb 1 h1 (by
          show ((List.range D.M).map (fun c => qPrior 0 1 (y c) (S c))).sum ≤ ((List.range D.M).map (fun c => qPrior yb 1 (y c) (S c))).sum
          rw [hobj 1 0 h1, hobj 1 yb h1]
          apply mul_le_mul_of_nonneg_left _ hMpos.le
          have hz : ∀ B : Mat k k, (yb - yb) ⬝ᵥ (B *ᵥ (yb - yb)) = 0 := fun B => by rw [sub_self, zero_dotProduct]
          rw [hz]
          linarith)
        refine hp.trans (le_of_eq ?_)
        have e1 : ∀ X, evidence yb 1 g1.mu g1.V g1.W X = evidence 0 1 (g1.mu + yb ᵥ* g1.V) g1.V g1.W X := by
          intro X
          have := evidence_md (1 : Mat k k) (by rw [Matrix.det_one]; exact one_ne_zero) yb g1.mu g1.V g1.W X
          rw [Matrix.transpose_one, Matrix.mul_one, inv_one, Matrix.one_mul] at this
          exact this
        simp only [e1]
        have e : g1.mstepMD chol cfg a = { mu := g1.mu + yb ᵥ* g1.V, V := g1.V, W := g1.W } := by
          unfold SP.mstepMD
          simp [hmu, hv, hyb]
        rw [e]
        rfl
    · have hv : cfg.updateV = false := by
        rcases hmd rfl with h | h
        · exact absurd h hmu
        · exact h
      have e : g1.mstepMD chol cfg a = g1 := by
        unfold SP.mstepMD
        simp [hmu, hv]
      rw [e]
      exact hstep 0 1 h1 (le_refl _)

end Hyp.Plda
