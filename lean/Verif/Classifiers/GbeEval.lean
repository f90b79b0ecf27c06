import Verif.Classifiers.Gbe

/-! C102: evaluation of the Gaussian back-end. -/

namespace Hyp.Gbe
open scoped BigOperators
open Matrix Hyp.Plda

variable {K n : Nat} {chol : (n : Nat) → Mat n n → Mat n n}

theorem log_gaussPdf {P : Mat n n} (hP : P.PosDef) (m x : Vec n) :
    Real.log (gaussPdf m P x) = 1 / 2 * Real.log P.det - 1 / 2 * n * Real.log (2 * Real.pi) - 1 / 2 * ((x - m) ⬝ᵥ (P *ᵥ (x - m))) := by
  have h1 : 0 < Real.sqrt P.det := Real.sqrt_pos.2 hP.det_pos
  have h2 : 0 < Real.sqrt (2 * Real.pi) ^ n := by positivity
  unfold gaussPdf
  rw [Real.log_mul (div_pos h1 h2).ne' (Real.exp_pos _).ne', Real.log_exp, Real.log_div h1.ne' h2.ne', Real.log_pow,
    Real.log_sqrt hP.det_pos.le, Real.log_sqrt (by positivity)]
  ring

theorem gaussPdf_pos {P : Mat n n} (hP : P.PosDef) (m x : Vec n) : 0 < gaussPdf m P x := by
  have h1 : 0 < Real.sqrt P.det := Real.sqrt_pos.2 hP.det_pos
  unfold gaussPdf
  positivity

theorem quad_expand {P : Mat n n} (hP : Pᵀ = P) (m x : Vec n) :
    (x - m) ⬝ᵥ (P *ᵥ (x - m)) = (x ᵥ* P) ⬝ᵥ x - 2 * (x ⬝ᵥ (P *ᵥ m)) + m ⬝ᵥ (P *ᵥ m) := by
  rw [Matrix.mulVec_sub, sub_dotProduct, dotProduct_sub, dotProduct_sub, symm_dot hP m x, ← Matrix.dotProduct_mulVec]
  ring

theorem b_eq (g : Model K n) (k : Fin K) : g.b k = -(1 / 2) * (g.mu k ⬝ᵥ (g.W *ᵥ g.mu k)) := rfl

/-- C102: `eval_method='llk'` returns for every vector and class the log density of the Gaussian of the class (mean `mu[k]`,
precision `W`). -/
theorem C102_llk (hc : IsCholesky chol) (g : Model K n) (hW : g.W.PosDef) (x : Vec n) (k : Fin K) :
    g.evalLlk chol x k = Real.log (gaussPdf (g.mu k) g.W x) := by
  rw [log_gaussPdf hW, quad_expand (PosDef.symm hW)]
  unfold Model.evalLlk
  rw [b_eq, logdetPd_eq hc hW]
  unfold Model.A
  have : ∑ i, (x ᵥ* g.W) i * x i = (x ᵥ* g.W) ⬝ᵥ x := rfl
  rw [this]
  ring

/-- C102: differences of the default (`'linear'`) scores are log likelihood ratios between the classes. -/
theorem C102_linear_llr (g : Model K n) (hW : g.W.PosDef) (x : Vec n) (j k : Fin K) :
    g.evalLinear x j - g.evalLinear x k = Real.log (gaussPdf (g.mu j) g.W x / gaussPdf (g.mu k) g.W x) := by
  rw [Real.log_div (gaussPdf_pos hW _ _).ne' (gaussPdf_pos hW _ _).ne', log_gaussPdf hW, log_gaussPdf hW,
    quad_expand (PosDef.symm hW), quad_expand (PosDef.symm hW)]
  unfold Model.evalLinear
  rw [b_eq, b_eq]
  unfold Model.A
  ring

/-- C102: the class with the best linear score is the class with the highest density. -/
theorem C102_decision (g : Model K n) (hW : g.W.PosDef) (x : Vec n) (j k : Fin K) :
    g.evalLinear x k ≤ g.evalLinear x j ↔ gaussPdf (g.mu k) g.W x ≤ gaussPdf (g.mu j) g.W x := by
  have hj := gaussPdf_pos hW (g.mu j) x
  have hk := gaussPdf_pos hW (g.mu k) x
  rw [← sub_nonneg, C102_linear_llr g hW, Real.log_nonneg_iff (div_pos hj hk), one_le_div hk]

theorem softmax_log {K : Nat} (r f : Fin (K + 1) → ℝ) (hf : ∀ k, 0 < f k) (t : ℝ) (h : ∀ k, r k = Real.log (f k) + t) (k : Fin (K + 1)) :
    MathUtils.softmax r k = f k / ∑ j, f j := by
  have he : r = fun k => Real.log (f k) + t := funext h
  rw [he, MathUtils.C66_softmax_shift, MathUtils.C66_softmax_value]
  simp only [Real.exp_log (hf _)]

/-- C102: with `normalize=True` the linear scores and the log likelihoods both give the log posterior probabilities of the
classes for equal priors. -/
theorem C102_posterior (hc : IsCholesky chol) (g : Model (K + 1) n) (hW : g.W.PosDef) (x : Vec n) (m : Method)
    (hm : m = .linear ∨ m = .llk) :
    g.predict chol m true x = some (fun k => Real.log (gaussPdf (g.mu k) g.W x / ∑ j, gaussPdf (g.mu j) g.W x)) := by
  have hp : ∀ k, 0 < gaussPdf (g.mu k) g.W x := fun k => gaussPdf_pos hW _ _
  rcases hm with rfl | rfl
  · unfold Model.predict Model.logp
    simp only [Option.map_some, if_true]
    congr 1
    funext k
    rw [softmax_log _ (fun k => gaussPdf (g.mu k) g.W x) hp (g.evalLinear x 0 - Real.log (gaussPdf (g.mu 0) g.W x))]
    intro j
    have := C102_linear_llr g hW x j 0
    rw [Real.log_div (hp j).ne' (hp 0).ne'] at this
    linarith
  · unfold Model.predict Model.logp
    simp only [Option.map_some, if_true]
    congr 1
    funext k
    rw [softmax_log _ (fun k => gaussPdf (g.mu k) g.W x) hp 0]
    intro j
    rw [C102_llk hc g hW, add_zero]

/-- C102: without `normalize` the scores of the method are returned as they are. -/
theorem C102_raw (hc : IsCholesky chol) (g : Model (K + 1) n) (hW : g.W.PosDef) (x : Vec n) :
    g.predict chol .linear false x = some (fun k => x ⬝ᵥ (g.W *ᵥ g.mu k) - 1 / 2 * (g.mu k ⬝ᵥ (g.W *ᵥ g.mu k))) ∧
    g.predict chol .llk false x = some (fun k => Real.log (gaussPdf (g.mu k) g.W x)) := by
  constructor
  · unfold Model.predict Model.logp
    simp only [Option.map_some]
    congr 1
    funext k
    show g.evalLinear x k = _
    unfold Model.evalLinear
    rw [b_eq]
    unfold Model.A
    ring
  · unfold Model.predict Model.logp
    simp only [Option.map_some]
    congr 1
    funext k
    exact C102_llk hc g hW x k

/-- C102: an unknown `eval_method` raises, with and without normalisation. -/
theorem C102_unknown_method (g : Model (K + 1) n) (norm : Bool) (x : Vec n) : g.predict chol .other norm x = none := rfl

/-! ### the predictive distribution -/

/-- density of the Student t distribution with location `m`, precision (inverse scale) matrix `L` and `c` degrees of freedom -/
noncomputable def studentPdf (m : Vec n) (L : Mat n n) (c : ℝ) (x : Vec n) : ℝ :=
  Real.Gamma ((c + n) / 2) / (Real.Gamma (c / 2) * Real.sqrt (c * Real.pi) ^ n) * Real.sqrt L.det *
    (1 + (x - m) ⬝ᵥ (L *ᵥ (x - m)) / c) ^ (-(c + n) / 2)

theorem log_student {L : Mat n n} (hL : L.PosDef) (m x : Vec n) {c : ℝ} (hc : 0 < c) :
    0 < studentPdf m L c x ∧
    Real.log (studentPdf m L c x) = Real.log (Real.Gamma ((c + n) / 2)) - Real.log (Real.Gamma (c / 2)) -
      1 / 2 * n * Real.log (c * Real.pi) + 1 / 2 * Real.log L.det -
      1 / 2 * (c + n) * Real.log (1 + (x - m) ⬝ᵥ (L *ᵥ (x - m)) / c) := by
  have g1 : 0 < Real.Gamma ((c + n) / 2) := Real.Gamma_pos_of_pos (by positivity)
  have g2 : 0 < Real.Gamma (c / 2) := Real.Gamma_pos_of_pos (by positivity)
  have h1 : 0 < Real.sqrt L.det := Real.sqrt_pos.2 hL.det_pos
  have h2 : 0 < Real.sqrt (c * Real.pi) ^ n := by positivity
  have h3 : 0 < 1 + (x - m) ⬝ᵥ (L *ᵥ (x - m)) / c := by
    have := PosSemidef.quad hL.posSemidef (x - m)
    positivity
  have h4 : 0 < (1 + (x - m) ⬝ᵥ (L *ᵥ (x - m)) / c) ^ (-(c + n) / 2) := Real.rpow_pos_of_pos h3 _
  unfold studentPdf
  refine ⟨by positivity, ?_⟩
  rw [Real.log_mul (by positivity) h4.ne', Real.log_mul (by positivity) h1.ne', Real.log_div g1.ne' (by positivity),
    Real.log_mul g2.ne' h2.ne', Real.log_pow, Real.log_rpow h3, Real.log_sqrt hL.det_pos.le, Real.log_sqrt (by positivity)]
  ring

theorem det_smul' (a : ℝ) (L : Mat n n) : (a • L).det = a ^ n * L.det := by
  rw [Matrix.det_smul, Fintype.card_fin]

theorem smul_pos {L : Mat n n} (hL : L.PosDef) {a : ℝ} (ha : 0 < a) : (a • L).PosDef := hL.smul ha

/-- C102: `eval_method='predictive'` is the log density of the Student t distribution with `nu+1-dim` degrees of freedom and
precision `(nu+1-dim) * beta/(beta+1) * W/nu` plus the error term `dim/2*(r - log(c*r))` of the class, `r = beta/(beta+1)`,
`c = nu+1-dim`: the code adds `r` where the determinant asks for `log(c*r)`. -/
theorem C102_predictive_value (hc : IsCholesky chol) (g : Model K n) (hW : g.W.PosDef) (hnu : 0 < g.nu) (hd : 0 < g.nu + 1 - n)
    (k : Fin K) (hb : 0 < g.beta k) (x : Vec n) :
    g.evalPredictive chol x k =
      Real.log (studentPdf (g.mu k) (((g.nu + 1 - n) * (g.beta k / (g.beta k + 1)) * (1 / g.nu)) • g.W) (g.nu + 1 - n) x) +
        n / 2 * (g.beta k / (g.beta k + 1) - Real.log ((g.nu + 1 - n) * (g.beta k / (g.beta k + 1)))) := by
  have hr : 0 < g.beta k / (g.beta k + 1) := by positivity
  have hcr : 0 < (g.nu + 1 - n) * (g.beta k / (g.beta k + 1)) := mul_pos hd hr
  have hl : 0 < (g.nu + 1 - n) * (g.beta k / (g.beta k + 1)) * (1 / g.nu) := by positivity
  rw [(log_student (smul_pos hW hl) (g.mu k) x hd).2]
  unfold Model.evalPredictive gammaln
  simp only []
  rw [abs_of_pos (Real.Gamma_pos_of_pos (by positivity)), abs_of_pos (Real.Gamma_pos_of_pos (by positivity)),
    logdetPd_eq hc (smul_pos hW (one_div_pos.2 hnu)), det_smul', det_smul', b_eq]
  have e1 : ∑ i, (x ᵥ* g.W) i * x i = (x ᵥ* g.W) ⬝ᵥ x := rfl
  rw [e1, Matrix.smul_mulVec, dotProduct_smul, quad_expand (PosDef.symm hW), smul_eq_mul]
  have e2 : (g.nu + 1 - ↑n) * (g.beta k / (g.beta k + 1)) * (1 / g.nu) *
      ((x ᵥ* g.W) ⬝ᵥ x - 2 * x ⬝ᵥ (g.W *ᵥ g.mu k) + g.mu k ⬝ᵥ (g.W *ᵥ g.mu k)) / (g.nu + 1 - ↑n) =
      g.beta k / (g.beta k + 1) * ((x ᵥ* g.W) ⬝ᵥ x - 2 * (x ⬝ᵥ g.A k + -(1 / 2) * g.mu k ⬝ᵥ (g.W *ᵥ g.mu k))) / g.nu := by
    unfold Model.A
    field_simp
    ring
  rw [e2, Real.log_mul (by positivity) hW.det_pos.ne', Real.log_mul (by positivity) hW.det_pos.ne', Real.log_pow, Real.log_pow,
    Real.log_mul hcr.ne' (by positivity)]
  ring

/-- C102: when all classes have the same `beta`, the error term is the same for all classes, and the normalised predictive scores
are the log posterior probabilities for equal priors under the Student t distributions. -/
theorem C102_predictive_posterior (hc : IsCholesky chol) (g : Model (K + 1) n) (hW : g.W.PosDef) (hnu : 0 < g.nu)
    (hd : 0 < g.nu + 1 - n) (b : ℝ) (hb : 0 < b) (hbeta : ∀ k, g.beta k = b) (x : Vec n) :
    g.predict chol .predictive true x = some (fun k => Real.log
      (studentPdf (g.mu k) (((g.nu + 1 - n) * (b / (b + 1)) * (1 / g.nu)) • g.W) (g.nu + 1 - n) x /
        ∑ j, studentPdf (g.mu j) (((g.nu + 1 - n) * (b / (b + 1)) * (1 / g.nu)) • g.W) (g.nu + 1 - n) x)) := by
  have hl : 0 < (g.nu + 1 - n) * (b / (b + 1)) * (1 / g.nu) := by positivity
  unfold Model.predict Model.logp
  simp only [Option.map_some, if_true]
  congr 1
  funext k
  rw [softmax_log _ _ (fun k => (log_student (smul_pos hW hl) (g.mu k) x hd).1)
    (n / 2 * (b / (b + 1) - Real.log ((g.nu + 1 - n) * (b / (b + 1)))))]
  intro j
  rw [C102_predictive_value hc g hW hnu hd j (by rw [hbeta]; exact hb), hbeta]

/-- one-dimensional back-end with two classes of the same mean and `beta` 1 and 3 -/
noncomputable def badModel : Model 2 1 := ⟨fun _ => 0, 1, fun k => if k = 0 then 1 else 3, 2⟩

theorem bad_pos : badModel.W.PosDef := Matrix.PosDef.one

/-- C102, negative: with different `beta`s the predictive scores are not log likelihoods, not even up to a term common to all
classes. -/
theorem C102_predictive_wrong (hc : IsCholesky chol) :
    badModel.evalPredictive chol 0 0 - badModel.evalPredictive chol 0 1 ≠
      Real.log (studentPdf (badModel.mu 0) (((badModel.nu + 1 - (1 : ℕ)) * (badModel.beta 0 / (badModel.beta 0 + 1)) * (1 / badModel.nu)) • badModel.W) (badModel.nu + 1 - (1 : ℕ)) 0) -
      Real.log (studentPdf (badModel.mu 1) (((badModel.nu + 1 - (1 : ℕ)) * (badModel.beta 1 / (badModel.beta 1 + 1)) * (1 / badModel.nu)) • badModel.W) (badModel.nu + 1 - (1 : ℕ)) 0) := by
  have h0 := C102_predictive_value hc badModel bad_pos (by simp [badModel]) (by norm_num [badModel]) 0 (by norm_num [badModel]) 0
  have h1 := C102_predictive_value hc badModel bad_pos (by simp [badModel]) (by norm_num [badModel]) 1 (by norm_num [badModel]) 0
  rw [h0, h1]
  intro h
  have hv : badModel.nu = 2 := rfl
  have hb0 : badModel.beta 0 = 1 := by simp [badModel]
  have hb1 : badModel.beta 1 = 3 := by simp [badModel]
  have e : ((1 : ℕ) : ℝ) / 2 * (badModel.beta 0 / (badModel.beta 0 + 1) - Real.log ((badModel.nu + 1 - (1 : ℕ)) * (badModel.beta 0 / (badModel.beta 0 + 1)))) =
    ((1 : ℕ) : ℝ) / 2 * (badModel.beta 1 / (badModel.beta 1 + 1) - Real.log ((badModel.nu + 1 - (1 : ℕ)) * (badModel.beta 1 / (badModel.beta 1 + 1)))) := by linarith
  rw [hv, hb0, hb1] at e
  norm_num at e
  have h2 : Real.log (3 / 2) < 1 / 2 := by
    have := Real.log_lt_sub_one_of_pos (by norm_num : (0 : ℝ) < 3 / 2) (by norm_num)
    linarith
  have h3 : 1 / 3 < Real.log (3 / 2) := by
    have := Real.log_lt_sub_one_of_pos (by norm_num : (0 : ℝ) < 2 / 3) (by norm_num)
    have h4 : Real.log (2 / 3) = -Real.log (3 / 2) := by rw [← Real.log_inv]; norm_num
    linarith
  linarith

/-- non-vacuity of C102: the model above with a Cholesky oracle -/
example : ∃ chol, IsCholesky chol ∧ badModel.W.PosDef := ⟨_, exists_isCholesky.choose_spec, bad_pos⟩

end Hyp.Gbe
