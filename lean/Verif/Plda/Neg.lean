import Verif.Plda.Em

/-! Concrete cases in one dimension: what full-rank PLDA training with an update of `W` does, and non-vacuity. -/

namespace Hyp.Plda
open scoped BigOperators
open Matrix MeasureTheory

variable {chol : (n : Nat) → Mat n n → Mat n n}

theorem scal_pos {n : Nat} {a : ℝ} (ha : 0 < a) : (a • (1 : Mat n n)).PosDef := Matrix.PosDef.one.smul ha

theorem scal_inv {n : Nat} {a : ℝ} (ha : a ≠ 0) : (a • (1 : Mat n n))⁻¹ = a⁻¹ • (1 : Mat n n) := by
  apply Matrix.inv_eq_right_inv
  rw [Matrix.smul_mul, Matrix.one_mul, smul_smul, mul_inv_cancel₀ ha, one_smul]

theorem scal_det (a : ℝ) : (a • (1 : Mat 1 1)).det = a := by
  rw [Matrix.det_fin_one, Matrix.smul_apply, Matrix.one_apply_eq, smul_eq_mul, mul_one]

/-- two vectors of one speaker, +1 and -1 -/
def rowsPm : List (Vec 1 × Nat) := [(fun _ => 1, 0), (fun _ => -1, 0)]

/-- a one-dimensional model -/
noncomputable def frOne (w : ℝ) : FR 1 := { mu := 0, B := 1, W := w • 1 }

theorem pm_stats : ∃ D, statsHard rowsPm = some D ∧ D.M = 1 := by
  refine ⟨_, rfl, rfl⟩

theorem pm_class : classVecs rowsPm 0 = [fun _ => 1, fun _ => -1] := rfl

theorem pm_sum : (classVecs rowsPm 0).sum = 0 := by
  rw [pm_class]
  ext i
  simp

theorem pm_llk {w : ℝ} (hw : 0 < w) : llk (frOne w) rowsPm 1 =
    2 * Real.log (Real.sqrt w / Real.sqrt (2 * Real.pi)) - w - 1 / 2 * Real.log (1 + 2 * w) := by
  unfold llk
  simp only [List.range_one, List.map_singleton, List.sum_singleton]
  have h := (log_evidence (Matrix.PosDef.one (n := Fin 1) (R := ℝ)) (scal_pos (n := 1) hw) 0 0 1 (classVecs rowsPm 0) 0 (by
    have : ((classVecs rowsPm 0).map (fun x => x - 0)).sum = (classVecs rowsPm 0).sum := by simp
    rw [this, pm_sum]
    unfold postLin
    rw [Matrix.mulVec_zero, Matrix.mulVec_zero, zero_add])).2
  show Real.log (evidence (0 : Vec 1) (1 : Mat 1 1) 0 (1 : Mat 1 1) (w • (1 : Mat 1 1)) (classVecs rowsPm 0)) = _
  rw [h]
  have hp : postPrec (1 : Mat 1 1) (1 : Mat 1 1) (w • (1 : Mat 1 1)) ((classVecs rowsPm 0).length : ℝ) = (1 + 2 * w) • (1 : Mat 1 1) := by
    rw [pm_class]
    unfold postPrec
    rw [Matrix.one_mul, Matrix.transpose_one, Matrix.mul_one, add_smul, one_smul, smul_smul]
    norm_num
  rw [hp, scal_det, Matrix.det_one, Real.log_one, zero_dotProduct, zero_dotProduct]
  unfold baseLog
  rw [scal_det, pm_class]
  simp [dotProduct, Matrix.mulVec, pow_one]
  ring

/-- C84 (limit): when training updates `W`, the step leaves out the posterior covariances, and the likelihood of the
training data can go down -/
theorem C84_fr_update_W_decreases (hc : IsCholesky chol) : ∃ (g : FR 1) (rows : List (Vec 1 × Nat)) (D : Stats 1), g.B.PosDef ∧ g.W.PosDef ∧
    statsHard rows = some D ∧
    llk (g.mstep chol ⟨false, false, true, true⟩ (g.estep chol D)) rows D.M < llk g rows D.M := by
  obtain ⟨D, hD, hM⟩ := pm_stats
  obtain ⟨hN, hF, -, hS⟩ := statsHard_some hD
  refine ⟨frOne (3 / 4), rowsPm, D, Matrix.PosDef.one, scal_pos (by norm_num), hD, ?_⟩
  have hpost : ((frOne (3 / 4)).posterior chol (D.N 0) (D.F 0)).1 = 0 := by
    show pdRight chol ((1 : Mat 1 1) + D.N 0 • ((3 / 4 : ℝ) • (1 : Mat 1 1))) (D.F 0 ᵥ* ((3 / 4 : ℝ) • (1 : Mat 1 1)) + 0 ᵥ* 1) = 0
    rw [hF, pm_sum, Matrix.zero_vecMul, Matrix.zero_vecMul, add_zero]
    unfold pdRight
    rw [Matrix.mulVec_zero, Matrix.mulVec_zero]
  have hW : (frOne (3 / 4)).mstep chol ⟨false, false, true, true⟩ ((frOne (3 / 4)).estep chol D) = frOne 1 := by
    have hCy : ((frOne (3 / 4)).estep chol D).Cy = 0 := by
      show ((List.range D.M).map (fun c => Matrix.vecMulVec (D.F c) ((frOne (3 / 4)).posterior chol (D.N c) (D.F c)).1)).sum = 0
      rw [hM]
      simp only [List.range_one, List.map_singleton, List.sum_singleton, hpost, Matrix.vecMulVec_zero]
    have hRy : ((frOne (3 / 4)).estep chol D).Ry = 0 := by
      show ((List.range D.M).map (fun c => D.N c • Matrix.vecMulVec ((frOne (3 / 4)).posterior chol (D.N c) (D.F c)).1 ((frOne (3 / 4)).posterior chol (D.N c) (D.F c)).1)).sum = 0
      rw [hM]
      simp only [List.range_one, List.map_singleton, List.sum_singleton, hpost, Matrix.vecMulVec_zero, smul_zero]
    have hNa : ((frOne (3 / 4)).estep chol D).N = 2 := by
      show ((List.range D.M).map D.N).sum = 2
      rw [hM]
      simp only [List.range_one, List.map_singleton, List.sum_singleton, hN, pm_class]
      norm_num
    have hSa : ((frOne (3 / 4)).estep chol D).S = (2 : ℝ) • 1 := by
      show D.S = _
      rw [hS]
      unfold rowsPm
      ext i j
      have hi : i = 0 := Subsingleton.elim _ _
      have hj : j = 0 := Subsingleton.elim _ _
      subst hi hj
      simp [Matrix.vecMulVec_apply]
      norm_num
    unfold FR.mstep frOne
    simp only [Bool.false_eq_true, if_false, if_true]
    rw [show ({ mu := 0, B := 1, W := (3 / 4 : ℝ) • 1 } : FR 1) = frOne (3 / 4) from rfl, hCy, hRy, hNa, hSa]
    rw [Matrix.transpose_zero, sub_zero, sub_zero, add_zero, smul_smul]
    have : (1 / 2 * 2 : ℝ) = 1 := by norm_num
    rw [this, pdInv_eq hc (scal_pos one_pos), scal_inv one_ne_zero, inv_one]
  rw [hW, hM, pm_llk one_pos, pm_llk (by norm_num)]
  have hpi : 0 < Real.sqrt (2 * Real.pi) := Real.sqrt_pos.mpr (by positivity)
  rw [Real.log_div (Real.sqrt_pos.mpr one_pos).ne' hpi.ne', Real.log_div (Real.sqrt_pos.mpr (by norm_num)).ne' hpi.ne', Real.log_sqrt (zero_le_one),
    Real.log_sqrt (show (0 : ℝ) ≤ 3 / 4 by norm_num), Real.log_one]
  have h1 : Real.log (40 / 27) ≤ 40 / 27 - 1 := Real.log_le_sub_one_of_pos (by norm_num)
  have h2 : Real.log (40 / 27) = Real.log (1 + 2 * (3 / 4)) - Real.log (1 + 2 * 1) - 2 * Real.log (3 / 4) := by
    rw [← Real.log_div (by norm_num) (by norm_num)]
    have : (2 : ℝ) * Real.log (3 / 4) = Real.log ((3 / 4) ^ 2) := by rw [Real.log_pow]; norm_num
    rw [this, ← Real.log_div (by norm_num) (by norm_num)]
    norm_num
  linarith

end Hyp.Plda
