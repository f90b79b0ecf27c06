import Verif.Plda.SpProps
import Verif.Plda.Neg

/-! Concrete one-dimensional cases in which the training of simplified PLDA is wrong. -/

namespace Hyp.Plda
open scoped BigOperators
open Matrix MeasureTheory

variable {chol : (n : Nat) → Mat n n → Mat n n}

/-- a one-dimensional model with unit noise -/
noncomputable def spOne (m v : ℝ) : SP 1 1 := { mu := fun _ => m, V := v • 1, W := 1 }

theorem one_log_evidence (m v : ℝ) (X : List (Vec 1)) :
    Real.log (evidence 0 1 (spOne m v).mu (spOne m v).V (spOne m v).W X) =
      X.length * Real.log (1 / Real.sqrt (2 * Real.pi)) - 1 / 2 * (X.map (fun x => (x 0 - m) ^ 2)).sum +
        1 / 2 * (-Real.log (1 + X.length * v ^ 2) + (v * (X.map (fun x => x 0 - m)).sum) ^ 2 / (1 + X.length * v ^ 2)) := by
  have h := (log_evidence (Matrix.PosDef.one (n := Fin 1) (R := ℝ)) (Matrix.PosDef.one (n := Fin 1) (R := ℝ)) 0 (spOne m v).mu (spOne m v).V X _ rfl).2
  show Real.log (evidence 0 1 (spOne m v).mu (spOne m v).V (1 : Mat 1 1) X) = _
  rw [h]
  have hp : postPrec (1 : Mat 1 1) (spOne m v).V (1 : Mat 1 1) (X.length : ℝ) = (1 + X.length * v ^ 2) • (1 : Mat 1 1) := by
    unfold postPrec spOne
    rw [Matrix.mul_one, Matrix.transpose_smul, Matrix.transpose_one, Matrix.mul_smul, Matrix.mul_one, smul_smul, smul_smul, add_smul, one_smul]
    congr 2
    ring
  have hpos : (0 : ℝ) < 1 + X.length * v ^ 2 := by positivity
  have hlin : postLin 0 1 (spOne m v).V (1 : Mat 1 1) (X.map (fun x => x - (spOne m v).mu)).sum = fun _ => v * (X.map (fun x => x 0 - m)).sum := by
    unfold postLin
    rw [Matrix.mulVec_zero, zero_add, Matrix.mul_one]
    ext i
    show ((v • (1 : Mat 1 1)) *ᵥ _) i = _
    rw [Matrix.smul_mulVec, Matrix.one_mulVec, Pi.smul_apply, smul_eq_mul]
    congr 1
    have hi : i = 0 := Subsingleton.elim _ _
    subst hi
    clear h hp hpos
    induction X with
    | nil => rfl
    | cons x X ih =>
      simp only [List.map_cons, List.sum_cons, Pi.add_apply, Pi.sub_apply, ih]
      rfl
  rw [hp, scal_det, Matrix.det_one, Real.log_one, zero_dotProduct, scal_inv hpos.ne', hlin]
  unfold baseLog
  rw [Matrix.det_one, Real.sqrt_one, pow_one, Matrix.smul_mulVec, Matrix.one_mulVec]
  simp only [Matrix.one_mulVec, dotProduct, Fin.sum_univ_one, Pi.smul_apply, smul_eq_mul, Fin.isValue, Pi.sub_apply]
  have : (fun x : Vec 1 => (x 0 - (spOne m v).mu 0) * (x 0 - (spOne m v).mu 0)) = fun x => (x 0 - m) ^ 2 := by
    funext x
    show (x 0 - m) * (x 0 - m) = _
    ring
  rw [this]
  field_simp
  ring

/-- two equal vectors of one speaker -/
def rowsEq : List (Vec 1 × Nat) := [(fun _ => 1, 0), (fun _ => 1, 0)]

theorem eq_stats : ∃ D, statsHard rowsEq = some D ∧ D.M = 1 ∧ D.N 0 = 2 ∧ D.F 0 = fun _ => 2 := by
  obtain ⟨D, hD⟩ : ∃ D, statsHard rowsEq = some D := ⟨_, rfl⟩
  obtain ⟨hN, hF, -, -⟩ := statsHard_some hD
  refine ⟨D, hD, ?_, ?_, ?_⟩
  · have : D = _ := (Option.some.inj hD).symm
    rw [this]
    rfl
  · rw [hN]
    show (((classVecs rowsEq 0).length : ℕ) : ℝ) = 2
    have : (classVecs rowsEq 0).length = 2 := rfl
    rw [this]; norm_num
  · rw [hF]
    have : classVecs rowsEq 0 = [fun _ => 1, fun _ => 1] := rfl
    rw [this]
    ext i
    simp
    norm_num

theorem one_posterior (hc : IsCholesky chol) (m v N f : ℝ) (hN : 0 ≤ N) :
    ((spOne m v).posterior chol N (fun _ => f)).1 = (fun _ => v * (f - m) / (1 + N * v ^ 2)) ∧
    ((spOne m v).posterior chol N (fun _ => f)).2.1 = (1 / (1 + N * v ^ 2)) • 1 ∧
    ((spOne m v).posterior chol N (fun _ => f)).2.2 = -(1 / 2) * Real.log (2 * Real.pi) +
      1 / 2 * (Real.log (1 + N * v ^ 2) - (v * (f - m)) ^ 2 / (1 + N * v ^ 2)) := by
  have hpos : (0 : ℝ) < 1 + N * v ^ 2 := by positivity
  have hL : (1 : Mat 1 1) + N • ((spOne m v).V * ((spOne m v).W * (spOne m v).Vᵀ)) = (1 + N * v ^ 2) • 1 := by
    unfold spOne
    rw [Matrix.one_mul, Matrix.transpose_smul, Matrix.transpose_one, Matrix.mul_smul, Matrix.mul_one, smul_smul, smul_smul, add_smul, one_smul]
    congr 2
    ring
  have hg : ((fun _ => f) - (spOne m v).mu) ᵥ* ((spOne m v).W * (spOne m v).Vᵀ) = fun _ => v * (f - m) := by
    unfold spOne
    rw [Matrix.one_mul, Matrix.transpose_smul, Matrix.transpose_one, Matrix.vecMul_smul, Matrix.vecMul_one]
    ext i
    rfl
  have hP := scal_pos (n := 1) hpos
  have hy : pdRight chol ((1 + N * v ^ 2) • (1 : Mat 1 1)) (fun _ => v * (f - m)) = fun _ => v * (f - m) / (1 + N * v ^ 2) := by
    rw [pdRight_eq hc hP, scal_inv hpos.ne', Matrix.smul_mulVec, Matrix.one_mulVec]
    ext i
    show (1 + N * v ^ 2)⁻¹ * (v * (f - m)) = _
    field_simp
  refine ⟨?_, ?_, ?_⟩
  · show pdRight chol _ _ = _
    rw [hL, hg, hy]
  · show pdInv chol _ = _
    rw [hL, pdInv_eq hc hP, scal_inv hpos.ne', one_div]
  · show -(1 / 2) * ((1 : ℕ) : ℝ) * Real.log (2 * Real.pi) + 1 / 2 * (logdetPd chol _ - pdRight chol _ _ ⬝ᵥ _) = _
    rw [hL, hg, hy, logdetPd_eq hc hP, scal_det]
    simp only [dotProduct, Fin.sum_univ_one]
    push_cast
    rw [mul_one]
    congr 3
    field_simp

/-- C82 (limit): for a mean that is not zero and a speaker with two vectors the reported posterior is not the posterior:
its mean is 1/3, while both vectors are at the model mean and the joint density is symmetric in the speaker variable -/
theorem C82_sp_mean_wrong (hc : IsCholesky chol) : ∃ (g : SP 1 1) (rows : List (Vec 1 × Nat)) (D : Stats 1), g.W.PosDef ∧ statsHard rows = some D ∧
    (∀ y : Vec 1, gaussPdf 0 1 (-y) * ((classVecs rows 0).map (fun x => gaussPdf (g.mu + (-y) ᵥ* g.V) g.W x)).prod =
      gaussPdf 0 1 y * ((classVecs rows 0).map (fun x => gaussPdf (g.mu + y ᵥ* g.V) g.W x)).prod) ∧
    (g.posterior chol (D.N 0) (D.F 0)).1 = fun _ => 1 / 3 := by
  obtain ⟨D, hD, hM, hN, hF⟩ := eq_stats
  refine ⟨spOne 1 1, rowsEq, D, Matrix.PosDef.one, hD, ?_, ?_⟩
  · intro y
    have hcl : classVecs rowsEq 0 = [fun _ => 1, fun _ => 1] := rfl
    have hmu : (spOne 1 1).mu = fun _ => 1 := rfl
    have hV : (spOne 1 1).V = 1 := by show (1 : ℝ) • (1 : Mat 1 1) = 1; rw [one_smul]
    have hW : (spOne 1 1).W = 1 := rfl
    rw [hcl, hmu, hV, hW]
    have e1 : gaussPdf 0 1 (-y) = gaussPdf 0 (1 : Mat 1 1) y := by
      unfold gaussPdf
      rw [sub_zero, sub_zero, Matrix.one_mulVec, Matrix.one_mulVec, neg_dotProduct_neg]
    have e2 : gaussPdf ((fun _ => 1) + (-y) ᵥ* (1 : Mat 1 1)) (1 : Mat 1 1) (fun _ => 1) = gaussPdf ((fun _ => 1) + y ᵥ* (1 : Mat 1 1)) (1 : Mat 1 1) (fun _ => 1) := by
      unfold gaussPdf
      rw [Matrix.vecMul_one, Matrix.vecMul_one, Matrix.one_mulVec, Matrix.one_mulVec]
      have a1 : (fun _ => (1 : ℝ)) - ((fun _ => 1) + -y) = y := by ext i; simp
      have a2 : (fun _ => (1 : ℝ)) - ((fun _ => 1) + y) = -y := by ext i; simp
      rw [a1, a2, neg_dotProduct_neg]
    simp only [List.map_cons, List.map_nil, List.prod_cons, List.prod_nil, e1, e2]
  · rw [hN, hF, (one_posterior hc 1 1 2 2 (by norm_num)).1]
    norm_num

/-- C83 (limit): in the same case the reported objective exceeds the log likelihood of the training data, of which it is
meant to be a lower bound -/
theorem C83_sp_elbo_exceeds (hc : IsCholesky chol) : ∃ (g : SP 1 1) (rows : List (Vec 1 × Nat)) (D : Stats 1), g.W.PosDef ∧ statsHard rows = some D ∧
    g.llk rows D.M < g.elbo chol (g.estep chol D) := by
  obtain ⟨D, hD, hM, hN, hF⟩ := eq_stats
  obtain ⟨-, -, -, hS⟩ := statsHard_some hD
  refine ⟨spOne 1 1, rowsEq, D, Matrix.PosDef.one, hD, ?_⟩
  have hll : (spOne 1 1).llk rowsEq D.M = 2 * Real.log (1 / Real.sqrt (2 * Real.pi)) - 1 / 2 * Real.log 3 := by
    unfold SP.llk
    rw [hM]
    simp only [List.range_one, List.map_singleton, List.sum_singleton]
    rw [one_log_evidence]
    have hcl : classVecs rowsEq 0 = [fun _ => 1, fun _ => 1] := rfl
    rw [hcl]
    norm_num
    ring
  have haN : ((spOne 1 1).estep chol D).N = 2 := by
    show ((List.range D.M).map D.N).sum = 2
    rw [hM]; simp [hN]
  have haM : ((spOne 1 1).estep chol D).M = 1 := by
    show (D.M : ℝ) = 1
    rw [hM]; norm_num
  have haF : ((spOne 1 1).estep chol D).F = fun _ => 2 := by
    show ((List.range D.M).map D.F).sum = _
    rw [hM]; simp [hF]
  have haS : ((spOne 1 1).estep chol D).S 0 0 = 2 := by
    show D.S 0 0 = 2
    rw [hS]
    unfold rowsEq
    simp [Matrix.vecMulVec_apply]
    norm_num
  have hal : ((spOne 1 1).estep chol D).logpy = -(1 / 2) * Real.log (2 * Real.pi) + 1 / 2 * (Real.log 3 - 1 / 3) := by
    show ((List.range D.M).map (fun c => ((spOne 1 1).posterior chol (D.N c) (D.F c)).2.2)).sum = _
    rw [hM]
    simp only [List.range_one, List.map_singleton, List.sum_singleton, hN, hF]
    rw [(one_posterior hc 1 1 2 2 (by norm_num)).2.2]
    norm_num
  have hel : (spOne 1 1).elbo chol ((spOne 1 1).estep chol D) = -Real.log (2 * Real.pi) - 1 / 2 * Real.log 3 + 1 / 6 := by
    unfold SP.elbo
    have hsh : shat (spOne 1 1).mu ((spOne 1 1).estep chol D) 0 0 = 0 := by
      show ((spOne 1 1).estep chol D).S 0 0 - ((spOne 1 1).estep chol D).F 0 * 1 - ((spOne 1 1).estep chol D).F 0 * 1 + ((spOne 1 1).estep chol D).N * (1 * 1) = 0
      rw [haS, haF, haN]
      norm_num
    simp only [Fin.sum_univ_one]
    rw [hsh, hal, haN, haM, logdetPd_eq hc (show (spOne 1 1).W.PosDef from Matrix.PosDef.one)]
    show 1 / 2 * (-2 * ((1 : ℕ) : ℝ) * Real.log (2 * Real.pi) + 2 * Real.log (1 : Mat 1 1).det - _) + -(1 / 2) * 1 * ((1 : ℕ) : ℝ) * Real.log (2 * Real.pi) - _ = _
    rw [Matrix.det_one, Real.log_one]
    push_cast
    ring
  rw [hll, hel, one_div, Real.log_inv, Real.log_sqrt (by positivity)]
  linarith

/-- C85 (limit): in the same case an epoch that updates the mean moves it away from the data, which were at the mean, and
the likelihood of the training data goes down -/
theorem C85_sp_update_mu_decreases (hc : IsCholesky chol) : ∃ (g : SP 1 1) (rows : List (Vec 1 × Nat)) (D : Stats 1), g.W.PosDef ∧ statsHard rows = some D ∧
    (g.epoch chol ⟨true, false, false, true⟩ true false D).llk rows D.M < g.llk rows D.M := by
  obtain ⟨D, hD, hM, hN, hF⟩ := eq_stats
  refine ⟨spOne 1 1, rowsEq, D, Matrix.PosDef.one, hD, ?_⟩
  have hmu : (spOne 1 1).epoch chol ⟨true, false, false, true⟩ true false D = spOne (2 / 3) 1 := by
    have haN : ((spOne 1 1).estep chol D).N = 2 := by
      show ((List.range D.M).map D.N).sum = 2
      rw [hM]; simp [hN]
    have haF : ((spOne 1 1).estep chol D).F = fun _ => 2 := by
      show ((List.range D.M).map D.F).sum = _
      rw [hM]; simp [hF]
    have haR : ((spOne 1 1).estep chol D).Ry1 = fun _ => 2 / 3 := by
      show ((List.range D.M).map (fun c => D.N c • ((spOne 1 1).posterior chol (D.N c) (D.F c)).1)).sum = _
      rw [hM]
      simp only [List.range_one, List.map_singleton, List.sum_singleton, hN, hF]
      rw [(one_posterior hc 1 1 2 2 (by norm_num)).1]
      ext i
      simp
      norm_num
    show ({ mu := fun j => (((spOne 1 1).estep chol D).F j - (((spOne 1 1).estep chol D).Ry1 ᵥ* (spOne 1 1).V) j) / ((spOne 1 1).estep chol D).N, V := (spOne 1 1).V, W := (spOne 1 1).W } : SP 1 1) = _
    rw [haN, haF, haR]
    have hV : (spOne 1 1).V = 1 := by show (1 : ℝ) • (1 : Mat 1 1) = 1; rw [one_smul]
    unfold spOne
    simp only [one_smul, Matrix.vecMul_one]
    norm_num
  rw [hmu]
  unfold SP.llk
  rw [hM]
  simp only [List.range_one, List.map_singleton, List.sum_singleton]
  rw [one_log_evidence, one_log_evidence]
  have hcl : classVecs rowsEq 0 = [fun _ => 1, fun _ => 1] := rfl
  rw [hcl]
  norm_num
  nlinarith

/-- one vector far from the mean -/
def rowsFar : List (Vec 1 × Nat) := [(fun _ => 10, 0)]

/-- C85 (limit): the minimum-divergence step with `update_mu=False` and `update_V=True` shrinks the speaker subspace as if
the mean had been moved, and the likelihood of the training data can go down -/
theorem C85_sp_md_decreases (hc : IsCholesky chol) : ∃ (g : SP 1 1) (rows : List (Vec 1 × Nat)) (D : Stats 1), g.W.PosDef ∧ g.mu = 0 ∧ statsHard rows = some D ∧
    (g.epoch chol ⟨false, true, false, true⟩ false true D).llk rows D.M < g.llk rows D.M := by
  obtain ⟨D, hD⟩ : ∃ D, statsHard rowsFar = some D := ⟨_, rfl⟩
  obtain ⟨hN, hF, -, -⟩ := statsHard_some hD
  have hM : D.M = 1 := by
    have : D = _ := (Option.some.inj hD).symm
    rw [this]
    rfl
  have hcl : classVecs rowsFar 0 = [fun _ => 10] := rfl
  have hN0 : D.N 0 = 1 := by rw [hN, hcl]; norm_num
  have hF0 : D.F 0 = fun _ => 10 := by rw [hF, hcl]; ext i; simp
  refine ⟨spOne 0 1, rowsFar, D, Matrix.PosDef.one, rfl, hD, ?_⟩
  have hay : ((spOne 0 1).estep chol D).y = fun _ => 5 := by
    show ((List.range D.M).map (fun c => ((spOne 0 1).posterior chol (D.N c) (D.F c)).1)).sum = _
    rw [hM]
    simp only [List.range_one, List.map_singleton, List.sum_singleton, hN0, hF0]
    rw [(one_posterior hc 0 1 1 10 (by norm_num)).1]
    norm_num
  have haM : ((spOne 0 1).estep chol D).M = 1 := by
    show (D.M : ℝ) = 1
    rw [hM]; norm_num
  have haP : ((spOne 0 1).estep chol D).Py = (51 / 2 : ℝ) • 1 := by
    show ((List.range D.M).map (fun c => ((spOne 0 1).posterior chol (D.N c) (D.F c)).2.1)).sum +
      ((List.range D.M).map (fun c => Matrix.vecMulVec ((spOne 0 1).posterior chol (D.N c) (D.F c)).1 ((spOne 0 1).posterior chol (D.N c) (D.F c)).1)).sum = _
    rw [hM]
    simp only [List.range_one, List.map_singleton, List.sum_singleton, hN0, hF0]
    rw [(one_posterior hc 0 1 1 10 (by norm_num)).1, (one_posterior hc 0 1 1 10 (by norm_num)).2.1]
    ext i j
    have hi : i = 0 := Subsingleton.elim _ _
    have hj : j = 0 := Subsingleton.elim _ _
    subst hi hj
    simp [Matrix.vecMulVec_apply]
    norm_num
  obtain ⟨r, hr, hr2⟩ : ∃ r : ℝ, (spOne 0 1).epoch chol ⟨false, true, false, true⟩ false true D = spOne 0 r ∧ r ^ 2 = 1 / 2 := by
    have hP : (1 / ((spOne 0 1).estep chol D).M) • ((spOne 0 1).estep chol D).Py -
        Matrix.vecMulVec (fun i => ((spOne 0 1).estep chol D).y i / ((spOne 0 1).estep chol D).M) (fun i => ((spOne 0 1).estep chol D).y i / ((spOne 0 1).estep chol D).M) =
        (1 / 2 : ℝ) • (1 : Mat 1 1) := by
      rw [hay, haM, haP]
      ext i j
      have hi : i = 0 := Subsingleton.elim _ _
      have hj : j = 0 := Subsingleton.elim _ _
      subst hi hj
      simp [Matrix.vecMulVec_apply]
      norm_num
    refine ⟨chol 1 ((1 / 2 : ℝ) • (1 : Mat 1 1)) 0 0, ?_, ?_⟩
    · show ({ mu := (spOne 0 1).mu, V := chol 1 ((1 / ((spOne 0 1).estep chol D).M) • ((spOne 0 1).estep chol D).Py - Matrix.vecMulVec (fun i => ((spOne 0 1).estep chol D).y i / ((spOne 0 1).estep chol D).M) (fun i => ((spOne 0 1).estep chol D).y i / ((spOne 0 1).estep chol D).M)) * (spOne 0 1).V, W := (spOne 0 1).W } : SP 1 1) = _
      rw [hP]
      unfold spOne
      rw [one_smul, Matrix.mul_one]
      congr 1
      ext i j
      have hi : i = 0 := Subsingleton.elim _ _
      have hj : j = 0 := Subsingleton.elim _ _
      subst hi hj
      simp
    · have := (hc 1 _ (scal_pos (n := 1) (show (0 : ℝ) < 1 / 2 by norm_num))).2.2
      have h00 := congrFun (congrFun this 0) 0
      simp [Matrix.mul_apply] at h00
      rw [pow_two]
      simpa using h00
  rw [hr]
  unfold SP.llk
  rw [hM]
  simp only [List.range_one, List.map_singleton, List.sum_singleton]
  rw [one_log_evidence, one_log_evidence, hcl]
  simp only [List.length_singleton, List.map_singleton, List.sum_singleton, mul_pow, hr2]
  have h1 : Real.log (4 / 3) ≤ 4 / 3 - 1 := Real.log_le_sub_one_of_pos (by norm_num)
  have h2 : Real.log (4 / 3) = Real.log 2 - Real.log (3 / 2) := by
    rw [← Real.log_div (by norm_num) (by norm_num)]
    norm_num
  norm_num
  linarith

/-- non-vacuity of C85: a training run of ten epochs of the subspace from a model with mean zero -/
example : ∃ (D : Stats 1) (g : SP 1 1), statsHard rowsPm = some D ∧ g.mu = 0 ∧ g.W.PosDef ∧
    ∀ g' ∈ SP.visited chol ⟨false, true, false, true⟩ D (List.replicate 10 (true, false)) g,
      WOk ⟨false, true, false, true⟩ g' (SP.iW ⟨false, true, false, true⟩ (g'.updVmu chol ⟨false, true, false, true⟩ (g'.estep chol D)).1 (g'.updVmu chol ⟨false, true, false, true⟩ (g'.estep chol D)).2 (g'.estep chol D)) := by
  obtain ⟨D, hD, -⟩ := pm_stats
  exact ⟨D, spOne 0 1, hD, rfl, Matrix.PosDef.one, fun _ _ h => by cases h⟩

end Hyp.Plda
