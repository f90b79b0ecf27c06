import Verif.Plda.Gauss
import Verif.Plda.Model
import Verif.NpLemmas
import Mathlib.LinearAlgebra.Matrix.Block
import Mathlib.Analysis.Matrix.PosDef
import Mathlib.Analysis.Matrix.LDL
import Mathlib.Algebra.Order.Star.Real

namespace Hyp.Plda
open scoped BigOperators
open Matrix MeasureTheory

variable {k n : Nat}

theorem PosDef.symm {A : Mat n n} (hA : A.PosDef) : Aᵀ = A := by
  have h := hA.isHermitian
  rwa [IsHermitian, conjTranspose_eq_transpose_of_trivial] at h

theorem PosSemidef.symm {A : Mat n n} (hA : A.PosSemidef) : Aᵀ = A := by
  have h := hA.isHermitian
  rwa [IsHermitian, conjTranspose_eq_transpose_of_trivial] at h

theorem PosSemidef.quad {A : Mat n n} (hA : A.PosSemidef) (x : Vec n) : 0 ≤ x ⬝ᵥ (A *ᵥ x) := by
  have h := hA.dotProduct_mulVec_nonneg x
  rwa [star_trivial] at h

theorem PosDef.quad {A : Mat n n} (hA : A.PosDef) (x : Vec n) (hx : x ≠ 0) : 0 < x ⬝ᵥ (A *ᵥ x) := by
  have h := hA.dotProduct_mulVec_pos hx
  rwa [star_trivial] at h

theorem PosDef.det_ne {A : Mat n n} (hA : A.PosDef) : IsUnit A.det := hA.det_pos.ne'.isUnit

theorem inv_symm {A : Mat n n} (hA : Aᵀ = A) : (A⁻¹)ᵀ = A⁻¹ := by
  rw [Matrix.transpose_nonsing_inv, hA]

/-- existence of the factorisation of the trusted base: the oracle assumption `IsCholesky` is satisfiable -/
theorem exists_chol (n : Nat) (A : Mat n n) (hA : A.PosDef) :
    ∃ R : Mat n n, (∀ i j : Fin n, j < i → R i j = 0) ∧ (∀ i, 0 < R i i) ∧ Rᵀ * R = A := by
  have htri : BlockTriangular (LDL.lower hA)ᵀ id := by
    have h1 : BlockTriangular (LDL.lowerInv hA)ᵀ id := fun i j hij => LDL.lowerInv_triangular hA hij
    have h2 := Matrix.blockTriangular_inv_of_blockTriangular h1
    unfold LDL.lower
    rwa [Matrix.transpose_nonsing_inv]
  have hdpos : ∀ i, 0 < LDL.diagEntries hA i := by
    have hd : (LDL.diag hA).PosDef := by
      rw [LDL.diag_eq_lowerInv_conj]
      exact hA.mul_mul_conjTranspose_same (Matrix.vecMul_injective_of_isUnit (isUnit_of_invertible _))
    exact (Matrix.posDef_diagonal_iff).mp hd
  have hfac := LDL.lower_conj_diag hA
  rw [conjTranspose_eq_transpose_of_trivial] at hfac
  set L := LDL.lower hA with hLdef
  have hLd : L.det ≠ 0 := by
    intro h
    have := hA.det_pos
    rw [← hfac, Matrix.det_mul, Matrix.det_mul, h, zero_mul, zero_mul] at this
    exact lt_irrefl _ this
  have hLt : L.det = ∏ i, L i i := by
    rw [← Matrix.det_transpose, Matrix.det_of_upperTriangular htri]
    rfl
  have hLi : ∀ i, L i i ≠ 0 := by
    rw [hLt] at hLd
    exact fun i => Finset.prod_ne_zero_iff.mp hLd i (Finset.mem_univ i)
  refine ⟨Matrix.of (fun i j => Real.sqrt (LDL.diagEntries hA i) * (L i i / |L i i|) * L j i), ?_, ?_, ?_⟩
  · intro i j hij
    have : L j i = 0 := htri hij
    simp [this]
  · intro i
    have h1 : 0 < |L i i| := abs_pos.mpr (hLi i)
    have h2 := Real.sqrt_pos.mpr (hdpos i)
    rw [Matrix.of_apply, mul_assoc, div_mul_eq_mul_div]
    have h3 : 0 < L i i * L i i := mul_self_pos.mpr (hLi i)
    positivity
  · refine Eq.trans ?_ hfac
    unfold LDL.diag
    ext i j
    rw [Matrix.mul_apply, Matrix.mul_apply]
    refine Finset.sum_congr rfl (fun l _ => ?_)
    rw [Matrix.transpose_apply, Matrix.of_apply, Matrix.of_apply, Matrix.mul_diagonal, Matrix.transpose_apply]
    have h1 : |L l l| ≠ 0 := abs_ne_zero.mpr (hLi l)
    have h2 : Real.sqrt (LDL.diagEntries hA l) * Real.sqrt (LDL.diagEntries hA l) = LDL.diagEntries hA l :=
      Real.mul_self_sqrt (hdpos l).le
    have h3 : (L l l / |L l l|) * (L l l / |L l l|) = 1 := by
      rw [div_mul_div_comm, abs_mul_abs_self, div_self (mul_self_ne_zero.mpr (hLi l))]
    calc _ = (Real.sqrt (LDL.diagEntries hA l) * Real.sqrt (LDL.diagEntries hA l)) * ((L l l / |L l l|) * (L l l / |L l l|)) * (L i l * L j l) := by ring
      _ = _ := by rw [h2, h3]; ring

theorem exists_isCholesky : ∃ chol, IsCholesky chol := by
  classical
  refine ⟨fun n A => if h : A.PosDef then (exists_chol n A h).choose else 0, fun n A hA => ?_⟩
  simp only [dif_pos hA]
  exact (exists_chol n A hA).choose_spec

theorem exists_factor {A : Mat n n} (hA : A.PosDef) : ∃ R : Mat n n, Rᵀ * R = A ∧ R.det ≠ 0 := by
  obtain ⟨R, _, _, hR⟩ := exists_chol n A hA
  refine ⟨R, hR, fun h => ?_⟩
  have := hA.det_pos
  rw [← hR, Matrix.det_mul, h, mul_zero] at this
  exact lt_irrefl _ this

theorem postPrec_pos {B : Mat k k} {W : Mat n n} (hB : B.PosDef) (hW : W.PosDef) (V : Mat k n) {N : ℝ} (hN : 0 ≤ N) :
    (postPrec B V W N).PosDef := by
  unfold postPrec
  apply hB.add_posSemidef
  apply PosSemidef.smul _ hN
  have h := hW.posSemidef.mul_mul_conjTranspose_same V
  rwa [conjTranspose_eq_transpose_of_trivial] at h

theorem inv_solve {L : Mat k k} (hL : L.PosDef) (g : Vec k) : L *ᵥ (L⁻¹ *ᵥ g) = g := by
  rw [Matrix.mulVec_mulVec, Matrix.mul_nonsing_inv _ (PosDef.det_ne hL), Matrix.one_mulVec]

/-- log of the evidence of one speaker -/
theorem log_evidence {B : Mat k k} {W : Mat n n} (hB : B.PosDef) (hW : W.PosDef) (m : Vec k) (mu : Vec n) (V : Mat k n)
    (X : List (Vec n)) (g : Vec k) (hg : g = postLin m B V W (X.map (fun x => x - mu)).sum) :
    0 < evidence m B mu V W X ∧ Real.log (evidence m B mu V W X) =
      baseLog mu W X + 1 / 2 * (Real.log B.det - Real.log (postPrec B V W X.length).det +
        g ⬝ᵥ ((postPrec B V W X.length)⁻¹ *ᵥ g) - m ⬝ᵥ (B *ᵥ m)) := by
  have hL := postPrec_pos hB hW V (N := (X.length : ℝ)) (Nat.cast_nonneg _)
  obtain ⟨R, hR, hd⟩ := exists_factor hL
  have h := evidence_eq (PosDef.symm hB) (PosDef.symm hW) hW.det_pos hB.det_pos m mu V X R hd hR g _ hg (inv_solve hL g)
  rw [h]
  exact ⟨Real.exp_pos _, Real.log_exp _⟩

theorem sum_append_vec (X Y : List (Vec n)) (mu : Vec n) : ((X ++ Y).map (fun x => x - mu)).sum =
    (X.map (fun x => x - mu)).sum + (Y.map (fun x => x - mu)).sum := by
  rw [List.map_append, List.sum_append]

/-- closed form of the log likelihood ratio -/
theorem llr_closed {B : Mat k k} {W : Mat n n} (hB : B.PosDef) (hW : W.PosDef) (m : Vec k) (mu : Vec n) (V : Mat k n)
    (X Y : List (Vec n)) (g1 g2 g12 : Vec k) (h1 : g1 = postLin m B V W (X.map (fun x => x - mu)).sum)
    (h2 : g2 = postLin m B V W (Y.map (fun x => x - mu)).sum) (h12 : g12 = g1 + g2 - B *ᵥ m) :
    logLikRatio m B mu V W X Y = 1 / 2 * (
      g12 ⬝ᵥ ((postPrec B V W (X.length + Y.length))⁻¹ *ᵥ g12) - g1 ⬝ᵥ ((postPrec B V W X.length)⁻¹ *ᵥ g1) -
        g2 ⬝ᵥ ((postPrec B V W Y.length)⁻¹ *ᵥ g2) +
      (Real.log (postPrec B V W X.length).det + Real.log (postPrec B V W Y.length).det -
        Real.log (postPrec B V W (X.length + Y.length)).det - Real.log B.det + m ⬝ᵥ (B *ᵥ m))) := by
  have e1 := log_evidence hB hW m mu V X g1 h1
  have e2 := log_evidence hB hW m mu V Y g2 h2
  have e12 := log_evidence hB hW m mu V (X ++ Y) g12 (by
    rw [h12, h1, h2, sum_append_vec]
    unfold postLin
    rw [Matrix.mulVec_add]
    abel)
  unfold logLikRatio
  rw [Real.log_div e12.1.ne' (mul_pos e1.1 e2.1).ne', Real.log_mul e1.1.ne' e2.1.ne', e1.2, e2.2, e12.2, baseLog_append,
    List.length_append]
  push_cast
  ring

/-! ### the Cholesky helpers -/

variable {chol : (n : Nat) → Mat n n → Mat n n} (hc : IsCholesky chol)
include hc

theorem chol_det {A : Mat n n} (hA : A.PosDef) : (chol n A).det = ∏ i, chol n A i i := by
  apply Matrix.det_of_upperTriangular
  intro i j hij
  exact (hc n A hA).1 i j hij

theorem chol_det_pos {A : Mat n n} (hA : A.PosDef) : 0 < (chol n A).det := by
  rw [chol_det hc hA]
  exact Finset.prod_pos (fun i _ => (hc n A hA).2.1 i)

theorem logdetTri_chol {A : Mat n n} (hA : A.PosDef) : 2 * logdetTri (chol n A) = Real.log A.det := by
  have h := (hc n A hA).2.2
  have e : A.det = (chol n A).det * (chol n A).det := by
    conv_lhs => rw [← h]
    rw [Matrix.det_mul, Matrix.det_transpose]
  rw [e, Real.log_mul (chol_det_pos hc hA).ne' (chol_det_pos hc hA).ne', chol_det hc hA,
    Real.log_prod (fun i _ => ((hc n A hA).2.1 i).ne')]
  unfold logdetTri
  ring

theorem logdetPd_eq {A : Mat n n} (hA : A.PosDef) : logdetPd chol A = Real.log A.det := logdetTri_chol hc hA

theorem pdInv_eq {A : Mat n n} (hA : A.PosDef) : pdInv chol A = A⁻¹ := by
  unfold pdInv
  rw [← Matrix.mul_inv_rev, (hc n A hA).2.2]

theorem pdRight_eq {A : Mat n n} (hA : A.PosDef) (x : Vec n) : pdRight chol A x = A⁻¹ *ᵥ x := by
  unfold pdRight
  rw [Matrix.mulVec_mulVec]
  have := pdInv_eq hc hA
  unfold pdInv at this
  rw [this]

theorem triRight_dot {A : Mat n n} (hA : A.PosDef) (x y : Vec n) :
    triRight (chol n A) x ⬝ᵥ triRight (chol n A) y = x ⬝ᵥ (A⁻¹ *ᵥ y) := by
  unfold triRight
  rw [← Matrix.dotProduct_mulVec, ← Matrix.mulVec_transpose, Matrix.mulVec_mulVec, Matrix.transpose_nonsing_inv]
  have := pdInv_eq hc hA
  unfold pdInv at this
  rw [this]

/-- the quadratic terms of the scores: `2 t1 t2 + t1 t1 + t2 t2` -/
theorem tri_quad {A : Mat n n} (hA : A.PosDef) (x y : Vec n) :
    2 * (triRight (chol n A) x ⬝ᵥ triRight (chol n A) y) + (triRight (chol n A) x ⬝ᵥ triRight (chol n A) x) +
      (triRight (chol n A) y ⬝ᵥ triRight (chol n A) y) = (x + y) ⬝ᵥ (A⁻¹ *ᵥ (x + y)) := by
  rw [triRight_dot hc hA, triRight_dot hc hA, triRight_dot hc hA, Matrix.mulVec_add, add_dotProduct, dotProduct_add, dotProduct_add,
    symm_dot (inv_symm (PosDef.symm hA)) y x]
  ring

end Hyp.Plda
