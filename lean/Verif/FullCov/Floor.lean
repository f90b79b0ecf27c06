import Verif.Plda.SpFit
import Mathlib.Analysis.Matrix.Order

/-!
Model of `fullcov_varfloor` and `fullcov_varfloor_from_cholS`, /repo/hyperion/utils/math.py:277-341, and property C109. Singular value decomposition and
Cholesky factorisation are library functions, given by their laws.
-/

namespace Hyp.FullCov
open scoped BigOperators
open Matrix Hyp.Plda

variable {n : Nat}

/-- what `la.svd` returns for a symmetric positive semidefinite matrix: orthogonal `u`, `v` and nonnegative singular values with `T = u diag(d) vᵀ`; the code
uses only `u` and `d`. (Order of the singular values and the treatment of other matrices play no role.) -/
def IsSvd (svd : (n : Nat) → Mat n n → Mat n n × Vec n) : Prop :=
  ∀ (n : Nat) (T : Mat n n), T.PosSemidef → (svd n T).1ᵀ * (svd n T).1 = 1 ∧ (∀ i, 0 ≤ (svd n T).2 i) ∧
    ∃ v : Mat n n, vᵀ * v = 1 ∧ T = (svd n T).1 * Matrix.diagonal (svd n T).2 * vᵀ

variable (svd : (n : Nat) → Mat n n → Mat n n × Vec n) (chol : (n : Nat) → Mat n n → Mat n n)

/-- `u, d, _ = la.svd(T); d[d<1.]=1; T = np.dot(u*d, u.T)`, math.py:304-306, 333-335 -/
noncomputable def floorT (T : Mat n n) : Mat n n :=
  (svd n T).1 * Matrix.diagonal (fun i => if (svd n T).2 i < 1 then 1 else (svd n T).2 i) * (svd n T).1ᵀ

/-- `fullcov_varfloor(S, F, F_is_chol=True)` for an upper triangular factor `R`, math.py:289-313 -/
noncomputable def varfloorChol (S R : Mat n n) : Mat n n := Rᵀ * (floorT svd ((R⁻¹)ᵀ * S * R⁻¹) * R)

/-- `fullcov_varfloor(S, F, F_is_chol, lower)` for a matrix `F`, math.py:289-313 -/
noncomputable def varfloor (S F : Mat n n) (isChol lower : Bool) : Mat n n :=
  if isChol then (if lower then varfloorChol svd S Fᵀ else varfloorChol svd S F) else varfloorChol svd S (chol n F)

/-- `fullcov_varfloor(S, F)` for a number `F`, math.py:301-302, 311-312 -/
noncomputable def varfloorScalar (S : Mat n n) (f : ℝ) : Mat n n := f • floorT svd ((1 / f) • S)

/-- `fullcov_varfloor_from_cholS` for a matrix, math.py:316-341: the factor returned is lower triangular if `lower` is set -/
noncomputable def varfloorFromChol (cS cF : Mat n n) (lower : Bool) : Mat n n :=
  let cS' := if lower then cSᵀ else cS
  let R := if lower then cFᵀ else cF
  let S := Rᵀ * (floorT svd ((cS' * R⁻¹)ᵀ * (cS' * R⁻¹)) * R)
  if lower then (chol n S)ᵀ else chol n S

/-- `fullcov_varfloor_from_cholS` for a number, math.py:329-332, 338-341 -/
noncomputable def varfloorFromCholScalar (cS : Mat n n) (f : ℝ) (lower : Bool) : Mat n n :=
  let T := (1 / f) • (if lower then cSᵀ else cS)
  let S := (f ^ 2) • floorT svd (Tᵀ * T)
  if lower then (chol n S)ᵀ else chol n S

/-! ### lemmas -/

variable {svd chol}

section
open scoped MatrixOrder

theorem sqrt_unique {A B : Mat n n} (hA : A.PosSemidef) (hB : B.PosSemidef) (h : A * A = B * B) : A = B :=
  (CFC.mul_self_eq_mul_self_iff A B hA.nonneg hB.nonneg).1 h
end

theorem conj_psd {A : Mat n n} (hA : A.PosSemidef) (R : Mat n n) : (Rᵀ * A * R).PosSemidef := by
  have := hA.conjTranspose_mul_mul_same R
  rwa [conjTranspose_eq_transpose_of_trivial] at this

theorem conj_pd {A : Mat n n} (hA : A.PosDef) {R : Mat n n} (hR : IsUnit R.det) : (Rᵀ * A * R).PosDef := by
  have := hA.conjTranspose_mul_mul_same (B := R) (Matrix.mulVec_injective_of_isUnit ((Matrix.isUnit_iff_isUnit_det R).mpr hR))
  rwa [conjTranspose_eq_transpose_of_trivial] at this

theorem orth_comm {u : Mat n n} (h : uᵀ * u = 1) : u * uᵀ = 1 := mul_eq_one_comm.1 h

theorem diag_conj_psd {u : Mat n n} {d : Vec n} (hd : ∀ i, 0 ≤ d i) : (u * Matrix.diagonal d * uᵀ).PosSemidef := by
  have := conj_psd (Matrix.PosSemidef.diagonal (n := Fin n) (d := d) hd) uᵀ
  rwa [transpose_transpose] at this

/-- for a positive semidefinite matrix the singular value decomposition is the eigendecomposition -/
theorem svd_eigen (hs : IsSvd svd) {T : Mat n n} (hT : T.PosSemidef) :
    T = (svd n T).1 * Matrix.diagonal (svd n T).2 * (svd n T).1ᵀ := by
  obtain ⟨h1, h2, v, h3, h4⟩ := hs n T hT
  apply sqrt_unique hT (diag_conj_psd h2)
  have e : T * T = T * Tᵀ := by rw [PosSemidef.symm hT]
  generalize (svd n T).1 = u at *
  generalize (svd n T).2 = d at *
  rw [e]
  have e2 : T * Tᵀ = u * Matrix.diagonal d * (vᵀ * v) * Matrix.diagonal d * uᵀ := by
    rw [h4]
    simp only [transpose_mul, transpose_transpose, diagonal_transpose, Matrix.mul_assoc]
  rw [e2, h3]
  have e3 : u * Matrix.diagonal d * uᵀ * (u * Matrix.diagonal d * uᵀ) = u * Matrix.diagonal d * (uᵀ * u) * Matrix.diagonal d * uᵀ := by
    simp only [Matrix.mul_assoc]
  rw [e3, h1]

theorem exists_isSvd : ∃ svd, IsSvd svd := by
  have key : ∀ (n : Nat) (T : Mat n n), ∃ r : Mat n n × Vec n, T.PosSemidef → r.1ᵀ * r.1 = 1 ∧ (∀ i, 0 ≤ r.2 i) ∧
      ∃ v : Mat n n, vᵀ * v = 1 ∧ T = r.1 * Matrix.diagonal r.2 * vᵀ := by
    intro n T
    by_cases hT : T.PosSemidef
    · refine ⟨(hT.1.eigenvectorUnitary, hT.1.eigenvalues), fun _ => ?_⟩
      have h1 : (hT.1.eigenvectorUnitary : Mat n n)ᵀ * (hT.1.eigenvectorUnitary : Mat n n) = 1 := by
        have := Unitary.coe_star_mul_self hT.1.eigenvectorUnitary
        rwa [star_eq_conjTranspose, conjTranspose_eq_transpose_of_trivial] at this
      refine ⟨h1, hT.eigenvalues_nonneg, _, h1, ?_⟩
      have := hT.1.spectral_theorem
      rw [Unitary.conjStarAlgAut_apply, star_eq_conjTranspose, conjTranspose_eq_transpose_of_trivial] at this
      simpa using this
    · exact ⟨(1, 0), fun h => absurd h hT⟩
  choose f hf using key
  exact ⟨f, hf⟩

theorem max_diag (d : ℝ) : (if d < 1 then 1 else d) = max d 1 := by
  split
  · next h => rw [max_eq_right h.le]
  · next h => rw [max_eq_left (not_lt.1 h)]

theorem conj_sub {u : Mat n n} (a b : Vec n) : u * Matrix.diagonal a * uᵀ - u * Matrix.diagonal b * uᵀ = u * Matrix.diagonal (fun i => a i - b i) * uᵀ := by
  rw [← Matrix.diagonal_sub, Matrix.mul_sub, Matrix.sub_mul]

theorem conj_one {u : Mat n n} (h : uᵀ * u = 1) : u * Matrix.diagonal (fun _ => (1 : ℝ)) * uᵀ = 1 := by
  rw [Matrix.diagonal_one, Matrix.mul_one, orth_comm h]

/-- the floored matrix is above the identity and above the matrix -/
theorem floorT_ge (hs : IsSvd svd) {T : Mat n n} (hT : T.PosSemidef) :
    (floorT svd T - 1).PosSemidef ∧ (floorT svd T - T).PosSemidef ∧ ((T - 1).PosSemidef → floorT svd T = T) := by
  have he := svd_eigen hs hT
  obtain ⟨h1, h2, -⟩ := hs n T hT
  unfold floorT
  generalize hu : (svd n T).1 = u at *
  generalize hd : (svd n T).2 = d at *
  simp only [max_diag]
  refine ⟨?_, ?_, fun h => ?_⟩
  · rw [← conj_one h1, conj_sub]
    exact diag_conj_psd (fun i => by simp)
  · conv in (_ - T) => rw [he]
    rw [conj_sub]
    exact diag_conj_psd (fun i => by simp)
  · have h3 : (Matrix.diagonal (fun i => d i - 1)).PosSemidef := by
      have := conj_psd h u
      have e : uᵀ * (T - 1) * u = Matrix.diagonal (fun i => d i - 1) := by
        have e1 : T - 1 = u * Matrix.diagonal (fun i => d i - 1) * uᵀ := by
          conv_lhs => rw [he, ← conj_one h1, conj_sub]
        rw [e1]
        calc _ = (uᵀ * u) * Matrix.diagonal (fun i => d i - 1) * (uᵀ * u) := by simp only [Matrix.mul_assoc]
          _ = _ := by rw [h1]; simp
      rwa [e] at this
    have h4 : ∀ i, 1 ≤ d i := by
      intro i
      have := (Matrix.posSemidef_diagonal_iff.1 h3) i
      linarith
    have h5 : (fun i => max (d i) 1) = d := funext fun i => max_eq_left (h4 i)
    rw [h5]
    exact he.symm

/-- the floored matrix does not depend on the decomposition: `2P - T - 1` is the positive square root of `(T - 1)²` -/
theorem floorT_char (hs : IsSvd svd) {T P : Mat n n} (hT : T.PosSemidef) (hP : ((2 : ℝ) • P - T - 1).PosSemidef)
    (h : ((2 : ℝ) • P - T - 1) * ((2 : ℝ) • P - T - 1) = (T - 1) * (T - 1)) : floorT svd T = P := by
  have he := svd_eigen hs hT
  obtain ⟨h1, h2, -⟩ := hs n T hT
  have hf : floorT svd T = (svd n T).1 * Matrix.diagonal (fun i => max ((svd n T).2 i) 1) * (svd n T).1ᵀ := by
    unfold floorT
    simp only [max_diag]
  generalize (svd n T).1 = u at *
  generalize (svd n T).2 = d at *
  have e1 : T - 1 = u * Matrix.diagonal (fun i => d i - 1) * uᵀ := by
    conv_lhs => rw [he, ← conj_one h1, conj_sub]
  have e2 : (2 : ℝ) • floorT svd T - T - 1 = u * Matrix.diagonal (fun i => |d i - 1|) * uᵀ := by
    rw [hf]
    have : (2 : ℝ) • (u * Matrix.diagonal (fun i => max (d i) 1) * uᵀ) = u * Matrix.diagonal (fun i => 2 * max (d i) 1) * uᵀ := by
      have : Matrix.diagonal (fun i => 2 * max (d i) 1) = (2 : ℝ) • Matrix.diagonal (fun i => max (d i) 1) := by
        rw [← Matrix.diagonal_smul]
        rfl
      rw [this, Matrix.mul_smul, Matrix.smul_mul]
    rw [this, show u * Matrix.diagonal (fun i => 2 * max (d i) 1) * uᵀ - T - 1 =
        u * Matrix.diagonal (fun i => 2 * max (d i) 1) * uᵀ - u * Matrix.diagonal d * uᵀ - u * Matrix.diagonal (fun _ => (1 : ℝ)) * uᵀ by
      rw [conj_one h1, ← he], conj_sub, conj_sub]
    congr 3
    funext i
    rcases le_total (d i) 1 with h | h
    · rw [max_eq_right h, abs_of_nonpos (by linarith)]; ring
    · rw [max_eq_left h, abs_of_nonneg (by linarith)]; ring
  have e3 : ((2 : ℝ) • floorT svd T - T - 1) * ((2 : ℝ) • floorT svd T - T - 1) = (T - 1) * (T - 1) := by
    rw [e2, e1]
    have : ∀ a : Vec n, u * Matrix.diagonal a * uᵀ * (u * Matrix.diagonal a * uᵀ) = u * Matrix.diagonal (fun i => a i * a i) * uᵀ := by
      intro a
      calc _ = u * Matrix.diagonal a * (uᵀ * u) * Matrix.diagonal a * uᵀ := by simp only [Matrix.mul_assoc]
        _ = _ := by rw [h1, Matrix.mul_one, Matrix.mul_assoc u, Matrix.diagonal_mul_diagonal]
    rw [this, this]
    congr 3
    funext i
    exact abs_mul_abs_self _
  have e4 := sqrt_unique (by rw [e2]; exact diag_conj_psd (fun i => abs_nonneg _)) hP (e3.trans h.symm)
  have e5 : (2 : ℝ) • floorT svd T = (2 : ℝ) • P := by
    have := congrArg (fun X => X + 1 + T) e4
    simpa [sub_add_cancel] using this
  exact smul_right_injective _ (two_ne_zero) e5

/-- floors and orthogonal changes of basis -/
theorem floorT_orth (hs : IsSvd svd) {T Q : Mat n n} (hT : T.PosSemidef) (hQ : Qᵀ * Q = 1) :
    floorT svd (Q * T * Qᵀ) = Q * floorT svd T * Qᵀ := by
  have hQ2 := orth_comm hQ
  have psd : ∀ {A : Mat n n}, A.PosSemidef → (Q * A * Qᵀ).PosSemidef := by
    intro A hA
    have := conj_psd hA Qᵀ
    rwa [transpose_transpose] at this
  have e : (2 : ℝ) • (Q * floorT svd T * Qᵀ) - Q * T * Qᵀ - 1 = Q * ((2 : ℝ) • floorT svd T - T - 1) * Qᵀ := by
    rw [Matrix.mul_sub, Matrix.mul_sub, Matrix.sub_mul, Matrix.sub_mul, Matrix.mul_one, hQ2, Matrix.mul_smul, Matrix.smul_mul]
  have e' : Q * T * Qᵀ - 1 = Q * (T - 1) * Qᵀ := by
    rw [Matrix.mul_sub, Matrix.sub_mul, Matrix.mul_one, hQ2]
  have sq : ∀ A : Mat n n, Q * A * Qᵀ * (Q * A * Qᵀ) = Q * (A * A) * Qᵀ := by
    intro A
    calc _ = Q * A * (Qᵀ * Q) * A * Qᵀ := by simp only [Matrix.mul_assoc]
      _ = _ := by rw [hQ]; simp only [Matrix.mul_one, Matrix.mul_assoc]
  have hh : ((2 : ℝ) • floorT svd T - T - 1).PosSemidef ∧
      ((2 : ℝ) • floorT svd T - T - 1) * ((2 : ℝ) • floorT svd T - T - 1) = (T - 1) * (T - 1) := by
    obtain ⟨g1, g2, -⟩ := floorT_ge hs hT
    refine ⟨?_, ?_⟩
    · have := g1.add g2
      have e : floorT svd T - 1 + (floorT svd T - T) = (2 : ℝ) • floorT svd T - T - 1 := by
        rw [two_smul]; abel
      rwa [e] at this
    · have he := svd_eigen hs hT
      obtain ⟨h1, h2, -⟩ := hs n T hT
      have hf : floorT svd T = (svd n T).1 * Matrix.diagonal (fun i => max ((svd n T).2 i) 1) * (svd n T).1ᵀ := by
        unfold floorT
        simp only [max_diag]
      -- (P - 1)(P - T) = 0
      have z : (floorT svd T - 1) * (floorT svd T - T) = 0 := by
        generalize (svd n T).1 = u at *
        generalize (svd n T).2 = d at *
        have a1 : floorT svd T - 1 = u * Matrix.diagonal (fun i => max (d i) 1 - 1) * uᵀ := by
          rw [hf, ← conj_one h1, conj_sub]
        have a2 : floorT svd T - T = u * Matrix.diagonal (fun i => max (d i) 1 - d i) * uᵀ := by
          conv_lhs => rw [hf, he]
          rw [conj_sub]
        rw [a1, a2]
        calc _ = u * Matrix.diagonal (fun i => max (d i) 1 - 1) * (uᵀ * u) * Matrix.diagonal (fun i => max (d i) 1 - d i) * uᵀ := by
              simp only [Matrix.mul_assoc]
          _ = u * Matrix.diagonal (fun i => (max (d i) 1 - 1) * (max (d i) 1 - d i)) * uᵀ := by
              rw [h1, Matrix.mul_one, Matrix.mul_assoc u, Matrix.diagonal_mul_diagonal]
          _ = 0 := by
              have : (fun i => (max (d i) 1 - 1) * (max (d i) 1 - d i)) = fun _ => 0 := by
                funext i
                rcases le_total (d i) 1 with h | h
                · rw [max_eq_right h]; ring
                · rw [max_eq_left h]; ring
              rw [this]
              simp
      have z2 : (floorT svd T - T) * (floorT svd T - 1) = 0 := by
        have := congrArg Matrix.transpose z
        rw [transpose_mul, transpose_zero, PosSemidef.symm g2, PosSemidef.symm g1] at this
        exact this
      have a : (2 : ℝ) • floorT svd T - T - 1 = (floorT svd T - 1) + (floorT svd T - T) := by
        rw [two_smul]; abel
      have b : T - 1 = (floorT svd T - 1) - (floorT svd T - T) := by abel
      have gen : ∀ A B : Mat n n, A * B = 0 → B * A = 0 → (A + B) * (A + B) = (A - B) * (A - B) := by
        intro A B h h'
        rw [Matrix.add_mul, Matrix.mul_add, Matrix.mul_add, Matrix.sub_mul, Matrix.mul_sub, Matrix.mul_sub, h, h']
        abel
      rw [a, b]
      exact gen _ _ z z2
  apply floorT_char hs (psd hT)
  · rw [e]
    exact psd hh.1
  · rw [e, e', sq, sq, hh.2]

/-- Hadamard's inequality: the determinant of a positive definite matrix is at most the product of its diagonal -/
theorem hadamard {Y : Mat n n} (hY : Y.PosDef) : Real.log Y.det ≤ ∑ i, Real.log (Y i i) := by
  have hp : ∀ i, 0 < Y i i := fun i => hY.diag_pos
  have hB : (Matrix.diagonal (fun i => Y i i)).PosDef := Matrix.PosDef.diagonal hp
  have := kl_det hY hB
  rw [Matrix.det_diagonal, Real.log_prod (fun i _ => (hp i).ne')] at this
  have tr : (Y * (Matrix.diagonal (fun i => Y i i))⁻¹).trace = n := by
    have hinv : (Matrix.diagonal (fun i => Y i i))⁻¹ = Matrix.diagonal (fun i => (Y i i)⁻¹) := by
      apply Matrix.inv_eq_right_inv
      rw [Matrix.diagonal_mul_diagonal]
      have : (fun i => Y i i * (Y i i)⁻¹) = fun _ => (1 : ℝ) := funext fun i => mul_inv_cancel₀ (hp i).ne'
      rw [this, Matrix.diagonal_one]
    rw [hinv]
    unfold Matrix.trace
    have : ∀ i, (Y * Matrix.diagonal (fun i => (Y i i)⁻¹)).diag i = 1 := by
      intro i
      rw [Matrix.diag_apply, Matrix.mul_diagonal, mul_inv_cancel₀ (hp i).ne']
    rw [Finset.sum_congr rfl (fun i _ => this i)]
    simp
  rw [tr] at this
  linarith

/-- the best precision below the identity -/
theorem floorT_best (hs : IsSvd svd) {T : Mat n n} (hT : T.PosSemidef) {Y : Mat n n} (hY : Y.PosDef) (hY1 : (1 - Y).PosSemidef) :
    Real.log Y.det - (Y * T).trace ≤ Real.log (floorT svd T)⁻¹.det - ((floorT svd T)⁻¹ * T).trace := by
  have he := svd_eigen hs hT
  obtain ⟨h1, h2, -⟩ := hs n T hT
  have hf : floorT svd T = (svd n T).1 * Matrix.diagonal (fun i => max ((svd n T).2 i) 1) * (svd n T).1ᵀ := by
    unfold floorT
    simp only [max_diag]
  generalize (svd n T).1 = u at *
  generalize (svd n T).2 = d at *
  have hu := orth_comm h1
  have hinv : (floorT svd T)⁻¹ = u * Matrix.diagonal (fun i => (max (d i) 1)⁻¹) * uᵀ := by
    apply Matrix.inv_eq_right_inv
    rw [hf]
    calc _ = u * Matrix.diagonal (fun i => max (d i) 1) * (uᵀ * u) * Matrix.diagonal (fun i => (max (d i) 1)⁻¹) * uᵀ := by simp only [Matrix.mul_assoc]
      _ = u * Matrix.diagonal (fun i => max (d i) 1 * (max (d i) 1)⁻¹) * uᵀ := by
          rw [h1, Matrix.mul_one, Matrix.mul_assoc u, Matrix.diagonal_mul_diagonal]
      _ = 1 := by
          have : (fun i => max (d i) 1 * (max (d i) 1)⁻¹) = fun _ => (1 : ℝ) := funext fun i => mul_inv_cancel₀ (by positivity)
          rw [this, conj_one h1]
  have hdetu : u.det * u.det = 1 := by
    have := congrArg Matrix.det h1
    rwa [Matrix.det_mul, Matrix.det_transpose, Matrix.det_one] at this
  -- the conjugated precision
  obtain ⟨Z, hZ⟩ : ∃ Z, Z = uᵀ * Y * u := ⟨_, rfl⟩
  have hZp : Z.PosDef := by
    rw [hZ]
    exact conj_pd hY (by
      apply isUnit_iff_ne_zero.2
      intro h0
      rw [h0] at hdetu
      norm_num at hdetu)
  have hZ1 : (1 - Z).PosSemidef := by
    have := conj_psd hY1 u
    rwa [Matrix.mul_sub, Matrix.sub_mul, Matrix.mul_one, h1, ← hZ] at this
  have hZdet : Z.det = Y.det := by
    rw [hZ, Matrix.det_mul, Matrix.det_mul, Matrix.det_transpose]
    calc _ = (u.det * u.det) * Y.det := by ring
      _ = _ := by rw [hdetu, one_mul]
  have hZtr : (Y * T).trace = ∑ i, Z i i * d i := by
    rw [he, hZ]
    calc _ = (uᵀ * Y * u * Matrix.diagonal d).trace := by
          rw [Matrix.trace_mul_comm]
          conv_rhs => rw [Matrix.mul_assoc, Matrix.mul_assoc, Matrix.trace_mul_comm]
          conv_lhs => rw [Matrix.trace_mul_comm]
          simp only [Matrix.mul_assoc]
      _ = _ := by
          unfold Matrix.trace
          exact Finset.sum_congr rfl (fun i _ => by rw [Matrix.diag_apply, Matrix.mul_diagonal])
  have hR : Real.log (floorT svd T)⁻¹.det = ∑ i, Real.log ((max (d i) 1)⁻¹) := by
    rw [hinv, Matrix.det_mul, Matrix.det_mul, Matrix.det_transpose, Matrix.det_diagonal]
    rw [← Real.log_prod (fun i _ => by positivity)]
    congr 1
    calc _ = (u.det * u.det) * ∏ i, (max (d i) 1)⁻¹ := by ring
      _ = _ := by rw [hdetu, one_mul]
  have hRtr : ((floorT svd T)⁻¹ * T).trace = ∑ i, (max (d i) 1)⁻¹ * d i := by
    rw [hinv]
    conv_lhs => rw [he]
    calc _ = (u * Matrix.diagonal (fun i => (max (d i) 1)⁻¹) * (uᵀ * u) * Matrix.diagonal d * uᵀ).trace := by simp only [Matrix.mul_assoc]
      _ = (u * Matrix.diagonal (fun i => (max (d i) 1)⁻¹ * d i) * uᵀ).trace := by
          rw [h1, Matrix.mul_one, Matrix.mul_assoc u, Matrix.diagonal_mul_diagonal]
      _ = _ := by rw [Matrix.trace_mul_comm, ← Matrix.mul_assoc, h1, Matrix.one_mul, Matrix.trace_diagonal]
  rw [hZtr, hR, hRtr, ← hZdet, ← Finset.sum_sub_distrib]
  calc _ ≤ ∑ i, (Real.log (Z i i) - Z i i * d i) := by
        rw [Finset.sum_sub_distrib]
        have := hadamard hZp
        linarith
    _ ≤ _ := by
        apply Finset.sum_le_sum
        intro i _
        have z0 : 0 < Z i i := hZp.diag_pos
        have z1 : Z i i ≤ 1 := by
          have := hZ1.diag_nonneg (i := i)
          simpa using this
        rcases le_total (d i) 1 with h | h
        · rw [max_eq_right h, inv_one, Real.log_one, one_mul]
          have := Real.log_le_sub_one_of_pos z0
          nlinarith [h2 i]
        · rw [max_eq_left h, Real.log_inv]
          have hd : 0 < d i := by linarith
          have := Real.log_le_sub_one_of_pos (mul_pos z0 hd)
          rw [Real.log_mul z0.ne' hd.ne'] at this
          rw [inv_mul_cancel₀ hd.ne']
          linarith

/-! ### C109 -/

theorem varfloorChol_spec (hs : IsSvd svd) {S F R : Mat n n} (hS : S.PosSemidef) (hF : F.PosDef) (hR : Rᵀ * R = F) :
    (varfloorChol svd S R).PosDef ∧ (varfloorChol svd S R - F).PosSemidef ∧ (varfloorChol svd S R - S).PosSemidef ∧
    ((S - F).PosSemidef → varfloorChol svd S R = S) ∧
    (∀ X : Mat n n, X.PosDef → (X - F).PosSemidef →
      Real.log X⁻¹.det - (X⁻¹ * S).trace ≤ Real.log (varfloorChol svd S R)⁻¹.det - ((varfloorChol svd S R)⁻¹ * S).trace) := by
  have hdR : IsUnit R.det := by
    apply isUnit_iff_ne_zero.2
    intro h0
    have := hF.det_pos
    rw [← hR, Matrix.det_mul, h0, mul_zero] at this
    exact lt_irrefl _ this
  have i1 : R⁻¹ * R = 1 := Matrix.nonsing_inv_mul _ hdR
  have i2 : R * R⁻¹ = 1 := Matrix.mul_nonsing_inv _ hdR
  have j1 : (R⁻¹)ᵀ * Rᵀ = 1 := by rw [← transpose_mul, i2, transpose_one]
  have j2 : Rᵀ * (R⁻¹)ᵀ = 1 := by rw [← transpose_mul, i1, transpose_one]
  have hT : ((R⁻¹)ᵀ * S * R⁻¹).PosSemidef := conj_psd hS _
  obtain ⟨T, hTe⟩ : ∃ T, T = (R⁻¹)ᵀ * S * R⁻¹ := ⟨_, rfl⟩
  rw [← hTe] at hT
  have hST : S = Rᵀ * T * R := by
    rw [hTe]
    calc S = (Rᵀ * (R⁻¹)ᵀ) * S * (R⁻¹ * R) := by rw [i1, j2, Matrix.one_mul, Matrix.mul_one]
      _ = _ := by simp only [Matrix.mul_assoc]
  have hV : varfloorChol svd S R = Rᵀ * floorT svd T * R := by
    unfold varfloorChol
    rw [← hTe, Matrix.mul_assoc]
  have hF1 : F = Rᵀ * 1 * R := by rw [Matrix.mul_one, hR]
  obtain ⟨g1, g2, g3⟩ := floorT_ge hs hT
  have sub : ∀ A B : Mat n n, Rᵀ * A * R - Rᵀ * B * R = Rᵀ * (A - B) * R := by
    intro A B
    rw [Matrix.mul_sub, Matrix.sub_mul]
  have back : ∀ A : Mat n n, (R⁻¹)ᵀ * (Rᵀ * A * R) * R⁻¹ = A := by
    intro A
    calc _ = ((R⁻¹)ᵀ * Rᵀ) * A * (R * R⁻¹) := by simp only [Matrix.mul_assoc]
      _ = A := by rw [j1, i2, Matrix.one_mul, Matrix.mul_one]
  have k1 : (varfloorChol svd S R - F).PosSemidef := by
    rw [hV, hF1, sub]
    exact conj_psd g1 R
  have kpd : (varfloorChol svd S R).PosDef := by
    have := hF.add_posSemidef k1
    rwa [add_sub_cancel] at this
  refine ⟨kpd, k1, ?_, fun h => ?_, fun X hX hXF => ?_⟩
  · rw [hV]
    conv in (_ - S) => rw [hST]
    rw [sub]
    exact conj_psd g2 R
  · have : (T - 1).PosSemidef := by
      have h2 := conj_psd h R⁻¹
      rw [hST, hF1, sub, back] at h2
      exact h2
    rw [hV, g3 this, ← hST]
  · -- the transformed precision
    obtain ⟨Y, hY⟩ : ∃ Y, Y = R * X⁻¹ * Rᵀ := ⟨_, rfl⟩
    have hdRt : IsUnit Rᵀ.det := by rwa [Matrix.det_transpose]
    have hYp : Y.PosDef := by
      have := conj_pd hX.inv hdRt
      rwa [transpose_transpose, ← hY] at this
    have hYinv : Y⁻¹ = (R⁻¹)ᵀ * X * R⁻¹ := by
      apply Matrix.inv_eq_right_inv
      rw [hY]
      calc _ = R * X⁻¹ * (Rᵀ * (R⁻¹)ᵀ) * X * R⁻¹ := by simp only [Matrix.mul_assoc]
        _ = R * (X⁻¹ * X) * R⁻¹ := by rw [j2, Matrix.mul_one, Matrix.mul_assoc R]
        _ = 1 := by rw [Matrix.nonsing_inv_mul _ (PosDef.det_ne hX), Matrix.mul_one, i2]
    have hYge : (Y⁻¹ - 1).PosSemidef := by
      have := conj_psd hXF R⁻¹
      rw [Matrix.mul_sub, Matrix.sub_mul, ← hYinv, hF1, back] at this
      exact this
    have hY1 : (1 - Y).PosSemidef := by
      -- 1 - Y = Y (Y⁻¹ - 1) with commuting factors; conjugate by a factor of Y
      obtain ⟨C, hC, hCd⟩ := exists_factor hYp
      have e : 1 - Y = 1 - Cᵀ * C := by rw [hC]
      have hCu : IsUnit C.det := isUnit_iff_ne_zero.2 hCd
      have hinvY : Y⁻¹ = C⁻¹ * (C⁻¹)ᵀ := by rw [← hC, Matrix.mul_inv_rev, Matrix.transpose_nonsing_inv]
      have h3 : (C * (Y⁻¹ - 1) * Cᵀ).PosSemidef := by
        have := conj_psd hYge Cᵀ
        rwa [transpose_transpose] at this
      have h4 : C * (Y⁻¹ - 1) * Cᵀ = 1 - C * Cᵀ := by
        rw [Matrix.mul_sub, Matrix.sub_mul, Matrix.mul_one, hinvY]
        congr 1
        calc _ = (C * C⁻¹) * ((C⁻¹)ᵀ * Cᵀ) := by simp only [Matrix.mul_assoc]
          _ = 1 := by rw [← transpose_mul, Matrix.mul_nonsing_inv _ hCu, transpose_one, Matrix.mul_one]
      rw [h4] at h3
      -- from C Cᵀ ≤ 1 to Cᵀ C ≤ 1
      have h5 : ∀ x : Vec n, (Cᵀ *ᵥ x) ⬝ᵥ (Cᵀ *ᵥ x) ≤ x ⬝ᵥ x := by
        intro x
        have := PosSemidef.quad h3 x
        rw [Matrix.sub_mulVec, Matrix.one_mulVec, dotProduct_sub, ← Matrix.mulVec_mulVec, Matrix.dotProduct_mulVec, ← Matrix.mulVec_transpose] at this
        linarith
      have h6 : ∀ x : Vec n, (C *ᵥ x) ⬝ᵥ (C *ᵥ x) ≤ x ⬝ᵥ x := by
        intro x
        have a := h5 (C *ᵥ x)
        have nn : ∀ z : Vec n, 0 ≤ z ⬝ᵥ z := fun z => Finset.sum_nonneg (fun i _ => mul_self_nonneg _)
        have b : (C *ᵥ x) ⬝ᵥ (C *ᵥ x) = (Cᵀ *ᵥ (C *ᵥ x)) ⬝ᵥ x := by
          rw [Matrix.mulVec_transpose, Matrix.dotProduct_mulVec]
        have c := nn (Cᵀ *ᵥ (C *ᵥ x) - x)
        rw [sub_dotProduct, dotProduct_sub, dotProduct_sub, ← b, dotProduct_comm x, ← b] at c
        linarith
      rw [e]
      refine Matrix.PosSemidef.of_dotProduct_mulVec_nonneg ?_ (fun x => ?_)
      · show (1 - Cᵀ * C)ᴴ = _
        rw [conjTranspose_eq_transpose_of_trivial, transpose_sub, transpose_mul, transpose_transpose, transpose_one]
      · have := h6 x
        rw [star_trivial, Matrix.sub_mulVec, Matrix.one_mulVec, dotProduct_sub, ← Matrix.mulVec_mulVec, Matrix.dotProduct_mulVec x, Matrix.vecMul_transpose]
        linarith
    have best := floorT_best hs hT hYp hY1
    have tr : ∀ A : Mat n n, (R * A * Rᵀ * T).trace = (A * S).trace := by
      intro A
      rw [hST]
      calc _ = (R * (A * Rᵀ * T)).trace := by simp only [Matrix.mul_assoc]
        _ = (A * Rᵀ * T * R).trace := Matrix.trace_mul_comm _ _
        _ = _ := by simp only [Matrix.mul_assoc]
    have dt : ∀ A : Mat n n, 0 < A.det → Real.log (R * A * Rᵀ).det = Real.log A.det + Real.log (R.det * R.det) := by
      intro A hA
      have hR0 : R.det ≠ 0 := hdR.ne_zero
      rw [Matrix.det_mul, Matrix.det_mul, Matrix.det_transpose, ← Real.log_mul hA.ne' (mul_ne_zero hR0 hR0)]
      congr 1
      ring
    have hfi : (floorT svd T)⁻¹ = R * (varfloorChol svd S R)⁻¹ * Rᵀ := by
      apply Matrix.inv_eq_left_inv
      have : floorT svd T = (R⁻¹)ᵀ * varfloorChol svd S R * R⁻¹ := by rw [hV, back]
      rw [this]
      calc _ = R * (varfloorChol svd S R)⁻¹ * (Rᵀ * (R⁻¹)ᵀ) * varfloorChol svd S R * R⁻¹ := by simp only [Matrix.mul_assoc]
        _ = R * ((varfloorChol svd S R)⁻¹ * varfloorChol svd S R) * R⁻¹ := by rw [j2, Matrix.mul_one, Matrix.mul_assoc R]
        _ = 1 := by rw [Matrix.nonsing_inv_mul _ (PosDef.det_ne kpd), Matrix.mul_one, i2]
    rw [hfi, hY, tr, tr, dt _ hX.inv.det_pos, dt _ kpd.inv.det_pos] at best
    linarith

/-- C109: flooring a covariance `S` with a minimum covariance `F` gives a positive definite matrix above both; nothing changes when `S` is above `F`; and among
all covariances above `F` it has the highest likelihood for data with covariance `S`. -/
theorem C109_varfloor (hs : IsSvd svd) (hc : IsCholesky chol) (S F : Mat n n) (hS : S.PosSemidef) (hF : F.PosDef) :
    (varfloor svd chol S F false false).PosDef ∧ (varfloor svd chol S F false false - F).PosSemidef ∧
    (varfloor svd chol S F false false - S).PosSemidef ∧ ((S - F).PosSemidef → varfloor svd chol S F false false = S) ∧
    (∀ X : Mat n n, X.PosDef → (X - F).PosSemidef →
      Real.log X⁻¹.det - (X⁻¹ * S).trace ≤
        Real.log (varfloor svd chol S F false false)⁻¹.det - ((varfloor svd chol S F false false)⁻¹ * S).trace) :=
  varfloorChol_spec hs hS hF (hc n F hF).2.2

/-- C109: the floored covariance is the same for every factor `R` of the minimum covariance (also a lower triangular one with the `lower` option), and
transforming data and floor linearly transforms the floored covariance. -/
theorem C109_equivariant (hs : IsSvd svd) (hc : IsCholesky chol) (S F A : Mat n n) (hS : S.PosSemidef) (hF : F.PosDef) (hA : A.det ≠ 0) :
    (∀ R : Mat n n, Rᵀ * R = F → varfloor svd chol S R true false = varfloor svd chol S F false false) ∧
    (∀ R : Mat n n, R * Rᵀ = F → varfloor svd chol S R true true = varfloor svd chol S F false false) ∧
    (∀ l, varfloor svd chol (Aᵀ * S * A) (Aᵀ * F * A) false l = Aᵀ * varfloor svd chol S F false false * A) := by
  have key : ∀ (S R1 R2 : Mat n n), S.PosSemidef → R1.det ≠ 0 → R1ᵀ * R1 = R2ᵀ * R2 → varfloorChol svd S R1 = varfloorChol svd S R2 := by
    intro S R1 R2 hS h1 h
    have h2 : R2.det ≠ 0 := by
      intro h0
      have := congrArg Matrix.det h
      rw [Matrix.det_mul, Matrix.det_mul, Matrix.det_transpose, h0, mul_zero] at this
      exact h1 (mul_self_eq_zero.1 this)
    have a1 : R1 * R1⁻¹ = 1 := Matrix.mul_nonsing_inv _ (isUnit_iff_ne_zero.2 h1)
    have a2 : R1⁻¹ * R1 = 1 := Matrix.nonsing_inv_mul _ (isUnit_iff_ne_zero.2 h1)
    have b1 : R2 * R2⁻¹ = 1 := Matrix.mul_nonsing_inv _ (isUnit_iff_ne_zero.2 h2)
    have b2 : R2⁻¹ * R2 = 1 := Matrix.nonsing_inv_mul _ (isUnit_iff_ne_zero.2 h2)
    obtain ⟨Q, hQ⟩ : ∃ Q, Q = R1 * R2⁻¹ := ⟨_, rfl⟩
    have hQo : Qᵀ * Q = 1 := by
      rw [hQ, transpose_mul]
      calc _ = (R2⁻¹)ᵀ * (R1ᵀ * R1) * R2⁻¹ := by simp only [Matrix.mul_assoc]
        _ = (R2 * R2⁻¹)ᵀ * (R2 * R2⁻¹) := by rw [h, transpose_mul]; simp only [Matrix.mul_assoc]
        _ = 1 := by rw [b1, transpose_one, Matrix.mul_one]
    have hQ2 := orth_comm hQo
    have e1 : R1 = Q * R2 := by rw [hQ, Matrix.mul_assoc, b2, Matrix.mul_one]
    have e2 : R1⁻¹ = R2⁻¹ * Qᵀ := by
      apply Matrix.inv_eq_right_inv
      rw [e1]
      calc _ = Q * (R2 * R2⁻¹) * Qᵀ := by simp only [Matrix.mul_assoc]
        _ = 1 := by rw [b1, Matrix.mul_one, hQ2]
    unfold varfloorChol
    have e3 : (R1⁻¹)ᵀ * S * R1⁻¹ = Q * ((R2⁻¹)ᵀ * S * R2⁻¹) * Qᵀ := by
      rw [e2, transpose_mul, transpose_transpose]
      simp only [Matrix.mul_assoc]
    rw [e3, floorT_orth hs (conj_psd hS _) hQo, e1, transpose_mul]
    calc _ = R2ᵀ * (Qᵀ * Q) * floorT svd ((R2⁻¹)ᵀ * S * R2⁻¹) * (Qᵀ * Q) * R2 := by simp only [Matrix.mul_assoc]
      _ = _ := by rw [hQo]; simp only [Matrix.mul_one, Matrix.mul_assoc]
  obtain ⟨-, -, hF2⟩ := hc n F hF
  have hcd : (chol n F).det ≠ 0 := by
    intro h0
    have := hF.det_pos
    rw [← hF2, Matrix.det_mul, h0, mul_zero] at this
    exact lt_irrefl _ this
  refine ⟨fun R hR => ?_, fun R hR => ?_, fun l => ?_⟩
  · show varfloorChol svd S R = varfloorChol svd S (chol n F)
    exact (key S _ _ hS hcd (hF2.trans hR.symm)).symm
  · show varfloorChol svd S Rᵀ = varfloorChol svd S (chol n F)
    exact (key S _ _ hS hcd (by rw [hF2, transpose_transpose, hR])).symm
  · show varfloorChol svd (Aᵀ * S * A) (chol n (Aᵀ * F * A)) = Aᵀ * varfloorChol svd S (chol n F) * A
    have hAF : (Aᵀ * F * A).PosDef := conj_pd hF (isUnit_iff_ne_zero.2 hA)
    have hh : (chol n (Aᵀ * F * A))ᵀ * chol n (Aᵀ * F * A) = (chol n F * A)ᵀ * (chol n F * A) := by
      rw [(hc n _ hAF).2.2, transpose_mul]
      conv_lhs => rw [← hF2]
      simp only [Matrix.mul_assoc]
    have hd2 : (chol n F * A).det ≠ 0 := by
      rw [Matrix.det_mul]
      exact mul_ne_zero hcd hA
    rw [← key _ _ _ (conj_psd hS A) hd2 hh.symm]
    have ai : A * A⁻¹ = 1 := Matrix.mul_nonsing_inv _ (isUnit_iff_ne_zero.2 hA)
    unfold varfloorChol
    rw [Matrix.mul_inv_rev, transpose_mul, transpose_mul]
    have e : (chol n F)⁻¹ᵀ * A⁻¹ᵀ * (Aᵀ * S * A) * (A⁻¹ * (chol n F)⁻¹) = (chol n F)⁻¹ᵀ * S * (chol n F)⁻¹ := by
      calc _ = (chol n F)⁻¹ᵀ * (A * A⁻¹)ᵀ * S * (A * A⁻¹) * (chol n F)⁻¹ := by rw [transpose_mul]; simp only [Matrix.mul_assoc]
        _ = _ := by rw [ai, transpose_one]; simp only [Matrix.mul_one]
    rw [e]
    simp only [Matrix.mul_assoc]

/-- C109: the version on Cholesky factors returns the factor of the floored covariance. -/
theorem C109_from_chol (S F cS cF : Mat n n) :
    (cSᵀ * cS = S → varfloorFromChol svd chol cS cF false = chol n (varfloor svd chol S cF true false)) ∧
    (cS * cSᵀ = S → varfloorFromChol svd chol cS cF true = (chol n (varfloor svd chol S cF true true))ᵀ) := by
  constructor
  · rintro rfl
    unfold varfloorFromChol varfloor varfloorChol
    simp only [Bool.false_eq_true, if_false, if_true, transpose_mul, Matrix.mul_assoc]
  · rintro rfl
    unfold varfloorFromChol varfloor varfloorChol
    simp only [if_true, transpose_mul, transpose_transpose, Matrix.mul_assoc]

/-- C109: a number `f` as floor stands for the minimum covariance `f` times the identity; on factors for `f` squared. -/
theorem C109_scalar (hs : IsSvd svd) (hc : IsCholesky chol) (S : Mat n n) (hS : S.PosSemidef) (f : ℝ) (hf : 0 < f) :
    varfloorScalar svd S f = varfloor svd chol S (f • (1 : Mat n n)) false false ∧
    (∀ cS : Mat n n, cSᵀ * cS = S → varfloorFromCholScalar svd chol cS f false = chol n (varfloorScalar svd S (f ^ 2))) ∧
    (∀ cS : Mat n n, cS * cSᵀ = S → varfloorFromCholScalar svd chol cS f true = (chol n (varfloorScalar svd S (f ^ 2)))ᵀ) := by
  have hF : (f • (1 : Mat n n)).PosDef := Matrix.PosDef.one.smul hf
  have hR : (Real.sqrt f • (1 : Mat n n))ᵀ * (Real.sqrt f • (1 : Mat n n)) = f • (1 : Mat n n) := by
    rw [transpose_smul, transpose_one, Matrix.smul_mul, Matrix.one_mul, smul_smul, Real.mul_self_sqrt hf.le]
  have hsf : Real.sqrt f ≠ 0 := (Real.sqrt_pos.2 hf).ne'
  refine ⟨?_, ?_, ?_⟩
  · rw [← (C109_equivariant hs hc S (f • 1) 1 hS hF (by simp)).1 _ hR]
    show _ = varfloorChol svd S _
    unfold varfloorScalar varfloorChol
    have hi : (Real.sqrt f • (1 : Mat n n))⁻¹ = (Real.sqrt f)⁻¹ • (1 : Mat n n) := by
      apply Matrix.inv_eq_right_inv
      rw [Matrix.smul_mul, Matrix.one_mul, smul_smul, mul_inv_cancel₀ hsf, one_smul]
    rw [hi]
    have e : ((Real.sqrt f)⁻¹ • (1 : Mat n n))ᵀ * S * ((Real.sqrt f)⁻¹ • (1 : Mat n n)) = (1 / f) • S := by
      rw [transpose_smul, transpose_one, Matrix.smul_mul, Matrix.one_mul, Matrix.mul_smul, Matrix.mul_one, smul_smul, ← mul_inv,
        Real.mul_self_sqrt hf.le, one_div]
    rw [e, transpose_smul, transpose_one, Matrix.smul_mul, Matrix.one_mul, Matrix.mul_smul, Matrix.mul_one, smul_smul, Real.mul_self_sqrt hf.le]
  · rintro cS rfl
    unfold varfloorFromCholScalar varfloorScalar
    simp only [Bool.false_eq_true, if_false, transpose_smul, Matrix.smul_mul, Matrix.mul_smul, smul_smul]
    congr 4
    field_simp
  · rintro cS rfl
    unfold varfloorFromCholScalar varfloorScalar
    simp only [if_true, transpose_smul, transpose_transpose, Matrix.smul_mul, Matrix.mul_smul, smul_smul]
    congr 5
    field_simp

/-- non-vacuity: the libraries exist, and a covariance with one small variance changes -/
example : ∃ svd chol, IsSvd svd ∧ IsCholesky chol ∧ ∃ S F : Mat 2 2, S.PosSemidef ∧ F.PosDef ∧ ¬ (S - F).PosSemidef := by
  obtain ⟨svd, hs⟩ := exists_isSvd
  obtain ⟨chol, hc⟩ := exists_isCholesky
  refine ⟨svd, chol, hs, hc, 0, 1, Matrix.PosSemidef.zero, Matrix.PosDef.one, fun h => ?_⟩
  have := h.diag_nonneg (i := 0)
  norm_num at this

end Hyp.FullCov
