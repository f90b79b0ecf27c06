import Verif.Plda.Neg
import Mathlib.Topology.Algebra.Monoid
import Mathlib.Algebra.Order.BigOperators.Group.List

namespace Hyp.Plda
open scoped BigOperators
open Matrix MeasureTheory

variable {k l n : Nat} {chol : (n : Nat) → Mat n n → Mat n n}

/-! ### the variational bound, for any Gaussian posterior guess -/

/-- expected log prior (twice, without constants) -/
noncomputable def qPrior (m : Vec k) (B : Mat k k) (y : Vec k) (S : Mat k k) : ℝ :=
  Real.log B.det - (B * S).trace - (y - m) ⬝ᵥ (B *ᵥ (y - m))

/-- expected log likelihood of the vectors of one speaker (twice) -/
noncomputable def qData (mu : Vec n) (V : Mat k n) (W : Mat n n) (X : List (Vec n)) (y : Vec k) (S : Mat k k) : ℝ :=
  2 * baseLog mu W X - X.length * (V * W * Vᵀ * S).trace + 2 * (y ⬝ᵥ ((V * W) *ᵥ (X.map (fun x => x - mu)).sum)) -
    X.length * (y ⬝ᵥ ((V * W * Vᵀ) *ᵥ y))

theorem q_eq {B : Mat k k} {W : Mat n n} (hB : B.PosDef) (m : Vec k) (mu : Vec n) (V : Mat k n) (X : List (Vec n)) (y : Vec k)
    (S : Mat k k) (L : Mat k k) (hL : L = postPrec B V W X.length) (g : Vec k) (hg : g = postLin m B V W (X.map (fun x => x - mu)).sum) :
    qPrior m B y S + qData mu V W X y S = 2 * baseLog mu W X + Real.log B.det - (L * S).trace + 2 * (y ⬝ᵥ g) - y ⬝ᵥ (L *ᵥ y) -
      m ⬝ᵥ (B *ᵥ m) := by
  unfold qPrior qData
  rw [hL, hg]
  unfold postPrec postLin
  rw [Matrix.add_mul, Matrix.trace_add, Matrix.smul_mul, Matrix.trace_smul, smul_eq_mul, Matrix.add_mulVec, dotProduct_add, dotProduct_add,
    Matrix.smul_mulVec, dotProduct_smul, smul_eq_mul, Matrix.mulVec_sub, sub_dotProduct, dotProduct_sub, dotProduct_sub, symm_dot (PosDef.symm hB) m y]
  ring

/-- the bound holds for every positive definite covariance and every mean -/
theorem var_bound {B : Mat k k} {W : Mat n n} (hB : B.PosDef) (hW : W.PosDef) (m : Vec k) (mu : Vec n) (V : Mat k n) (X : List (Vec n))
    (y : Vec k) (S : Mat k k) (hS : S.PosDef) :
    1 / 2 * (qPrior m B y S + qData mu V W X y S + Real.log S.det + k) ≤ Real.log (evidence m B mu V W X) := by
  have hL := postPrec_pos hB hW V (N := (X.length : ℝ)) (Nat.cast_nonneg _)
  rw [(log_evidence hB hW m mu V X _ rfl).2, q_eq hB m mu V X y S _ rfl _ rfl]
  have q := quad_bound hL (postLin m B V W (X.map (fun x => x - mu)).sum) y
  have kl := kl_det hL hS.inv
  rw [Matrix.nonsing_inv_nonsing_inv _ (PosDef.det_ne hS), Matrix.det_nonsing_inv, Ring.inverse_eq_inv', Real.log_inv] at kl
  linarith

/-- and is tight at the posterior -/
theorem var_tight {B : Mat k k} {W : Mat n n} (hB : B.PosDef) (hW : W.PosDef) (m : Vec k) (mu : Vec n) (V : Mat k n) (X : List (Vec n))
    (y : Vec k) (S : Mat k k) (hS : S = (postPrec B V W X.length)⁻¹) (hy : y = S *ᵥ postLin m B V W (X.map (fun x => x - mu)).sum) :
    1 / 2 * (qPrior m B y S + qData mu V W X y S + Real.log S.det + k) = Real.log (evidence m B mu V W X) := by
  have hL := postPrec_pos hB hW V (N := (X.length : ℝ)) (Nat.cast_nonneg _)
  rw [(log_evidence hB hW m mu V X _ rfl).2, q_eq hB m mu V X y S _ rfl _ rfl]
  have h1 : postPrec B V W X.length *ᵥ y = postLin m B V W (X.map (fun x => x - mu)).sum := by rw [hy, hS, inv_solve hL]
  rw [h1, ← hS, ← hy, dotProduct_comm y, hS, Matrix.mul_nonsing_inv _ (PosDef.det_ne hL), Matrix.trace_one, Fintype.card_fin, Matrix.det_nonsing_inv,
    Ring.inverse_eq_inv', Real.log_inv]
  ring

/-! ### sums over the classes -/

/-- `T(V, mu)`: second moment of the residuals, in terms of the accumulated statistics -/
noncomputable def resid (V : Mat k n) (mu : Vec n) (a : SPAcc k n) : Mat n n :=
  let Vt := augV V mu
  a.S - augC a.Cy a.F * Vt - (augC a.Cy a.F * Vt)ᵀ + Vtᵀ * augR a.Ry a.Ry1 a.N * Vt

theorem augV_cast (V : Mat k n) (mu : Vec n) (i : Fin k) (j : Fin n) : augV V mu i.castSucc j = V i j := by
  exact congrFun (Fin.snoc_castSucc (α := fun _ => Vec n) mu (fun a => V a) i) j

theorem augV_last (V : Mat k n) (mu : Vec n) (j : Fin n) : augV V mu (Fin.last k) j = mu j := by
  exact congrFun (Fin.snoc_last (α := fun _ => Vec n) mu (fun a => V a)) j

theorem augC_augV (C : Mat n k) (F : Vec n) (V : Mat k n) (mu : Vec n) : augC C F * augV V mu = C * V + Matrix.vecMulVec F mu := by
  ext i j
  rw [Matrix.mul_apply, Fin.sum_univ_castSucc, Matrix.add_apply, Matrix.mul_apply, Matrix.vecMulVec_apply]
  simp [augC, augV_cast, augV_last]

theorem augR_augV (R : Mat k k) (r : Vec k) (N : ℝ) (V : Mat k n) (mu : Vec n) :
    augR R r N * augV V mu = augV (R * V + Matrix.vecMulVec r mu) (r ᵥ* V + N • mu) := by
  ext i j
  rw [Matrix.mul_apply, Fin.sum_univ_castSucc]
  refine Fin.lastCases ?_ (fun i => ?_) i
  · rw [augV_last]; simp [augR, augV_cast, augV_last, Matrix.vecMul, dotProduct]
  · rw [augV_cast]; simp [augR, augV_cast, augV_last, Matrix.mul_apply, Matrix.vecMulVec_apply]

theorem augV_trans_mul (V : Mat k n) (mu : Vec n) (V' : Mat k n) (mu' : Vec n) : (augV V mu)ᵀ * augV V' mu' = Vᵀ * V' + Matrix.vecMulVec mu mu' := by
  ext i j
  rw [Matrix.mul_apply, Fin.sum_univ_castSucc, Matrix.add_apply, Matrix.mul_apply, Matrix.vecMulVec_apply]
  simp [augV_cast, augV_last]

theorem resid_eq (V : Mat k n) (mu : Vec n) (a : SPAcc k n) : resid V mu a =
    a.S - (a.Cy * V + Matrix.vecMulVec a.F mu) - (a.Cy * V + Matrix.vecMulVec a.F mu)ᵀ +
      (Vᵀ * (a.Ry * V) + Vᵀ * Matrix.vecMulVec a.Ry1 mu + Matrix.vecMulVec mu (a.Ry1 ᵥ* V) + a.N • Matrix.vecMulVec mu mu) := by
  unfold resid
  simp only []
  rw [augC_augV, Matrix.mul_assoc, augR_augV, augV_trans_mul, Matrix.mul_add, Matrix.vecMulVec_add, Matrix.vecMulVec_smul]
  congr 1
  abel

theorem trace_list {α : Type} (W : Mat n n) (L : List α) (f : α → Mat n n) : (W * (L.map f).sum).trace = (L.map (fun c => (W * f c).trace)).sum := by
  induction L with
  | nil => simp
  | cons x L ih => simp only [List.map_cons, List.sum_cons, Matrix.mul_add, Matrix.trace_add, ih]

theorem trace_vmv_left (W : Mat n n) (u v : Vec n) : (W * Matrix.vecMulVec u v).trace = v ⬝ᵥ (W *ᵥ u) := trace_outer W u v

/-- one class of the data term -/
theorem qData_eq {W : Mat n n} (hW : W.PosDef) (mu : Vec n) (V : Mat k n) (X : List (Vec n)) (y : Vec k) (S : Mat k k) :
    qData mu V W X y S = X.length * (Real.log W.det - n * Real.log (2 * Real.pi)) -
      ((W * (X.map (fun x => Matrix.vecMulVec x x)).sum).trace - 2 * (W * (Matrix.vecMulVec X.sum y * V)).trace - 2 * (W * Matrix.vecMulVec X.sum mu).trace +
        X.length * ((W * (Vᵀ * (S * V))).trace + (W * (Vᵀ * (Matrix.vecMulVec y y * V))).trace + 2 * (W * (Vᵀ * Matrix.vecMulVec y mu)).trace +
          (W * Matrix.vecMulVec mu mu).trace)) := by
  have hWs := PosDef.symm hW
  have hs := Real.sqrt_pos.mpr hW.det_pos
  have hpi : 0 < Real.sqrt (2 * Real.pi) := Real.sqrt_pos.mpr (by positivity)
  have hX : ∀ X : List (Vec n), (X.map (fun x => x - mu)).sum = X.sum - (X.length : ℝ) • mu := by
    intro X
    induction X with
    | nil => simp
    | cons x X ih =>
      simp only [List.map_cons, List.sum_cons, ih, List.length_cons]
      push_cast
      rw [add_smul, one_smul]
      abel
  have hq : ∀ X : List (Vec n), (X.map (fun x => (x - mu) ⬝ᵥ (W *ᵥ (x - mu)))).sum = (W * (X.map (fun x => Matrix.vecMulVec x x)).sum).trace -
      2 * (mu ⬝ᵥ (W *ᵥ X.sum)) + X.length * (mu ⬝ᵥ (W *ᵥ mu)) := by
    intro X
    induction X with
    | nil => simp
    | cons x X ih =>
      simp only [List.map_cons, List.sum_cons, ih, List.length_cons, Matrix.mul_add, Matrix.trace_add, trace_outer, Matrix.mulVec_add, dotProduct_add]
      rw [Matrix.mulVec_sub, sub_dotProduct, dotProduct_sub, dotProduct_sub, symm_dot hWs x mu]
      push_cast
      ring
  have t1 : (W * (Matrix.vecMulVec X.sum y * V)).trace = y ⬝ᵥ ((V * W) *ᵥ X.sum) := by
    rw [Matrix.vecMulVec_mul, trace_outer, ← Matrix.mulVec_mulVec, Matrix.dotProduct_mulVec y]
  have t2 : (W * (Vᵀ * (S * V))).trace = (V * W * Vᵀ * S).trace := by
    rw [← Matrix.mul_assoc, ← Matrix.mul_assoc, Matrix.trace_mul_comm, ← Matrix.mul_assoc, ← Matrix.mul_assoc]
  have t3 : (W * (Vᵀ * (Matrix.vecMulVec y y * V))).trace = y ⬝ᵥ ((V * W * Vᵀ) *ᵥ y) := by
    rw [Matrix.vecMulVec_mul, Matrix.mul_vecMulVec, trace_outer, Matrix.mul_assoc V, ← Matrix.mulVec_mulVec, ← Matrix.mulVec_mulVec, Matrix.dotProduct_mulVec y]
  have t4 : (W * (Vᵀ * Matrix.vecMulVec y mu)).trace = y ⬝ᵥ ((V * W) *ᵥ mu) := by
    rw [Matrix.mul_vecMulVec, trace_outer, Matrix.mulVec_transpose, symm_dot hWs, ← Matrix.dotProduct_mulVec, Matrix.mulVec_mulVec]
  rw [t1, t2, t3, t4, trace_outer, trace_outer]
  unfold qData baseLog
  rw [hX, hq, Real.log_div hs.ne' (pow_pos hpi n).ne', Real.log_pow, Real.log_sqrt hW.det_pos.le, Real.log_sqrt (by positivity), Matrix.mulVec_sub,
    dotProduct_sub, Matrix.mulVec_smul, dotProduct_smul, smul_eq_mul]
  ring

/-- the data term, summed over a list of classes -/
theorem qData_sum_gen {W : Mat n n} (hW : W.PosDef) (mu : Vec n) (V : Mat k n) (X : Nat → List (Vec n)) (y : Nat → Vec k) (S : Nat → Mat k k)
    (cs : List Nat) :
    (cs.map (fun c => qData mu V W (X c) (y c) (S c))).sum =
      (cs.map (fun c => ((X c).length : ℝ))).sum * (Real.log W.det - n * Real.log (2 * Real.pi)) -
      ((cs.map (fun c => (W * ((X c).map (fun x => Matrix.vecMulVec x x)).sum).trace)).sum -
        2 * (W * ((cs.map (fun c => Matrix.vecMulVec (X c).sum (y c))).sum * V)).trace -
        2 * (W * Matrix.vecMulVec (cs.map (fun c => (X c).sum)).sum mu).trace +
        ((W * (Vᵀ * (((cs.map (fun c => ((X c).length : ℝ) • S c)).sum + (cs.map (fun c => ((X c).length : ℝ) • Matrix.vecMulVec (y c) (y c))).sum) * V))).trace +
          2 * (W * (Vᵀ * Matrix.vecMulVec (cs.map (fun c => ((X c).length : ℝ) • y c)).sum mu)).trace +
          (cs.map (fun c => ((X c).length : ℝ))).sum * (W * Matrix.vecMulVec mu mu).trace)) := by
  induction cs with
  | nil => simp
  | cons c cs ih =>
    rw [List.map_cons, List.sum_cons, ih, qData_eq hW]
    simp only [List.map_cons, List.sum_cons]
    simp only [Matrix.add_mul, Matrix.mul_add, Matrix.trace_add, Matrix.add_vecMulVec, Matrix.smul_vecMulVec, Matrix.smul_mul, Matrix.mul_smul,
      Matrix.trace_smul, smul_eq_mul]
    ring

theorem trace_symm {W : Mat n n} (hW : W.PosDef) (A : Mat n n) : (W * Aᵀ).trace = (W * A).trace := by
  rw [← Matrix.trace_transpose, Matrix.transpose_mul, Matrix.transpose_transpose, PosDef.symm hW, Matrix.trace_mul_comm]

theorem trace_resid {W : Mat n n} (hW : W.PosDef) (mu : Vec n) (V : Mat k n) (a : SPAcc k n) : (W * resid V mu a).trace =
    (W * a.S).trace - 2 * (W * (a.Cy * V)).trace - 2 * (W * Matrix.vecMulVec a.F mu).trace +
      ((W * (Vᵀ * (a.Ry * V))).trace + 2 * (W * (Vᵀ * Matrix.vecMulVec a.Ry1 mu)).trace + a.N * (W * Matrix.vecMulVec mu mu).trace) := by
  have e : (W * Matrix.vecMulVec mu (a.Ry1 ᵥ* V)).trace = (W * (Vᵀ * Matrix.vecMulVec a.Ry1 mu)).trace := by
    rw [← trace_symm hW, Matrix.transpose_vecMulVec, Matrix.mul_vecMulVec Vᵀ, Matrix.mulVec_transpose]
  rw [resid_eq, Matrix.mul_add, Matrix.mul_sub, Matrix.mul_sub, Matrix.trace_add, Matrix.trace_sub, Matrix.trace_sub, trace_symm hW]
  simp only [Matrix.mul_add, Matrix.trace_add, Matrix.mul_smul, Matrix.trace_smul, smul_eq_mul, e]
  ring

/-- expected log likelihood of all data (twice, without a constant) -/
noncomputable def dataQ (V : Mat k n) (mu : Vec n) (W : Mat n n) (a : SPAcc k n) : ℝ := a.N * Real.log W.det - (W * resid V mu a).trace

theorem qData_sum {W : Mat n n} (hW : W.PosDef) (mu : Vec n) (V : Mat k n) (rows : List (Vec n × Nat)) (D : Stats n) (h : statsHard rows = some D)
    (post : ℝ → Vec n → Vec k × Mat k k × ℝ) :
    ((List.range D.M).map (fun c => qData mu V W (classVecs rows c) (post (D.N c) (D.F c)).1 (post (D.N c) (D.F c)).2.1)).sum =
      dataQ V mu W (accOf post D) - (accOf post D).N * (n * Real.log (2 * Real.pi)) := by
  obtain ⟨hN, hF, hM, hS⟩ := statsHard_some h
  rw [qData_sum_gen hW]
  unfold dataQ
  rw [trace_resid hW]
  have e1 : ((List.range D.M).map (fun c => (W * ((classVecs rows c).map (fun x => Matrix.vecMulVec x x)).sum).trace)).sum = (W * D.S).trace := by
    simp only [trace_list]
    rw [sum_classes rows D.M (fun x => (W * Matrix.vecMulVec x x).trace) hM, hS, trace_list]
  rw [e1]
  unfold accOf
  simp only [← hN, ← hF]
  ring

/-! ### the maximisation steps -/

theorem trace_psd {W A : Mat n n} (hW : W.PosDef) (hA : A.PosSemidef) : 0 ≤ (W * A).trace := by
  obtain ⟨R, hR, -⟩ := exists_factor hW
  have h := hA.mul_mul_conjTranspose_same R
  rw [conjTranspose_eq_transpose_of_trivial] at h
  have := h.trace_nonneg
  rwa [← hR, Matrix.mul_assoc, Matrix.trace_mul_comm]

/-- least squares: the solution of the normal equations is best for every weighting -/
theorem lsq {m : Nat} {W : Mat n n} (hW : W.PosDef) (S : Mat n n) (C : Mat n m) {R : Mat m m} (hR : R.PosDef) (Z Z' : Mat m n) (hZ : R * Z' = Cᵀ) :
    (W * (S - C * Z' - (C * Z')ᵀ + Z'ᵀ * R * Z')).trace ≤ (W * (S - C * Z - (C * Z)ᵀ + Zᵀ * R * Z)).trace := by
  have hRs := PosDef.symm hR
  have hC : C = Z'ᵀ * R := by
    have := congrArg Matrix.transpose hZ
    rw [Matrix.transpose_mul, Matrix.transpose_transpose, hRs] at this
    exact this.symm
  have e : S - C * Z - (C * Z)ᵀ + Zᵀ * R * Z = (S - C * Z' - (C * Z')ᵀ + Z'ᵀ * R * Z') + (Z - Z')ᵀ * R * (Z - Z') := by
    rw [hC]
    simp only [Matrix.transpose_mul, Matrix.transpose_transpose, hRs, Matrix.transpose_sub, Matrix.sub_mul, Matrix.mul_sub, Matrix.mul_assoc]
    abel
  rw [e, Matrix.mul_add W (S - C * Z' - (C * Z')ᵀ + Z'ᵀ * R * Z') ((Z - Z')ᵀ * R * (Z - Z')), Matrix.trace_add]
  have hp : ((Z - Z')ᵀ * R * (Z - Z')).PosSemidef := by
    have := hR.posSemidef.conjTranspose_mul_mul_same (Z - Z')
    rwa [conjTranspose_eq_transpose_of_trivial] at this
  have := trace_psd hW hp
  linarith

theorem pdLeft_eq {m : Nat} (hc : IsCholesky chol) {A : Mat m m} (hA : A.PosDef) (X : Mat m n) : pdLeft chol A X = A⁻¹ * X := by
  unfold pdLeft
  rw [← Matrix.mul_assoc]
  have := pdInv_eq hc hA
  unfold pdInv at this
  rw [this]

/-- quadratic form of the augmented second moment -/
theorem augR_quad (R : Mat k k) (r : Vec k) (N : ℝ) (x : Vec (k + 1)) : x ⬝ᵥ (augR R r N *ᵥ x) =
    (fun i : Fin k => x i.castSucc) ⬝ᵥ (R *ᵥ (fun i : Fin k => x i.castSucc)) + 2 * x (Fin.last k) * (r ⬝ᵥ (fun i : Fin k => x i.castSucc)) +
      N * x (Fin.last k) ^ 2 := by
  have h1 : ∀ i : Fin k, (augR R r N *ᵥ x) i.castSucc = (R *ᵥ (fun i : Fin k => x i.castSucc)) i + r i * x (Fin.last k) := by
    intro i
    rw [Matrix.mulVec, dotProduct, Fin.sum_univ_castSucc]
    simp [augR, Matrix.mulVec, dotProduct]
  have h2 : (augR R r N *ᵥ x) (Fin.last k) = r ⬝ᵥ (fun i : Fin k => x i.castSucc) + N * x (Fin.last k) := by
    rw [Matrix.mulVec, dotProduct, Fin.sum_univ_castSucc]
    simp [augR, dotProduct]
  have e : x ⬝ᵥ (augR R r N *ᵥ x) = ∑ i : Fin k, x i.castSucc * (augR R r N *ᵥ x) i.castSucc + x (Fin.last k) * (augR R r N *ᵥ x) (Fin.last k) := by
    rw [dotProduct, Fin.sum_univ_castSucc]
  rw [e, h2]
  simp only [h1, mul_add, Finset.sum_add_distrib]
  unfold dotProduct
  have : ∑ i : Fin k, x i.castSucc * (r i * x (Fin.last k)) = x (Fin.last k) * ∑ i : Fin k, r i * x i.castSucc := by
    rw [Finset.mul_sum]
    exact Finset.sum_congr rfl (fun i _ => by ring)
  rw [this]
  ring

theorem smul_psd_sum {m : Nat} (cs : List Nat) (N : Nat → ℝ) (hN : ∀ c, 0 ≤ N c) (S : Nat → Mat m m) (hS : ∀ c, (S c).PosSemidef) :
    ((cs.map (fun c => N c • S c)).sum).PosSemidef := by
  induction cs with
  | nil => exact Matrix.PosSemidef.zero
  | cons c cs ih =>
    rw [List.map_cons, List.sum_cons]
    exact ((hS c).smul (hN c)).add ih

theorem smul_pd_sum {m : Nat} (cs : List Nat) (N : Nat → ℝ) (hN : ∀ c, 0 ≤ N c) (S : Nat → Mat m m) (hS : ∀ c, (S c).PosDef)
    (hp : 0 < (cs.map N).sum) : ((cs.map (fun c => N c • S c)).sum).PosDef := by
  induction cs with
  | nil => simp at hp
  | cons c cs ih =>
    rw [List.map_cons, List.sum_cons] at hp ⊢
    rcases (hN c).lt_or_eq with h | h
    · exact ((hS c).smul h).add_posSemidef (smul_psd_sum cs N hN S (fun c => (hS c).posSemidef))
    · rw [← h, zero_smul, zero_add]
      rw [← h, zero_add] at hp
      exact ih hp

theorem vmv_psd (u : Vec k) : (Matrix.vecMulVec u u).PosSemidef := by
  have := Matrix.posSemidef_vecMulVec_self_star u
  rwa [star_trivial] at this

theorem vmv_quad (u x : Vec k) : x ⬝ᵥ (Matrix.vecMulVec u u *ᵥ x) = (u ⬝ᵥ x) ^ 2 := by
  have : Matrix.vecMulVec u u *ᵥ x = (u ⬝ᵥ x) • u := by
    ext i
    rw [Matrix.mulVec, dotProduct, Pi.smul_apply, smul_eq_mul, dotProduct, Finset.sum_mul]
    exact Finset.sum_congr rfl (fun j _ => by rw [Matrix.vecMulVec_apply]; ring)
  rw [this, dotProduct_smul, smul_eq_mul, dotProduct_comm x u, sq]

theorem augR_quad_sum (cs : List Nat) (N : Nat → ℝ) (S : Nat → Mat k k) (y : Nat → Vec k) (x : Vec (k + 1)) :
    x ⬝ᵥ (augR ((cs.map (fun c => N c • S c)).sum + (cs.map (fun c => N c • Matrix.vecMulVec (y c) (y c))).sum) (cs.map (fun c => N c • y c)).sum (cs.map N).sum *ᵥ x) =
      (cs.map (fun c => N c * ((fun i : Fin k => x i.castSucc) ⬝ᵥ (S c *ᵥ (fun i : Fin k => x i.castSucc)) +
        (y c ⬝ᵥ (fun i : Fin k => x i.castSucc) + x (Fin.last k)) ^ 2))).sum := by
  rw [augR_quad]
  generalize (fun i : Fin k => x i.castSucc) = u
  generalize x (Fin.last k) = t
  induction cs with
  | nil => simp
  | cons c cs ih =>
    simp only [List.map_cons, List.sum_cons, ← ih]
    simp only [Matrix.add_mulVec, dotProduct_add, add_dotProduct, Matrix.smul_mulVec, dotProduct_smul, smul_dotProduct, smul_eq_mul, vmv_quad]
    ring

theorem augR_pos (cs : List Nat) (N : Nat → ℝ) (hN : ∀ c, 0 ≤ N c) (S : Nat → Mat k k) (hS : ∀ c, (S c).PosDef) (y : Nat → Vec k)
    (hp : 0 < (cs.map N).sum) :
    (augR ((cs.map (fun c => N c • S c)).sum + (cs.map (fun c => N c • Matrix.vecMulVec (y c) (y c))).sum) (cs.map (fun c => N c • y c)).sum (cs.map N).sum).PosDef := by
  have hRs : ((cs.map (fun c => N c • S c)).sum + (cs.map (fun c => N c • Matrix.vecMulVec (y c) (y c))).sum)ᵀ =
      (cs.map (fun c => N c • S c)).sum + (cs.map (fun c => N c • Matrix.vecMulVec (y c) (y c))).sum :=
    PosSemidef.symm ((smul_psd_sum cs N hN S (fun c => (hS c).posSemidef)).add (smul_psd_sum cs N hN _ (fun c => vmv_psd (y c))))
  have hquad := augR_quad_sum cs N S y
  apply Matrix.PosDef.of_dotProduct_mulVec_pos
  · rw [IsHermitian, conjTranspose_eq_transpose_of_trivial]
    generalize (cs.map (fun c => N c • S c)).sum + (cs.map (fun c => N c • Matrix.vecMulVec (y c) (y c))).sum = R at hRs
    ext i j
    rw [Matrix.transpose_apply]
    refine Fin.lastCases ?_ (fun i => ?_) i <;> refine Fin.lastCases ?_ (fun j => ?_) j
    · rfl
    · simp [augR]
    · simp [augR]
    · have := congrFun (congrFun hRs i) j
      rw [Matrix.transpose_apply] at this
      simp [augR, this]
  · intro x hx
    rw [star_trivial, hquad]
    set u : Vec k := fun i => x i.castSucc with hu
    have hterm : ∀ c, 0 ≤ N c * (u ⬝ᵥ (S c *ᵥ u) + (y c ⬝ᵥ u + x (Fin.last k)) ^ 2) := by
      intro c
      exact mul_nonneg (hN c) (add_nonneg (PosSemidef.quad (hS c).posSemidef u) (sq_nonneg _))
    have hposc : ∀ c, 0 < u ⬝ᵥ (S c *ᵥ u) + (y c ⬝ᵥ u + x (Fin.last k)) ^ 2 := by
      intro c
      by_cases h0 : u = 0
      · have hl : x (Fin.last k) ≠ 0 := by
          intro hl
          apply hx
          ext i
          refine Fin.lastCases ?_ (fun i => ?_) i
          · exact hl
          · exact congrFun h0 i
        rw [h0, zero_dotProduct, dotProduct_zero, zero_add, zero_add]
        positivity
      · exact add_pos_of_pos_of_nonneg (PosDef.quad (hS c) u h0) (sq_nonneg _)
    clear hquad hRs hx
    induction cs with
    | nil => simp at hp
    | cons c cs ih =>
      rw [List.map_cons, List.sum_cons] at hp ⊢
      have hnn : ∀ cs' : List Nat, 0 ≤ (cs'.map (fun c => N c * (u ⬝ᵥ (S c *ᵥ u) + (y c ⬝ᵥ u + x (Fin.last k)) ^ 2))).sum := by
        intro cs'
        apply List.sum_nonneg
        intro v hv
        obtain ⟨c, -, rfl⟩ := List.mem_map.mp hv
        exact hterm c
      rcases (hN c).lt_or_eq with h | h
      · exact add_pos_of_pos_of_nonneg (mul_pos h (hposc c)) (hnn cs)
      · rw [← h, zero_add] at hp
        exact add_pos_of_nonneg_of_pos (hterm c) (ih hp)

end Hyp.Plda
