import Verif.FullCov.Model
import Mathlib.LinearAlgebra.Matrix.ToLinearEquiv

/-! Property C110: full-covariance Gaussians. The density is `Hyp.Plda.gaussPdf` of Plda/Spec.lean. -/

namespace Hyp.FullCov
open scoped BigOperators
open Matrix Hyp.Plda Hyp.MathUtils

variable {d : Nat} {svd : (n : Nat) → Mat n n → Mat n n × Vec n} {chol : (n : Nat) → Mat n n → Mat n n}

/-! ### packing -/

theorem vec2sym_symm (f : ℝ) (v : Up d → ℝ) : (vec2sym f v)ᵀ = vec2sym f v := by
  ext i j
  simp only [Matrix.transpose_apply, vec2sym, Matrix.of_apply]
  rcases lt_trichotomy i j with h | h | h
  · rw [dif_neg (not_le.2 h), dif_pos h.le, if_neg h.ne]
  · subst h
    rfl
  · rw [dif_pos h.le, dif_neg (not_le.2 h), if_neg h.ne]

theorem vec2sym_sym2vec {f g : ℝ} (hfg : g * f = 1) {A : Mat d d} (hA : Aᵀ = A) : vec2sym g (sym2vec f A) = A := by
  ext i j
  simp only [vec2sym, sym2vec, Matrix.of_apply]
  rcases lt_trichotomy i j with h | h | h
  · rw [dif_pos h.le, if_neg h.ne, if_neg h.ne]
  · subst h
    rw [dif_pos le_rfl, if_pos rfl, if_pos rfl, ← mul_assoc, hfg, one_mul]
  · rw [dif_neg (not_le.2 h), if_neg h.ne]
    calc A j i = Aᵀ i j := rfl
      _ = A i j := by rw [hA]

theorem sym2vec_vec2sym {f g : ℝ} (hfg : f * g = 1) (v : Up d → ℝ) : sym2vec f (vec2sym g v) = v := by
  funext ⟨⟨i, j⟩, h⟩
  simp only [vec2sym, sym2vec, Matrix.of_apply]
  rw [dif_pos h]
  by_cases e : i = j
  · rw [if_pos e, if_pos e, ← mul_assoc, hfg, one_mul]
  · rw [if_neg e, if_neg e]

/-- a sum over the upper triangle, with the diagonal halved, is half of the sum over all positions -/
theorem sum_up (f : Fin d → Fin d → ℝ) (hf : ∀ i j, f i j = f j i) :
    ∑ p : Up d, (if p.1.1 = p.1.2 then 1 / 2 * f p.1.1 p.1.2 else f p.1.1 p.1.2) = 1 / 2 * ∑ i, ∑ j, f i j := by
  have e1 : ∑ p : Up d, (if p.1.1 = p.1.2 then 1 / 2 * f p.1.1 p.1.2 else f p.1.1 p.1.2) =
      ∑ i, ∑ j, (if i ≤ j then (if i = j then 1 / 2 * f i j else f i j) else 0) := by
    rw [← Finset.sum_product', ← Finset.sum_filter]
    rw [← Finset.sum_subtype (p := fun p : Fin d × Fin d => p.1 ≤ p.2) (Finset.univ.filter (fun p : Fin d × Fin d => p.1 ≤ p.2))
      (by simp) (fun p => if p.1 = p.2 then 1 / 2 * f p.1 p.2 else f p.1 p.2)]
    rfl
  have e2 : ∑ i, ∑ j, (if i ≤ j then (if i = j then 1 / 2 * f i j else f i j) else 0) =
      ∑ i, ∑ j, (if j ≤ i then (if j = i then 1 / 2 * f i j else f i j) else 0) := by
    rw [Finset.sum_comm]
    refine Finset.sum_congr rfl (fun i _ => Finset.sum_congr rfl (fun j _ => ?_))
    rw [hf j i]
  have e3 : (∑ i, ∑ j, (if i ≤ j then (if i = j then 1 / 2 * f i j else f i j) else 0)) +
      (∑ i, ∑ j, (if j ≤ i then (if j = i then 1 / 2 * f i j else f i j) else 0)) = ∑ i, ∑ j, f i j := by
    rw [← Finset.sum_add_distrib]
    refine Finset.sum_congr rfl (fun i _ => ?_)
    rw [← Finset.sum_add_distrib]
    refine Finset.sum_congr rfl (fun j _ => ?_)
    rcases lt_trichotomy i j with h | h | h
    · rw [if_pos h.le, if_neg h.ne, if_neg (not_le.2 h), add_zero]
    · subst h
      simp only [le_refl, if_true]
      ring
    · rw [if_neg (not_le.2 h), if_pos h.le, if_neg h.ne, zero_add]
  rw [e1]
  linarith [e2, e3]

/-- the quadratic form over the upper triangle -/
theorem quad_up {A B : Mat d d} (hA : Aᵀ = A) (hB : Bᵀ = B) : ∑ p : Up d, A p.1.1 p.1.2 * sym2vec (1 / 2) B p = 1 / 2 * ∑ i, ∑ j, A i j * B i j := by
  rw [← sum_up (fun i j => A i j * B i j) (fun i j => by
    have ha : A i j = A j i := congrFun (congrFun hA j) i
    have hb : B i j = B j i := congrFun (congrFun hB j) i
    rw [ha, hb])]
  refine Finset.sum_congr rfl (fun p _ => ?_)
  unfold sym2vec
  split
  · ring
  · rfl

theorem outer_symm (x : Vec d) : (Matrix.vecMulVec x x)ᵀ = Matrix.vecMulVec x x := by
  ext i j
  simp [Matrix.vecMulVec_apply, mul_comm]

theorem sum_outer (L : Mat d d) (x : Vec d) : ∑ i, ∑ j, Matrix.vecMulVec x x i j * L i j = x ⬝ᵥ (L *ᵥ x) := by
  unfold dotProduct
  refine Finset.sum_congr rfl (fun i _ => ?_)
  simp only [Matrix.mulVec, dotProduct, Finset.mul_sum, Matrix.vecMulVec_apply]
  exact Finset.sum_congr rfl (fun j _ => by ring)

/-! ### densities -/

theorem gauss_log (mu : Vec d) {P : Mat d d} (hP : P.PosDef) (x : Vec d) :
    Real.log (gaussPdf mu P x) = 1 / 2 * Real.log P.det - 1 / 2 * d * Real.log (2 * Real.pi) - 1 / 2 * ((x - mu) ⬝ᵥ (P *ᵥ (x - mu))) := by
  unfold gaussPdf
  have h1 : 0 < Real.sqrt P.det := Real.sqrt_pos.2 hP.det_pos
  have h2 : 0 < 2 * Real.pi := by positivity
  have h3 : 0 < Real.sqrt (2 * Real.pi) ^ d := pow_pos (Real.sqrt_pos.2 h2) _
  rw [Real.log_mul (div_pos h1 h3).ne' (Real.exp_pos _).ne', Real.log_div h1.ne' h3.ne', Real.log_exp, Real.log_sqrt hP.det_pos.le, Real.log_pow,
    Real.log_sqrt h2.le]
  ring

theorem gauss_pos (mu : Vec d) {P : Mat d d} (hP : P.PosDef) (x : Vec d) : 0 < gaussPdf mu P x := by
  unfold gaussPdf
  have h1 : 0 < Real.sqrt P.det := Real.sqrt_pos.2 hP.det_pos
  have h3 : 0 < Real.sqrt (2 * Real.pi) ^ d := pow_pos (Real.sqrt_pos.2 (by positivity)) _
  positivity

theorem sum_ix (f : Ix d → ℝ) : ∑ i, f i = (∑ i, f (.inl i)) + ∑ p, f (.inr p) := Fintype.sum_sum_type f

/-- the exponent in natural parameters -/
theorem dot_eta (mu : Vec d) {L : Mat d d} (hL : Lᵀ = L) (x : Vec d) :
    ∑ i, suff x i * computeEta mu L i = x ⬝ᵥ (L *ᵥ mu) - 1 / 2 * (x ⬝ᵥ (L *ᵥ x)) := by
  rw [sum_ix, ← sum_outer L x, ← quad_up (outer_symm x) hL]
  simp only [suff, computeEta, Matrix.vecMulVec_apply, mul_neg, Finset.sum_neg_distrib]
  rw [← sub_eq_add_neg]
  congr 1
  unfold dotProduct
  refine Finset.sum_congr rfl (fun i _ => ?_)
  rw [← Matrix.vecMul_transpose, hL]

theorem aStd_eq (hc : IsCholesky chol) (mu : Vec d) {L : Mat d d} (hL : L.PosDef) :
    computeAStd chol mu L = 1 / 2 * d * Real.log (2 * Real.pi) - 1 / 2 * Real.log L.det + 1 / 2 * (mu ⬝ᵥ (L *ᵥ mu)) := by
  unfold computeAStd
  rw [logdetPd_eq hc hL, ← Matrix.dotProduct_mulVec]
  ring

theorem nat_log (hc : IsCholesky chol) (mu : Vec d) {L : Mat d d} (hL : L.PosDef) (x : Vec d) :
    (∑ i, suff x i * computeEta mu L i) - computeAStd chol mu L = Real.log (gaussPdf mu L x) := by
  rw [dot_eta mu (PosDef.symm hL), aStd_eq hc mu hL, gauss_log mu hL]
  have e : (x - mu) ⬝ᵥ (L *ᵥ (x - mu)) = x ⬝ᵥ (L *ᵥ x) - 2 * (x ⬝ᵥ (L *ᵥ mu)) + mu ⬝ᵥ (L *ᵥ mu) := by
    rw [Matrix.mulVec_sub, sub_dotProduct, dotProduct_sub, dotProduct_sub, symm_dot (PosDef.symm hL) mu x]
    ring
  rw [e]
  ring

theorem eta2_eq (mu : Vec d) {L : Mat d d} (hL : Lᵀ = L) : eta2 (computeEta mu L) = (-(1 / 2 : ℝ)) • L := by
  unfold eta2
  have : (fun p => computeEta mu L (.inr p)) = sym2vec (1 / 2) (-L) := by
    funext p
    simp only [computeEta, sym2vec, Matrix.neg_apply]
    split <;> ring
  rw [this, vec2sym_sym2vec (by norm_num) (by rw [Matrix.transpose_neg, hL]), smul_neg, neg_smul]

/-- C110: the two ways of scoring return the logarithm of the Gaussian density. -/
theorem C110_log_prob (hc : IsCholesky chol) (g : Norm d) (hL : g.L.PosDef) (x : Vec d) :
    g.logProb chol x = Real.log (gaussPdf g.mu g.L x) ∧ g.logProbStd chol x = Real.log (gaussPdf g.mu g.L x) := by
  refine ⟨nat_log hc g.mu hL x, ?_⟩
  unfold Norm.logProbStd
  rw [gauss_log g.mu hL, logdetPd_eq hc hL]
  have e : ∑ i, (((x - g.mu) ᵥ* (chol d g.L)ᵀ) i) ^ 2 = (x - g.mu) ⬝ᵥ (g.L *ᵥ (x - g.mu)) := by
    rw [Matrix.vecMul_transpose]
    conv_rhs => rw [← (hc d g.L hL).2.2]
    rw [quad_factor]
    unfold dotProduct
    exact Finset.sum_congr rfl (fun i _ => by ring)
  rw [e]

/-- C110: going to natural parameters and back is the identity in both directions, the two formulas of the log normaliser agree, and the number of natural
parameters determines the dimension. -/
theorem C110_parameters (hc : IsCholesky chol) :
    (∀ (mu : Vec d) (L : Mat d d), L.PosDef → computeStd chol (computeEta mu L) = (mu, L) ∧ computeANat chol (computeEta mu L) = computeAStd chol mu L) ∧
    (∀ eta : Ix d → ℝ, (-eta2 eta).PosDef → (computeStd chol eta).2.PosDef ∧ computeEta (computeStd chol eta).1 (computeStd chol eta).2 = eta ∧
      ∀ x, logProbEta chol eta x = Real.log (gaussPdf (computeStd chol eta).1 (computeStd chol eta).2 x)) ∧
    (∀ m k : Nat, xDim m = some k ↔ 2 * m = k * k + 3 * k) := by
  have fwd : ∀ (mu : Vec d) (L : Mat d d), L.PosDef → computeStd chol (computeEta mu L) = (mu, L) ∧
      computeANat chol (computeEta mu L) = computeAStd chol mu L := by
    intro mu L hL
    have hs := PosDef.symm hL
    have hE : -eta2 (computeEta mu L) = (1 / 2 : ℝ) • L := by rw [eta2_eq mu hs, ← neg_smul, neg_neg]
    have hH : ((1 / 2 : ℝ) • L).PosDef := hL.smul (by norm_num)
    have e1 : eta1 (computeEta mu L) = L *ᵥ mu := by
      funext i
      show (mu ᵥ* L) i = _
      rw [← Matrix.vecMul_transpose, hs]
    have e2 : pdRight chol (-eta2 (computeEta mu L)) (eta1 (computeEta mu L)) = (2 : ℝ) • mu := by
      rw [hE, e1, pdRight_eq hc hH]
      have hi : ((1 / 2 : ℝ) • L)⁻¹ = (2 : ℝ) • L⁻¹ := by
        apply Matrix.inv_eq_right_inv
        rw [Matrix.smul_mul, Matrix.mul_smul, smul_smul, Matrix.mul_nonsing_inv _ (PosDef.det_ne hL)]
        norm_num
      rw [hi, Matrix.smul_mulVec, Matrix.mulVec_mulVec, Matrix.nonsing_inv_mul _ (PosDef.det_ne hL), Matrix.one_mulVec]
    constructor
    · unfold computeStd
      rw [e2, eta2_eq mu hs, smul_smul, smul_smul]
      norm_num
    · unfold computeANat
      rw [e2, e1, hE, logdetPd_eq hc hH, aStd_eq hc mu hL, Matrix.det_smul, Fintype.card_fin,
        Real.log_mul (by positivity) hL.det_pos.ne', Real.log_pow, smul_dotProduct, smul_eq_mul, one_div, Real.log_inv]
      ring
  refine ⟨fwd, fun eta hE => ?_, fun m k => ?_⟩
  · have hL : (computeStd chol eta).2.PosDef := by
      have := hE.smul (show (0 : ℝ) < 2 by norm_num)
      rw [smul_neg, ← neg_smul] at this
      exact this
    have hs := PosDef.symm hL
    have back : computeEta (computeStd chol eta).1 (computeStd chol eta).2 = eta := by
      funext i
      rcases i with i | p
      · show ((computeStd chol eta).1 ᵥ* (computeStd chol eta).2) i = eta (.inl i)
        rw [← hs, Matrix.vecMul_transpose]
        have : (computeStd chol eta).2 *ᵥ (computeStd chol eta).1 = eta1 eta := by
          unfold computeStd
          simp only
          rw [pdRight_eq hc hE, Matrix.mulVec_smul, Matrix.smul_mulVec, smul_smul, Matrix.mulVec_mulVec]
          have : eta2 eta * (-eta2 eta)⁻¹ = -1 := by
            have h := Matrix.mul_nonsing_inv (-eta2 eta) (PosDef.det_ne hE)
            rw [Matrix.neg_mul] at h
            rw [← h, neg_neg]
          rw [this, Matrix.neg_mulVec, Matrix.one_mulVec]
          norm_num
        rw [this]
        rfl
      · show -(sym2vec (1 / 2) ((-2 : ℝ) • eta2 eta) p) = _
        have e : (-2 : ℝ) • eta2 eta = -vec2sym 2 (fun p => eta (.inr p)) := by
          unfold eta2
          rw [smul_smul]
          norm_num
        have e2 : sym2vec (1 / 2) (-vec2sym 2 (fun p => eta (.inr p))) p = -sym2vec (1 / 2) (vec2sym 2 (fun p => eta (.inr p))) p := by
          unfold sym2vec
          simp only [Matrix.neg_apply]
          split <;> ring
        rw [e, e2, sym2vec_vec2sym (by norm_num), neg_neg]
    refine ⟨hL, back, fun x => ?_⟩
    rw [← nat_log hc _ hL x, back, ← (fwd _ _ hL).2, back]
    rfl
  · have key : ∀ k : Nat, 2 * m = k * k + 3 * k ↔ (1 / 2 : ℝ) * (-3 + Real.sqrt (9 + 8 * m)) = k := by
      intro k
      constructor
      · intro h
        have h' : (2 : ℝ) * m = k * k + 3 * k := by exact_mod_cast h
        have : (9 + 8 * m : ℝ) = (2 * k + 3) ^ 2 := by nlinarith
        rw [this, Real.sqrt_sq (by positivity)]
        ring
      · intro h
        have h1 : Real.sqrt (9 + 8 * m) = 2 * k + 3 := by linarith
        have h2 : (9 + 8 * m : ℝ) = (2 * k + 3) ^ 2 := by
          rw [← h1, Real.sq_sqrt (by positivity)]
        have h3 : (2 : ℝ) * m = k * k + 3 * k := by nlinarith
        exact_mod_cast h3
    unfold xDim
    constructor
    · intro h
      split at h
      · next hi =>
        have h := Option.some.inj h
        have nn : (0 : ℝ) ≤ 1 / 2 * (-3 + Real.sqrt (9 + 8 * m)) := by
          have : (3 : ℝ) ≤ Real.sqrt (9 + 8 * m) := by
            rw [show (3 : ℝ) = Real.sqrt (3 ^ 2) by rw [Real.sqrt_sq (by norm_num)]]
            apply Real.sqrt_le_sqrt
            have : (0 : ℝ) ≤ m := by positivity
            linarith
          linarith
        rw [key k, ← hi, ← h]
        have := Int.toNat_of_nonneg (Int.floor_nonneg.2 nn)
        exact_mod_cast this.symm
      · cases h
    · intro h
      rw [(key k).1 h]
      simp

/-! ### fit -/

/-- weighted mean of the data -/
noncomputable def wMean (rows : List (XRow d)) (r : XRow d → ℝ) : Vec d := fun i => (rows.map (fun x => r x * x.1 i)).sum / (rows.map r).sum

/-- weighted covariance of the data -/
noncomputable def wCov (rows : List (XRow d)) (r : XRow d → ℝ) : Mat d d :=
  Matrix.of (fun i j => (rows.map (fun x => r x * ((x.1 i - wMean rows r i) * (x.1 j - wMean rows r j)))).sum / (rows.map r).sum)

/-- log likelihood of weighted data -/
noncomputable def logLik1 (mu : Vec d) (P : Mat d d) (rows : List (XRow d)) : ℝ := (rows.map (fun r => r.2 * Real.log (gaussPdf mu P r.1))).sum

theorem wCov_eq (rows : List (XRow d)) (r : XRow d → ℝ) (h : (rows.map r).sum ≠ 0) (i j : Fin d) :
    wCov rows r i j = (rows.map (fun x => r x * x.1 i * x.1 j)).sum / (rows.map r).sum - wMean rows r i * wMean rows r j := by
  have key : ∀ m1 m2 : ℝ, (rows.map (fun x => r x * ((x.1 i - m1) * (x.1 j - m2)))).sum =
      (rows.map (fun x => r x * x.1 i * x.1 j)).sum - m2 * (rows.map (fun x => r x * x.1 i)).sum - m1 * (rows.map (fun x => r x * x.1 j)).sum
        + m1 * m2 * (rows.map r).sum := by
    intro m1 m2
    clear h
    induction rows with
    | nil => simp
    | cons x xs ih => simp only [List.map_cons, List.sum_cons]; rw [ih]; ring
  unfold wCov
  rw [Matrix.of_apply, key]
  unfold wMean
  field_simp
  ring

theorem wCov_symm (rows : List (XRow d)) (r : XRow d → ℝ) : (wCov rows r)ᵀ = wCov rows r := by
  ext i j
  simp only [Matrix.transpose_apply, wCov, Matrix.of_apply]
  congr 2
  apply List.map_congr_left
  intro x _
  ring

theorem rawCov_eq (rows : List (XRow d)) (r : XRow d → ℝ) (N : ℝ) (u : Ix d → ℝ) (hN : N = (rows.map r).sum) (h0 : N ≠ 0)
    (hu : ∀ p : Up d, u (.inr p) = (rows.map (fun x => r x * x.1 p.1.1 * x.1 p.1.2)).sum) : rawCov N u (wMean rows r) = wCov rows r := by
  have hs : (rawCov N u (wMean rows r))ᵀ = rawCov N u (wMean rows r) := by
    unfold rawCov
    rw [Matrix.transpose_sub, vec2sym_symm, outer_symm]
  have up : ∀ i j : Fin d, i ≤ j → rawCov N u (wMean rows r) i j = wCov rows r i j := by
    intro i j h
    rw [wCov_eq rows r (by rw [← hN]; exact h0)]
    unfold rawCov
    rw [Matrix.sub_apply, Matrix.vecMulVec_apply]
    simp only [vec2sym, Matrix.of_apply]
    rw [dif_pos h, hu, hN]
    by_cases e : i = j
    · rw [if_pos e, one_mul]
    · rw [if_neg e]
  ext i j
  rcases le_total i j with h | h
  · exact up i j h
  · calc rawCov N u (wMean rows r) i j = (rawCov N u (wMean rows r))ᵀ i j := by rw [hs]
      _ = wCov rows r j i := up j i h
      _ = (wCov rows r)ᵀ i j := rfl
      _ = _ := by rw [wCov_symm]

/-- quadratic form of the covariance -/
theorem wCov_quad (rows : List (XRow d)) (r : XRow d → ℝ) (v : Vec d) :
    v ⬝ᵥ (wCov rows r *ᵥ v) = (rows.map (fun x => r x * (v ⬝ᵥ (x.1 - wMean rows r)) ^ 2)).sum / (rows.map r).sum := by
  have : ∀ m : Vec d, ∑ i, ∑ j, v i * v j * ((rows.map (fun x => r x * ((x.1 i - m i) * (x.1 j - m j)))).sum) =
      (rows.map (fun x => r x * (v ⬝ᵥ (x.1 - m)) ^ 2)).sum := by
    intro m
    induction rows with
    | nil => simp
    | cons x xs ih =>
      simp only [List.map_cons, List.sum_cons]
      rw [← ih]
      simp only [mul_add, Finset.sum_add_distrib]
      congr 1
      rw [sq, dotProduct, Finset.sum_mul_sum, Finset.mul_sum]
      refine Finset.sum_congr rfl (fun i _ => ?_)
      rw [Finset.mul_sum]
      exact Finset.sum_congr rfl (fun j _ => by simp only [Pi.sub_apply]; ring)
  rw [← this, Finset.sum_div]
  unfold dotProduct Matrix.mulVec dotProduct
  refine Finset.sum_congr rfl (fun i _ => ?_)
  rw [Finset.sum_div, Finset.mul_sum]
  refine Finset.sum_congr rfl (fun j _ => ?_)
  simp only [wCov, Matrix.of_apply]
  ring

theorem wCov_psd (rows : List (XRow d)) (r : XRow d → ℝ) (h : ∀ x ∈ rows, 0 ≤ r x) : (wCov rows r).PosSemidef := by
  refine Matrix.PosSemidef.of_dotProduct_mulVec_nonneg ?_ (fun v => ?_)
  · show (wCov rows r)ᴴ = _
    rw [conjTranspose_eq_transpose_of_trivial, wCov_symm]
  · rw [star_trivial, wCov_quad]
    apply div_nonneg
    · apply List.sum_nonneg
      intro y hy
      obtain ⟨x, hx, rfl⟩ := List.mem_map.1 hy
      exact mul_nonneg (h x hx) (sq_nonneg _)
    · apply List.sum_nonneg
      intro y hy
      obtain ⟨x, hx, rfl⟩ := List.mem_map.1 hy
      exact h x hx

/-- trace with an outer product -/
theorem trace_cov (P : Mat d d) (hP : Pᵀ = P) (rows : List (XRow d)) (r : XRow d → ℝ) (h : (rows.map r).sum ≠ 0) :
    (rows.map r).sum * (P * wCov rows r).trace =
      (rows.map (fun x => r x * ((x.1 - wMean rows r) ⬝ᵥ (P *ᵥ (x.1 - wMean rows r))))).sum := by
  have key : ∀ m : Vec d, ∑ i, ∑ j, P i j * (rows.map (fun x => r x * ((x.1 i - m i) * (x.1 j - m j)))).sum =
      (rows.map (fun x => r x * ((x.1 - m) ⬝ᵥ (P *ᵥ (x.1 - m))))).sum := by
    intro m
    clear h
    induction rows with
    | nil => simp
    | cons x xs ih =>
      simp only [List.map_cons, List.sum_cons]
      rw [← ih]
      simp only [mul_add, Finset.sum_add_distrib]
      congr 1
      simp only [dotProduct, Matrix.mulVec, Finset.mul_sum, Pi.sub_apply]
      exact Finset.sum_congr rfl (fun i _ => Finset.sum_congr rfl (fun j _ => by ring))
  rw [← key]
  unfold Matrix.trace
  rw [Finset.mul_sum]
  refine Finset.sum_congr rfl (fun i _ => ?_)
  rw [Matrix.diag_apply, Matrix.mul_apply, Finset.mul_sum]
  refine Finset.sum_congr rfl (fun j _ => ?_)
  simp only [wCov, Matrix.of_apply]
  have e : (rows.map (fun x => r x * ((x.1 j - wMean rows r j) * (x.1 i - wMean rows r i)))).sum =
      (rows.map (fun x => r x * ((x.1 i - wMean rows r i) * (x.1 j - wMean rows r j)))).sum := by
    congr 1
    apply List.map_congr_left
    intro x _
    ring
  rw [e]
  field_simp

/-- weighted sum of log densities in terms of mean and covariance -/
theorem sum_log_gauss (rows : List (XRow d)) (r : XRow d → ℝ) (h : (rows.map r).sum ≠ 0) (mu : Vec d) {P : Mat d d} (hP : P.PosDef) :
    (rows.map (fun x => r x * Real.log (gaussPdf mu P x.1))).sum =
      (rows.map r).sum / 2 * (Real.log P.det - (P * wCov rows r).trace - d * Real.log (2 * Real.pi)
        - (wMean rows r - mu) ⬝ᵥ (P *ᵥ (wMean rows r - mu))) := by
  have hs := PosDef.symm hP
  have split : ∀ (m : Vec d) (x : Vec d), (x - mu) ⬝ᵥ (P *ᵥ (x - mu)) = (x - m) ⬝ᵥ (P *ᵥ (x - m)) + 2 * ((x - m) ⬝ᵥ (P *ᵥ (m - mu))) +
      (m - mu) ⬝ᵥ (P *ᵥ (m - mu)) := by
    intro m x
    have e : x - mu = (x - m) + (m - mu) := by abel
    rw [e, Matrix.mulVec_add, add_dotProduct, dotProduct_add, dotProduct_add, symm_dot hs (m - mu) (x - m)]
    ring
  have lin : ∀ w : Vec d, (rows.map (fun x => r x * ((x.1 - wMean rows r) ⬝ᵥ w))).sum = 0 := by
    intro w
    have gen : ∀ m : Vec d, (rows.map (fun x => r x * ((x.1 - m) ⬝ᵥ w))).sum =
        ∑ i, ((rows.map (fun x => r x * x.1 i)).sum - m i * (rows.map r).sum) * w i := by
      intro m
      clear h split
      induction rows with
      | nil => simp
      | cons x xs ih =>
        simp only [List.map_cons, List.sum_cons]
        rw [ih, dotProduct, Finset.mul_sum, ← Finset.sum_add_distrib]
        exact Finset.sum_congr rfl (fun i _ => by simp only [Pi.sub_apply]; ring)
    rw [gen]
    apply Finset.sum_eq_zero
    intro i _
    unfold wMean
    rw [div_mul_cancel₀ _ h, sub_self, zero_mul]
  have tr := trace_cov P hs rows r h
  have expand : (rows.map (fun x => r x * Real.log (gaussPdf mu P x.1))).sum =
      (rows.map r).sum * (1 / 2 * Real.log P.det - 1 / 2 * d * Real.log (2 * Real.pi) - 1 / 2 * ((wMean rows r - mu) ⬝ᵥ (P *ᵥ (wMean rows r - mu)))) -
      1 / 2 * (rows.map (fun x => r x * ((x.1 - wMean rows r) ⬝ᵥ (P *ᵥ (x.1 - wMean rows r))))).sum -
      (rows.map (fun x => r x * ((x.1 - wMean rows r) ⬝ᵥ (P *ᵥ (wMean rows r - mu))))).sum := by
    have gen : ∀ m : Vec d, (rows.map (fun x => r x * Real.log (gaussPdf mu P x.1))).sum =
        (rows.map r).sum * (1 / 2 * Real.log P.det - 1 / 2 * d * Real.log (2 * Real.pi) - 1 / 2 * ((m - mu) ⬝ᵥ (P *ᵥ (m - mu)))) -
        1 / 2 * (rows.map (fun x => r x * ((x.1 - m) ⬝ᵥ (P *ᵥ (x.1 - m))))).sum -
        (rows.map (fun x => r x * ((x.1 - m) ⬝ᵥ (P *ᵥ (m - mu))))).sum := by
      intro m
      clear h lin tr
      induction rows with
      | nil => simp
      | cons x xs ih =>
        simp only [List.map_cons, List.sum_cons]
        rw [ih, gauss_log mu hP, split m x.1]
        ring
    exact gen _
  rw [expand, lin, ← tr]
  ring

theorem nStats_eq (rows : List (XRow d)) : (nStats rows).1 = (rows.map (fun r => r.2)).sum ∧
    (∀ i, (nStats rows).2 (.inl i) = (rows.map (fun r => r.2 * r.1 i)).sum) ∧
    ∀ p : Up d, (nStats rows).2 (.inr p) = (rows.map (fun r => r.2 * r.1 p.1.1 * r.1 p.1.2)).sum := ⟨rfl, fun _ => rfl, fun _ => rfl⟩

theorem elbo_eq (hc : IsCholesky chol) (g : Norm d) (hL : g.L.PosDef) (rows : List (XRow d)) : g.elbo chol (nStats rows) = logLik1 g.mu g.L rows := by
  unfold Norm.elbo logLik1
  simp only [← nat_log hc g.mu hL]
  have e : ∀ i : Ix d, (nStats rows).2 i = (rows.map (fun r => r.2 * suff r.1 i)).sum := by
    intro i
    rcases i with i | p
    · rfl
    · show (rows.map (fun r => r.2 * r.1 p.1.1 * r.1 p.1.2)).sum = _
      congr 1
      apply List.map_congr_left
      intro r _
      simp only [suff]
      ring
  simp only [e, (nStats_eq rows).1]
  clear e
  induction rows with
  | nil => simp
  | cons r rs ih =>
    simp only [List.map_cons, List.sum_cons]
    rw [← ih]
    simp only [add_mul, Finset.sum_add_distrib, mul_sub, Finset.mul_sum]
    have : ∑ i, r.2 * suff r.1 i * computeEta g.mu g.L i = ∑ i, r.2 * (suff r.1 i * computeEta g.mu g.L i) :=
      Finset.sum_congr rfl (fun i _ => by ring)
    rw [this]
    ring

/-- C110: `fit` with both updates succeeds exactly when the weights do not sum to zero and the weighted covariance is positive definite. It then returns the
weighted mean and the inverse of the weighted covariance; the value reported is the log likelihood, and with nonnegative weights no Gaussian has a higher one. -/
theorem C110_fit (hc : IsCholesky chol) (g : Norm d) (rows : List (XRow d)) :
    ((∃ e g', g.fit chol ⟨true, true⟩ rows = some (e, g')) ↔ (rows.map (fun r => r.2)).sum ≠ 0 ∧ (wCov rows (fun r => r.2)).PosDef) ∧
    ∀ e g', g.fit chol ⟨true, true⟩ rows = some (e, g') →
      g'.mu = wMean rows (fun r => r.2) ∧ g'.L = (wCov rows (fun r => r.2))⁻¹ ∧ e = logLik1 g'.mu g'.L rows ∧
      ((∀ r ∈ rows, 0 ≤ r.2) → ∀ (mu : Vec d) (P : Mat d d), P.PosDef → logLik1 mu P rows ≤ e) := by
  obtain ⟨s0, s1, s2⟩ := nStats_eq rows
  have hmu : (fun i => (nStats rows).2 (.inl i) / (nStats rows).1) = wMean rows (fun r => r.2) := by
    funext i
    rw [s0, s1]
    rfl
  have step : g.fit chol ⟨true, true⟩ rows = open Classical in
      if (nStats rows).1 = 0 then none
      else if (wCov rows (fun r => r.2)).PosDef then
        some (Norm.elbo chol ⟨wMean rows (fun r => r.2), pdInv chol (wCov rows (fun r => r.2))⟩ (nStats rows),
          ⟨wMean rows (fun r => r.2), pdInv chol (wCov rows (fun r => r.2))⟩)
      else none := by
    unfold Norm.fit Norm.mstep
    simp only [if_true, hmu]
    by_cases h0 : (nStats rows).1 = 0
    · rw [if_pos h0, if_pos h0]
      rfl
    · rw [if_neg h0, if_neg h0, rawCov_eq rows (fun r => r.2) _ _ s0 h0 s2]
      unfold invPd
      by_cases hp : (wCov rows (fun r => r.2)).PosDef
      · rw [if_pos hp, if_pos hp]
        rfl
      · rw [if_neg hp, if_neg hp]
        rfl
  rw [step]
  by_cases h0 : (nStats rows).1 = 0
  · rw [if_pos h0]
    refine ⟨⟨fun ⟨e, g', h⟩ => (by cases h), fun h => absurd h0 (by rw [s0]; exact h.1)⟩, fun e g' h => (by cases h)⟩
  · rw [if_neg h0]
    by_cases hp : (wCov rows (fun r => r.2)).PosDef
    · rw [if_pos hp]
      refine ⟨⟨fun _ => ⟨by rw [← s0]; exact h0, hp⟩, fun _ => ⟨_, _, rfl⟩⟩, fun e g' h => ?_⟩
      simp only [Option.some.injEq, Prod.mk.injEq] at h
      obtain ⟨rfl, rfl⟩ := h
      have hL : (pdInv chol (wCov rows (fun r => r.2))) = (wCov rows (fun r => r.2))⁻¹ := pdInv_eq hc hp
      have he := elbo_eq hc ⟨wMean rows (fun r => r.2), pdInv chol (wCov rows (fun r => r.2))⟩ (by rw [hL]; exact hp.inv) rows
      refine ⟨rfl, hL, he, fun hw mu P hP => ?_⟩
      rw [he]
      have hN : (rows.map (fun r => r.2)).sum ≠ 0 := by rw [← s0]; exact h0
      have hN0 : 0 ≤ (rows.map (fun r => r.2)).sum := by
        apply List.sum_nonneg
        intro y hy
        obtain ⟨x, hx, rfl⟩ := List.mem_map.1 hy
        exact hw x hx
      show logLik1 mu P rows ≤ logLik1 (wMean rows (fun r => r.2)) (pdInv chol (wCov rows (fun r => r.2))) rows
      unfold logLik1
      rw [hL, sum_log_gauss rows (fun r => r.2) hN mu hP, sum_log_gauss rows (fun r => r.2) hN _ hp.inv]
      apply mul_le_mul_of_nonneg_left _ (by linarith)
      rw [sub_self, zero_dotProduct]
      have b := best_full hp hP
      have q := PosSemidef.quad hP.posSemidef (wMean rows (fun r => r.2) - mu)
      linarith
    · rw [if_neg hp]
      exact ⟨⟨fun ⟨e, g', h⟩ => (by cases h), fun h => absurd h.2 hp⟩, fun e g' h => (by cases h)⟩

/-- C110: with at most as many vectors as dimensions `fit` always raises. -/
theorem C110_too_few (hc : IsCholesky chol) (g : Norm d) (rows : List (XRow d)) (h : rows.length ≤ d) : g.fit chol ⟨true, true⟩ rows = none := by
  rcases hf : g.fit chol ⟨true, true⟩ rows with _ | ⟨e, g'⟩
  · rfl
  · exfalso
    obtain ⟨hN, hp⟩ := (C110_fit hc g rows).1.1 ⟨e, g', hf⟩
    obtain ⟨m, hm⟩ : ∃ m, m = wMean rows (fun r => r.2) := ⟨_, rfl⟩
    -- the matrix of centred rows, filled up with zeros
    let A : Mat d d := Matrix.of (fun i j => (rows[i.1]?).elim 0 (fun x => x.1 j - m j))
    let w : Vec d := fun i => (rows[i.1]?).elim 0 (fun x => x.2)
    have sumfin : ∀ f : XRow d → ℝ, ∑ i : Fin d, (rows[i.1]?).elim 0 f = (rows.map f).sum := by
      intro f
      rw [Fin.sum_univ_eq_sum_range (fun i => (rows[i]?).elim 0 f) d]
      have : ∀ k, rows.length ≤ k → ∑ i ∈ Finset.range k, (rows[i]?).elim 0 f = (rows.map f).sum := by
        intro k hk
        clear hf hN hp hm A w h
        induction rows generalizing k with
        | nil => simp
        | cons x xs ih =>
          rcases k with _ | k
          · simp at hk
          · rw [Finset.sum_range_succ']
            simp only [List.getElem?_cons_succ, List.getElem?_cons_zero, Option.elim_some, List.map_cons, List.sum_cons]
            rw [ih k (by simpa using hk), add_comm]
      exact this d h
    have hw : w ≠ 0 := by
      intro h0
      apply hN
      rw [← sumfin (fun r => r.2)]
      apply Finset.sum_eq_zero
      intro i _
      exact congrFun h0 i
    have hwA : w ᵥ* A = 0 := by
      funext j
      show ∑ i, w i * A i j = 0
      have e : ∀ i : Fin d, w i * A i j = (rows[i.1]?).elim 0 (fun x => x.2 * (x.1 j - m j)) := by
        intro i
        show (rows[i.1]?).elim 0 (fun x => x.2) * (rows[i.1]?).elim 0 (fun x => x.1 j - m j) = _
        rcases rows[i.1]? with _ | x <;> simp
      rw [Finset.sum_congr rfl (fun i _ => e i), sumfin]
      have gen : ∀ c : ℝ, (rows.map (fun x => x.2 * (x.1 j - c))).sum = (rows.map (fun x => x.2 * x.1 j)).sum - c * (rows.map (fun x => x.2)).sum := by
        intro c
        clear hf hN hp hm h hw sumfin e A w
        induction rows with
        | nil => simp
        | cons x xs ih => simp only [List.map_cons, List.sum_cons]; rw [ih]; ring
      rw [gen, hm]
      unfold wMean
      rw [div_mul_cancel₀ _ hN, sub_self]
    have hdet : A.det = 0 := Matrix.exists_vecMul_eq_zero_iff.1 ⟨w, hw, hwA⟩
    obtain ⟨v, hv, hAv⟩ := Matrix.exists_mulVec_eq_zero_iff.2 hdet
    have hpos := PosDef.quad hp v hv
    rw [wCov_quad, ← hm] at hpos
    have : (rows.map (fun x => x.2 * (v ⬝ᵥ (x.1 - m)) ^ 2)).sum = 0 := by
      have z : ∀ y ∈ rows.map (fun x => x.2 * (v ⬝ᵥ (x.1 - m)) ^ 2), y = 0 := by
        intro y hy
        obtain ⟨x, hx, rfl⟩ := List.mem_map.1 hy
        obtain ⟨i, hi⟩ := List.mem_iff_getElem?.1 hx
        have hid : i < d := lt_of_lt_of_le (List.getElem?_eq_some_iff.1 hi).1 h
        have := congrFun hAv ⟨i, hid⟩
        have e : (A *ᵥ v) ⟨i, hid⟩ = v ⬝ᵥ (x.1 - m) := by
          show ∑ j, (rows[i]?).elim 0 (fun x => x.1 j - m j) * v j = _
          rw [hi]
          exact Finset.sum_congr rfl (fun j _ => by simp [mul_comm])
        rw [e] at this
        simp only [Pi.zero_apply] at this
        rw [this]
        ring
      exact List.sum_eq_zero z
    rw [this, zero_div] at hpos
    exact lt_irrefl _ hpos

/-- C110: without updates of the precision the mean is the weighted mean and the precision is kept; without updates of the mean it is kept. -/
theorem C110_fixed (g : Norm d) (rows : List (XRow d)) (hN : (rows.map (fun r => r.2)).sum ≠ 0) :
    (∃ e, g.fit chol ⟨true, false⟩ rows = some (e, ⟨wMean rows (fun r => r.2), g.L⟩)) ∧ (∃ e, g.fit chol ⟨false, false⟩ rows = some (e, g)) ∧
    ∀ e g', g.fit chol ⟨false, true⟩ rows = some (e, g') → g'.mu = g.mu := by
  obtain ⟨s0, s1, s2⟩ := nStats_eq rows
  have h0 : (nStats rows).1 ≠ 0 := by rw [s0]; exact hN
  refine ⟨⟨Norm.elbo chol ⟨wMean rows (fun r => r.2), g.L⟩ (nStats rows), ?_⟩, ⟨g.elbo chol (nStats rows), ?_⟩, fun e g' h => ?_⟩
  · unfold Norm.fit Norm.mstep
    simp only [if_true, if_neg h0, Bool.false_eq_true, if_false]
    rfl
  · unfold Norm.fit Norm.mstep
    simp only [if_neg h0, Bool.false_eq_true, if_false]
    rfl
  · unfold Norm.fit Norm.mstep at h
    simp only [if_neg h0, Bool.false_eq_true, if_false, if_true] at h
    rcases hi : invPd chol (rawCov (nStats rows).1 (nStats rows).2 g.mu) with _ | P
    · rw [hi] at h
      simp at h
    · rw [hi] at h
      simp only [Option.map_some, Option.bind_eq_bind, Option.bind_some, Option.some.injEq, Prod.mk.injEq] at h
      rw [← h.2]

/-- C110, negative: the normalised first-order statistics are not whitened. For one vector their squared norm is not the squared Mahalanobis distance to the
mean. (The factor is applied transposed; scoring with `log_prob_std` uses it correctly.) -/
theorem C110_norm_stats_wrong (hc : IsCholesky chol) : ∃ (g : Norm 2) (x : Vec 2), g.L.PosDef ∧
    g.normStats chol 1 (suff x) ⬝ᵥ g.normStats chol 1 (suff x) ≠ (x - g.mu) ⬝ᵥ (g.L *ᵥ (x - g.mu)) := by
  have hP : (!![1, 1; 1, 2] : Mat 2 2).PosDef := by
    refine Matrix.PosDef.of_dotProduct_mulVec_pos ?_ (fun v hv => ?_)
    · show (!![1, 1; 1, 2] : Mat 2 2)ᴴ = _
      rw [conjTranspose_eq_transpose_of_trivial]
      ext i j
      fin_cases i <;> fin_cases j <;> rfl
    · simp only [star_trivial, dotProduct, Matrix.mulVec, Fin.sum_univ_two, Matrix.of_apply, Matrix.cons_val', Matrix.cons_val_zero, Matrix.cons_val_one,
        Matrix.cons_val_fin_one]
      have : v 0 ≠ 0 ∨ v 1 ≠ 0 := by
        by_contra hc
        push Not at hc
        apply hv
        funext i
        fin_cases i
        · exact hc.1
        · exact hc.2
      rcases this with h | h
      · by_cases h1 : v 1 = 0
        · rw [h1]
          nlinarith [mul_self_pos.2 h]
        · nlinarith [mul_self_pos.2 h1, sq_nonneg (v 0 + v 1)]
      · nlinarith [mul_self_pos.2 h, sq_nonneg (v 0 + v 1)]
  refine ⟨⟨0, !![1, 1; 1, 2]⟩, ![1, 0], hP, ?_⟩
  obtain ⟨h1, h2, h3⟩ := hc 2 _ hP
  unfold Norm.normStats
  rw [transpose_transpose]
  simp only [smul_zero, sub_zero]
  generalize chol 2 !![1, 1; 1, 2] = R at *
  have l := h1 1 0 (by decide)
  have p0 := h2 0
  have p1 := h2 1
  have a := congrFun (congrFun h3 0) 0
  have b := congrFun (congrFun h3 0) 1
  have c := congrFun (congrFun h3 1) 1
  simp only [Matrix.mul_apply, Matrix.transpose_apply, Fin.sum_univ_two, Matrix.of_apply, Matrix.cons_val', Matrix.cons_val_zero, Matrix.cons_val_one,
    Matrix.cons_val_fin_one, l] at a b c
  have r00 : R 0 0 = 1 := by nlinarith
  have r01 : R 0 1 = 1 := by rw [r00] at b; linarith
  have e : (fun i => suff (![1, 0] : Vec 2) (.inl i)) = ![1, 0] := rfl
  rw [e]
  simp only [dotProduct, Matrix.vecMul, Matrix.mulVec, Fin.sum_univ_two, Matrix.of_apply, Matrix.cons_val', Matrix.cons_val_zero, Matrix.cons_val_one,
    Matrix.cons_val_fin_one, r00, r01]
  norm_num

/-- non-vacuity: three points in the plane can be fitted -/
example : ∃ chol, IsCholesky chol ∧ ∃ e g', Norm.fit chol ⟨true, true⟩ (⟨0, 1⟩ : Norm 1) [(![0], 1), (![2], 1)] = some (e, g') := by
  obtain ⟨chol, hc⟩ := exists_isCholesky
  refine ⟨chol, hc, (C110_fit hc _ _).1.2 ⟨by norm_num, ?_⟩⟩
  have e : wCov [((![0] : Vec 1), (1 : ℝ)), (![2], 1)] (fun r => r.2) = 1 := by
    ext i j
    fin_cases i
    fin_cases j
    simp [wCov, wMean]
    norm_num
  rw [e]
  exact Matrix.PosDef.one

end Hyp.FullCov
