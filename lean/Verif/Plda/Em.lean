import Verif.Plda.Props
import Mathlib.Analysis.Matrix.Spectrum

namespace Hyp.Plda
open scoped BigOperators
open Matrix MeasureTheory

variable {k l n : Nat} {chol : (n : Nat) → Mat n n → Mat n n}

/-! ### the posterior of the speaker variable -/

/-- C82: the posterior mean and covariance of full-rank PLDA are those of the Gaussian that Bayes' rule gives: joint density
= evidence times Gaussian posterior density; and the returned log density at zero is its value at zero -/
theorem C82_fr_posterior (hc : IsCholesky chol) (g : FR n) (hB : g.B.PosDef) (hW : g.W.PosDef) (X : List (Vec n)) :
    (∀ y, gaussPdf g.mu g.B y * (X.map (fun x => gaussPdf y g.W x)).prod = evidence g.mu g.B 0 1 g.W X *
      gaussPdf (g.posterior chol X.length X.sum).1 ((g.posterior chol X.length X.sum).2.1)⁻¹ y) ∧
    (g.posterior chol X.length X.sum).2.2 =
      Real.log (gaussPdf (g.posterior chol X.length X.sum).1 ((g.posterior chol X.length X.sum).2.1)⁻¹ 0) := by
  have hL := postPrec_pos hB hW 1 (N := (X.length : ℝ)) (Nat.cast_nonneg _)
  obtain ⟨R, hR, hd⟩ := exists_factor hL
  have hlin := fr_lin (PosDef.symm hB) (PosDef.symm hW) g.mu X.sum
  have hz : (X.map (fun x => x - 0)).sum = X.sum := by simp
  have hg : X.sum ᵥ* g.W + g.mu ᵥ* g.B = postLin g.mu g.B 1 g.W (X.map (fun x => x - 0)).sum := by rw [hz, hlin]
  have hev := evidence_eq (PosDef.symm hB) (PosDef.symm hW) hW.det_pos hB.det_pos g.mu 0 1 X R hd hR _ _ hg (inv_solve hL _)
  have hm : (g.posterior chol X.length X.sum).1 = (postPrec g.B 1 g.W X.length)⁻¹ *ᵥ (X.sum ᵥ* g.W + g.mu ᵥ* g.B) := by
    show pdRight chol (g.B + (X.length : ℝ) • g.W) _ = _
    rw [fr_prec, pdRight_eq hc hL]
  have hC : ((g.posterior chol X.length X.sum).2.1)⁻¹ = postPrec g.B 1 g.W X.length := by
    show (pdInv chol (g.B + (X.length : ℝ) • g.W))⁻¹ = _
    rw [fr_prec, pdInv_eq hc hL, Matrix.nonsing_inv_nonsing_inv _ (PosDef.det_ne hL)]
  constructor
  · intro y
    have h := bayes (PosDef.symm hB) (PosDef.symm hW) hW.det_pos hB.det_pos g.mu 0 1 X R hd hR _ _ hg (inv_solve hL _) y
    have e : ∀ x, gaussPdf y g.W x = gaussPdf (0 + y ᵥ* 1) g.W x := by
      intro x; rw [Matrix.vecMul_one, zero_add]
    simp only [e]
    rw [h, hev, hm, hC]
  · rw [hC, hm]
    have e3 : (g.posterior chol X.length X.sum).2.2 = -(1 / 2) * n * Real.log (2 * Real.pi) + 1 / 2 * (logdetPd chol (g.B + (X.length : ℝ) • g.W) -
      pdRight chol (g.B + (X.length : ℝ) • g.W) (X.sum ᵥ* g.W + g.mu ᵥ* g.B) ⬝ᵥ (X.sum ᵥ* g.W + g.mu ᵥ* g.B)) := rfl
    rw [e3, fr_prec, pdRight_eq hc hL, logdetPd_eq hc hL]
    generalize X.sum ᵥ* g.W + g.mu ᵥ* g.B = gam
    unfold gaussPdf
    have hs := Real.sqrt_pos.mpr hL.det_pos
    have hpi : 0 < Real.sqrt (2 * Real.pi) := Real.sqrt_pos.mpr (by positivity)
    rw [Real.log_mul (div_pos hs (pow_pos hpi n)).ne' (Real.exp_pos _).ne', Real.log_exp, Real.log_div hs.ne' (pow_pos hpi n).ne',
      Real.log_pow, Real.log_sqrt hL.det_pos.le, Real.log_sqrt (by positivity), zero_sub, Matrix.mulVec_neg, neg_dotProduct, dotProduct_neg,
      inv_solve hL]
    ring

/-! ### the bound is the likelihood -/

theorem sum_classes (rows : List (Vec n × Nat)) (M : Nat) (f : Vec n → ℝ) (h : ∀ i, M ≤ i → classVecs rows i = []) :
    ((List.range M).map (fun c => ((classVecs rows c).map f).sum)).sum = (rows.map (fun r => f r.1)).sum := by
  simp only [← classVecs_sum]
  have hlt : ∀ r ∈ rows, r.2 < M := by
    intro r hr
    by_contra hc
    have := h r.2 (by omega)
    unfold classVecs at this
    rw [List.map_eq_nil_iff, List.filter_eq_nil_iff] at this
    exact absurd (decide_eq_true rfl) (this r hr)
  clear h
  induction rows with
  | nil => simp
  | cons r rows ih =>
    simp only [List.map_cons, List.sum_cons]
    rw [List.sum_map_add, ih (fun r hr => hlt r (List.mem_cons_of_mem _ hr)), List.sum_map_mul_right,
      onehot_sum (hlt r List.mem_cons_self), one_mul]

/-- `np.inner(W.ravel(), S.ravel())` for a second moment `S` -/
theorem inner_S (W : Mat n n) (X : List (Vec n)) :
    ∑ i, ∑ j, W i j * (X.map (fun x => Matrix.vecMulVec x x)).sum i j = (X.map (fun x => x ⬝ᵥ (W *ᵥ x))).sum := by
  induction X with
  | nil => simp
  | cons x X ih =>
    simp only [List.map_cons, List.sum_cons, Matrix.add_apply, mul_add, Finset.sum_add_distrib, ih]
    congr 1
    unfold dotProduct
    refine Finset.sum_congr rfl (fun i _ => ?_)
    rw [Matrix.mulVec, dotProduct, Finset.mul_sum]
    refine Finset.sum_congr rfl (fun j _ => ?_)
    rw [Matrix.vecMulVec_apply]; ring

/-- log likelihood of labelled data: the speakers are independent -/
noncomputable def llk (g : FR n) (rows : List (Vec n × Nat)) (M : Nat) : ℝ :=
  ((List.range M).map (fun c => Real.log (evidence g.mu g.B 0 1 g.W (classVecs rows c)))).sum

theorem sum_aff {α : Type} (l : List α) (a b : α → ℝ) (c d : ℝ) :
    (l.map (fun x => a x * c + b x + d)).sum = (l.map a).sum * c + (l.map b).sum + l.length * d := by
  induction l with
  | nil => simp
  | cons x l ih => simp only [List.map_cons, List.sum_cons, ih, List.length_cons]; push_cast; ring

theorem sum_sub' {α : Type} (l : List α) (a b : α → ℝ) : (l.map (fun x => a x - b x)).sum = (l.map a).sum - (l.map b).sum := by
  induction l with
  | nil => simp
  | cons x l ih => simp only [List.map_cons, List.sum_cons, ih]; ring

/-- C83: the training objective of full-rank PLDA is exactly the log likelihood of the training data -/
theorem C83_fr_elbo (hc : IsCholesky chol) (g : FR n) (hB : g.B.PosDef) (hW : g.W.PosDef) (rows : List (Vec n × Nat)) (D : Stats n)
    (h : statsHard rows = some D) : g.elbo chol (g.estep chol D) = llk g rows D.M := by
  obtain ⟨hN, hF, hM, hS⟩ := statsHard_some h
  have hz : ∀ X : List (Vec n), (X.map (fun x => x - 0)).sum = X.sum := by intro X; simp
  have hcls : ∀ c, Real.log (evidence g.mu g.B 0 1 g.W (classVecs rows c)) =
      D.N c * (1 / 2 * Real.log g.W.det - 1 / 2 * n * Real.log (2 * Real.pi)) +
      (-(1 / 2) * ((classVecs rows c).map (fun x => x ⬝ᵥ (g.W *ᵥ x))).sum - (g.posterior chol (D.N c) (D.F c)).2.2) +
      1 / 2 * (-n * Real.log (2 * Real.pi) + Real.log g.B.det - g.mu ⬝ᵥ (g.B *ᵥ g.mu)) := by
    intro c
    have hL := postPrec_pos hB hW 1 (N := ((classVecs rows c).length : ℝ)) (Nat.cast_nonneg _)
    have hlin := fr_lin (PosDef.symm hB) (PosDef.symm hW) g.mu (classVecs rows c).sum
    have he := (log_evidence hB hW g.mu 0 1 (classVecs rows c) ((classVecs rows c).sum ᵥ* g.W + g.mu ᵥ* g.B) (by rw [hz, hlin])).2
    rw [he, hN, hF]
    have e3 : (g.posterior chol (classVecs rows c).length (classVecs rows c).sum).2.2 = -(1 / 2) * n * Real.log (2 * Real.pi) + 1 / 2 * (logdetPd chol (g.B + ((classVecs rows c).length : ℝ) • g.W) -
      pdRight chol (g.B + ((classVecs rows c).length : ℝ) • g.W) ((classVecs rows c).sum ᵥ* g.W + g.mu ᵥ* g.B) ⬝ᵥ ((classVecs rows c).sum ᵥ* g.W + g.mu ᵥ* g.B)) := rfl
    rw [e3, fr_prec, pdRight_eq hc hL, logdetPd_eq hc hL]
    generalize (classVecs rows c).sum ᵥ* g.W + g.mu ᵥ* g.B = gam
    unfold baseLog
    have hs := Real.sqrt_pos.mpr hW.det_pos
    have hpi : 0 < Real.sqrt (2 * Real.pi) := Real.sqrt_pos.mpr (by positivity)
    rw [Real.log_div hs.ne' (pow_pos hpi n).ne', Real.log_pow, Real.log_sqrt hW.det_pos.le, Real.log_sqrt (by positivity),
      dotProduct_comm gam]
    simp only [sub_zero]
    ring
  unfold llk
  simp only [hcls]
  rw [sum_aff, sum_sub', List.length_range]
  rw [sum_scale (-(1 / 2)) (fun c => ((classVecs rows c).map (fun x => x ⬝ᵥ (g.W *ᵥ x))).sum), sum_classes rows D.M _ hM]
  unfold FR.elbo FR.estep
  simp only []
  have hS' : ∑ i, ∑ j, g.W i j * D.S i j = (rows.map (fun r => r.1 ⬝ᵥ (g.W *ᵥ r.1))).sum := by
    have := inner_S g.W (rows.map Prod.fst)
    rw [List.map_map, List.map_map] at this
    rw [hS]
    exact this
  rw [hS', logdetPd_eq hc hW, logdetPd_eq hc hB, ← Matrix.dotProduct_mulVec]
  ring

/-! ### EM -/

/-- `log det A ≤ log det B + tr(A B⁻¹) - n` -/
theorem kl_det {A B : Mat n n} (hA : A.PosDef) (hB : B.PosDef) :
    Real.log A.det ≤ Real.log B.det + (A * B⁻¹).trace - n := by
  obtain ⟨R, hR, hd⟩ := exists_factor hB.inv
  have hC : (R * A * Rᵀ).PosDef := by
    have := hA.mul_mul_conjTranspose_same (B := R) (Matrix.vecMul_injective_of_isUnit ((Matrix.isUnit_iff_isUnit_det R).mpr hd.isUnit))
    rwa [conjTranspose_eq_transpose_of_trivial] at this
  have hdet : (R * A * Rᵀ).det = A.det / B.det := by
    have : B⁻¹.det = R.det * R.det := by rw [← hR, Matrix.det_mul, Matrix.det_transpose]
    rw [Matrix.det_nonsing_inv, Ring.inverse_eq_inv'] at this
    rw [Matrix.det_mul, Matrix.det_mul, Matrix.det_transpose, div_eq_mul_inv, this]
    ring
  have htr : (R * A * Rᵀ).trace = (A * B⁻¹).trace := by
    rw [← hR, Matrix.trace_mul_comm, ← Matrix.mul_assoc, Matrix.trace_mul_comm]
  have h1 : (R * A * Rᵀ).det = ∏ i, hC.1.eigenvalues i := by
    have := hC.1.det_eq_prod_eigenvalues
    simpa using this
  have h2 : (R * A * Rᵀ).trace = ∑ i, hC.1.eigenvalues i := by
    have := hC.1.trace_eq_sum_eigenvalues
    simpa using this
  have h3 : Real.log (R * A * Rᵀ).det ≤ (R * A * Rᵀ).trace - n := by
    rw [h1, h2, Real.log_prod (fun i _ => (hC.eigenvalues_pos i).ne')]
    calc _ ≤ ∑ i, (hC.1.eigenvalues i - 1) := Finset.sum_le_sum (fun i _ => Real.log_le_sub_one_of_pos (hC.eigenvalues_pos i))
      _ = _ := by rw [Finset.sum_sub_distrib]; simp
  rw [hdet, htr, Real.log_div hA.det_pos.ne' hB.det_pos.ne'] at h3
  linarith

theorem quad_bound {L : Mat n n} (hL : L.PosDef) (g y : Vec n) : 2 * (y ⬝ᵥ g) - y ⬝ᵥ (L *ᵥ y) ≤ g ⬝ᵥ (L⁻¹ *ᵥ g) := by
  have h := complete_square (PosDef.symm hL) g (L⁻¹ *ᵥ g) y (inv_solve hL g)
  have := PosSemidef.quad hL.posSemidef (y - L⁻¹ *ᵥ g)
  rw [dotProduct_comm y g]
  linarith

theorem trace_outer (B : Mat n n) (u v : Vec n) : (B * Matrix.vecMulVec u v).trace = v ⬝ᵥ (B *ᵥ u) := by
  rw [Matrix.mul_vecMulVec, Matrix.trace_vecMulVec, dotProduct_comm]

/-- one class: the gain in log evidence is at least the gain in expected log prior -/
theorem em_class {B B' W : Mat n n} (hB : B.PosDef) (hB' : B'.PosDef) (hW : W.PosDef) (m m' : Vec n) (X : List (Vec n)) (S : Mat n n) (y : Vec n)
    (hS : S = (postPrec B 1 W X.length)⁻¹) (hy : y = S *ᵥ postLin m B 1 W X.sum) :
    1 / 2 * ((Real.log B'.det - (B' * S).trace - (y - m') ⬝ᵥ (B' *ᵥ (y - m'))) - (Real.log B.det - (B * S).trace - (y - m) ⬝ᵥ (B *ᵥ (y - m))))
      ≤ Real.log (evidence m' B' 0 1 W X) - Real.log (evidence m B 0 1 W X) := by
  have hz : (X.map (fun x => x - 0)).sum = X.sum := by simp
  have hL := postPrec_pos hB hW 1 (N := (X.length : ℝ)) (Nat.cast_nonneg _)
  have hL' := postPrec_pos hB' hW 1 (N := (X.length : ℝ)) (Nat.cast_nonneg _)
  have e := (log_evidence hB hW m 0 1 X (postLin m B 1 W X.sum) (by rw [hz])).2
  have e' := (log_evidence hB' hW m' 0 1 X (postLin m' B' 1 W X.sum) (by rw [hz])).2
  have q := quad_bound hL' (postLin m' B' 1 W X.sum) y
  have kl := kl_det hL' hL
  rw [← hS] at kl
  have hLd : postPrec B' 1 W X.length = postPrec B 1 W X.length + (B' - B) := by unfold postPrec; abel
  have htr : (postPrec B' 1 W X.length * S).trace = n + (B' * S).trace - (B * S).trace := by
    rw [hLd, Matrix.add_mul, Matrix.sub_mul, Matrix.trace_add, Matrix.trace_sub, hS, Matrix.mul_nonsing_inv _ (PosDef.det_ne hL), Matrix.trace_one,
      Fintype.card_fin]
    ring
  have hLy : postPrec B 1 W X.length *ᵥ y = postLin m B 1 W X.sum := by rw [hy, hS, inv_solve hL]
  have hgg : postLin m B 1 W X.sum ⬝ᵥ ((postPrec B 1 W X.length)⁻¹ *ᵥ postLin m B 1 W X.sum) = y ⬝ᵥ postLin m B 1 W X.sum := by
    rw [← hS, ← hy, dotProduct_comm]
  have hyL : y ⬝ᵥ (postPrec B' 1 W X.length *ᵥ y) = y ⬝ᵥ postLin m B 1 W X.sum + y ⬝ᵥ (B' *ᵥ y) - y ⬝ᵥ (B *ᵥ y) := by
    rw [hLd, Matrix.add_mulVec, Matrix.sub_mulVec, dotProduct_add, dotProduct_sub, hLy]; ring
  have hyg : y ⬝ᵥ postLin m' B' 1 W X.sum = y ⬝ᵥ postLin m B 1 W X.sum + y ⬝ᵥ (B' *ᵥ m') - y ⬝ᵥ (B *ᵥ m) := by
    unfold postLin
    rw [dotProduct_add, dotProduct_add]; ring
  have hexp : ∀ (C : Mat n n) (u : Vec n), C.PosDef → (y - u) ⬝ᵥ (C *ᵥ (y - u)) = y ⬝ᵥ (C *ᵥ y) - 2 * (y ⬝ᵥ (C *ᵥ u)) + u ⬝ᵥ (C *ᵥ u) := by
    intro C u hC
    rw [Matrix.mulVec_sub, sub_dotProduct, dotProduct_sub, dotProduct_sub, symm_dot (PosDef.symm hC) u y]; ring
  rw [e, e', hgg, hexp B m hB, hexp B' m' hB']
  rw [htr] at kl
  rw [hyL, hyg] at q
  linarith

/-- the expected log prior, summed over the classes -/
theorem em_sum {B : Mat n n} (hB : B.PosDef) (m : Vec n) (cs : List Nat) (S : Nat → Mat n n) (y : Nat → Vec n) :
    (cs.map (fun c => Real.log B.det - (B * S c).trace - (y c - m) ⬝ᵥ (B *ᵥ (y c - m)))).sum =
      cs.length * Real.log B.det - (B * ((cs.map S).sum + (cs.map (fun c => Matrix.vecMulVec (y c) (y c))).sum)).trace +
        2 * (m ⬝ᵥ (B *ᵥ (cs.map y).sum)) - cs.length * (m ⬝ᵥ (B *ᵥ m)) := by
  induction cs with
  | nil => simp
  | cons c cs ih =>
    simp only [List.map_cons, List.sum_cons, ih, List.length_cons]
    push_cast
    have e : S c + (cs.map S).sum + (Matrix.vecMulVec (y c) (y c) + (cs.map (fun c => Matrix.vecMulVec (y c) (y c))).sum) =
      (S c + Matrix.vecMulVec (y c) (y c)) + ((cs.map S).sum + (cs.map (fun c => Matrix.vecMulVec (y c) (y c))).sum) := by abel
    rw [e]
    simp only [Matrix.mul_add, Matrix.trace_add, trace_outer, Matrix.mulVec_add B (y c), dotProduct_add]
    rw [Matrix.mulVec_sub, sub_dotProduct, dotProduct_sub, dotProduct_sub, symm_dot (PosDef.symm hB) (y c) m]
    ring

/-- second moment of the posterior minus mean outer mean is positive definite -/
theorem cov_pos (cs : List Nat) (hcs : cs ≠ []) (S : Nat → Mat n n) (hS : ∀ c ∈ cs, (S c).PosDef) (y : Nat → Vec n) :
    ((1 / (cs.length : ℝ)) • ((cs.map S).sum + (cs.map (fun c => Matrix.vecMulVec (y c) (y c))).sum) -
      Matrix.vecMulVec (fun i => (cs.map y).sum i / (cs.length : ℝ)) (fun i => (cs.map y).sum i / (cs.length : ℝ))).PosDef := by
  have hlen : (0 : ℝ) < cs.length := by
    rw [Nat.cast_pos]; exact List.length_pos_iff.mpr hcs
  set M : ℝ := (cs.length : ℝ) with hM
  set yb : Vec n := fun i => (cs.map y).sum i / M with hyb
  have hsum : ∀ cs' : List Nat, (cs'.map (fun c => Matrix.vecMulVec (y c - yb) (y c - yb))).sum =
      (cs'.map (fun c => Matrix.vecMulVec (y c) (y c))).sum - Matrix.vecMulVec (cs'.map y).sum yb - Matrix.vecMulVec yb (cs'.map y).sum +
        (cs'.length : ℝ) • Matrix.vecMulVec yb yb := by
    intro cs'
    induction cs' with
    | nil => simp
    | cons c cs' ih =>
      simp only [List.map_cons, List.sum_cons, ih, List.length_cons]
      ext i j
      simp only [Matrix.add_apply, Matrix.sub_apply, Matrix.smul_apply, Matrix.vecMulVec_apply, Pi.sub_apply, Pi.add_apply, smul_eq_mul]
      push_cast
      ring
  have hyM : (cs.map y).sum = M • yb := by
    ext i
    rw [Pi.smul_apply, smul_eq_mul, hyb]
    field_simp
  have e : (1 / M) • ((cs.map S).sum + (cs.map (fun c => Matrix.vecMulVec (y c) (y c))).sum) - Matrix.vecMulVec yb yb =
      (1 / M) • ((cs.map S).sum + (cs.map (fun c => Matrix.vecMulVec (y c - yb) (y c - yb))).sum) := by
    rw [hsum cs, hyM]
    ext i j
    simp only [Matrix.add_apply, Matrix.sub_apply, Matrix.smul_apply, Matrix.vecMulVec_apply, Pi.smul_apply, smul_eq_mul]
    rw [← hM]
    field_simp
    ring
  rw [e]
  apply Matrix.PosDef.smul _ (one_div_pos.mpr hlen)
  apply Matrix.PosDef.add_posSemidef
  · cases cs with
    | nil => exact absurd rfl hcs
    | cons c cs =>
      rw [List.map_cons, List.sum_cons]
      apply (hS c List.mem_cons_self).add_posSemidef
      have : ∀ cs' : List Nat, (∀ d ∈ cs', (S d).PosDef) → ((cs'.map S).sum).PosSemidef := by
        intro cs' h
        induction cs' with
        | nil => exact Matrix.PosSemidef.zero
        | cons d cs' ih =>
          rw [List.map_cons, List.sum_cons]
          exact (h d List.mem_cons_self).posSemidef.add (ih (fun d hd => h d (List.mem_cons_of_mem _ hd)))
      exact this cs (fun d hd => hS d (List.mem_cons_of_mem _ hd))
  · clear e hyM hsum
    generalize yb = u
    clear hS
    have : ∀ cs' : List Nat, ((cs'.map (fun c => Matrix.vecMulVec (y c - u) (y c - u))).sum).PosSemidef := by
      intro cs'
      induction cs' with
      | nil => exact Matrix.PosSemidef.zero
      | cons d cs' ih =>
        rw [List.map_cons, List.sum_cons]
        refine Matrix.PosSemidef.add ?_ ih
        have := Matrix.posSemidef_vecMulVec_self_star (y d - u)
        rwa [star_trivial] at this
    exact this cs

theorem stats_M_pos {rows : List (Vec n × Nat)} {D : Stats n} (h : statsHard rows = some D) : 0 < D.M := by
  unfold statsHard at h
  cases hm : (rows.map Prod.snd).max? with
  | none => rw [hm] at h; cases h
  | some m =>
    rw [hm] at h
    simp only [Option.some.injEq] at h
    subst h
    exact Nat.succ_pos m

/-- total gain of the likelihood from the gain of the expected log prior -/
theorem em_total (hc : IsCholesky chol) (g g' : FR n) (hB : g.B.PosDef) (hB' : g'.B.PosDef) (hW : g.W.PosDef) (hWW : g'.W = g.W)
    (rows : List (Vec n × Nat)) (D : Stats n) (h : statsHard rows = some D)
    (hq : D.M * (Real.log g.B.det) - (g.B * (g.estep chol D).Py).trace + 2 * (g.mu ⬝ᵥ (g.B *ᵥ (g.estep chol D).y)) - D.M * (g.mu ⬝ᵥ (g.B *ᵥ g.mu)) ≤
      D.M * (Real.log g'.B.det) - (g'.B * (g.estep chol D).Py).trace + 2 * (g'.mu ⬝ᵥ (g'.B *ᵥ (g.estep chol D).y)) - D.M * (g'.mu ⬝ᵥ (g'.B *ᵥ g'.mu))) :
    llk g rows D.M ≤ llk g' rows D.M := by
  obtain ⟨hN, hF, hM, hS⟩ := statsHard_some h
  set y : Nat → Vec n := fun c => (g.posterior chol (D.N c) (D.F c)).1 with hy
  set S : Nat → Mat n n := fun c => (g.posterior chol (D.N c) (D.F c)).2.1 with hSd
  have hSc : ∀ c, S c = (postPrec g.B 1 g.W (classVecs rows c).length)⁻¹ := by
    intro c
    show pdInv chol (g.B + D.N c • g.W) = _
    rw [hN, fr_prec, pdInv_eq hc (postPrec_pos hB hW 1 (Nat.cast_nonneg _))]
  have hyc : ∀ c, y c = S c *ᵥ postLin g.mu g.B 1 g.W (classVecs rows c).sum := by
    intro c
    rw [hSc]
    show pdRight chol (g.B + D.N c • g.W) (D.F c ᵥ* g.W + g.mu ᵥ* g.B) = _
    rw [hN, hF, fr_prec, pdRight_eq hc (postPrec_pos hB hW 1 (Nat.cast_nonneg _)), fr_lin (PosDef.symm hB) (PosDef.symm hW)]
  have hcl : ∀ c, 1 / 2 * ((Real.log g'.B.det - (g'.B * S c).trace - (y c - g'.mu) ⬝ᵥ (g'.B *ᵥ (y c - g'.mu))) -
      (Real.log g.B.det - (g.B * S c).trace - (y c - g.mu) ⬝ᵥ (g.B *ᵥ (y c - g.mu)))) ≤
      Real.log (evidence g'.mu g'.B 0 1 g'.W (classVecs rows c)) - Real.log (evidence g.mu g.B 0 1 g.W (classVecs rows c)) := by
    intro c
    rw [hWW]
    exact em_class hB hB' hW g.mu g'.mu (classVecs rows c) (S c) (y c) (hSc c) (hyc c)
  have hPy : (g.estep chol D).Py = ((List.range D.M).map S).sum + ((List.range D.M).map (fun c => Matrix.vecMulVec (y c) (y c))).sum := rfl
  have hya : (g.estep chol D).y = ((List.range D.M).map y).sum := rfl
  have hsum : ∀ cs : List Nat, (cs.map (fun c => 1 / 2 * ((Real.log g'.B.det - (g'.B * S c).trace - (y c - g'.mu) ⬝ᵥ (g'.B *ᵥ (y c - g'.mu))) -
      (Real.log g.B.det - (g.B * S c).trace - (y c - g.mu) ⬝ᵥ (g.B *ᵥ (y c - g.mu)))))).sum ≤
      (cs.map (fun c => Real.log (evidence g'.mu g'.B 0 1 g'.W (classVecs rows c)) - Real.log (evidence g.mu g.B 0 1 g.W (classVecs rows c)))).sum := by
    intro cs
    induction cs with
    | nil => simp
    | cons c cs ih => simp only [List.map_cons, List.sum_cons]; exact add_le_add (hcl c) ih
  have hs := hsum (List.range D.M)
  rw [sum_scale, sum_sub', em_sum hB', em_sum hB, List.length_range, ← hPy, ← hya, sum_sub'] at hs
  unfold llk
  linarith

/-- C84: an M step of full-rank PLDA that keeps `W` fixed never lowers the likelihood of the training data, and keeps the
parameters valid -/
theorem C84_fr_mstep_partial (hc : IsCholesky chol) (cfg : FRCfg) (hcW : cfg.updateW = false) (g : FR n)
    (hcB : cfg.updateMu = true ∨ cfg.updateB = false ∨ g.mu = 0) (hB : g.B.PosDef) (hW : g.W.PosDef)
    (rows : List (Vec n × Nat)) (D : Stats n) (h : statsHard rows = some D) :
    llk g rows D.M ≤ llk (g.mstep chol cfg (g.estep chol D)) rows D.M ∧
    (g.mstep chol cfg (g.estep chol D)).B.PosDef ∧ (g.mstep chol cfg (g.estep chol D)).W = g.W ∧
    (cfg.updateMu = true ∨ cfg.updateB = false ∨ (g.mstep chol cfg (g.estep chol D)).mu = 0) := by
  have hMpos := stats_M_pos h
  have hM : (0 : ℝ) < D.M := Nat.cast_pos.mpr hMpos
  obtain ⟨hN, hF, -, -⟩ := statsHard_some h
  set a := g.estep chol D with ha
  set S : Nat → Mat n n := fun c => (g.posterior chol (D.N c) (D.F c)).2.1 with hSd
  set y : Nat → Vec n := fun c => (g.posterior chol (D.N c) (D.F c)).1 with hy
  have haM : a.M = D.M := rfl
  have haP : a.Py = ((List.range D.M).map S).sum + ((List.range D.M).map (fun c => Matrix.vecMulVec (y c) (y c))).sum := rfl
  have hay : a.y = ((List.range D.M).map y).sum := rfl
  have hSpos : ∀ c, (S c).PosDef := by
    intro c
    show (pdInv chol (g.B + D.N c • g.W)).PosDef
    rw [hN, fr_prec, pdInv_eq hc (postPrec_pos hB hW 1 (Nat.cast_nonneg _))]
    exact (postPrec_pos hB hW 1 (Nat.cast_nonneg _)).inv
  have hcs : List.range D.M ≠ [] := by
    intro h0
    rw [List.range_eq_nil] at h0
    omega
  have hlen : ((List.range D.M).length : ℝ) = D.M := by rw [List.length_range]
  set yb : Vec n := fun i => a.y i / a.M with hyb
  have hybM : a.y = (D.M : ℝ) • yb := by
    ext i
    rw [Pi.smul_apply, smul_eq_mul, hyb, haM]
    field_simp
  have hCov : ((1 / (D.M : ℝ)) • a.Py - Matrix.vecMulVec yb yb).PosDef := by
    have := cov_pos (List.range D.M) hcs S (fun c _ => hSpos c) y
    rw [hlen] at this
    exact this
  have hP : ((1 / (D.M : ℝ)) • a.Py).PosDef := by
    have e : (1 / (D.M : ℝ)) • a.Py = ((1 / (D.M : ℝ)) • a.Py - Matrix.vecMulVec yb yb) + Matrix.vecMulVec yb yb := by abel
    rw [e]
    apply hCov.add_posSemidef
    have := Matrix.posSemidef_vecMulVec_self_star yb
    rwa [star_trivial] at this
  -- the objective in terms of the covariance
  have hobj : ∀ (B : Mat n n) (m : Vec n), B.PosDef →
      D.M * Real.log B.det - (B * a.Py).trace + 2 * (m ⬝ᵥ (B *ᵥ a.y)) - D.M * (m ⬝ᵥ (B *ᵥ m)) =
      D.M * (Real.log B.det - (B * ((1 / (D.M : ℝ)) • a.Py - Matrix.vecMulVec yb yb)).trace - (yb - m) ⬝ᵥ (B *ᵥ (yb - m))) := by
    intro B m hBp
    rw [Matrix.mul_sub, Matrix.trace_sub, trace_outer, Matrix.mul_smul, Matrix.trace_smul, smul_eq_mul, hybM, Matrix.mulVec_smul, dotProduct_smul,
      smul_eq_mul, Matrix.mulVec_sub, sub_dotProduct, dotProduct_sub, dotProduct_sub, symm_dot (PosDef.symm hBp) yb m]
    field_simp
    ring
  have hobj0 : ∀ (B : Mat n n), D.M * Real.log B.det - (B * a.Py).trace = D.M * (Real.log B.det - (B * ((1 / (D.M : ℝ)) • a.Py)).trace) := by
    intro B
    rw [Matrix.mul_smul, Matrix.trace_smul, smul_eq_mul]
    field_simp
  -- the best precision for a covariance
  have hbest : ∀ (C B : Mat n n), C.PosDef → B.PosDef → Real.log B.det - (B * C).trace ≤ Real.log C⁻¹.det - (C⁻¹ * C).trace := by
    intro C B hC hBp
    have := kl_det hBp hC.inv
    rw [Matrix.nonsing_inv_nonsing_inv _ (PosDef.det_ne hC)] at this
    rw [Matrix.nonsing_inv_mul _ (PosDef.det_ne hC), Matrix.trace_one, Fintype.card_fin]
    linarith
  have hWeq : (g.mstep chol cfg a).W = g.W := by unfold FR.mstep; simp [hcW]
  have hq0 : ∀ (B : Mat n n) (m : Vec n), B.PosDef → 0 ≤ (yb - m) ⬝ᵥ (B *ᵥ (yb - m)) := fun B m hBp => PosSemidef.quad hBp.posSemidef _
  by_cases hmu : cfg.updateMu = true
  · have hmu' : (g.mstep chol cfg a).mu = yb := by unfold FR.mstep; simp [hmu, hyb]
    by_cases hb : cfg.updateB = true
    · have hBeq : (g.mstep chol cfg a).B = ((1 / (D.M : ℝ)) • a.Py - Matrix.vecMulVec yb yb)⁻¹ := by
        have : (g.mstep chol cfg a).B = pdInv chol ((1 / a.M) • a.Py - Matrix.vecMulVec yb yb) := by unfold FR.mstep; simp [hmu, hb, hyb]
        rw [this, haM, pdInv_eq hc hCov]
      have hBp : (g.mstep chol cfg a).B.PosDef := by rw [hBeq]; exact hCov.inv
      refine ⟨em_total hc g _ hB hBp hW hWeq rows D h ?_, hBp, hWeq, Or.inl hmu⟩
      rw [← ha, hobj _ _ hB, hobj _ _ hBp, hmu', hBeq]
      apply mul_le_mul_of_nonneg_left _ hM.le
      have h1 := hbest _ g.B hCov hB
      have h2 := hq0 g.B g.mu hB
      rw [sub_self, zero_dotProduct, sub_zero]
      linarith
    · have hBeq : (g.mstep chol cfg a).B = g.B := by unfold FR.mstep; simp [hb]
      have hBp : (g.mstep chol cfg a).B.PosDef := by rw [hBeq]; exact hB
      refine ⟨em_total hc g _ hB hBp hW hWeq rows D h ?_, hBp, hWeq, Or.inl hmu⟩
      rw [← ha, hobj _ _ hB, hobj _ _ hBp, hmu', hBeq]
      apply mul_le_mul_of_nonneg_left _ hM.le
      have h2 := hq0 g.B g.mu hB
      rw [sub_self, zero_dotProduct, sub_zero]
      linarith
  · have hmu' : (g.mstep chol cfg a).mu = g.mu := by unfold FR.mstep; simp [hmu]
    by_cases hb : cfg.updateB = true
    · have hm0 : g.mu = 0 := by
        rcases hcB with h | h | h
        · exact absurd h hmu
        · rw [hb] at h; cases h
        · exact h
      have hBeq : (g.mstep chol cfg a).B = ((1 / (D.M : ℝ)) • a.Py)⁻¹ := by
        have : (g.mstep chol cfg a).B = pdInv chol ((1 / a.M) • a.Py) := by unfold FR.mstep; simp [hmu, hb, hm0]
        rw [this, haM, pdInv_eq hc hP]
      have hBp : (g.mstep chol cfg a).B.PosDef := by rw [hBeq]; exact hP.inv
      refine ⟨em_total hc g _ hB hBp hW hWeq rows D h ?_, hBp, hWeq, Or.inr (Or.inr (by rw [hmu', hm0]))⟩
      rw [← ha, hmu', hm0]
      simp only [zero_dotProduct, mul_zero, add_zero, sub_zero]
      rw [hobj0, hobj0, hBeq]
      exact mul_le_mul_of_nonneg_left (hbest _ g.B hP hB) hM.le
    · have hBeq : (g.mstep chol cfg a).B = g.B := by unfold FR.mstep; simp [hb]
      refine ⟨em_total hc g _ hB (by rw [hBeq]; exact hB) hW hWeq rows D h ?_, by rw [hBeq]; exact hB, hWeq, Or.inr (Or.inl (by simpa using hb))⟩
      rw [← ha, hmu', hBeq]

/-- C84: the objective values that training reports never decrease from one epoch to the next, for any data and any number
of epochs (with `W` kept fixed) -/
theorem C84_fr_fit_partial (hc : IsCholesky chol) (cfg : FRCfg) (hcW : cfg.updateW = false) (rows : List (Vec n × Nat)) (D : Stats n)
    (h : statsHard rows = some D) (epochs : Nat) : ∀ g : FR n, (cfg.updateMu = true ∨ cfg.updateB = false ∨ g.mu = 0) → g.B.PosDef → g.W.PosDef →
    (FR.fit chol cfg D epochs g).1.length = epochs ∧ (FR.fit chol cfg D epochs g).1.Pairwise (· ≤ ·) ∧
    (∀ v ∈ (FR.fit chol cfg D epochs g).1, llk g rows D.M ≤ v ∧ v ≤ llk (FR.fit chol cfg D epochs g).2 rows D.M) ∧
    llk g rows D.M ≤ llk (FR.fit chol cfg D epochs g).2 rows D.M := by
  induction epochs with
  | zero => intro g _ _ _; exact ⟨rfl, List.Pairwise.nil, fun v hv => by simp [FR.fit] at hv, le_refl _⟩
  | succ e ih =>
    intro g h0 hB hW
    obtain ⟨h1, h2, h3, h4⟩ := C84_fr_mstep_partial hc cfg hcW g h0 hB hW rows D h
    obtain ⟨i1, i2, i3, i4⟩ := ih _ h4 h2 (by rw [h3]; exact hW)
    have e1 : (FR.fit chol cfg D (e + 1) g).1 = g.elbo chol (g.estep chol D) :: (FR.fit chol cfg D e (g.mstep chol cfg (g.estep chol D))).1 := rfl
    have e2 : (FR.fit chol cfg D (e + 1) g).2 = (FR.fit chol cfg D e (g.mstep chol cfg (g.estep chol D))).2 := rfl
    rw [e1, e2, C83_fr_elbo hc g hB hW rows D h]
    refine ⟨by rw [List.length_cons, i1], List.pairwise_cons.mpr ⟨fun v hv => h1.trans (i3 v hv).1, i2⟩, fun v hv => ?_, h1.trans i4⟩
    rcases List.mem_cons.mp hv with rfl | hv
    · exact ⟨le_refl _, h1.trans i4⟩
    · exact ⟨h1.trans (i3 v hv).1, (i3 v hv).2⟩

end Hyp.Plda
