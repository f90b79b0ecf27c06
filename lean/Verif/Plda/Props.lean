import Verif.Plda.Lemmas

namespace Hyp.Plda
open scoped BigOperators
open Matrix MeasureTheory

variable {k l n : Nat}

/-! ### statistics -/

theorem onehot_sum {M j : Nat} (hj : j < M) : ((List.range M).map (fun c => if c = j then (1 : ℝ) else 0)).sum = 1 := by
  have gen : ∀ M : Nat, ((List.range M).map (fun c => if c = j then (1 : ℝ) else 0)).sum = if j < M then 1 else 0 := by
    intro M
    induction M with
    | zero => simp
    | succ M ih =>
      rw [List.range_succ, List.map_append, List.sum_append, ih]
      simp only [List.map_singleton, List.sum_singleton]
      rcases Nat.lt_trichotomy j M with h | h | h
      · rw [if_pos h, if_neg (by omega), if_pos (by omega), add_zero]
      · rw [if_neg (by omega), if_pos (by omega), if_pos (by omega), zero_add]
      · rw [if_neg (by omega), if_neg (by omega), if_neg (by omega), zero_add]
  rw [gen, if_pos hj]

theorem statsHard_some {rows : List (Vec n × Nat)} {D : Stats n} (h : statsHard rows = some D) :
    (∀ i, D.N i = ((classVecs rows i).length : ℝ)) ∧ (∀ i, D.F i = (classVecs rows i).sum) ∧
    (∀ i, D.M ≤ i → classVecs rows i = []) ∧ D.S = (rows.map (fun r => Matrix.vecMulVec r.1 r.1)).sum := by
  unfold statsHard at h
  cases hm : (rows.map Prod.snd).max? with
  | none => rw [hm] at h; cases h
  | some m =>
    rw [hm] at h
    simp only [Option.some.injEq] at h
    subst h
    have hle : ∀ r ∈ rows, r.2 ≤ m := by
      intro r hr
      exact (List.max?_eq_some_iff.mp hm).2 r.2 (List.mem_map_of_mem hr)
    refine ⟨fun i => ?_, fun i => ?_, fun i hi => ?_, ?_⟩
    · show (((rows.map _).map _).sum : ℝ) = _
      rw [List.map_map]
      unfold classVecs
      clear hm hle
      induction rows with
      | nil => simp
      | cons r rows ih =>
        rw [List.map_cons, List.sum_cons, ih, List.filter_cons]
        by_cases hr : r.2 = i
        · simp [hr]; ring
        · simp [hr, Ne.symm hr]
    · show (((rows.map _).map _).sum : Vec n) = _
      rw [List.map_map]
      unfold classVecs
      clear hm hle
      induction rows with
      | nil => simp
      | cons r rows ih =>
        rw [List.map_cons, List.sum_cons, ih, List.filter_cons]
        by_cases hr : r.2 = i
        · simp [hr]
        · simp [hr, Ne.symm hr]
    · unfold classVecs
      rw [List.map_eq_nil_iff, List.filter_eq_nil_iff]
      intro r hr
      have := hle r hr
      have hi' : m + 1 ≤ i := hi
      simp only [decide_eq_true_eq]
      omega
    · show ((rows.map _).map _).sum = _
      rw [List.map_map]
      congr 1
      apply List.map_congr_left
      intro r hr
      simp only [Function.comp]
      rw [onehot_sum (by have := hle r hr; omega), one_smul]

/-! ### the likelihood-ratio scores -/

variable {chol : (n : Nat) → Mat n n → Mat n n}

theorem fr_lin {B W : Mat n n} (hB : Bᵀ = B) (hW : Wᵀ = W) (mu F : Vec n) : F ᵥ* W + mu ᵥ* B = postLin mu B 1 W F := by
  unfold postLin
  rw [Matrix.one_mul, ← Matrix.vecMul_transpose, ← Matrix.vecMul_transpose, hB, hW, add_comm]

theorem fr_prec (B W : Mat n n) (N : ℝ) : B + N • W = postPrec B 1 W N := by
  unfold postPrec
  rw [Matrix.one_mul, Matrix.transpose_one, Matrix.mul_one]

theorem bookBlock_closed (hc : IsCholesky chol) (g : FR n) (hB : g.B.PosDef) (hW : g.W.PosDef) (X Y : List (Vec n)) :
    (g.bookBlock chol X.length Y.length X.sum Y.sum + (-logdetPd chol g.B + (g.mu ᵥ* g.B) ⬝ᵥ g.mu)) * (1 / 2) =
      logLikRatio g.mu g.B 0 1 g.W X Y := by
  have hz : ∀ Z : List (Vec n), (Z.map (fun x => x - 0)).sum = Z.sum := by
    intro Z
    simp
  have hp : ∀ N : ℝ, 0 ≤ N → (g.B + N • g.W).PosDef := by
    intro N hN
    rw [fr_prec]
    exact postPrec_pos hB hW 1 hN
  have hX : (0 : ℝ) ≤ X.length := Nat.cast_nonneg _
  have hY : (0 : ℝ) ≤ Y.length := Nat.cast_nonneg _
  rw [llr_closed hB hW g.mu 0 1 X Y (X.sum ᵥ* g.W + g.mu ᵥ* g.B) (Y.sum ᵥ* g.W + g.mu ᵥ* g.B)
    ((X.sum ᵥ* g.W + (1 / 2 : ℝ) • g.mu ᵥ* g.B) + (Y.sum ᵥ* g.W + (1 / 2 : ℝ) • g.mu ᵥ* g.B))
    (by rw [hz, fr_lin (PosDef.symm hB) (PosDef.symm hW)]) (by rw [hz, fr_lin (PosDef.symm hB) (PosDef.symm hW)])
    (by
      rw [← Matrix.vecMul_transpose g.B, PosDef.symm hB]
      ext i
      simp only [Pi.add_apply, Pi.sub_apply, Pi.smul_apply, smul_eq_mul]
      ring)]
  unfold FR.bookBlock
  simp only []
  rw [logdetPd_eq hc hB, logdetTri_chol hc (hp _ hX), logdetTri_chol hc (hp _ hY), logdetTri_chol hc (hp _ (add_nonneg hX hY)),
    triRight_dot hc (hp _ hX), triRight_dot hc (hp _ hY)]
  have q := tri_quad hc (hp _ (add_nonneg hX hY)) (X.sum ᵥ* g.W + (1 / 2 : ℝ) • g.mu ᵥ* g.B) (Y.sum ᵥ* g.W + (1 / 2 : ℝ) • g.mu ᵥ* g.B)
  have e : (g.mu ᵥ* g.B) ⬝ᵥ g.mu = g.mu ⬝ᵥ (g.B *ᵥ g.mu) := by rw [Matrix.dotProduct_mulVec]
  rw [fr_prec, fr_prec, fr_prec] at *
  rw [e]
  linarith

theorem llr_eq_book (g : FR n) (x1 x2 : Vec n) : g.llr1vs1 chol x1 x2 =
    (g.bookBlock chol (1 : ℕ) (1 : ℕ) x1 x2 + (-logdetPd chol g.B + (g.mu ᵥ* g.B) ⬝ᵥ g.mu)) * (1 / 2) := by
  unfold FR.llr1vs1 FR.bookBlock
  simp only [Nat.cast_one, one_smul]
  rw [show (1 + 1 : ℝ) = 2 by norm_num]
  ring

/-- C80: the score of two vectors under full-rank PLDA is the log likelihood ratio of "same speaker" and "different speakers" -/
theorem C80_frplda_llr (hc : IsCholesky chol) (g : FR n) (hB : g.B.PosDef) (hW : g.W.PosDef) (x1 x2 : Vec n) :
    g.llr1vs1 chol x1 x2 = logLikRatio g.mu g.B 0 1 g.W [x1] [x2] := by
  rw [llr_eq_book, ← bookBlock_closed hc g hB hW]
  simp

theorem low_closed (hc : IsCholesky chol) (mu : Vec n) (V : Mat k n) (W : Mat n n) (hW : W.PosDef) (x1 x2 : Vec n) :
    lowRankLlr chol mu (W * Vᵀ) (V * (W * Vᵀ)) x1 x2 = logLikRatio 0 1 mu V W [x1] [x2] := by
  have h1 : (1 : Mat k k).PosDef := Matrix.PosDef.one
  have hp1 := postPrec_pos h1 hW V (N := 1) zero_le_one
  have hp2 := postPrec_pos h1 hW V (N := 2) zero_le_two
  have e1 : 1 + V * (W * Vᵀ) = postPrec 1 V W 1 := by unfold postPrec; rw [one_smul, Matrix.mul_assoc]
  have e2 : 1 + (2 : ℝ) • (V * (W * Vᵀ)) = postPrec 1 V W 2 := by unfold postPrec; rw [Matrix.mul_assoc]
  have hg : ∀ x : Vec n, (x - mu) ᵥ* (W * Vᵀ) = postLin 0 1 V W ([x].map (fun x => x - mu)).sum := by
    intro x
    unfold postLin
    rw [Matrix.mulVec_zero, zero_add, List.map_singleton, List.sum_singleton, ← Matrix.vecMul_transpose, Matrix.transpose_mul,
      PosDef.symm hW]
  rw [llr_closed h1 hW 0 mu V [x1] [x2] ((x1 - mu) ᵥ* (W * Vᵀ)) ((x2 - mu) ᵥ* (W * Vᵀ))
    ((x1 - mu) ᵥ* (W * Vᵀ) + (x2 - mu) ᵥ* (W * Vᵀ)) (hg x1) (hg x2) (by rw [Matrix.mulVec_zero, sub_zero])]
  unfold lowRankLlr
  simp only []
  rw [e1, e2]
  have q := tri_quad hc hp2 ((x1 - mu) ᵥ* (W * Vᵀ)) ((x2 - mu) ᵥ* (W * Vᵀ))
  rw [logdetTri_chol hc hp1, logdetTri_chol hc hp2, triRight_dot hc hp1, triRight_dot hc hp1]
  have h2 : (([x1].length : ℝ) + ([x2].length : ℝ)) = 2 := by norm_num
  rw [h2]
  simp only [List.length_singleton, Nat.cast_one, Matrix.det_one, Real.log_one, Matrix.mulVec_zero, dotProduct_zero]
  linarith

/-- C80: the same for simplified PLDA -/
theorem C80_splda_llr (hc : IsCholesky chol) (g : SP k n) (hW : g.W.PosDef) (x1 x2 : Vec n) :
    g.llr1vs1 chol x1 x2 = logLikRatio 0 1 g.mu g.V g.W [x1] [x2] :=
  low_closed hc g.mu g.V g.W hW x1 x2

/-! ### PLDA with a channel subspace -/

/-- total within-speaker covariance of `PLDA` -/
noncomputable def Full.cov (g : Full k l n) : Mat n n := Matrix.diagonal (fun i => 1 / g.D i) + g.Uᵀ * g.U

theorem Full.cov_pos (g : Full k l n) (hD : ∀ i, 0 < g.D i) : g.cov.PosDef := by
  unfold Full.cov
  apply Matrix.PosDef.add_posSemidef
  · rw [Matrix.posDef_diagonal_iff]
    intro i
    exact one_div_pos.mpr (hD i)
  · have := Matrix.posSemidef_conjTranspose_mul_self g.U
    rwa [conjTranspose_eq_transpose_of_trivial] at this

theorem Full.DU_eq (g : Full k l n) : g.DU = g.U * Matrix.diagonal g.D := by
  ext i j
  rw [Matrix.mul_diagonal]
  rfl

theorem Full.diag_inv (g : Full k l n) (hD : ∀ i, 0 < g.D i) :
    (Matrix.diagonal (fun i => 1 / g.D i))⁻¹ = Matrix.diagonal g.D := by
  apply Matrix.inv_eq_right_inv
  rw [Matrix.diagonal_mul_diagonal, ← Matrix.diagonal_one]
  congr 1
  ext i
  rw [one_div_mul_cancel (hD i).ne']

theorem Full.Lz_eq (g : Full k l n) : g.Lz = postPrec 1 g.U (Matrix.diagonal g.D) 1 := by
  unfold Full.Lz postPrec
  rw [one_smul, g.DU_eq]

theorem diag_pos {D : Vec n} (hD : ∀ i, 0 < D i) : (Matrix.diagonal D).PosDef := Matrix.posDef_diagonal_iff.mpr hD

theorem Full.Lz_pos (g : Full k l n) (hD : ∀ i, 0 < g.D i) : g.Lz.PosDef := by
  rw [g.Lz_eq]
  exact postPrec_pos Matrix.PosDef.one (diag_pos hD) g.U zero_le_one

theorem Full.DUiLz_eq (hc : IsCholesky chol) (g : Full k l n) (hD : ∀ i, 0 < g.D i) : g.DUiLz chol = g.DUᵀ * g.Lz⁻¹ := by
  unfold Full.DUiLz
  ext j i
  rw [Matrix.of_apply, pdRight_eq hc (g.Lz_pos hD)]
  have hs := inv_symm (PosDef.symm (g.Lz_pos hD))
  rw [Matrix.mul_apply, Matrix.mulVec, dotProduct]
  refine Finset.sum_congr rfl (fun a _ => ?_)
  rw [← hs, Matrix.transpose_apply, Matrix.transpose_apply, hs, mul_comm]

theorem Full.W_eq (hc : IsCholesky chol) (g : Full k l n) (hD : ∀ i, 0 < g.D i) : g.W chol = g.cov⁻¹ := by
  have hA : IsUnit (Matrix.diagonal (fun i => 1 / g.D i) : Mat n n) :=
    (Matrix.isUnit_iff_isUnit_det _).mpr (PosDef.det_ne (diag_pos (fun i => one_div_pos.mpr (hD i))))
  have h := Matrix.add_mul_mul_inv_eq_sub (Matrix.diagonal (fun i => 1 / g.D i) : Mat n n) g.Uᵀ (1 : Mat l l) g.U hA isUnit_one
    (by
      rw [g.diag_inv hD, inv_one]
      have : 1 + g.U * Matrix.diagonal g.D * g.Uᵀ = g.Lz := by unfold Full.Lz; rw [g.DU_eq]
      rw [this]
      exact (Matrix.isUnit_iff_isUnit_det _).mpr (PosDef.det_ne (g.Lz_pos hD)))
  unfold Full.W Full.cov
  rw [Matrix.mul_one] at h
  rw [h, g.diag_inv hD, inv_one, g.DUiLz_eq hc hD, g.DU_eq, Matrix.transpose_mul, Matrix.diagonal_transpose]
  have : 1 + g.U * Matrix.diagonal g.D * g.Uᵀ = g.Lz := by unfold Full.Lz; rw [g.DU_eq]
  rw [this]
  simp only [Matrix.mul_assoc]

theorem Full.VW_eq (hc : IsCholesky chol) (g : Full k l n) (hD : ∀ i, 0 < g.D i) : g.VW chol = g.cov⁻¹ * g.Vᵀ := by
  rw [← g.W_eq hc hD]
  unfold Full.VW Full.W Full.J
  rw [Matrix.sub_mul, Matrix.mul_assoc, Matrix.transpose_mul, Matrix.transpose_transpose]
  congr 1
  ext i j
  rw [Matrix.diagonal_mul, Matrix.transpose_apply, Matrix.transpose_apply, Matrix.of_apply, mul_comm]

theorem Full.det_W (hc : IsCholesky chol) (g : Full k l n) (hD : ∀ i, 0 < g.D i) :
    (g.W chol).det = (Matrix.diagonal g.D).det / g.Lz.det := by
  rw [g.W_eq hc hD, Matrix.det_nonsing_inv, Ring.inverse_eq_inv']
  have h1 : g.cov = (Matrix.diagonal (fun i => 1 / g.D i)) * (1 + (Matrix.diagonal g.D * g.Uᵀ) * g.U) := by
    unfold Full.cov
    rw [Matrix.mul_add, Matrix.mul_one, ← Matrix.mul_assoc, ← Matrix.mul_assoc, Matrix.diagonal_mul_diagonal]
    have : (Matrix.diagonal (fun i => 1 / g.D i * g.D i) : Mat n n) = 1 := by
      rw [← Matrix.diagonal_one]
      congr 1
      ext i
      rw [one_div_mul_cancel (hD i).ne']
    rw [this, Matrix.one_mul]
  have h2 : (Matrix.diagonal (fun i => 1 / g.D i) : Mat n n).det = (Matrix.diagonal g.D).det⁻¹ := by
    rw [Matrix.det_diagonal, Matrix.det_diagonal, ← Finset.prod_inv_distrib]
    exact Finset.prod_congr rfl (fun i _ => one_div _)
  have h3 : 1 + g.U * (Matrix.diagonal g.D * g.Uᵀ) = g.Lz := by unfold Full.Lz; rw [g.DU_eq, Matrix.mul_assoc]
  rw [h1, Matrix.det_mul, h2, Matrix.det_one_add_mul_comm, h3, mul_inv, inv_inv]
  rfl

/-- integrating out the channel variable gives a Gaussian with the precision `W` the code keeps -/
theorem channelPdf_eq (hc : IsCholesky chol) (g : Full k l n) (hD : ∀ i, 0 < g.D i) (c x : Vec n) :
    channelPdf c g.U g.D x = gaussPdf c (g.W chol) x := by
  have hDp := diag_pos hD
  have e : channelPdf c g.U g.D x = evidence 0 1 c g.U (Matrix.diagonal g.D) [x] := by
    unfold channelPdf evidence
    simp
  have hl := log_evidence (Matrix.PosDef.one (n := Fin l) (R := ℝ)) hDp 0 c g.U [x] (postLin 0 1 g.U (Matrix.diagonal g.D) ([x].map (fun x => x - c)).sum) rfl
  have hLp := g.Lz_pos hD
  rw [e, ← Real.exp_log hl.1, hl.2]
  have hlen : (([x].length : ℕ) : ℝ) = 1 := by simp
  rw [hlen, ← g.Lz_eq]
  unfold baseLog gaussPdf postLin
  rw [g.det_W hc hD, Real.sqrt_div hDp.det_pos.le]
  have hs1 := Real.sqrt_pos.mpr hDp.det_pos
  have hs2 := Real.sqrt_pos.mpr hLp.det_pos
  have hpi : 0 < Real.sqrt (2 * Real.pi) := Real.sqrt_pos.mpr (by positivity)
  have hlog : Real.log g.Lz.det = 2 * Real.log (Real.sqrt g.Lz.det) := by
    rw [Real.log_sqrt hLp.det_pos.le]; ring
  rw [hlog]
  simp only [List.map_singleton, List.sum_singleton, Matrix.mulVec_zero, zero_add, Matrix.det_one, Real.log_one, dotProduct_zero, hlen, one_mul]
  have hq : (x - c) ⬝ᵥ (g.W chol *ᵥ (x - c)) = (x - c) ⬝ᵥ (Matrix.diagonal g.D *ᵥ (x - c)) -
      ((g.U * Matrix.diagonal g.D) *ᵥ (x - c)) ⬝ᵥ (g.Lz⁻¹ *ᵥ ((g.U * Matrix.diagonal g.D) *ᵥ (x - c))) := by
    unfold Full.W
    rw [Matrix.sub_mulVec, dotProduct_sub, g.DUiLz_eq hc hD, g.DU_eq]
    congr 1
    rw [← Matrix.mulVec_mulVec, ← Matrix.mulVec_mulVec, Matrix.dotProduct_mulVec, Matrix.vecMul_transpose]
  rw [hq]
  have key : ∀ a b s q r : ℝ, 0 < a → 0 < b → 0 < s →
      Real.exp (Real.log (a / s) - 1 / 2 * q + 1 / 2 * (0 - 2 * Real.log b + r - 0)) = a / b / s * Real.exp (-(1 / 2) * (q - r)) := by
    intro a b s q r ha hb hs
    have : Real.log (a / s) - 1 / 2 * q + 1 / 2 * (0 - 2 * Real.log b + r - 0) = Real.log (a / s / b) + (-(1 / 2) * (q - r)) := by
      rw [Real.log_div (div_pos ha hs).ne' hb.ne']; ring
    rw [this, Real.exp_add, Real.exp_log (by positivity)]
    congr 1
    field_simp
  rw [key _ _ _ _ _ hs1 hs2 (pow_pos hpi n)]

/-- C80: and for PLDA with a channel subspace: the channel variables of all vectors and the speaker variables are integrated
out -/
theorem C80_plda_llr (hc : IsCholesky chol) (g : Full k l n) (hD : ∀ i, 0 < g.D i) (x1 x2 : Vec n) :
    g.llr1vs1 chol x1 x2 = logLikRatio2 g.mu g.V g.U g.D [x1] [x2] := by
  have e : ∀ X, evidence2 g.mu g.V g.U g.D X = evidence 0 1 g.mu g.V (g.W chol) X := by
    intro X
    unfold evidence2 evidence
    simp only [channelPdf_eq hc g hD]
  have hW : (g.W chol).PosDef := by
    rw [g.W_eq hc hD]
    exact (g.cov_pos hD).inv
  have := low_closed hc g.mu g.V (g.W chol) hW x1 x2
  unfold logLikRatio2
  rw [e, e, e]
  unfold Full.llr1vs1 Full.VWV
  rw [g.VW_eq hc hD, ← g.W_eq hc hD, this]
  rfl

/-- non-vacuity: the oracle exists and parameters as required exist -/
example : ∃ chol, IsCholesky chol ∧ (1 : Mat 2 2).PosDef := by
  obtain ⟨chol, hc⟩ := exists_isCholesky
  exact ⟨chol, hc, Matrix.PosDef.one⟩

/-! ### many-to-many scores -/

theorem bookLoop_val (g : FR n) (D1 D2 : Stats n) (i j : Nat) (pairs : List (ℝ × ℝ)) :
    ∀ s : Nat → Nat → ℝ, g.bookLoop chol D1 D2 pairs s i j =
      if (D1.N i, D2.N j) ∈ pairs then g.bookBlock chol (D1.N i) (D2.N j) (D1.F i) (D2.F j) else s i j := by
  classical
  induction pairs with
  | nil => intro s; simp [FR.bookLoop]
  | cons ab pairs ih =>
    intro s
    unfold FR.bookLoop at ih ⊢
    rw [List.foldl_cons, ih]
    by_cases hm : (D1.N i, D2.N j) ∈ pairs
    · rw [if_pos hm, if_pos (List.mem_cons_of_mem _ hm)]
    · rw [if_neg hm]
      by_cases he : D1.N i = ab.1 ∧ D2.N j = ab.2
      · rw [if_pos he, if_pos (List.mem_cons.mpr (Or.inl (Prod.ext he.1 he.2))), ← he.1, ← he.2]
      · rw [if_neg he, if_neg]
        intro h
        rcases List.mem_cons.mp h with h | h
        · exact he ⟨congrArg Prod.fst h, congrArg Prod.snd h⟩
        · exact hm h

/-- C81: the by-the-book score of enrolment speaker `i` and test speaker `j` is the log likelihood ratio of their sets of
vectors, whatever the numbers of vectors are -/
theorem C81_book (hc : IsCholesky chol) (g : FR n) (hB : g.B.PosDef) (hW : g.W.PosDef) (rows1 rows2 : List (Vec n × Nat))
    (D1 D2 : Stats n) (h1 : statsHard rows1 = some D1) (h2 : statsHard rows2 = some D2) (i j : Nat) (hi : i < D1.M) (hj : j < D2.M) :
    g.book chol D1 D2 i j = logLikRatio g.mu g.B 0 1 g.W (classVecs rows1 i) (classVecs rows2 j) := by
  obtain ⟨n1, f1, -, -⟩ := statsHard_some h1
  obtain ⟨n2, f2, -, -⟩ := statsHard_some h2
  unfold FR.book
  simp only [bookLoop_val]
  rw [if_pos, n1, n2, f1, f2, bookBlock_closed hc g hB hW]
  rw [List.mem_flatMap]
  refine ⟨D1.N i, ?_, ?_⟩
  · unfold Stats.counts
    rw [mem_npUnique]
    exact List.mem_map_of_mem (List.mem_range.mpr hi)
  · rw [List.mem_map]
    refine ⟨D2.N j, ?_, rfl⟩
    unfold Stats.counts
    rw [mem_npUnique]
    exact List.mem_map_of_mem (List.mem_range.mpr hj)

/-- C81: scoring is symmetric in the two sides -/
theorem C81_symm {m : Vec k} {B : Mat k k} {mu : Vec n} {V : Mat k n} {W : Mat n n} (X1 X2 : List (Vec n)) :
    logLikRatio m B mu V W X1 X2 = logLikRatio m B mu V W X2 X1 := by
  unfold logLikRatio evidence
  have : ∀ y : Vec k, ((X1 ++ X2).map (fun x => gaussPdf (mu + y ᵥ* V) W x)).prod =
      ((X2 ++ X1).map (fun x => gaussPdf (mu + y ᵥ* V) W x)).prod := by
    intro y
    rw [List.map_append, List.map_append, List.prod_append, List.prod_append, mul_comm]
  simp only [this]
  rw [mul_comm (∫ y : Vec k, _ * (X1.map _).prod)]

theorem classVecs_sum (rows : List (Vec n × Nat)) (i : Nat) (f : Vec n → ℝ) :
    (rows.map (fun r => (if i = r.2 then (1 : ℝ) else 0) * f r.1)).sum = ((classVecs rows i).map f).sum := by
  unfold classVecs
  induction rows with
  | nil => simp
  | cons r rows ih =>
    rw [List.map_cons, List.sum_cons, ih, List.filter_cons]
    by_cases hr : r.2 = i
    · simp [hr]
    · simp [hr, Ne.symm hr]

theorem classVecs_count (rows : List (Vec n × Nat)) (i : Nat) :
    (rows.map (fun r => if i = r.2 then (1 : ℝ) else 0)).sum = (classVecs rows i).length := by
  have := classVecs_sum rows i (fun _ => 1)
  simpa using this

/-- C81: score averaging gives the mean of the scores of all pairs of vectors -/
theorem C81_savg (score : Vec n → Vec n → ℝ) (rows1 rows2 : List (Vec n × Nat)) (i j : Nat) :
    nvsmSavg score rows1 rows2 i j =
      ((classVecs rows1 i).map (fun x => ((classVecs rows2 j).map (fun y => score x y)).sum)).sum /
        ((classVecs rows1 i).length * (classVecs rows2 j).length) := by
  unfold nvsmSavg
  simp only []
  have e : ∀ x2, (rows1.map (fun r => (if i = r.2 then (1 : ℝ) else 0) * score r.1 x2)).sum = ((classVecs rows1 i).map (fun x => score x x2)).sum :=
    fun x2 => classVecs_sum rows1 i (fun x => score x x2)
  simp only [e, classVecs_count]
  rw [classVecs_sum rows2 j (fun x2 => ((classVecs rows1 i).map (fun x => score x x2)).sum / ((classVecs rows1 i).length : ℝ))]
  generalize classVecs rows1 i = X
  generalize classVecs rows2 j = Y
  have h1 : (Y.map (fun y => (X.map (fun x => score x y)).sum / (X.length : ℝ))).sum =
      (X.map (fun x => (Y.map (fun y => score x y)).sum)).sum / X.length := by
    have : ∀ y, (X.map (fun x => score x y)).sum / (X.length : ℝ) = (X.length : ℝ)⁻¹ * (X.map (fun x => score x y)).sum := by
      intro y; rw [div_eq_inv_mul]
    simp only [this, sum_scale]
    rw [← div_eq_inv_mul]
    congr 1
    induction X with
    | nil => simp
    | cons x X ih =>
      simp only [List.map_cons, List.sum_cons]
      rw [List.sum_map_add, ih (fun y => by rw [div_eq_inv_mul])]
  rw [h1, div_div]

/-- C81: vector averaging scores the mean vectors of the two speakers -/
theorem C81_vavg (score : Vec n → Vec n → ℝ) (rows1 rows2 : List (Vec n × Nat)) (D1 D2 : Stats n) (h1 : statsHard rows1 = some D1)
    (h2 : statsHard rows2 = some D2) (i j : Nat) :
    nvsmVavg score D1 D2 i j = score ((1 / ((classVecs rows1 i).length : ℝ)) • (classVecs rows1 i).sum)
      ((1 / ((classVecs rows2 j).length : ℝ)) • (classVecs rows2 j).sum) := by
  obtain ⟨n1, f1, -, -⟩ := statsHard_some h1
  obtain ⟨n2, f2, -, -⟩ := statsHard_some h2
  unfold nvsmVavg
  rw [n1, n2, f1, f2]
  congr 1 <;> (ext a; rw [Pi.smul_apply, smul_eq_mul, one_div, div_eq_inv_mul])

end Hyp.Plda
