import Verif.Plda.SpFit

namespace Hyp.Plda
open scoped BigOperators
open Matrix MeasureTheory

variable {k l n : Nat} {chol : (n : Nat) → Mat n n → Mat n n}

theorem gaussPdf_zero_log {L : Mat k k} (hL : L.PosDef) (g : Vec k) :
    Real.log (gaussPdf (L⁻¹ *ᵥ g) L 0) = -(1 / 2) * k * Real.log (2 * Real.pi) + 1 / 2 * (Real.log L.det - (L⁻¹ *ᵥ g) ⬝ᵥ g) := by
  unfold gaussPdf
  have hs := Real.sqrt_pos.mpr hL.det_pos
  have hpi : 0 < Real.sqrt (2 * Real.pi) := Real.sqrt_pos.mpr (by positivity)
  rw [Real.log_mul (div_pos hs (pow_pos hpi k)).ne' (Real.exp_pos _).ne', Real.log_exp, Real.log_div hs.ne' (pow_pos hpi k).ne',
    Real.log_pow, Real.log_sqrt hL.det_pos.le, Real.log_sqrt (by positivity), zero_sub, Matrix.mulVec_neg, neg_dotProduct, dotProduct_neg,
    inv_solve hL]
  ring

/-- C82: posterior of simplified PLDA for the speakers of a data set -/
theorem C82_sp_posterior_partial (hc : IsCholesky chol) (g : SP k n) (hW : g.W.PosDef) (rows : List (Vec n × Nat)) (D : Stats n)
    (h : statsHard rows = some D) (hce : Centred g D) (c : Nat) (hcM : c < D.M) :
    (∀ y, gaussPdf 0 1 y * ((classVecs rows c).map (fun x => gaussPdf (g.mu + y ᵥ* g.V) g.W x)).prod =
      evidence 0 1 g.mu g.V g.W (classVecs rows c) * gaussPdf (g.posterior chol (D.N c) (D.F c)).1 ((g.posterior chol (D.N c) (D.F c)).2.1)⁻¹ y) ∧
    (g.posterior chol (D.N c) (D.F c)).2.2 =
      Real.log (gaussPdf (g.posterior chol (D.N c) (D.F c)).1 ((g.posterior chol (D.N c) (D.F c)).2.1)⁻¹ 0) := by
  have h1 : (1 : Mat k k).PosDef := Matrix.PosDef.one
  have hL := postPrec_pos h1 hW g.V (N := ((classVecs rows c).length : ℝ)) (Nat.cast_nonneg _)
  obtain ⟨R, hR, hd⟩ := exists_factor hL
  obtain ⟨hs, hy⟩ := sp_post hc g hW h hce c hcM
  obtain ⟨hN, -, -, -⟩ := statsHard_some h
  have hC : ((g.posterior chol (D.N c) (D.F c)).2.1)⁻¹ = postPrec 1 g.V g.W (classVecs rows c).length := by
    rw [hs, Matrix.nonsing_inv_nonsing_inv _ (PosDef.det_ne hL)]
  rw [hC, hy]
  constructor
  · intro y
    rw [evidence_eq (PosDef.symm h1) (PosDef.symm hW) hW.det_pos h1.det_pos 0 g.mu g.V _ R hd hR _ _ rfl (inv_solve hL _)]
    exact bayes (PosDef.symm h1) (PosDef.symm hW) hW.det_pos h1.det_pos 0 g.mu g.V _ R hd hR _ _ rfl (inv_solve hL _) y
  · rw [gaussPdf_zero_log hL, ← hy]
    have e3 : (g.posterior chol (D.N c) (D.F c)).2.2 = -(1 / 2) * k * Real.log (2 * Real.pi) + 1 / 2 * (logdetPd chol (1 + D.N c • (g.V * (g.W * g.Vᵀ))) -
      (g.posterior chol (D.N c) (D.F c)).1 ⬝ᵥ ((D.F c - g.mu) ᵥ* (g.W * g.Vᵀ))) := rfl
    rw [e3, sp_prec, hN, logdetPd_eq hc hL, sp_gamma hW, centred_fc h hce c hcM]

/-- value of the objective in terms of the log posterior densities -/
theorem sp_elbo_gen {W : Mat n n} (hW : W.PosDef) (mu : Vec n) (V : Mat k n) (rows : List (Vec n × Nat)) (D : Stats n)
    (h : statsHard rows = some D) (lp : Nat → ℝ)
    (hlp : ∀ c < D.M, lp c = Real.log (gaussPdf ((postPrec 1 V W (classVecs rows c).length)⁻¹ *ᵥ postLin 0 1 V W ((classVecs rows c).map (fun x => x - mu)).sum)
      (postPrec 1 V W (classVecs rows c).length) 0)) (a : SPAcc k n) (ha : a.N = ((List.range D.M).map D.N).sum ∧ a.F = ((List.range D.M).map D.F).sum ∧
      a.S = D.S ∧ a.M = D.M) :
    1 / 2 * (-a.N * n * Real.log (2 * Real.pi) + a.N * Real.log W.det - ∑ i, ∑ j, W i j * shat mu a i j) +
      -(1 / 2) * a.M * k * Real.log (2 * Real.pi) - ((List.range D.M).map lp).sum =
    ((List.range D.M).map (fun c => Real.log (evidence 0 1 mu V W (classVecs rows c)))).sum := by
  have h1 : (1 : Mat k k).PosDef := Matrix.PosDef.one
  obtain ⟨hN, hF, hM, hS⟩ := statsHard_some h
  obtain ⟨aN, aF, aS, aM⟩ := ha
  have hWs := PosDef.symm hW
  have hcls : ∀ c ∈ List.range D.M, Real.log (evidence 0 1 mu V W (classVecs rows c)) =
      D.N c * (1 / 2 * Real.log W.det - 1 / 2 * n * Real.log (2 * Real.pi)) +
      (-(1 / 2) * ((classVecs rows c).map (fun x => (x - mu) ⬝ᵥ (W *ᵥ (x - mu)))).sum - lp c) +
      -(1 / 2) * k * Real.log (2 * Real.pi) := by
    intro c hcM
    have hL := postPrec_pos h1 hW V (N := ((classVecs rows c).length : ℝ)) (Nat.cast_nonneg _)
    rw [hlp c (List.mem_range.mp hcM), gaussPdf_zero_log hL, (log_evidence h1 hW 0 mu V (classVecs rows c) _ rfl).2, hN]
    generalize postLin 0 1 V W ((classVecs rows c).map (fun x => x - mu)).sum = gam
    unfold baseLog
    have hs := Real.sqrt_pos.mpr hW.det_pos
    have hpi : 0 < Real.sqrt (2 * Real.pi) := Real.sqrt_pos.mpr (by positivity)
    rw [Real.log_div hs.ne' (pow_pos hpi n).ne', Real.log_pow, Real.log_sqrt hW.det_pos.le, Real.log_sqrt (by positivity),
      dotProduct_comm gam, Matrix.det_one, Real.log_one, Matrix.mulVec_zero, dotProduct_zero]
    ring
  rw [list_eq_sum _ _ _ hcls, sum_aff, sum_sub', List.length_range,
    sum_scale (-(1 / 2)) (fun c => ((classVecs rows c).map (fun x => (x - mu) ⬝ᵥ (W *ᵥ (x - mu)))).sum), sum_classes rows D.M _ hM]
  have hSh : ∑ i, ∑ j, W i j * shat mu a i j = (rows.map (fun r => (r.1 - mu) ⬝ᵥ (W *ᵥ (r.1 - mu)))).sum := by
    have hin : ∀ A : Mat n n, ∑ i, ∑ j, W i j * A i j = (W * A).trace := by
      intro A
      rw [← trace_symm hW]
      unfold Matrix.trace
      refine Finset.sum_congr rfl (fun i _ => ?_)
      rw [Matrix.diag_apply, Matrix.mul_apply]
      rfl
    have hFt : ((List.range D.M).map D.F).sum = (rows.map Prod.fst).sum := by
      ext j
      have := sum_classes rows D.M (fun x => x j) hM
      have e1 : ∀ (L : List (Vec n)), (L.map (fun x => x j)).sum = L.sum j := by
        intro L
        induction L with
        | nil => rfl
        | cons x L ih => rw [List.map_cons, List.sum_cons, List.sum_cons, Pi.add_apply, ih]
      simp only [e1, ← hF] at this
      have e2 : ((List.range D.M).map D.F).sum j = ((List.range D.M).map (fun c => D.F c j)).sum := by
        rw [← e1, List.map_map]; rfl
      have e3 : (rows.map Prod.fst).sum j = (rows.map (fun r => r.1 j)).sum := by
        rw [← e1, List.map_map]; rfl
      rw [e2, e3, this]
    have hNt : ((List.range D.M).map D.N).sum = rows.length := by
      have := sum_classes rows D.M (fun _ => (1 : ℝ)) hM
      simp only [List.map_const', List.sum_replicate, nsmul_eq_mul, mul_one] at this
      simp only [← hN] at this
      exact this
    rw [hin]
    unfold shat
    simp only []
    rw [aS, aF, aN, hS, hFt, hNt]
    clear hlp hcls h hN hF hM hS aN aF aS aM hFt hNt
    rw [Matrix.mul_add, Matrix.mul_sub, Matrix.mul_sub, Matrix.trace_add, Matrix.trace_sub, Matrix.trace_sub, trace_symm hW, Matrix.mul_smul, Matrix.trace_smul,
      smul_eq_mul, trace_outer, trace_outer]
    induction rows with
    | nil => simp
    | cons r rows ih =>
      simp only [List.map_cons, List.sum_cons, List.length_cons, ← ih, Matrix.mul_add, Matrix.trace_add, trace_outer, Matrix.mulVec_add, dotProduct_add]
      rw [Matrix.mulVec_sub, sub_dotProduct, dotProduct_sub, dotProduct_sub, symm_dot hWs r.1 mu]
      push_cast
      ring
  rw [hSh, aN, aM]
  ring

/-- C83: the same for simplified PLDA, when the statistics are centred correctly -/
theorem C83_sp_elbo_partial (hc : IsCholesky chol) (g : SP k n) (hW : g.W.PosDef) (rows : List (Vec n × Nat)) (D : Stats n)
    (h : statsHard rows = some D) (hce : Centred g D) : g.elbo chol (g.estep chol D) = g.llk rows D.M := by
  unfold SP.elbo SP.llk
  rw [logdetPd_eq hc hW]
  refine sp_elbo_gen hW g.mu g.V rows D h (fun c => (g.posterior chol (D.N c) (D.F c)).2.2) ?_ (g.estep chol D) ⟨rfl, rfl, rfl, rfl⟩
  intro c hcM
  have h1 : (1 : Mat k k).PosDef := Matrix.PosDef.one
  have hL := postPrec_pos h1 hW g.V (N := ((classVecs rows c).length : ℝ)) (Nat.cast_nonneg _)
  have := (C82_sp_posterior_partial hc g hW rows D h hce c hcM).2
  rw [this, (sp_post hc g hW h hce c hcM).1, (sp_post hc g hW h hce c hcM).2, Matrix.nonsing_inv_nonsing_inv _ (PosDef.det_ne hL)]

/-- `PLDA` behaves like `SPLDA` with its total precision matrix -/
noncomputable def Full.sp (chol : (n : Nat) → Mat n n → Mat n n) (g : Full k l n) : SP k n := { mu := g.mu, V := g.V, W := g.W chol }

theorem full_post (hc : IsCholesky chol) (g : Full k l n) (hD : ∀ i, 0 < g.D i) : g.posterior chol = (g.sp chol).posterior chol := by
  funext N F
  unfold Full.posterior SP.posterior Full.VWV Full.sp
  simp only []
  rw [g.VW_eq hc hD, g.W_eq hc hD]

/-- C83: and for PLDA with a channel subspace -/
theorem C83_plda_elbo_partial (hc : IsCholesky chol) (g : Full k l n) (hD : ∀ i, 0 < g.D i) (rows : List (Vec n × Nat)) (D : Stats n)
    (h : statsHard rows = some D) (hce : g.mu = 0 ∨ ∀ c < D.M, D.N c = 1) :
    g.elbo chol (accOf (g.posterior chol) D) = ((List.range D.M).map (fun c => Real.log (evidence2 g.mu g.V g.U g.D (classVecs rows c)))).sum := by
  have hW : (g.W chol).PosDef := by
    rw [g.W_eq hc hD]
    exact (g.cov_pos hD).inv
  have e : ∀ X, evidence2 g.mu g.V g.U g.D X = evidence 0 1 g.mu g.V (g.W chol) X := by
    intro X
    unfold evidence2 evidence
    simp only [channelPdf_eq hc g hD]
  have hs := C83_sp_elbo_partial hc (g.sp chol) hW rows D h hce
  simp only [e]
  unfold SP.llk at hs
  have e2 : (g.sp chol).mu = g.mu ∧ (g.sp chol).V = g.V ∧ (g.sp chol).W = g.W chol := ⟨rfl, rfl, rfl⟩
  rw [e2.1, e2.2.1, e2.2.2] at hs
  rw [← hs]
  unfold Full.elbo SP.elbo SP.estep
  rw [full_post hc g hD, e2.1, e2.2.2, logdetPd_eq hc hW, logdetPd_eq hc (g.Lz_pos hD), g.det_W hc hD,
    Real.log_div (diag_pos hD).det_pos.ne' (g.Lz_pos hD).det_pos.ne', Matrix.det_diagonal, Real.log_prod (fun i _ => (hD i).ne')]

/-- the models at the start of the epochs of a training run -/
noncomputable def SP.visited (chol : (n : Nat) → Mat n n → Mat n n) (cfg : SPCfg) (D : Stats n) : List (Bool × Bool) → SP k n → List (SP k n)
  | [], _ => []
  | s :: steps, g => g :: SP.visited chol cfg D steps (g.epoch chol cfg s.1 s.2 D)

/-- C85: over a whole training run the reported objective values never decrease and never exceed the likelihood of the final
model, provided that the E step is right all along (the mean is fixed at zero, or every speaker has one vector), that the
minimum-divergence step is not run with `update_mu=False, update_V=True`, and that no new `W` was singular (the code raises
then) -/
theorem C85_sp_fit_partial (hc : IsCholesky chol) (cfg : SPCfg) (rows : List (Vec n × Nat)) (D : Stats n)
    (h : statsHard rows = some D) (steps : List (Bool × Bool)) (hmd : ∀ s ∈ steps, s.2 = true → cfg.updateMu = true ∨ cfg.updateV = false) :
    ∀ g : SP k n, (cfg.updateMu = false ∧ g.mu = 0 ∨ ∀ c < D.M, D.N c = 1) → g.W.PosDef →
    (∀ g' ∈ SP.visited chol cfg D steps g, WOk cfg g' (SP.iW cfg (g'.updVmu chol cfg (g'.estep chol D)).1 (g'.updVmu chol cfg (g'.estep chol D)).2 (g'.estep chol D))) →
    (SP.fit chol cfg D steps g).1.length = steps.length ∧ (SP.fit chol cfg D steps g).1.Pairwise (· ≤ ·) ∧
    (∀ v ∈ (SP.fit chol cfg D steps g).1, g.llk rows D.M ≤ v ∧ v ≤ (SP.fit chol cfg D steps g).2.llk rows D.M) ∧
    g.llk rows D.M ≤ (SP.fit chol cfg D steps g).2.llk rows D.M := by
  induction steps with
  | nil => intro g _ _ _; exact ⟨rfl, List.Pairwise.nil, fun v hv => by simp [SP.fit] at hv, le_refl _⟩
  | cons s steps ih =>
    intro g h0 hW hok
    have hce : Centred g D := h0.imp (fun h => h.2) id
    obtain ⟨h1, h2⟩ := C85_sp_epoch_partial hc cfg s.1 s.2 g hW rows D h hce (fun _ => hok g (List.mem_cons_self)) (fun hs => hmd s List.mem_cons_self hs)
    have h3 : cfg.updateMu = false ∧ (g.epoch chol cfg s.1 s.2 D).mu = 0 ∨ ∀ c < D.M, D.N c = 1 := by
      rcases h0 with ⟨hmu, h0⟩ | h0
      · refine Or.inl ⟨hmu, ?_⟩
        have hm1 : ∀ a, (g.mstepML chol cfg a).mu = g.mu := by
          intro a
          show (g.updVmu chol cfg a).2 = g.mu
          unfold SP.updVmu
          rw [hmu]
          cases cfg.updateV <;> rfl
        unfold SP.epoch SP.mstepMD
        simp only [hmu]
        cases s.1 <;> cases s.2 <;> simp [hm1, h0]
      · exact Or.inr h0
    obtain ⟨i1, i2, i3, i4⟩ := ih (fun s hs => hmd s (List.mem_cons_of_mem _ hs)) _ h3 h2 (fun g' hg' => hok g' (List.mem_cons_of_mem _ hg'))
    have e1 : (SP.fit chol cfg D (s :: steps) g).1 = g.elbo chol (g.estep chol D) :: (SP.fit chol cfg D steps (g.epoch chol cfg s.1 s.2 D)).1 := rfl
    have e2 : (SP.fit chol cfg D (s :: steps) g).2 = (SP.fit chol cfg D steps (g.epoch chol cfg s.1 s.2 D)).2 := rfl
    rw [e1, e2, C83_sp_elbo_partial hc g hW rows D h hce]
    refine ⟨by rw [List.length_cons, i1, List.length_cons], List.pairwise_cons.mpr ⟨fun v hv => h1.trans (i3 v hv).1, i2⟩, fun v hv => ?_, h1.trans i4⟩
    rcases List.mem_cons.mp hv with rfl | hv
    · exact ⟨le_refl _, h1.trans i4⟩
    · exact ⟨h1.trans (i3 v hv).1, (i3 v hv).2⟩

end Hyp.Plda
