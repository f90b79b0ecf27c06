import Verif.Keras.Vae
import Verif.Keras.LossesProps

/-!
C173: the loss of the variational autoencoder and the bound it gives.
-/

namespace Hyp.Keras.Vae
open Hyp.Keras Real ProbabilityTheory MeasureTheory
open scoped NNReal BigOperators ENNReal

/-! ### the Gaussian with diagonal covariance has the product of the densities as density -/

theorem pi_gauss_density {Z : Nat} (m : Fin Z → ℝ) (v : Fin Z → ℝ≥0) (hv : ∀ d, v d ≠ 0) :
    Measure.pi (fun d => gaussianReal (m d) (v d)) =
      (volume : Measure (Fin Z → ℝ)).withDensity (fun y => ENNReal.ofReal (∏ d, gaussianPDFReal (m d) (v d) (y d))) := by
  refine Measure.pi_eq (fun s hs => ?_)
  have hm : MeasurableSet (Set.univ.pi s) := MeasurableSet.univ_pi hs
  have e : (Set.univ.pi s).indicator (fun y : Fin Z → ℝ => ENNReal.ofReal (∏ d, gaussianPDFReal (m d) (v d) (y d))) =
      fun y => ENNReal.ofReal (∏ d, (s d).indicator (gaussianPDFReal (m d) (v d)) (y d)) := by
    funext y
    by_cases hy : y ∈ Set.univ.pi s
    · rw [Set.indicator_of_mem hy]
      congr 1
      exact Finset.prod_congr rfl (fun d _ => (Set.indicator_of_mem (hy d (Set.mem_univ d)) _).symm)
    · rw [Set.indicator_of_notMem hy]
      simp only [Set.mem_pi, Set.mem_univ, forall_const] at hy
      push Not at hy
      obtain ⟨d, hd⟩ := hy
      rw [Finset.prod_eq_zero (Finset.mem_univ d) (Set.indicator_of_notMem hd _), ENNReal.ofReal_zero]
  have hi : ∀ d, Integrable ((s d).indicator (gaussianPDFReal (m d) (v d))) := fun d => (integrable_gaussianPDFReal _ _).indicator (hs d)
  have h0 : ∀ d x, 0 ≤ (s d).indicator (gaussianPDFReal (m d) (v d)) x := fun d x => Set.indicator_nonneg (fun _ _ => gaussianPDFReal_nonneg _ _ _) x
  have hip : Integrable (fun y : Fin Z → ℝ => ∏ d, (s d).indicator (gaussianPDFReal (m d) (v d)) (y d)) volume := Integrable.fintype_prod hi
  rw [withDensity_apply _ hm, ← lintegral_indicator hm, e,
    ← ofReal_integral_eq_lintegral_ofReal hip (Filter.Eventually.of_forall (fun y => Finset.prod_nonneg (fun d _ => h0 d _))),
    integral_fintype_prod_volume_eq_prod, ENNReal.ofReal_prod_of_nonneg (fun d _ => integral_nonneg (h0 d))]
  refine Finset.prod_congr rfl (fun d _ => ?_)
  rw [gaussianReal_apply_eq_integral _ (hv d), integral_indicator (hs d)]

variable {Z : Nat}

theorem dens_pos (m : Fin Z → ℝ) (v : Fin Z → ℝ≥0) (hv : ∀ d, v d ≠ 0) (y : Fin Z → ℝ) : 0 < ∏ d, gaussianPDFReal (m d) (v d) (y d) :=
  Finset.prod_pos (fun d _ => gaussianPDFReal_pos _ _ _ (hv d))

theorem dens_meas (m : Fin Z → ℝ) (v : Fin Z → ℝ≥0) : Measurable (fun y : Fin Z → ℝ => ∏ d, gaussianPDFReal (m d) (v d) (y d)) :=
  Finset.measurable_prod _ (fun d _ => (measurable_gaussianPDFReal _ _).comp (measurable_pi_apply d))

/-- integrals with respect to one Gaussian, written with another -/
theorem change (m1 m2 : Fin Z → ℝ) (v1 v2 : Fin Z → ℝ≥0) (h1 : ∀ d, v1 d ≠ 0) (h2 : ∀ d, v2 d ≠ 0) (f : (Fin Z → ℝ) → ℝ) :
    (Integrable f (Measure.pi (fun d => gaussianReal (m2 d) (v2 d))) →
      Integrable (fun y => f y * ((∏ d, gaussianPDFReal (m2 d) (v2 d) (y d)) / ∏ d, gaussianPDFReal (m1 d) (v1 d) (y d)))
        (Measure.pi (fun d => gaussianReal (m1 d) (v1 d)))) ∧
    ∫ y, f y ∂(Measure.pi (fun d => gaussianReal (m2 d) (v2 d))) =
      ∫ y, f y * ((∏ d, gaussianPDFReal (m2 d) (v2 d) (y d)) / ∏ d, gaussianPDFReal (m1 d) (v1 d) (y d))
        ∂(Measure.pi (fun d => gaussianReal (m1 d) (v1 d))) := by
  have hlt : ∀ (m : Fin Z → ℝ) (v : Fin Z → ℝ≥0), ∀ᵐ y : Fin Z → ℝ, ENNReal.ofReal (∏ d, gaussianPDFReal (m d) (v d) (y d)) < ∞ :=
    fun m v => Filter.Eventually.of_forall (fun y => ENNReal.ofReal_lt_top)
  have hmeas : ∀ (m : Fin Z → ℝ) (v : Fin Z → ℝ≥0), Measurable (fun y : Fin Z → ℝ => ENNReal.ofReal (∏ d, gaussianPDFReal (m d) (v d) (y d))) :=
    fun m v => (dens_meas m v).ennreal_ofReal
  have e : (fun y : Fin Z → ℝ => (ENNReal.ofReal (∏ d, gaussianPDFReal (m1 d) (v1 d) (y d))).toReal •
        (f y * ((∏ d, gaussianPDFReal (m2 d) (v2 d) (y d)) / ∏ d, gaussianPDFReal (m1 d) (v1 d) (y d)))) =
      fun y => (ENNReal.ofReal (∏ d, gaussianPDFReal (m2 d) (v2 d) (y d))).toReal • f y := by
    funext y
    rw [ENNReal.toReal_ofReal (dens_pos m1 v1 h1 y).le, ENNReal.toReal_ofReal (dens_pos m2 v2 h2 y).le]
    have := (dens_pos m1 v1 h1 y).ne'
    simp only [smul_eq_mul]
    field_simp
  rw [pi_gauss_density m1 v1 h1, pi_gauss_density m2 v2 h2]
  constructor
  · intro hf
    rw [integrable_withDensity_iff_integrable_smul' (hmeas m1 v1) (hlt m1 v1), e]
    exact (integrable_withDensity_iff_integrable_smul' (hmeas m2 v2) (hlt m2 v2)).1 hf
  · rw [integral_withDensity_eq_integral_toReal_smul (hmeas m1 v1) (hlt m1 v1), integral_withDensity_eq_integral_toReal_smul (hmeas m2 v2) (hlt m2 v2), e]

/-- The bound for the expectations: `f` is the likelihood as a function of the hidden variable. -/
theorem evidence (m1 m2 : Fin Z → ℝ) (v1 v2 : Fin Z → ℝ≥0) (h1 : ∀ d, v1 d ≠ 0) (h2 : ∀ d, v2 d ≠ 0) (f : (Fin Z → ℝ) → ℝ) (hf : ∀ z, 0 < f z)
    (hi : Integrable f (Measure.pi (fun d => gaussianReal (m2 d) (v2 d))))
    (hl : Integrable (fun z => log (f z)) (Measure.pi (fun d => gaussianReal (m1 d) (v1 d)))) :
    -log (∫ z, f z ∂(Measure.pi (fun d => gaussianReal (m2 d) (v2 d)))) ≤
      (∫ z, -log (f z) ∂(Measure.pi (fun d => gaussianReal (m1 d) (v1 d)))) + klExp 1 m1 v1 m2 v2 := by
  obtain ⟨c1, c2⟩ := change m1 m2 v1 v2 h1 h2 f
  have c1 := c1 hi
  obtain ⟨C, hC⟩ : ∃ C, C = ∫ z, f z ∂(Measure.pi (fun d => gaussianReal (m2 d) (v2 d))) := ⟨_, rfl⟩
  have hpos : 0 < C := by
    rw [hC, integral_pos_iff_support_of_nonneg (fun z => (hf z).le) hi]
    have : Function.support f = Set.univ := Set.eq_univ_of_forall (fun z => (hf z).ne')
    rw [this, measure_univ]
    exact one_pos
  obtain ⟨p1, hp1⟩ : ∃ p : (Fin Z → ℝ) → ℝ, ∀ y, p y = ∏ d, gaussianPDFReal (m1 d) (v1 d) (y d) := ⟨_, fun _ => rfl⟩
  obtain ⟨p2, hp2⟩ : ∃ p : (Fin Z → ℝ) → ℝ, ∀ y, p y = ∏ d, gaussianPDFReal (m2 d) (v2 d) (y d) := ⟨_, fun _ => rfl⟩
  have q1 : ∀ y, 0 < p1 y := fun y => by rw [hp1]; exact dens_pos m1 v1 h1 y
  have q2 : ∀ y, 0 < p2 y := fun y => by rw [hp2]; exact dens_pos m2 v2 h2 y
  have hk : Integrable (fun y => log (p1 y) - log (p2 y)) (Measure.pi (fun d => gaussianReal (m1 d) (v1 d))) := by
    have hlog : ∀ (m : Fin Z → ℝ) (v : Fin Z → ℝ≥0), (∀ d, v d ≠ 0) → Integrable (fun y => log (∏ d, gaussianPDFReal (m d) (v d) (y d)))
        (Measure.pi (fun d => gaussianReal (m1 d) (v1 d))) := by
      intro m v hv
      have e : (fun y : Fin Z → ℝ => log (∏ d, gaussianPDFReal (m d) (v d) (y d))) =
          fun y => ∑ d, (-(1 / 2) * log (2 * π * v d) - (y d - m d) ^ 2 / (2 * v d)) := by
        funext y
        rw [Real.log_prod (fun d _ => (gaussianPDFReal_pos _ _ _ (hv d)).ne')]
        exact Finset.sum_congr rfl (fun d _ => QScore.log_pdf _ _ (hv d) _)
      rw [e]
      refine integrable_finset_sum _ (fun d _ => ?_)
      have h : Integrable (fun z : ℝ => -(1 / 2) * log (2 * π * v d) - (z - m d) ^ 2 / (2 * v d)) (gaussianReal (m1 d) (v1 d)) :=
        (integrable_const _).sub ((gauss_sq_integrable _ _ _).div_const _)
      exact integrable_comp_eval (μ := fun d => gaussianReal (m1 d) (v1 d)) (i := d) h
    simp only [hp1, hp2]
    exact (hlog m1 v1 h1).sub (hlog m2 v2 h2)
  have hkl : klExp 1 m1 v1 m2 v2 = ∫ y, (log (p1 y) - log (p2 y)) ∂(Measure.pi (fun d => gaussianReal (m1 d) (v1 d))) := by
    unfold klExp
    simp only [hp1, hp2, div_one, one_mul]
  have hw : Integrable (fun y => f y * (p2 y / p1 y)) (Measure.pi (fun d => gaussianReal (m1 d) (v1 d))) := by
    simp only [hp1, hp2]; exact c1
  have hw2 : ∫ y, f y * (p2 y / p1 y) ∂(Measure.pi (fun d => gaussianReal (m1 d) (v1 d))) = C := by
    simp only [hp1, hp2, hC]; exact c2.symm
  have hpt : ∀ y, -log (f y) + (log (p1 y) - log (p2 y)) + log C ≥ 1 - f y * (p2 y / p1 y) / C := by
    intro y
    have h := Real.log_le_sub_one_of_pos (div_pos (mul_pos (hf y) (div_pos (q2 y) (q1 y))) hpos)
    rw [Real.log_div (mul_pos (hf y) (div_pos (q2 y) (q1 y))).ne' hpos.ne', Real.log_mul (hf y).ne' (div_pos (q2 y) (q1 y)).ne',
      Real.log_div (q2 y).ne' (q1 y).ne'] at h
    linarith
  have hI1 : Integrable (fun y => -log (f y) + (log (p1 y) - log (p2 y))) (Measure.pi (fun d => gaussianReal (m1 d) (v1 d))) := hl.neg.add hk
  have hmono := integral_mono (μ := Measure.pi (fun d => gaussianReal (m1 d) (v1 d))) ((integrable_const (1 : ℝ)).sub (hw.div_const C))
    (hI1.add (integrable_const (log C))) hpt
  have hL : ∫ y, (1 - f y * (p2 y / p1 y) / C) ∂(Measure.pi (fun d => gaussianReal (m1 d) (v1 d))) = 0 := by
    rw [integral_sub (integrable_const _) (hw.div_const C), integral_div, hw2, div_self hpos.ne']
    simp
  have hR : ∫ y, (-log (f y) + (log (p1 y) - log (p2 y)) + log C) ∂(Measure.pi (fun d => gaussianReal (m1 d) (v1 d))) =
      (∫ z, -log (f z) ∂(Measure.pi (fun d => gaussianReal (m1 d) (v1 d)))) + klExp 1 m1 v1 m2 v2 + log C := by
    have hn : Integrable (fun z => -log (f z)) (Measure.pi (fun d => gaussianReal (m1 d) (v1 d))) := hl.neg
    rw [integral_add hI1 (integrable_const _), integral_add hn hk, hkl]
    simp
  have : (0 : ℝ) ≤ (∫ z, -log (f z) ∂(Measure.pi (fun d => gaussianReal (m1 d) (v1 d)))) + klExp 1 m1 v1 m2 v2 + log C := by
    rw [← hL, ← hR]
    exact hmono
  rw [← hC]
  linarith

/-! ### the loss -/

/-- Specification: the likelihood of a row under a Gaussian with diagonal covariance given by means and log-variances. -/
noncomputable def likelihood {D : Nat} (p : (Fin D → ℝ) × (Fin D → ℝ)) (x : Fin D → ℝ) : ℝ :=
  ∏ d, gaussianPDFReal (p.1 d) (exp (p.2 d)).toNNReal (x d)

theorem take_drop_range {α : Type} (l : List α) (o S : Nat) (g : Nat → α) (h : ∀ j, j < S → l[o + j]? = some (g j)) :
    (l.drop o).take S = (List.range S).map g := by
  refine List.ext_getElem? (fun j => ?_)
  rw [List.getElem?_take, List.getElem?_drop, List.getElem?_map]
  split_ifs with hj
  · rw [h j hj, List.getElem?_range hj]; rfl
  · rw [List.getElem?_eq_none (by simpa using hj)]; rfl

theorem range_sum (S : Nat) (g : Nat → ℝ) : ((List.range S).map g).sum = ∑ j ∈ Finset.range S, g j := by
  induction S with
  | zero => simp
  | succ S ih => rw [List.range_succ, List.map_append, List.sum_append, ih, Finset.sum_range_succ]; simp

theorem rep_ite {α : Type} (n : Nat) (hn : 1 ≤ n) (x : List α) : (if n > 1 then repeatElements n x else x) = repeatElements n x := by
  split_ifs with h1
  · rfl
  · have : n = 1 := by omega
    subst this
    unfold repeatElements
    simp

theorem sampler_logvar {n : Nat} (hn : 1 ≤ n) (p : List ((Fin Z → ℝ) × (Fin Z → ℝ))) (eps : Nat → Fin Z → ℝ) :
    ∃ z, sampler "logvar" n p eps = some z ∧ z.length = p.length * n ∧
    ∀ (b : Nat) (q : (Fin Z → ℝ) × (Fin Z → ℝ)), p[b]? = some q → ∀ j, j < n →
      z[b * n + j]? = some (fun d => q.1 d + exp (q.2 d / 2) * eps (b * n + j) d) := by
  refine ⟨_, rfl, ?_, ?_⟩
  · simp only []
    rw [List.length_map, List.length_zipIdx, rep_ite n hn, repeat_length]
  · intro b q hq j hj
    have hr := repeat_get n p b j hj
    rw [hq] at hr
    simp only []
    rw [rep_ite n hn, List.getElem?_map, List.getElem?_zipIdx, hr]
    simp

theorem logPx_row {D : Nat} (epsK : ℝ) {n : Nat} (hn : 1 ≤ n) (x : List (Fin D → ℝ)) (par : List (Px D)) (hl : par.length = x.length * n) :
    (logPx epsK x par n).length = x.length ∧ ∀ (b : Nat) (xb : Fin D → ℝ), x[b]? = some xb → ∀ g : Nat → Px D, (∀ j, j < n → par[b * n + j]? = some (g j)) →
      (logPx epsK x par n)[b]? = some ((∑ j ∈ Finset.range n, nll epsK xb (g j)) / n) := by
  have hlen : (List.zipWith (nll epsK) (repeatElements n x) par).length = x.length * n := by
    rw [List.length_zipWith, repeat_length, hl, min_self]
  have hrow : ∀ (b : Nat) (xb : Fin D → ℝ), x[b]? = some xb → ∀ g : Nat → Px D, (∀ j, j < n → par[b * n + j]? = some (g j)) →
      ∀ j, j < n → (List.zipWith (nll epsK) (repeatElements n x) par)[b * n + j]? = some (nll epsK xb (g j)) := by
    intro b xb hb g hg j hj
    have hr := repeat_get n x b j hj
    rw [hb] at hr
    simp only [List.getElem?_zipWith, hr, hg j hj]
  have key : logPx epsK x par n = groupMeans n (List.zipWith (nll epsK) (repeatElements n x) par) := by
    unfold logPx
    simp only [rep_ite n hn]
    split_ifs with h1
    · rfl
    · have h1 : n = 1 := by omega
      subst h1
      unfold groupMeans
      refine List.ext_getElem? (fun i => ?_)
      rw [List.getElem?_map]
      by_cases hi : i < x.length
      · have hi' : i < (List.zipWith (nll epsK) (repeatElements 1 x) par).length := by omega
        rw [List.getElem?_range (by simpa using hi'), List.getElem?_eq_getElem hi', Option.map_some, mul_one]
        rw [List.drop_eq_getElem_cons hi']
        simp
      · rw [List.getElem?_eq_none (by omega), List.getElem?_eq_none (by simp; omega)]
        rfl
  rw [key]
  constructor
  · unfold groupMeans
    rw [List.length_map, List.length_range, hlen, Nat.mul_div_cancel _ (by omega)]
  · intro b xb hb g hg
    have hbl : b < x.length := (List.getElem?_eq_some_iff.1 hb).1
    unfold groupMeans
    rw [List.getElem?_map, hlen, Nat.mul_div_cancel _ (by omega), List.getElem?_range hbl, Option.map_some,
      take_drop_range _ _ _ _ (hrow b xb hb g hg), range_sum]

/-- **C173 (loss).** With standard normal prior and observations with diagonal covariance, the loss of every row of the batch is the mean,
over `num_samples` samples of the hidden variable with noise of their own, of minus the log-likelihood that the decoder gives the row,
plus the divergence of the posterior from the prior, which is replaced by `min_kl` where smaller. -/
theorem C173_loss {D : Nat} (minKl epsK : ℝ) {S : Nat} (hS : 1 ≤ S) (enc : (Fin D → ℝ) → (Fin Z → ℝ) × (Fin Z → ℝ)) (dec : (Fin Z → ℝ) → (Fin D → ℝ) × (Fin D → ℝ))
    (x : List (Fin D → ℝ)) (eps : Nat → Fin Z → ℝ) :
    ∃ l, loss ⟨"diag_normal", "std_normal", minKl⟩ epsK S enc (fun z => .diag (dec z).1 (dec z).2) x eps = .ok l ∧ l.length = x.length ∧
    ∀ (b : Nat) (xb : Fin D → ℝ), x[b]? = some xb → l[b]? = some (
      (∑ j ∈ Finset.range S, -log (likelihood (dec (fun d => (enc xb).1 d + exp ((enc xb).2 d / 2) * eps (b * S + j) d)) xb)) / S +
      max (klExp 1 (enc xb).1 (fun d => (exp ((enc xb).2 d)).toNNReal) (fun _ => 0) (fun _ => 1)) minKl) := by
  obtain ⟨z, hz, hzl, hzr⟩ := sampler_logvar hS (x.map enc) eps
  rw [List.length_map] at hzl
  refine ⟨_, by unfold loss; rw [if_neg (by simp), if_neg (by simp)], ?_, ?_⟩
  · rw [hz, Option.getD_some, List.length_zipWith, (logPx_row epsK hS x _ (by rw [List.length_map, hzl])).1]
    simp
  · intro b xb hb
    rw [hz, Option.getD_some, List.getElem?_zipWith, (logPx_row epsK hS x _ (by rw [List.length_map, hzl])).2 b xb hb
      (fun j => .diag (dec (fun d => (enc xb).1 d + exp ((enc xb).2 d / 2) * eps (b * S + j) d)).1
        (dec (fun d => (enc xb).1 d + exp ((enc xb).2 d / 2) * eps (b * S + j) d)).2) ?_]
    · rw [List.getElem?_map, List.getElem?_map, hb]
      simp only [Option.map_some, nll, C146_diag_normal, (C146_kl_objectives 1 one_ne_zero _ _ (fun _ => 0) (fun _ => 0)).1, likelihood]
    · intro j hj
      rw [List.getElem?_map, hzr b (enc xb) (by rw [List.getElem?_map, hb]; rfl) j hj]
      rfl

/-- **C173 (bound).** When the noise is standard normal, the expectation of the loss of a row is at least minus the log-evidence: minus the
logarithm of the likelihood integrated over the prior. It holds for every decoder and every `min_kl`, when the likelihood is
integrable under the prior and its logarithm under the posterior. -/
theorem C173_bound {D : Nat} (minKl epsK : ℝ) {S : Nat} (hS : 1 ≤ S) (enc : (Fin D → ℝ) → (Fin Z → ℝ) × (Fin Z → ℝ)) (dec : (Fin Z → ℝ) → (Fin D → ℝ) × (Fin D → ℝ))
    (x : List (Fin D → ℝ)) (b : Nat) (xb : Fin D → ℝ) (hb : x[b]? = some xb)
    (hi : Integrable (fun z => likelihood (dec z) xb) (Measure.pi (fun _ => gaussianReal 0 1)))
    (hl : Integrable (fun z => log (likelihood (dec z) xb)) (Measure.pi (fun d => gaussianReal ((enc xb).1 d) (exp ((enc xb).2 d)).toNNReal))) :
    ∃ L : (Fin (x.length * S) → Fin Z → ℝ) → ℝ,
      (∀ e, ∃ l, loss ⟨"diag_normal", "std_normal", minKl⟩ epsK S enc (fun z => .diag (dec z).1 (dec z).2) x
        (fun i d => if h : i < x.length * S then e ⟨i, h⟩ d else 0) = .ok l ∧ l[b]? = some (L e)) ∧
      Integrable L (Measure.pi (fun _ => Measure.pi (fun _ => gaussianReal 0 1))) ∧
      -log (∫ z, likelihood (dec z) xb ∂(Measure.pi (fun _ => gaussianReal 0 1))) ≤
        ∫ e, L e ∂(Measure.pi (fun _ => Measure.pi (fun _ => gaussianReal 0 1))) := by
  have hne : ∀ x : ℝ, (exp x).toNNReal ≠ 0 := fun x => by simp [exp_pos]
  have hbl : b < x.length := (List.getElem?_eq_some_iff.1 hb).1
  have hidx : ∀ j, j < S → b * S + j < x.length * S := fun j hj => by nlinarith
  obtain ⟨T, hT⟩ : ∃ T : (Fin Z → ℝ) → Fin Z → ℝ, ∀ e d, T e d = (enc xb).1 d + exp ((enc xb).2 d / 2) * e d := ⟨_, fun _ _ => rfl⟩
  have hTm : Measurable T := by
    rw [show T = fun e d => (enc xb).1 d + exp ((enc xb).2 d / 2) * e d from funext fun e => funext (hT e)]
    exact measurable_pi_lambda _ (fun d => ((measurable_pi_apply d).const_mul _).const_add _)
  have hlaw : (Measure.pi (fun _ : Fin Z => gaussianReal 0 1)).map T =
      Measure.pi (fun d => gaussianReal ((enc xb).1 d) (exp ((enc xb).2 d)).toNNReal) := by
    have h1 : ∀ d, (gaussianReal 0 1).map (fun z : ℝ => (enc xb).1 d + exp ((enc xb).2 d / 2) * z) =
        gaussianReal ((enc xb).1 d) (exp ((enc xb).2 d)).toNNReal := by
      intro d
      have e : (fun z : ℝ => (enc xb).1 d + exp ((enc xb).2 d / 2) * z) = (fun z => (enc xb).1 d + z) ∘ (fun z => exp ((enc xb).2 d / 2) * z) := rfl
      rw [e, ← Measure.map_map (by fun_prop) (by fun_prop), gaussianReal_map_const_mul, gaussianReal_map_const_add]
      congr 1
      · ring
      · apply NNReal.coe_injective
        rw [Real.coe_toNNReal _ (exp_pos _).le]
        simp [← Real.exp_nat_mul]
        ring
    rw [show T = fun e d => (enc xb).1 d + exp ((enc xb).2 d / 2) * e d from funext fun e => funext (hT e)]
    haveI : ∀ d, SigmaFinite ((gaussianReal 0 1).map (fun z : ℝ => (enc xb).1 d + exp ((enc xb).2 d / 2) * z)) := fun d => by rw [h1]; infer_instance
    rw [Measure.pi_map_pi (μ := fun _ => gaussianReal 0 1) (f := fun d z => (enc xb).1 d + exp ((enc xb).2 d / 2) * z) (fun d => by fun_prop)]
    simp only [h1]
  obtain ⟨F, hF⟩ : ∃ F : (Fin Z → ℝ) → ℝ, ∀ e, F e = -log (likelihood (dec (T e)) xb) := ⟨_, fun _ => rfl⟩
  have hFi : Integrable F (Measure.pi (fun _ : Fin Z => gaussianReal 0 1)) := by
    have := (hlaw ▸ hl.neg : Integrable _ ((Measure.pi (fun _ : Fin Z => gaussianReal 0 1)).map T)).comp_measurable hTm
    rw [show F = fun e => -log (likelihood (dec (T e)) xb) from funext hF]
    exact this
  have hFint : ∫ e, F e ∂(Measure.pi (fun _ : Fin Z => gaussianReal 0 1)) =
      ∫ z, -log (likelihood (dec z) xb) ∂(Measure.pi (fun d => gaussianReal ((enc xb).1 d) (exp ((enc xb).2 d)).toNNReal)) := by
    have hs : AEStronglyMeasurable (fun z => -log (likelihood (dec z) xb)) ((Measure.pi (fun _ : Fin Z => gaussianReal 0 1)).map T) := by
      rw [hlaw]; exact hl.neg.aestronglyMeasurable
    rw [← hlaw, integral_map hTm.aemeasurable hs]
    simp only [hF]
  have hK : max (klExp 1 (enc xb).1 (fun d => (exp ((enc xb).2 d)).toNNReal) (fun _ => 0) (fun _ => 1)) minKl ≥
      klExp 1 (enc xb).1 (fun d => (exp ((enc xb).2 d)).toNNReal) (fun _ => 0) (fun _ => 1) := le_max_left _ _
  obtain ⟨Kc, hKc⟩ : ∃ Kc, Kc = max (klExp 1 (enc xb).1 (fun d => (exp ((enc xb).2 d)).toNNReal) (fun _ => 0) (fun _ => 1)) minKl := ⟨_, rfl⟩
  have hterm : ∀ j : Fin S, Integrable (fun e : Fin (x.length * S) → Fin Z → ℝ => F (e ⟨b * S + j, hidx j j.2⟩))
      (Measure.pi (fun _ => Measure.pi (fun _ => gaussianReal 0 1))) := fun j =>
    integrable_comp_eval (μ := fun _ : Fin (x.length * S) => Measure.pi (fun _ : Fin Z => gaussianReal 0 1)) (i := ⟨b * S + j, hidx j j.2⟩) hFi
  have htermv : ∀ j : Fin S, ∫ e : Fin (x.length * S) → Fin Z → ℝ, F (e ⟨b * S + j, hidx j j.2⟩) ∂(Measure.pi (fun _ => Measure.pi (fun _ => gaussianReal 0 1))) =
      ∫ e, F e ∂(Measure.pi (fun _ : Fin Z => gaussianReal 0 1)) := fun j =>
    integral_comp_eval (μ := fun _ : Fin (x.length * S) => Measure.pi (fun _ : Fin Z => gaussianReal 0 1)) (i := ⟨b * S + j, hidx j j.2⟩) hFi.aestronglyMeasurable
  have hsum := integrable_finset_sum Finset.univ (fun j _ => hterm j)
  refine ⟨fun e => (∑ j : Fin S, F (e ⟨b * S + j, hidx j j.2⟩)) / S + Kc, ?_, (hsum.div_const _).add (integrable_const _), ?_⟩
  · intro e
    obtain ⟨l, h1, -, h2⟩ := C173_loss minKl epsK hS enc dec x (fun i d => if h : i < x.length * S then e ⟨i, h⟩ d else 0)
    refine ⟨l, h1, ?_⟩
    rw [h2 b xb hb, ← hKc, Finset.sum_range]
    congr 3
    refine Finset.sum_congr rfl (fun j _ => ?_)
    rw [hF]
    congr 4
    funext d
    rw [hT, dif_pos (hidx j j.2)]
  · have hSp : (0 : ℝ) < S := by exact_mod_cast hS
    have he := evidence (enc xb).1 (fun _ => 0) (fun d => (exp ((enc xb).2 d)).toNNReal) (fun _ => 1) (fun d => hne _) (fun _ => one_ne_zero)
      (fun z => likelihood (dec z) xb) (fun z => Finset.prod_pos (fun d _ => gaussianPDFReal_pos _ _ _ (hne _))) hi hl
    rw [integral_add (hsum.div_const _) (integrable_const _), integral_div, integral_finset_sum _ (fun j _ => hterm j)]
    simp only [htermv, hFint, Finset.sum_const, Finset.card_univ, Fintype.card_fin, nsmul_eq_mul, integral_const, probReal_univ, one_smul]
    rw [mul_div_cancel_left₀ _ hSp.ne']
    linarith

/-- the losses of the two other forms of the observations, row by row -/
theorem C173_forms {D : Nat} (form : String) (hform : form ∈ ["bernoulli", "normal"]) (minKl epsK : ℝ) {S : Nat} (hS : 1 ≤ S)
    (enc : (Fin D → ℝ) → (Fin Z → ℝ) × (Fin Z → ℝ)) (dec : (Fin Z → ℝ) → Px D) (x : List (Fin D → ℝ)) (eps : Nat → Fin Z → ℝ) :
    ∃ l, loss ⟨form, "std_normal", minKl⟩ epsK S enc dec x eps = .ok l ∧ l.length = x.length ∧
    ∀ (b : Nat) (xb : Fin D → ℝ), x[b]? = some xb → ∃ g : Nat → ℝ, l[b]? = some ((∑ j ∈ Finset.range S, g j) / S +
        max (klExp 1 (enc xb).1 (fun d => (exp ((enc xb).2 d)).toNNReal) (fun _ => 0) (fun _ => 1)) minKl) ∧
      ∀ j, (∀ q, dec (fun d => (enc xb).1 d + exp ((enc xb).2 d / 2) * eps (b * S + j) d) = .bern q → g j = bernoulli epsK xb q) ∧
        (∀ m l c, dec (fun d => (enc xb).1 d + exp ((enc xb).2 d / 2) * eps (b * S + j) d) = .full m l c → g j = normalChol xb m l c) := by
  obtain ⟨z, hz, hzl, hzr⟩ := sampler_logvar hS (x.map enc) eps
  rw [List.length_map] at hzl
  have hin : form ∈ ["bernoulli", "diag_normal", "normal", "normal_1chol"] := by
    simp only [List.mem_cons, List.not_mem_nil, or_false] at hform ⊢
    tauto
  refine ⟨_, by unfold loss; rw [if_neg (not_not_intro hin), if_neg (by simp)], ?_, ?_⟩
  · rw [hz, Option.getD_some, List.length_zipWith, (logPx_row epsK hS x _ (by rw [List.length_map, hzl])).1]
    simp
  · intro b xb hb
    refine ⟨fun j => nll epsK xb (dec (fun d => (enc xb).1 d + exp ((enc xb).2 d / 2) * eps (b * S + j) d)), ?_, ?_⟩
    · rw [hz, Option.getD_some, List.getElem?_zipWith, (logPx_row epsK hS x _ (by rw [List.length_map, hzl])).2 b xb hb
        (fun j => dec (fun d => (enc xb).1 d + exp ((enc xb).2 d / 2) * eps (b * S + j) d)) ?_]
      · rw [List.getElem?_map, List.getElem?_map, hb]
        simp only [Option.map_some, (C146_kl_objectives 1 one_ne_zero _ _ (fun _ => 0) (fun _ => 0)).1]
      · intro j hj
        rw [List.getElem?_map, hzr b (enc xb) (by rw [List.getElem?_map, hb]; rfl) j hj]
        rfl
    · intro j
      exact ⟨fun q hq => by simp only [hq, nll], fun m l c hq => by simp only [hq, nll]⟩

/-- **C173 (errors).** A form of the observations that is not one of four words raises when the model is built; a prior that is not
the standard normal raises when the loss is evaluated. -/
theorem C173_errors {D : Nat} (cfg : Cfg) (epsK : ℝ) (S : Nat) (enc : (Fin D → ℝ) → (Fin Z → ℝ) × (Fin Z → ℝ)) (dec : (Fin Z → ℝ) → Px D)
    (x : List (Fin D → ℝ)) (eps : Nat → Fin Z → ℝ) :
    (cfg.pxForm ∉ ["bernoulli", "diag_normal", "normal", "normal_1chol"] → loss cfg epsK S enc dec x eps = .valueError) ∧
    (cfg.pxForm ∈ ["bernoulli", "diag_normal", "normal", "normal_1chol"] → cfg.prior ≠ "std_normal" → loss cfg epsK S enc dec x eps = .typeError) := by
  unfold loss
  exact ⟨fun h => if_pos h, fun h h' => (if_neg (not_not_intro h)).trans (if_pos h')⟩

/-- **C173 (elbo).** `elbo` returns for every row minus the mean of its losses over `num_samples` evaluations of the model. -/
theorem C173_elbo (ls : Nat → List ℝ) (M n : Nat) (hM : 1 ≤ M) (hn : ∀ i, (ls i).length = n) :
    (elbo ls M).length = n ∧ ∀ b, b < n → (elbo ls M)[b]? = some (-(∑ i ∈ Finset.range M, (ls i).getD b 0) / M) := by
  have key : ∀ k, (((List.range' 1 k).foldl (fun acc i => List.zipWith (fun a b => a - b) acc (ls i)) ((ls 0).map (fun v => -v))).length = n) ∧
      ∀ b, b < n → ((List.range' 1 k).foldl (fun acc i => List.zipWith (fun a b => a - b) acc (ls i)) ((ls 0).map (fun v => -v)))[b]? =
        some (-(∑ i ∈ Finset.range (k + 1), (ls i).getD b 0)) := by
    intro k
    induction k with
    | zero =>
      refine ⟨by simp [hn], fun b hb => ?_⟩
      have : b < (ls 0).length := by rw [hn]; exact hb
      simp [List.getElem?_eq_getElem this]
    | succ k ih =>
      obtain ⟨h1, h2⟩ := ih
      rw [List.range'_concat, List.foldl_append]
      simp only [List.foldl_cons, List.foldl_nil, one_mul]
      refine ⟨by rw [List.length_zipWith, h1, hn, min_self], fun b hb => ?_⟩
      have hbl : b < (ls (1 + k)).length := by rw [hn]; exact hb
      rw [List.getElem?_zipWith, h2 b hb, List.getElem?_eq_getElem hbl, Finset.sum_range_succ _ (k + 1), Nat.add_comm k 1,
        List.getD_eq_getElem?_getD (l := ls (1 + k)), List.getElem?_eq_getElem hbl]
      simp only [Option.getD_some]
      congr 1
      ring
  obtain ⟨h1, h2⟩ := key (M - 1)
  rw [Nat.sub_add_cancel hM] at h2
  unfold elbo
  refine ⟨by rw [List.length_map]; exact h1, fun b hb => ?_⟩
  rw [List.getElem?_map, h2 b hb]
  rfl

/-- **C173 (generation).** Every generated vector is decoded from a hidden vector of its own: the mean plus the standard deviation times noise. -/
theorem C173_generate {D : Nat} (dec : (Fin Z → ℝ) → (Fin D → ℝ) × (Fin D → ℝ)) (zs : List (Fin Z → ℝ)) (eps : Nat → Fin D → ℝ) :
    ∃ out, generate dec zs eps = some out ∧ out.length = zs.length ∧
    ∀ (i : Nat) (z : Fin Z → ℝ), zs[i]? = some z → out[i]? = some (fun d => (dec z).1 d + exp ((dec z).2 d / 2) * eps i d) := by
  obtain ⟨out, h1, h2, h3⟩ := sampler_logvar le_rfl (zs.map dec) eps
  refine ⟨out, h1, by rw [h2, List.length_map, mul_one], fun i z hz => ?_⟩
  have := h3 i (dec z) (by rw [List.getElem?_map, hz]; rfl) 0 one_pos
  simpa using this

/-- **C173 (sampler).** The words for the spread: with any other the layer raises when it is built. -/
theorem C173_sampler (spec : String) (n : Nat) (hn : 1 ≤ n) (p : List ((Fin Z → ℝ) × (Fin Z → ℝ))) (eps : Nat → Fin Z → ℝ) :
    (sampler spec n p eps = none ↔ spec ∉ ["logvar", "var", "std"]) ∧
    ∀ out, sampler spec n p eps = some out → out.length = p.length * n ∧
    ∀ (b : Nat) (q : (Fin Z → ℝ) × (Fin Z → ℝ)), p[b]? = some q → ∀ j, j < n → ∃ y, out[b * n + j]? = some y ∧
      ∀ d, (spec = "logvar" → y d = q.1 d + exp (q.2 d / 2) * eps (b * n + j) d) ∧ (spec = "var" → 0 ≤ q.2 d → y d = q.1 d + sqrt (q.2 d) * eps (b * n + j) d) ∧
        (spec = "std" → 0 ≤ q.2 d → y d = q.1 d + q.2 d * eps (b * n + j) d) := by
  constructor
  · unfold sampler spread
    split_ifs <;> simp_all
  · intro out ho
    unfold sampler at ho
    cases hg : spread spec with
    | none => simp [hg] at ho
    | some g =>
      simp only [hg, Option.bind_eq_bind, Option.bind_some, Option.some.injEq] at ho
      rw [rep_ite n hn] at ho
      subst ho
      refine ⟨by rw [List.length_map, List.length_zipIdx, repeat_length], fun b q hq j hj => ?_⟩
      have hr := repeat_get n p b j hj
      rw [hq] at hr
      refine ⟨_, by rw [List.getElem?_map, List.getElem?_zipIdx, hr]; rfl, fun d => ?_⟩
      simp only [Nat.zero_add]
      unfold spread at hg
      refine ⟨?_, ?_, ?_⟩
      · rintro rfl
        rw [if_pos rfl] at hg
        cases hg
        rfl
      · rintro rfl h0
        rw [if_neg (by decide), if_pos rfl] at hg
        cases hg
        simp only [abs_of_nonneg h0]
      · rintro rfl h0
        rw [if_neg (by decide), if_neg (by decide), if_pos rfl] at hg
        cases hg
        simp only [abs_of_nonneg h0]

/-- **C173 (files).** The files have the three names, and reading them back always raises. The means of the decoder, asked for with
`sample_x = False`, raise unless the observations are probabilities. -/
theorem C173_load (path : String) : saveNames path = [path ++ ".json", path ++ ".enc.h5", path ++ ".dec.h5"] ∧ load path = .nameError ∧
    ∀ (form : String) (pred : List (List ℝ)), decodeMean form pred = .ok pred ∨ (form ≠ "bernoulli" ∧ decodeMean form pred = .typeError) := by
  refine ⟨rfl, rfl, fun form pred => ?_⟩
  unfold decodeMean
  by_cases h : form = "bernoulli"
  · exact .inl (if_pos h)
  · exact .inr ⟨h, if_neg h⟩

/-- The hypotheses of the bound are met: a decoder that returns the hidden value as mean, with variance one. -/
example : ∃ (enc : (Fin 1 → ℝ) → (Fin 1 → ℝ) × (Fin 1 → ℝ)) (dec : (Fin 1 → ℝ) → (Fin 1 → ℝ) × (Fin 1 → ℝ)) (xb : Fin 1 → ℝ),
    Integrable (fun z => likelihood (dec z) xb) (Measure.pi (fun _ => gaussianReal 0 1)) ∧
    Integrable (fun z => log (likelihood (dec z) xb)) (Measure.pi (fun d => gaussianReal ((enc xb).1 d) (exp ((enc xb).2 d)).toNNReal)) := by
  refine ⟨fun _ => (fun _ => 2, fun _ => 1), fun z => (z, fun _ => 0), fun _ => 3, ?_, ?_⟩
  · have hm : Measurable (fun z : Fin 1 → ℝ => likelihood (z, fun _ => 0) (fun _ : Fin 1 => 3)) := by
      unfold likelihood
      simp only [gaussianPDFReal]
      fun_prop
    refine Integrable.of_bound hm.aestronglyMeasurable 1 (Filter.Eventually.of_forall (fun z => ?_))
    unfold likelihood
    simp only [Finset.univ_unique, Finset.prod_singleton, exp_zero, toNNReal_one]
    rw [Real.norm_of_nonneg (gaussianPDFReal_nonneg _ _ _)]
    unfold gaussianPDFReal
    have h1 : rexp (-(3 - z default) ^ 2 / (2 * ((1 : ℝ≥0) : ℝ))) ≤ 1 := by
      rw [Real.exp_le_one_iff]
      have := sq_nonneg (3 - z default)
      simp only [NNReal.coe_one, mul_one]
      linarith
    have h2 : (√(2 * π * ((1 : ℝ≥0) : ℝ)))⁻¹ ≤ 1 := by
      refine inv_le_one_of_one_le₀ ?_
      rw [Real.one_le_sqrt]
      have := Real.pi_gt_three
      simp only [NNReal.coe_one, mul_one]
      linarith
    exact mul_le_one₀ h2 (exp_pos _).le h1
  · have e : (fun z : Fin 1 → ℝ => log (likelihood (z, fun _ => 0) (fun _ : Fin 1 => 3))) =
        fun z => -(1 / 2) * log (2 * π * ((1 : ℝ≥0) : ℝ)) - (z default - 3) ^ 2 / (2 * ((1 : ℝ≥0) : ℝ)) := by
      funext z
      unfold likelihood
      simp only [Finset.univ_unique, Finset.prod_singleton, exp_zero, toNNReal_one]
      rw [QScore.log_pdf _ _ one_ne_zero]
      ring
    simp only [e]
    have h : Integrable (fun z : ℝ => -(1 / 2) * log (2 * π * ((1 : ℝ≥0) : ℝ)) - (z - 3) ^ 2 / (2 * ((1 : ℝ≥0) : ℝ))) (gaussianReal 2 (exp 1).toNNReal) :=
      (integrable_const _).sub ((gauss_sq_integrable _ _ _).div_const _)
    exact integrable_comp_eval (μ := fun _ : Fin 1 => gaussianReal 2 (exp 1).toNNReal) (i := default) h

end Hyp.Keras.Vae
