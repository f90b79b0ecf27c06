import Verif.Classifiers.QScore
import Mathlib.Algebra.Order.BigOperators.Group.List

/-! C104: back-end for observations with uncertainty (Q-scoring). -/

namespace Hyp.QScore
open scoped BigOperators NNReal
open MeasureTheory ProbabilityTheory

variable {K n : Nat}

/-- agreement of two beliefs about an unknown quantity with standard normal prior: a Gaussian with mean `m1` and variance `v1` and a
Gaussian with mean `m2` and variance `v2` in every component -/
noncomputable def agreement (m1 : Vec n) (v1 : Fin n → ℝ≥0) (m2 : Vec n) (v2 : Fin n → ℝ≥0) : ℝ :=
  ∫ y : Vec n, ∏ d, gaussianPDFReal (m1 d) (v1 d) (y d) * gaussianPDFReal (m2 d) (v2 d) (y d) / gaussianPDFReal 0 1 (y d)

theorem one_dim (m1 m2 : ℝ) (v1 v2 : ℝ≥0) (h1 : v1 ≠ 0) (h2 : v2 ≠ 0) (hL : 0 < 1 / (v1 : ℝ) + 1 / v2 - 1) :
    ∫ y, gaussianPDFReal m1 v1 y * gaussianPDFReal m2 v2 y / gaussianPDFReal 0 1 y =
      Real.exp (1 / 2 * (Real.log (1 / v1) + Real.log (1 / v2) - Real.log (1 / (v1 : ℝ) + 1 / v2 - 1) +
        (m1 / v1 + m2 / v2) ^ 2 / (1 / (v1 : ℝ) + 1 / v2 - 1) - m1 ^ 2 / v1 - m2 ^ 2 / v2)) := by
  have p1 : (0 : ℝ) < v1 := by positivity
  have p2 : (0 : ℝ) < v2 := by positivity
  set L := 1 / (v1 : ℝ) + 1 / v2 - 1 with hLd
  set c := (m1 / v1 + m2 / v2) / L with hcd
  set A := (Real.sqrt (2 * Real.pi * v1))⁻¹ * (Real.sqrt (2 * Real.pi * v2))⁻¹ * Real.sqrt (2 * Real.pi) *
      Real.exp (1 / 2 * ((m1 / v1 + m2 / v2) ^ 2 / L - m1 ^ 2 / v1 - m2 ^ 2 / v2)) with hA
  have key : ∀ y : ℝ, gaussianPDFReal m1 v1 y * gaussianPDFReal m2 v2 y / gaussianPDFReal 0 1 y = A * Real.exp (-(L / 2) * (y - c) ^ 2) := by
    intro y
    unfold gaussianPDFReal
    have e1 : Real.sqrt (2 * Real.pi * ((1 : ℝ≥0) : ℝ)) = Real.sqrt (2 * Real.pi) := by simp
    rw [e1]
    have s : Real.sqrt (2 * Real.pi) ≠ 0 := by positivity
    have e2 : Real.exp (-(y - m1) ^ 2 / (2 * v1)) * Real.exp (-(y - m2) ^ 2 / (2 * v2)) * (Real.exp (-(y - 0) ^ 2 / (2 * ((1 : ℝ≥0) : ℝ))))⁻¹ =
        Real.exp (1 / 2 * ((m1 / v1 + m2 / v2) ^ 2 / L - m1 ^ 2 / v1 - m2 ^ 2 / v2)) * Real.exp (-(L / 2) * (y - c) ^ 2) := by
      rw [← Real.exp_neg, ← Real.exp_add, ← Real.exp_add, ← Real.exp_add]
      congr 1
      have hc : L * c = m1 / v1 + m2 / v2 := by rw [hcd]; field_simp
      have hsq : (m1 / v1 + m2 / v2) ^ 2 / L = L * c ^ 2 := by
        rw [← hc]
        field_simp
      rw [hsq]
      have : -(L / 2) * (y - c) ^ 2 = -(L / 2) * y ^ 2 + y * (L * c) - 1 / 2 * (L * c ^ 2) := by ring
      rw [this, hc, hLd]
      simp only [NNReal.coe_one]
      field_simp
      ring
    calc _ = (Real.sqrt (2 * Real.pi * v1))⁻¹ * (Real.sqrt (2 * Real.pi * v2))⁻¹ * Real.sqrt (2 * Real.pi) *
        (Real.exp (-(y - m1) ^ 2 / (2 * v1)) * Real.exp (-(y - m2) ^ 2 / (2 * v2)) * (Real.exp (-(y - 0) ^ 2 / (2 * ((1 : ℝ≥0) : ℝ))))⁻¹) := by
          field_simp
      _ = _ := by rw [e2, hA]; ring
  simp only [key]
  rw [integral_const_mul, integral_sub_right_eq_self (fun y => Real.exp (-(L / 2) * y ^ 2)) c, integral_gaussian, hA]
  have hexp : ∀ x : ℝ, 0 < x → Real.sqrt x = Real.exp (1 / 2 * Real.log x) := by
    intro x hx
    rw [Real.sqrt_eq_rpow, Real.rpow_def_of_pos hx, mul_comm]
  rw [hexp _ (by positivity), hexp _ (by positivity), hexp (2 * Real.pi) (by positivity), hexp _ (by positivity), ← Real.exp_neg, ← Real.exp_neg,
    ← Real.exp_add, ← Real.exp_add, ← Real.exp_add, ← Real.exp_add]
  congr 1
  rw [Real.log_mul (by positivity) p1.ne', Real.log_mul (by positivity) p2.ne', Real.log_div (by positivity) (by positivity),
    Real.log_div hL.ne' (by norm_num), Real.log_div one_ne_zero p1.ne', Real.log_div one_ne_zero p2.ne',
    Real.log_mul (by norm_num) Real.pi_pos.ne', Real.log_one]
  ring

theorem agreement_eq (m1 : Vec n) (v1 : Fin n → ℝ≥0) (m2 : Vec n) (v2 : Fin n → ℝ≥0) (h1 : ∀ d, v1 d ≠ 0) (h2 : ∀ d, v2 d ≠ 0)
    (hL : ∀ d, 0 < 1 / (v1 d : ℝ) + 1 / v2 d - 1) :
    agreement m1 v1 m2 v2 = Real.exp (∑ d, 1 / 2 * (Real.log (1 / v1 d) + Real.log (1 / v2 d) - Real.log (1 / (v1 d : ℝ) + 1 / v2 d - 1) +
        (m1 d / v1 d + m2 d / v2 d) ^ 2 / (1 / (v1 d : ℝ) + 1 / v2 d - 1) - m1 d ^ 2 / v1 d - m2 d ^ 2 / v2 d)) := by
  unfold agreement
  rw [integral_fintype_prod_volume_eq_prod (fun d y => gaussianPDFReal (m1 d) (v1 d) y * gaussianPDFReal (m2 d) (v2 d) y / gaussianPDFReal 0 1 y),
    Real.exp_sum]
  exact Finset.prod_congr rfl (fun d _ => one_dim (m1 d) (m2 d) (v1 d) (v2 d) (h1 d) (h2 d) (hL d))

/-- C104: the score of a class is the log of the integral of the product of the Gaussian of the class (mean `mu[k]`, variance `1/W`) and
the Gaussian of the observation divided by the standard normal prior. -/
theorem C104_score (g : Model K n) (m s : Vec n) (w t : Fin n → ℝ≥0) (hw : ∀ d, w d ≠ 0) (ht : ∀ d, t d ≠ 0)
    (hW : ∀ d, g.W d = 1 / w d) (hs : ∀ d, s d = t d) (hL : ∀ d, 0 < 1 / s d + g.W d - 1) (k : Fin K) :
    g.logp m s k = Real.log (agreement (g.mu k) w m t) := by
  have hL' : ∀ d, 0 < 1 / (w d : ℝ) + 1 / t d - 1 := fun d => by
    have := hL d
    rw [hW, hs] at this
    linarith
  rw [agreement_eq _ _ _ _ hw ht hL', Real.log_exp]
  unfold Model.logp
  simp only [← Finset.sum_add_distrib, Finset.mul_sum, ← Finset.sum_neg_distrib]
  apply Finset.sum_congr rfl
  intro d _
  have p1 : (0 : ℝ) < w d := lt_of_le_of_ne (w d).2 (fun h => hw d (NNReal.coe_eq_zero.1 h.symm))
  have p2 : (0 : ℝ) < t d := lt_of_le_of_ne (t d).2 (fun h => ht d (NNReal.coe_eq_zero.1 h.symm))
  rw [hW, hs]
  have hl := hL' d
  have e : (1 : ℝ) / t d + 1 / w d - 1 = 1 / w d + 1 / t d - 1 := by ring
  rw [e]
  have hC : (g.mu k d / w d + m d / t d) ^ 2 / (1 / (w d : ℝ) + 1 / t d - 1) =
    (g.mu k d / w d + m d / t d) ^ 2 * (1 / (1 / (w d : ℝ) + 1 / t d - 1)) := by rw [mul_one_div]
  rw [hC]
  generalize 1 / (1 / (w d : ℝ) + 1 / t d - 1) = C
  field_simp
  ring

theorem agreement_pos (m1 : Vec n) (v1 : Fin n → ℝ≥0) (m2 : Vec n) (v2 : Fin n → ℝ≥0) (h1 : ∀ d, v1 d ≠ 0) (h2 : ∀ d, v2 d ≠ 0)
    (hL : ∀ d, 0 < 1 / (v1 d : ℝ) + 1 / v2 d - 1) : 0 < agreement m1 v1 m2 v2 := by
  rw [agreement_eq _ _ _ _ h1 h2 hL]
  exact Real.exp_pos _

/-- C104: with `normalize=True` the scores are the logs of the agreements divided by their sum: log posteriors for equal priors. -/
theorem C104_posterior (g : Model (K + 1) n) (m s : Vec n) (w t : Fin n → ℝ≥0) (hw : ∀ d, w d ≠ 0) (ht : ∀ d, t d ≠ 0)
    (hW : ∀ d, g.W d = 1 / w d) (hs : ∀ d, s d = t d) (hL : ∀ d, 0 < 1 / s d + g.W d - 1) (k : Fin (K + 1)) :
    g.predict true m s k = Real.log (agreement (g.mu k) w m t / ∑ j, agreement (g.mu j) w m t) ∧
    g.predict false m s k = Real.log (agreement (g.mu k) w m t) := by
  have hL' : ∀ d, 0 < 1 / (w d : ℝ) + 1 / t d - 1 := fun d => by
    have := hL d
    rw [hW, hs] at this
    linarith
  have hp : ∀ k, 0 < agreement (g.mu k) w m t := fun k => agreement_pos _ _ _ _ hw ht hL'
  have hl := fun k => C104_score g m s w t hw ht hW hs hL k
  refine ⟨?_, hl k⟩
  show Real.log (MathUtils.softmax (g.logp m s) k) = _
  rw [MathUtils.C66_softmax_value, hl k, Real.exp_log (hp k)]
  simp only [hl, Real.exp_log (hp _)]

/-! ### training -/

theorem log_pdf (m : ℝ) (v : ℝ≥0) (hv : v ≠ 0) (x : ℝ) :
    Real.log (gaussianPDFReal m v x) = -(1 / 2) * Real.log (2 * Real.pi * v) - (x - m) ^ 2 / (2 * v) := by
  have hv' : (0 : ℝ) < v := by positivity
  unfold gaussianPDFReal
  rw [Real.log_mul (by positivity) (by positivity), Real.log_exp, Real.log_inv, Real.log_sqrt (by positivity)]
  ring

/-- C104: training without a prior model. In every component the Gaussian of a class (its mean and its own precision, before the precisions are
averaged over the classes) is the Bayesian posterior that starts from the standard normal prior and multiplies in the ratios
"observation / prior", each with the weight of the observation: the logs of the two differ by a constant. -/
theorem C104_fit_posterior (cfg : Cfg) (curW : Option (Vec n)) (rows : List (Row K n)) (g : Model K n)
    (h : fit cfg curW none rows = some g) (hs : ∀ r ∈ rows, ∀ d, 0 < r.2.1 d) (k : Fin K) (d : Fin n) (v : ℝ≥0)
    (hv : 1 / (v : ℝ) = 1 + (rows.map (fun r => r.2.2 k * (1 / r.2.1 d - 1))).sum) (hv0 : v ≠ 0) :
    ∃ c, ∀ y, Real.log (gaussianPDFReal (g.mu k d) v y) + c =
      Real.log (gaussianPDFReal 0 1 y) +
        (rows.map (fun r => r.2.2 k * (Real.log (gaussianPDFReal (r.1 d) (r.2.1 d).toNNReal y) - Real.log (gaussianPDFReal 0 1 y)))).sum := by
  have hmu : g.mu k d = v * (rows.map (fun r => r.2.2 k * (1 / r.2.1 d * r.1 d))).sum := by
    have : g = fitCore cfg none rows := by
      unfold fit at h
      simpa using h.symm
    rw [this]
    have e : (fitCore cfg none rows).mu k d = 1 / prec none rows k d * eta none rows k d := by
      unfold fitCore changePost
      split <;> rfl
    rw [e]
    have e2 : prec none rows k d = 1 / v := by
      unfold prec
      rw [hv]
      ring
    rw [e2, one_div_one_div]
    unfold eta
    simp
  have hp : (0 : ℝ) < v := lt_of_le_of_ne v.2 (fun h => hv0 (NNReal.coe_eq_zero.1 h.symm))
  have expand : ∀ y : ℝ, (rows.map (fun r => r.2.2 k * (Real.log (gaussianPDFReal (r.1 d) (r.2.1 d).toNNReal y) - Real.log (gaussianPDFReal 0 1 y)))).sum =
      (rows.map (fun r => r.2.2 k * (-(1 / 2) * Real.log (2 * Real.pi * (r.2.1 d).toNNReal) + 1 / 2 * Real.log (2 * Real.pi * ((1 : ℝ≥0) : ℝ)) -
        (r.1 d) ^ 2 / (2 * r.2.1 d)))).sum +
      y * (rows.map (fun r => r.2.2 k * (1 / r.2.1 d * r.1 d))).sum - y ^ 2 / 2 * (rows.map (fun r => r.2.2 k * (1 / r.2.1 d - 1))).sum := by
    intro y
    clear hv hmu h
    induction rows with
    | nil => simp
    | cons r rows ih =>
      have ih := ih (fun r hr => hs r (List.mem_cons_of_mem _ hr))
      have hr := hs r List.mem_cons_self d
      simp only [List.map_cons, List.sum_cons]
      rw [ih, log_pdf _ _ (by simpa using hr), log_pdf 0 1 one_ne_zero, Real.coe_toNNReal _ hr.le]
      simp only [NNReal.coe_one]
      field_simp
      ring
  refine ⟨-(1 / 2) * Real.log (2 * Real.pi * ((1 : ℝ≥0) : ℝ)) + (rows.map (fun r => r.2.2 k * (-(1 / 2) * Real.log (2 * Real.pi * (r.2.1 d).toNNReal) +
    1 / 2 * Real.log (2 * Real.pi * ((1 : ℝ≥0) : ℝ)) - (r.1 d) ^ 2 / (2 * r.2.1 d)))).sum + 1 / 2 * Real.log (2 * Real.pi * v) + g.mu k d ^ 2 / (2 * v), ?_⟩
  intro y
  rw [expand, log_pdf _ _ hv0, log_pdf 0 1 one_ne_zero, hmu]
  have hS : (rows.map (fun r => r.2.2 k * (1 / r.2.1 d - 1))).sum = 1 / (v : ℝ) - 1 := by linarith
  rw [hS]
  simp only [NNReal.coe_one]
  field_simp
  ring

/-- C104: the values after training: means, counts, shared precision. -/
theorem C104_fit_values (cfg : Cfg) (hc : cfg.priorN = none) (hpost : cfg.postN = none) (curW : Option (Vec n)) (prior : Option (Model K n))
    (rows : List (Row K n)) :
    ∃ g, fit cfg curW prior rows = some g ∧
      (∀ k d, g.mu k d = ((rows.map (fun r => r.2.2 k * (1 / r.2.1 d * r.1 d))).sum + (prior.map (fun p => p.W d * p.mu k d)).getD 0) /
        (1 + (rows.map (fun r => r.2.2 k * (1 / r.2.1 d - 1))).sum + (prior.map (fun p => p.W d - 1)).getD 0)) ∧
      (∀ k, g.N k = (rows.map (fun r => r.2.2 k)).sum + (prior.map (fun p => p.N k)).getD 0) ∧
      (cfg.balance = true → ∀ d, g.W d = 1 + (∑ k, ((rows.map (fun r => r.2.2 k * (1 / r.2.1 d - 1))).sum + (prior.map (fun p => p.W d - 1)).getD 0)) / K) ∧
      (cfg.balance = false → ∀ d, g.W d = 1 + (rows.map (fun r => 1 / r.2.1 d - 1)).sum / K) := by
  have key : fit cfg curW prior rows = some (fitCore cfg prior rows) := by
    rcases prior with _ | p
    · rfl
    · simp [fit, loadPrior, hc]
  have e : fitCore cfg prior rows = ⟨fun k d => 1 / prec prior rows k d * eta prior rows k d, newW cfg prior rows, count prior rows⟩ := by
    unfold fitCore changePost
    rw [hpost]
  refine ⟨_, key, ?_⟩
  rw [e]
  refine ⟨?_, ?_, ?_, ?_⟩
  · intro k d
    show 1 / prec prior rows k d * eta prior rows k d = _
    unfold prec eta
    rcases prior with _ | p <;> simp only [Option.map_none, Option.map_some, Option.getD_none, Option.getD_some] <;> ring
  · intro k
    show count prior rows k = _
    unfold count
    rcases prior with _ | p <;> rfl
  · intro hb d
    show newW cfg prior rows d = _
    unfold newW meanK
    rw [if_pos hb]
    congr 2
    apply Finset.sum_congr rfl
    intro k _
    unfold prec
    rcases prior with _ | p <;> simp only [Option.map_none, Option.map_some, Option.getD_none, Option.getD_some] <;> ring
  · intro hb d
    show newW cfg prior rows d = _
    unfold newW
    simp [hb]

/-- C104: `post_N`: the means are kept, all counts become `post_N`, and the excess of the precision over the prior precision 1 is scaled by
`post_N` over the mean count. -/
theorem C104_post_N (cfg : Cfg) (v : ℝ) (prior : Option (Model K n)) (rows : List (Row K n)) (curW : Option (Vec n)) (g g' : Model K n)
    (hpost : cfg.postN = some v) (h : fit cfg curW prior rows = some g) (h' : fit { cfg with postN := none } curW prior rows = some g') :
    g.mu = g'.mu ∧ (∀ k, g.N k = v) ∧ ∀ d, g.W d - 1 = v / ((∑ k, g'.N k) / K) * (g'.W d - 1) := by
  have hcore : ∀ p : Option (Model K n), (fitCore cfg p rows).mu = (fitCore { cfg with postN := none } p rows).mu ∧
      (∀ k, (fitCore cfg p rows).N k = v) ∧
      ∀ d, (fitCore cfg p rows).W d - 1 = v / ((∑ k, (fitCore { cfg with postN := none } p rows).N k) / K) * ((fitCore { cfg with postN := none } p rows).W d - 1) := by
    intro p
    have e : fitCore cfg p rows = ⟨fun k d => 1 / prec p rows k d * eta p rows k d,
        fun d => 1 + v / meanK (count p rows) * (newW cfg p rows d - 1), fun _ => v⟩ := by
      unfold fitCore changePost
      rw [hpost]
    have e' : fitCore { cfg with postN := none } p rows = ⟨fun k d => 1 / prec p rows k d * eta p rows k d, newW cfg p rows, count p rows⟩ := rfl
    rw [e, e']
    refine ⟨rfl, fun k => rfl, fun d => ?_⟩
    show 1 + v / meanK (count p rows) * (newW cfg p rows d - 1) - 1 = v / ((∑ k, count p rows k) / K) * (newW cfg p rows d - 1)
    unfold meanK
    ring
  rcases prior with _ | p
  · unfold fit at h h'
    simp only [Option.some.injEq] at h h'
    rw [← h, ← h']
    exact hcore none
  · unfold fit at h h'
    simp only [Option.map_eq_some_iff] at h h'
    obtain ⟨q, hq, rfl⟩ := h
    obtain ⟨q', hq', rfl⟩ := h'
    have : q' = q := by
      have : loadPrior { cfg with postN := none } curW p = loadPrior cfg curW p := rfl
      rw [this, hq] at hq'
      simpa using hq'.symm
    rw [this]
    exact hcore (some q)

/-- C104: when the class probabilities of every observation sum to one and there is no prior, `balance_class_weight` has no effect. -/
theorem C104_balance_no_effect (a b : Cfg) (hp : a.postN = b.postN) (curW : Option (Vec n)) (rows : List (Row K n))
    (hsum : ∀ r ∈ rows, ∑ k, r.2.2 k = 1) : fit a curW none rows = fit b curW none rows := by
  have hW : ∀ c c' : Cfg, c.balance = true → c'.balance = false → newW c (none : Option (Model K n)) rows = newW c' none rows := by
    intro c c' h h'
    funext d
    unfold newW meanK prec
    rw [if_pos h, h']
    simp only [Bool.false_eq_true, if_false, add_zero, add_sub_cancel_left]
    congr 2
    clear hp
    induction rows with
    | nil => simp
    | cons r rows ih =>
      have ih := ih (fun r hr => hsum r (List.mem_cons_of_mem _ hr))
      simp only [List.map_cons, List.sum_cons, Finset.sum_add_distrib, ih, ← Finset.sum_mul, hsum r List.mem_cons_self, one_mul]
  have : newW a (none : Option (Model K n)) rows = newW b none rows := by
    rcases ha : a.balance with _ | _ <;> rcases hb : b.balance with _ | _
    · unfold newW
      rw [ha, hb]
    · exact (hW b a hb ha).symm
    · exact hW a b ha hb
    · unfold newW
      rw [ha, hb]
  unfold fit fitCore changePost
  rw [this, hp]

/-- C104: without `balance_class_weight` the precision ignores the prior model and the sample weights. -/
theorem C104_unbalanced_ignores (cfg : Cfg) (hb : cfg.balance = false) (hc : cfg.priorN = none) (hpost : cfg.postN = none) (curW : Option (Vec n))
    (p1 p2 : Option (Model K n)) (xs : List (Vec n × Vec n)) (w1 w2 : List (Fin K → ℝ)) (h1 : w1.length = xs.length) (h2 : w2.length = xs.length)
    (g1 g2 : Model K n) (hg1 : fit cfg curW p1 (List.zipWith (fun x w => (x.1, x.2, w)) xs w1) = some g1)
    (hg2 : fit cfg curW p2 (List.zipWith (fun x w => (x.1, x.2, w)) xs w2) = some g2) : g1.W = g2.W := by
  obtain ⟨g, hg, -, -, -, e1⟩ := C104_fit_values cfg hc hpost curW p1 (List.zipWith (fun x w => (x.1, x.2, w)) xs w1)
  obtain ⟨g', hg', -, -, -, e2⟩ := C104_fit_values cfg hc hpost curW p2 (List.zipWith (fun x w => (x.1, x.2, w)) xs w2)
  rw [hg1] at hg
  rw [hg2] at hg'
  obtain rfl := Option.some.inj hg
  obtain rfl := Option.some.inj hg'
  funext d
  rw [e1 hb d, e2 hb d]
  have hz : ∀ w : List (Fin K → ℝ), w.length = xs.length →
      (List.zipWith (fun (x : Vec n × Vec n) w => (x.1, x.2, w)) xs w).map (fun r => 1 / r.2.1 d - 1) = xs.map (fun x => 1 / x.2 d - 1) := by
    intro w
    clear e1 e2 hg1 hg2 h1 h2 hg hg'
    induction xs generalizing w with
    | nil => simp
    | cons x xs ih =>
      intro hw
      rcases w with _ | ⟨a, w⟩
      · simp at hw
      · simp only [List.zipWith_cons_cons, List.map_cons, ih w (by simpa using hw)]
  rw [hz w1 h1, hz w2 h2]

/-- C104: `prior_N` on a model that has not been trained raises. -/
theorem C104_prior_N_raises (cfg : Cfg) (v : ℝ) (hc : cfg.priorN = some v) (p : Model K n) (rows : List (Row K n)) :
    fit cfg none (some p) rows = none := by
  simp [fit, loadPrior, hc]

/-- C104: `prior_N` on a model that has been trained before (with precision `W`): the prior model enters with its means, all counts
`prior_N` and, as precision, that of the model itself scaled by `prior_N` over the mean count of the prior. -/
theorem C104_prior_N (cfg : Cfg) (v : ℝ) (hc : cfg.priorN = some v) (W : Vec n) (p : Model K n) (rows : List (Row K n)) :
    fit cfg (some W) (some p) rows =
      fit { cfg with priorN := none } (some W) (some ⟨p.mu, fun d => 1 + v / ((∑ k, p.N k) / K) * (W d - 1), fun _ => v⟩) rows := by
  unfold fit loadPrior
  rw [hc]
  rfl

/-- C104 (defect): the precision of the prior model has no effect then. -/
theorem C104_prior_N_ignores (cfg : Cfg) (v : ℝ) (hc : cfg.priorN = some v) (W : Vec n) (p : Model K n) (W' : Vec n) (rows : List (Row K n)) :
    fit cfg (some W) (some { p with W := W' }) rows = fit cfg (some W) (some p) rows := by
  rw [C104_prior_N cfg v hc, C104_prior_N cfg v hc]

/-- C104: for variances of at most one (posteriors of a standard normal variable), non-negative weights and a prior model with precision
of at least one, the trained precision is at least one, so scoring observations with variances of at most one never divides by zero. -/
theorem C104_valid (cfg : Cfg) (hc : cfg.priorN = none) (hpost : cfg.postN = none) (curW : Option (Vec n)) (prior : Option (Model K n))
    (rows : List (Row K n)) (hs : ∀ r ∈ rows, ∀ d, 0 < r.2.1 d ∧ r.2.1 d ≤ 1) (hw : ∀ r ∈ rows, ∀ k, 0 ≤ r.2.2 k)
    (hprior : ∀ p ∈ prior, ∀ d, 1 ≤ p.W d) (g : Model K n) (h : fit cfg curW prior rows = some g) (s : Vec n)
    (hs' : ∀ d, 0 < s d ∧ s d ≤ 1) (d : Fin n) : 1 ≤ g.W d ∧ 0 < 1 / s d + g.W d - 1 := by
  obtain ⟨g', hg', -, -, e1, e2⟩ := C104_fit_values cfg hc hpost curW prior rows
  rw [h] at hg'
  obtain rfl := Option.some.inj hg'
  have hone : ∀ x : ℝ, 0 < x → x ≤ 1 → 0 ≤ 1 / x - 1 := fun x h0 h1 => by
    have := one_le_one_div h0 h1
    linarith
  have hW : 1 ≤ g.W d := by
    rcases hb : cfg.balance with _ | _
    · rw [e2 hb d]
      have : 0 ≤ (rows.map (fun r => 1 / r.2.1 d - 1)).sum := List.sum_nonneg (by
        intro y hy
        obtain ⟨r, hr, rfl⟩ := List.mem_map.1 hy
        exact hone _ (hs r hr d).1 (hs r hr d).2)
      have := div_nonneg this (Nat.cast_nonneg (α := ℝ) K)
      linarith
    · rw [e1 hb d]
      have : 0 ≤ ∑ k, ((rows.map (fun r => r.2.2 k * (1 / r.2.1 d - 1))).sum + (prior.map (fun p => p.W d - 1)).getD 0) :=
        Finset.sum_nonneg (fun k _ => add_nonneg (List.sum_nonneg (by
          intro y hy
          obtain ⟨r, hr, rfl⟩ := List.mem_map.1 hy
          exact mul_nonneg (hw r hr k) (hone _ (hs r hr d).1 (hs r hr d).2))) (by
          rcases prior with _ | p
          · exact le_rfl
          · have := hprior p rfl d
            simp only [Option.map_some, Option.getD_some]
            linarith))
      have := div_nonneg this (Nat.cast_nonneg (α := ℝ) K)
      linarith
  refine ⟨hW, ?_⟩
  have := one_le_one_div (hs' d).1 (hs' d).2
  linarith

/-- C104: the order of the training observations does not matter. -/
theorem C104_permutation (cfg : Cfg) (curW : Option (Vec n)) (prior : Option (Model K n)) {rows rows' : List (Row K n)} (h : rows.Perm rows') :
    fit cfg curW prior rows = fit cfg curW prior rows' := by
  have hcore : ∀ p : Option (Model K n), fitCore cfg p rows = fitCore cfg p rows' := by
    intro p
    have e1 : prec p rows = prec p rows' := by
      funext k d
      unfold prec
      rw [(h.map _).sum_eq]
    have e2 : eta p rows = eta p rows' := by
      funext k d
      unfold eta
      rw [(h.map _).sum_eq]
    have e3 : count p rows = count p rows' := by
      funext k
      unfold count
      rw [(h.map _).sum_eq]
    have e4 : newW cfg p rows = newW cfg p rows' := by
      funext d
      unfold newW
      rw [e1, (h.map _).sum_eq]
    unfold fitCore
    rw [e1, e2, e3, e4]
  unfold fit
  simp only [hcore]

/-- a case that meets the hypotheses: one observation per class -/
noncomputable def exRows : List (Row 2 1) :=
  [(fun _ => 1, fun _ => 1 / 2, fun k => if k = 0 then 1 else 0), (fun _ => -1, fun _ => 1 / 2, fun k => if k = 0 then 0 else 1)]

example : ∃ g, fit ⟨true, none, none⟩ none none exRows = some g ∧ g.mu 0 0 = 1 ∧ g.W 0 = 2 := by
  obtain ⟨g, hg, h1, h2, h3, h4⟩ := C104_fit_values (K := 2) (n := 1) ⟨true, none, none⟩ rfl rfl none none exRows
  refine ⟨g, hg, ?_, ?_⟩
  · rw [h1]
    norm_num [exRows]
  · rw [h3 rfl]
    norm_num [exRows, Fin.sum_univ_two]

end Hyp.QScore
