import Verif.Keras.Losses
import Verif.Keras.PostProps
import Mathlib.MeasureTheory.Integral.Pi
import Mathlib.Probability.Distributions.Gaussian.Real

/-!
C146: divergences and losses of the Keras code. C147: its samplers.
-/

namespace Hyp.Keras
open Real ProbabilityTheory MeasureTheory
open scoped NNReal BigOperators

variable {D : Nat}

/-- Specification: expectation, for a vector distributed as the first Gaussian (diagonal covariance), of its log-density
divided by `beta` minus the log-density of the second Gaussian. For `beta = 1` this is the Kullback-Leibler divergence. -/
noncomputable def klExp (beta : ℝ) (m1 : Fin D → ℝ) (v1 : Fin D → ℝ≥0) (m2 : Fin D → ℝ) (v2 : Fin D → ℝ≥0) : ℝ :=
  ∫ y : Fin D → ℝ, (1 / beta * log (∏ d, gaussianPDFReal (m1 d) (v1 d) (y d)) - log (∏ d, gaussianPDFReal (m2 d) (v2 d) (y d)))
    ∂Measure.pi (fun d => gaussianReal (m1 d) (v1 d))

theorem gauss_sq_integrable (m a : ℝ) (v : ℝ≥0) : Integrable (fun z => (z - a) ^ 2) (gaussianReal m v) := by
  have h : MemLp (fun z : ℝ => z - a) 2 (gaussianReal m v) :=
    (memLp_id_gaussianReal 2).sub (memLp_const a)
  exact h.integrable_sq

theorem gauss_sq (m a : ℝ) (v : ℝ≥0) : ∫ z, (z - a) ^ 2 ∂gaussianReal m v = v + (m - a) ^ 2 := by
  have hv : ∫ z, (z - m) ^ 2 ∂gaussianReal m v = v := by
    have := variance_fun_id_gaussianReal (μ := m) (v := v)
    rw [variance_eq_integral measurable_id'.aemeasurable] at this
    simpa using this
  have hid : Integrable (fun z : ℝ => z) (gaussianReal m v) := (memLp_id_gaussianReal 1).integrable (by norm_num)
  have e : ∀ z : ℝ, (z - a) ^ 2 = (z - m) ^ 2 + (2 * (m - a) * z + ((m - a) ^ 2 - 2 * (m - a) * m)) := fun z => by ring
  rw [integral_congr_ae (Filter.Eventually.of_forall e)]
  have hlin : Integrable (fun z : ℝ => 2 * (m - a) * z + ((m - a) ^ 2 - 2 * (m - a) * m)) (gaussianReal m v) :=
    (hid.const_mul _).add (integrable_const _)
  rw [integral_add (gauss_sq_integrable m m v) hlin, hv, integral_add (hid.const_mul _) (integrable_const _), integral_const_mul, integral_id_gaussianReal]
  simp

theorem klExp_eq (beta : ℝ) (m1 : Fin D → ℝ) (v1 : Fin D → ℝ≥0) (m2 : Fin D → ℝ) (v2 : Fin D → ℝ≥0) (h1 : ∀ d, v1 d ≠ 0) (h2 : ∀ d, v2 d ≠ 0) :
    klExp beta m1 v1 m2 v2 =
      ∑ d, (1 / beta * (-(1 / 2) * log (2 * π * v1 d) - 1 / 2) + 1 / 2 * log (2 * π * v2 d) + (v1 d + (m1 d - m2 d) ^ 2) / (2 * v2 d)) := by
  have hl : ∀ (m : Fin D → ℝ) (v : Fin D → ℝ≥0), (∀ d, v d ≠ 0) → ∀ y : Fin D → ℝ, log (∏ d, gaussianPDFReal (m d) (v d) (y d)) =
      ∑ d, (-(1 / 2) * log (2 * π * v d) - (y d - m d) ^ 2 / (2 * v d)) := by
    intro m v hv y
    rw [Real.log_prod (fun d _ => (gaussianPDFReal_pos _ _ _ (hv d)).ne')]
    exact Finset.sum_congr rfl (fun d _ => QScore.log_pdf _ _ (hv d) _)
  unfold klExp
  have e : ∀ y : Fin D → ℝ, 1 / beta * log (∏ d, gaussianPDFReal (m1 d) (v1 d) (y d)) - log (∏ d, gaussianPDFReal (m2 d) (v2 d) (y d)) =
      ∑ d, (1 / beta * (-(1 / 2) * log (2 * π * v1 d)) + 1 / 2 * log (2 * π * v2 d) - 1 / beta / (2 * v1 d) * (y d - m1 d) ^ 2 + 1 / (2 * v2 d) * (y d - m2 d) ^ 2) := by
    intro y
    rw [hl m1 v1 h1, hl m2 v2 h2, Finset.mul_sum, ← Finset.sum_sub_distrib]
    exact Finset.sum_congr rfl (fun d _ => by ring)
  obtain ⟨g, hg⟩ : ∃ g : Fin D → ℝ → ℝ, ∀ d z, g d z = 1 / beta * (-(1 / 2) * log (2 * π * v1 d)) + 1 / 2 * log (2 * π * v2 d) -
      1 / beta / (2 * v1 d) * (z - m1 d) ^ 2 + 1 / (2 * v2 d) * (z - m2 d) ^ 2 := ⟨_, fun _ _ => rfl⟩
  have hint : ∀ d, Integrable (g d) (gaussianReal (m1 d) (v1 d)) := fun d => by
    rw [show g d = fun z => _ from funext (hg d)]
    exact ((integrable_const _).sub ((gauss_sq_integrable _ _ _).const_mul _)).add ((gauss_sq_integrable _ _ _).const_mul _)
  have e' : ∀ y : Fin D → ℝ, 1 / beta * log (∏ d, gaussianPDFReal (m1 d) (v1 d) (y d)) - log (∏ d, gaussianPDFReal (m2 d) (v2 d) (y d)) =
      ∑ d, g d (y d) := fun y => (e y).trans (Finset.sum_congr rfl fun d _ => (hg d (y d)).symm)
  rw [integral_congr_ae (Filter.Eventually.of_forall e'), integral_finset_sum _ (fun d _ => integrable_comp_eval (hint d))]
  refine Finset.sum_congr rfl (fun d _ => ?_)
  rw [integral_comp_eval (μ := fun d => gaussianReal (m1 d) (v1 d)) (i := d) (hint d).aestronglyMeasurable,
    integral_congr_ae (Filter.Eventually.of_forall (hg d))]
  have i1 := (gauss_sq_integrable (m1 d) (m1 d) (v1 d)).const_mul (1 / beta / (2 * v1 d))
  have i2 := (gauss_sq_integrable (m1 d) (m2 d) (v1 d)).const_mul (1 / (2 * (v2 d : ℝ)))
  have i3 : Integrable (fun z : ℝ => 1 / beta * (-(1 / 2) * log (2 * π * v1 d)) + 1 / 2 * log (2 * π * v2 d) -
      1 / beta / (2 * v1 d) * (z - m1 d) ^ 2) (gaussianReal (m1 d) (v1 d)) := (integrable_const _).sub i1
  rw [integral_add i3 i2, integral_sub (integrable_const _) i1, integral_const_mul, integral_const_mul, gauss_sq, gauss_sq]
  have p1 : (v1 d : ℝ) ≠ 0 := by exact_mod_cast h1 d
  simp only [integral_const, probReal_univ, smul_eq_mul, one_mul, sub_self]
  have e1 : 1 / beta / (2 * (v1 d : ℝ)) * (v1 d + 0 ^ 2) = 1 / beta * (1 / 2) := by
    rcases eq_or_ne beta 0 with h | h
    · rw [h]; simp
    · field_simp; ring
  rw [e1]
  ring

theorem second_inv {b : ℝ} {fmt : String} {p v : ℝ} (h : Second b fmt p v) : (fmt = "logvar" → p = log v) ∧ (fmt = "var" → p = v) ∧
    (fmt = "logprec" → p = log (1 / v)) ∧ (fmt = "prec" → p = 1 / v) := by
  cases h <;> simp

theorem param2_spec (b : ℝ) (fmt : String) (hf : fmt ∈ ["logvar", "var", "logprec", "prec"]) :
    ∃ fv fl, param2Var fmt = some fv ∧ param2Logvar fmt = some fl ∧ ∀ p v, 0 < v → Second b fmt p v → fv p = v ∧ fl p = log v := by
  simp only [List.mem_cons, List.not_mem_nil, or_false] at hf
  rcases hf with rfl | rfl | rfl | rfl
  · refine ⟨fun x => exp x, fun x => x, by simp [param2Var], by simp [param2Logvar], fun p v hv h => ?_⟩
    rw [(second_inv h).1 rfl]; exact ⟨exp_log hv, rfl⟩
  · refine ⟨fun x => x, fun x => log x, by simp [param2Var], by simp [param2Logvar], fun p v hv h => ?_⟩
    rw [(second_inv h).2.1 rfl]; exact ⟨rfl, rfl⟩
  · refine ⟨fun x => exp (-x), fun x => -x, by simp [param2Var], by simp [param2Logvar], fun p v hv h => ?_⟩
    rw [(second_inv h).2.2.1 rfl]; simp [exp_log hv]
  · refine ⟨fun x => 1 / x, fun x => -log x, by simp [param2Var], by simp [param2Logvar], fun p v hv h => ?_⟩
    rw [(second_inv h).2.2.2 rfl]; simp

theorem first_mu {fmt : String} {p m v : ℝ} (hv : 0 < v) (h : First fmt p m v) : (if fmt = "nat" then v * p else p) = m := by
  cases h with
  | mean => simp
  | nat => simp; field_simp

theorem klStdSum_eq (beta : ℝ) (hb : beta ≠ 0) (m : Fin D → ℝ) (v : Fin D → ℝ≥0) (hv : ∀ d, v d ≠ 0) :
    klStdSum beta m (fun d => (v d : ℝ)) (fun d => log (v d)) = klExp beta m v (fun _ => 0) (fun _ => 1) := by
  rw [klExp_eq _ _ _ _ _ hv (fun _ => one_ne_zero)]
  unfold klStdSum
  rw [Finset.mul_sum]
  refine Finset.sum_congr rfl (fun d _ => ?_)
  have p1 : (v d : ℝ) ≠ 0 := by exact_mod_cast hv d
  rw [Real.log_mul (by positivity) p1]
  simp only [NNReal.coe_one, mul_one, log2pi]
  field_simp
  ring

/-- **C146 (divergence from the prior).** In every format the layer returns the expectation of `log q / beta - log p` under the
posterior `q`, for the standard normal prior `p`, or `min_kl` when that is larger. -/
theorem C146_kl_std (fmt : String × String) (hf : fmt.2 ∈ ["logvar", "var", "logprec", "prec"]) (minKl beta : ℝ) (hb : beta ≠ 0) (p1 p2 m : Fin D → ℝ)
    (v : Fin D → ℝ≥0) (hv : ∀ d, v d ≠ 0) (h1 : ∀ d, First fmt.1 (p1 d) (m d) (v d)) (h2 : ∀ d, Second 0 fmt.2 (p2 d) (v d)) :
    klStd fmt minKl beta p1 p2 = some (max minKl (klExp beta m v (fun _ => 0) (fun _ => 1))) := by
  obtain ⟨fv, fl, e1, e2, hs⟩ := param2_spec 0 fmt.2 hf
  have hpos : ∀ d, (0 : ℝ) < v d := fun d => lt_of_le_of_ne (v d).2 (fun h => hv d (NNReal.coe_eq_zero.1 h.symm))
  unfold klStd
  simp only [e1, e2, Option.bind_eq_bind, Option.bind_some]
  have a1 : (fun d => fv (p2 d)) = fun d => (v d : ℝ) := funext fun d => (hs _ _ (hpos d) (h2 d)).1
  have a2 : (fun d => fl (p2 d)) = fun d => log (v d) := funext fun d => (hs _ _ (hpos d) (h2 d)).2
  have a3 : (fun d => if fmt.1 = "nat" then fv (p2 d) * p1 d else p1 d) = m := funext fun d => by
    rw [congrFun a1 d]; exact first_mu (hpos d) (h1 d)
  rw [a3, a2, a1, klStdSum_eq beta hb m v hv, one_mul, max_comm]

/-- **C146 (sequences).** On a sequence every frame gets its own divergence; with `time_norm=False` it is multiplied by the number
of frames whose mean is not zero. -/
theorem C146_kl_seq (fmt : String × String) (hf : fmt.2 ∈ ["logvar", "var", "logprec", "prec"]) (minKl beta : ℝ) (hb : beta ≠ 0) (timeNorm : Bool)
    (f : List (((Fin D → ℝ) × (Fin D → ℝ)) × ((Fin D → ℝ) × (Fin D → ℝ≥0)))) (hv : ∀ x ∈ f, ∀ d, x.2.2 d ≠ 0)
    (h1 : ∀ x ∈ f, ∀ d, First fmt.1 (x.1.1 d) (x.2.1 d) (x.2.2 d)) (h2 : ∀ x ∈ f, ∀ d, Second 0 fmt.2 (x.1.2 d) (x.2.2 d)) :
    klStdSeq fmt minKl beta timeNorm (f.map Prod.fst) = some (f.map (fun x =>
      (if timeNorm then 1 else ((f.filter (fun x => decide (x.2.1 ≠ 0))).length : ℝ)) * max minKl (klExp beta x.2.1 x.2.2 (fun _ => 0) (fun _ => 1)))) := by
  obtain ⟨fv, fl, e1, e2, hs⟩ := param2_spec 0 fmt.2 hf
  have hpos : ∀ x ∈ f, ∀ d, (0 : ℝ) < x.2.2 d := fun x hx d => lt_of_le_of_ne (x.2.2 d).2 (fun h => hv x hx d (NNReal.coe_eq_zero.1 h.symm))
  have a1 : ∀ x ∈ f, (fun d => fv (x.1.2 d)) = fun d => (x.2.2 d : ℝ) := fun x hx => funext fun d => (hs _ _ (hpos x hx d) (h2 x hx d)).1
  have a2 : ∀ x ∈ f, (fun d => fl (x.1.2 d)) = fun d => log (x.2.2 d) := fun x hx => funext fun d => (hs _ _ (hpos x hx d) (h2 x hx d)).2
  have a3 : ∀ x ∈ f, (fun d => if fmt.1 = "nat" then fv (x.1.2 d) * x.1.1 d else x.1.1 d) = x.2.1 := fun x hx => funext fun d => by
    rw [congrFun (a1 x hx) d]; exact first_mu (hpos x hx d) (h1 x hx d)
  have hT : seqLength ((f.map Prod.fst).map (fun (p : (Fin D → ℝ) × (Fin D → ℝ)) d => if fmt.1 = "nat" then fv (p.2 d) * p.1 d else p.1 d)) =
      ((f.filter (fun x => decide (x.2.1 ≠ 0))).length : ℝ) := by
    rw [List.map_map]
    have : f.map ((fun (p : (Fin D → ℝ) × (Fin D → ℝ)) d => if fmt.1 = "nat" then fv (p.2 d) * p.1 d else p.1 d) ∘ Prod.fst) = f.map (fun x => x.2.1) :=
      List.map_congr_left (fun x hx => a3 x hx)
    rw [this]
    unfold seqLength
    rw [List.filter_map, List.length_map]
    congr 3
    funext x
    simp only [Function.comp_apply, decide_eq_decide]
    rw [Ne, funext_iff, not_forall]
    rfl
  unfold klStdSeq
  simp only [e1, e2, Option.bind_eq_bind, Option.bind_some, hT, Option.some.injEq]
  rw [List.map_map]
  apply List.map_congr_left
  intro x hx
  show _ * max (klStdSum beta (fun d => if fmt.1 = "nat" then fv (x.1.2 d) * x.1.1 d else x.1.1 d) (fun d => fv (x.1.2 d)) (fun d => fl (x.1.2 d))) minKl = _
  rw [a3 x hx, a2 x hx, a1 x hx, klStdSum_eq beta hb _ _ (hv x hx), max_comm]

/-- **C146 (divergence between two Gaussians).** -/
theorem C146_kl_diag (fmt : String × String) (hf : fmt.2 ∈ ["logvar", "var", "logprec", "prec"]) (minKl beta : ℝ) (hb : beta ≠ 0)
    (p11 p12 p21 p22 m1 m2 : Fin D → ℝ) (v1 v2 : Fin D → ℝ≥0) (hv1 : ∀ d, v1 d ≠ 0) (hv2 : ∀ d, v2 d ≠ 0)
    (h11 : ∀ d, First fmt.1 (p11 d) (m1 d) (v1 d)) (h12 : ∀ d, Second 0 fmt.2 (p12 d) (v1 d))
    (h21 : ∀ d, First fmt.1 (p21 d) (m2 d) (v2 d)) (h22 : ∀ d, Second 0 fmt.2 (p22 d) (v2 d)) :
    klDiag fmt minKl beta p11 p12 p21 p22 = some (max minKl (klExp beta m1 v1 m2 v2)) := by
  obtain ⟨fv, fl, e1, e2, hs⟩ := param2_spec 0 fmt.2 hf
  have q1 : ∀ d, (0 : ℝ) < v1 d := fun d => lt_of_le_of_ne (v1 d).2 (fun h => hv1 d (NNReal.coe_eq_zero.1 h.symm))
  have q2 : ∀ d, (0 : ℝ) < v2 d := fun d => lt_of_le_of_ne (v2 d).2 (fun h => hv2 d (NNReal.coe_eq_zero.1 h.symm))
  unfold klDiag
  simp only [e1, e2, Option.bind_eq_bind, Option.bind_some, Option.some.injEq]
  rw [max_comm, klExp_eq _ _ _ _ _ hv1 hv2, Finset.mul_sum]
  congr 1
  refine Finset.sum_congr rfl (fun d _ => ?_)
  obtain ⟨a1, a2⟩ := hs _ _ (q1 d) (h12 d)
  obtain ⟨b1, b2⟩ := hs _ _ (q2 d) (h22 d)
  rw [a1, a2, b1, b2, mul_comm (p11 d), mul_comm (p21 d), first_mu (q1 d) (h11 d), first_mu (q2 d) (h21 d),
    Real.log_mul (by positivity) (q1 d).ne', Real.log_mul (by positivity) (q2 d).ne']
  have := (q2 d).ne'
  unfold log2pi
  field_simp
  ring

/-- **C146 (the same as functions).** The divergences of `objectives`, with log-variances. -/
theorem C146_kl_objectives (beta : ℝ) (hb : beta ≠ 0) (m1 l1 m2 l2 : Fin D → ℝ) :
    klStdObj beta m1 l1 = klExp beta m1 (fun d => (exp (l1 d)).toNNReal) (fun _ => 0) (fun _ => 1) ∧
    klDiagObj beta m1 l1 m2 l2 = klExp beta m1 (fun d => (exp (l1 d)).toNNReal) m2 (fun d => (exp (l2 d)).toNNReal) := by
  have hne : ∀ x : ℝ, (exp x).toNNReal ≠ 0 := fun x => by simp [exp_pos]
  have hc : ∀ x : ℝ, ((exp x).toNNReal : ℝ) = exp x := fun x => Real.coe_toNNReal _ (exp_pos x).le
  constructor
  · rw [klExp_eq _ _ _ _ _ (fun d => hne _) (fun _ => one_ne_zero)]
    unfold klStdObj
    rw [Finset.mul_sum]
    refine Finset.sum_congr rfl (fun d _ => ?_)
    rw [hc, Real.log_mul (by positivity) (exp_pos _).ne', Real.log_exp]
    simp only [NNReal.coe_one, mul_one, log2pi]
    field_simp
    ring
  · rw [klExp_eq _ _ _ _ _ (fun d => hne _) (fun d => hne _)]
    unfold klDiagObj
    rw [Finset.mul_sum]
    refine Finset.sum_congr rfl (fun d _ => ?_)
    rw [hc, hc, Real.log_mul (by positivity) (exp_pos _).ne', Real.log_mul (by positivity) (exp_pos _).ne', Real.log_exp, Real.log_exp]
    have := (exp_pos (l2 d)).ne'
    unfold log2pi
    field_simp
    ring

/-- **C146 (divergence is not negative).** With `beta = 1` the expectation is not negative, and zero only for equal Gaussians: the
default limit `min_kl = 0` never acts. -/
theorem C146_kl_nonneg (m1 : Fin D → ℝ) (v1 : Fin D → ℝ≥0) (m2 : Fin D → ℝ) (v2 : Fin D → ℝ≥0) (h1 : ∀ d, v1 d ≠ 0) (h2 : ∀ d, v2 d ≠ 0) :
    0 ≤ klExp 1 m1 v1 m2 v2 ∧ (klExp 1 m1 v1 m2 v2 = 0 ↔ m1 = m2 ∧ v1 = v2) := by
  have q1 : ∀ d, (0 : ℝ) < v1 d := fun d => lt_of_le_of_ne (v1 d).2 (fun h => h1 d (NNReal.coe_eq_zero.1 h.symm))
  have q2 : ∀ d, (0 : ℝ) < v2 d := fun d => lt_of_le_of_ne (v2 d).2 (fun h => h2 d (NNReal.coe_eq_zero.1 h.symm))
  have e : klExp 1 m1 v1 m2 v2 = ∑ d, 1 / 2 * (((v1 d : ℝ) / v2 d - 1 - log (v1 d / v2 d)) + (m1 d - m2 d) ^ 2 / v2 d) := by
    rw [klExp_eq _ _ _ _ _ h1 h2]
    refine Finset.sum_congr rfl (fun d _ => ?_)
    rw [Real.log_mul (by positivity) (q1 d).ne', Real.log_mul (by positivity) (q2 d).ne', Real.log_div (q1 d).ne' (q2 d).ne']
    have := (q2 d).ne'
    field_simp
    ring
  have hr : ∀ d, 0 ≤ (v1 d : ℝ) / v2 d - 1 - log (v1 d / v2 d) := fun d => by
    have := Real.log_le_sub_one_of_pos (div_pos (q1 d) (q2 d))
    linarith
  have hs : ∀ d, 0 ≤ (m1 d - m2 d) ^ 2 / (v2 d : ℝ) := fun d => div_nonneg (sq_nonneg _) (q2 d).le
  have hn : ∀ d, 0 ≤ 1 / 2 * (((v1 d : ℝ) / v2 d - 1 - log (v1 d / v2 d)) + (m1 d - m2 d) ^ 2 / v2 d) := fun d => by
    have := hr d; have := hs d; linarith
  rw [e]
  refine ⟨Finset.sum_nonneg (fun d _ => hn d), ?_⟩
  rw [Finset.sum_eq_zero_iff_of_nonneg (fun d _ => hn d)]
  constructor
  · intro h
    have hd : ∀ d, m1 d = m2 d ∧ v1 d = v2 d := by
      intro d
      have h0 := h d (Finset.mem_univ d)
      have a := hr d
      have b := hs d
      have hb0 : (m1 d - m2 d) ^ 2 / (v2 d : ℝ) = 0 := by linarith
      have ha0 : (v1 d : ℝ) / v2 d - 1 - log (v1 d / v2 d) = 0 := by linarith
      constructor
      · rcases div_eq_zero_iff.1 hb0 with h | h
        · exact sub_eq_zero.1 (pow_eq_zero_iff (two_ne_zero)|>.1 h)
        · exact absurd h (q2 d).ne'
      · by_contra hne
        have hne' : (v1 d : ℝ) / v2 d ≠ 1 := by
          rw [Ne, div_eq_one_iff_eq (q2 d).ne']
          exact_mod_cast hne
        have := Real.log_lt_sub_one_of_pos (div_pos (q1 d) (q2 d)) hne'
        linarith
    exact ⟨funext fun d => (hd d).1, funext fun d => (hd d).2⟩
  · rintro ⟨rfl, rfl⟩ d _
    rw [div_self (q1 d).ne']
    simp

/-! ### losses -/

/-- **C146 (diagonal Gaussian).** `diag_normal` is minus the log-density, the variances being the exponentials of the second input. -/
theorem C146_diag_normal (y m l : Fin D → ℝ) :
    diagNormal y m l = -log (∏ d, gaussianPDFReal (m d) (exp (l d)).toNNReal (y d)) := by
  have hne : ∀ x : ℝ, (exp x).toNNReal ≠ 0 := fun x => by simp [exp_pos]
  have hc : ∀ x : ℝ, ((exp x).toNNReal : ℝ) = exp x := fun x => Real.coe_toNNReal _ (exp_pos x).le
  rw [Real.log_prod (fun d _ => (gaussianPDFReal_pos _ _ _ (hne _)).ne'), ← Finset.sum_neg_distrib]
  unfold diagNormal
  rw [Finset.mul_sum]
  refine Finset.sum_congr rfl (fun d _ => ?_)
  rw [QScore.log_pdf _ _ (hne _), hc, Real.log_mul (by positivity) (exp_pos _).ne', Real.log_exp]
  unfold log2pi
  have := (exp_pos (l d)).ne'
  field_simp
  ring

/-- **C146 (frames).** The loss of a frame whose prediction is the list of means followed by the list of log-variances. -/
theorem C146_nllk_frame (T : ℝ) (y m l : List ℝ) (hm : m.length = y.length) (hl : l.length = y.length) :
    nllkFrame T y (m ++ l) = T * -(List.zipWith (fun a b : ℝ × ℝ => log (gaussianPDFReal b.1 (exp b.2).toNNReal a.1)) (y.map (fun a => (a, a))) (m.zip l)).sum := by
  have hne : ∀ x : ℝ, (exp x).toNNReal ≠ 0 := fun x => by simp [exp_pos]
  have hc : ∀ x : ℝ, ((exp x).toNNReal : ℝ) = exp x := fun x => Real.coe_toNNReal _ (exp_pos x).le
  unfold nllkFrame
  rw [List.take_left' hm, List.drop_left' hm]
  dsimp only
  have key : ∀ (y m l : List ℝ), m.length = y.length → l.length = y.length →
      1 / 2 * (List.zipWith (fun a b : ℝ => a + b) (l.map (fun v => log2pi + v))
        (List.zipWith (fun d v => d ^ 2 / exp v) (List.zipWith (fun a b : ℝ => a - b) y m) l)).sum =
      -(List.zipWith (fun a b : ℝ × ℝ => log (gaussianPDFReal b.1 (exp b.2).toNNReal a.1)) (y.map (fun a => (a, a))) (m.zip l)).sum := by
    intro y
    induction y with
    | nil => intro m l hm hl; simp
    | cons a y ih =>
      intro m l hm hl
      match m, l, hm, hl with
      | b :: m, c :: l, hm, hl =>
        have := ih m l (by simpa using hm) (by simpa using hl)
        simp only [List.map_cons, List.zipWith_cons_cons, List.zip_cons_cons, List.sum_cons, mul_add, this, neg_add]
        congr 1
        rw [QScore.log_pdf _ _ (hne _), hc, Real.log_mul (by positivity) (exp_pos _).ne', Real.log_exp]
        unfold log2pi
        have := (exp_pos c).ne'
        field_simp
        ring
  rw [← key y m l hm hl]
  ring

/-- **C146 (full covariance).** When the matrix has determinant one (unit triangular), `normal_1chol` is minus the log of the
Gaussian density with covariance `cholᵀ diag(exp logvar) chol`. -/
theorem C146_normal_chol (y m l : Fin D → ℝ) (L : Matrix (Fin D) (Fin D) ℝ) (hL : L.det = 1) :
    let S := L.transpose * Matrix.diagonal (fun d => exp (l d)) * L
    normalChol y m l L = 1 / 2 * (D * log (2 * π) + log S.det + dotProduct (y - m) (Matrix.mulVec S⁻¹ (y - m))) := by
  intro S
  have hdet : S.det = ∏ d, exp (l d) := by
    show (L.transpose * Matrix.diagonal (fun d => exp (l d)) * L).det = _
    rw [Matrix.det_mul, Matrix.det_mul, Matrix.det_transpose, hL, Matrix.det_diagonal]; simp
  have hu : IsUnit L.det := by rw [hL]; exact isUnit_one
  have hlog : log S.det = ∑ d, l d := by
    rw [hdet, Real.log_prod (fun d _ => (exp_pos _).ne')]
    simp
  have hinv : S⁻¹ = L⁻¹ * Matrix.diagonal (fun d => exp (-l d)) * L⁻¹.transpose := by
    apply Matrix.inv_eq_right_inv
    show L.transpose * Matrix.diagonal (fun d => exp (l d)) * L * (L⁻¹ * Matrix.diagonal (fun d => exp (-l d)) * L⁻¹.transpose) = 1
    have e1 : L * L⁻¹ = 1 := Matrix.mul_nonsing_inv L hu
    have e2 : L.transpose * L⁻¹.transpose = 1 := by rw [← Matrix.transpose_mul, Matrix.nonsing_inv_mul L hu, Matrix.transpose_one]
    have e3 : Matrix.diagonal (fun d => exp (l d)) * Matrix.diagonal (fun d => exp (-l d)) = (1 : Matrix (Fin D) (Fin D) ℝ) := by
      rw [Matrix.diagonal_mul_diagonal, ← Matrix.diagonal_one]
      congr 1; funext d; rw [← exp_add]; simp
    calc _ = L.transpose * Matrix.diagonal (fun d => exp (l d)) * (L * L⁻¹) * Matrix.diagonal (fun d => exp (-l d)) * L⁻¹.transpose := by
          simp only [Matrix.mul_assoc]
      _ = L.transpose * (Matrix.diagonal (fun d => exp (l d)) * Matrix.diagonal (fun d => exp (-l d))) * L⁻¹.transpose := by
          rw [e1]; simp only [Matrix.mul_assoc, Matrix.one_mul]
      _ = 1 := by rw [e3, Matrix.mul_one, e2]
  have hq : dotProduct (y - m) (Matrix.mulVec S⁻¹ (y - m)) = ∑ d, (Matrix.vecMul (fun i => y i - m i) L⁻¹ d * exp (-l d / 2)) ^ 2 := by
    rw [hinv, ← Matrix.mulVec_mulVec, ← Matrix.mulVec_mulVec, Matrix.dotProduct_mulVec, Matrix.mulVec_transpose]
    show ∑ d, _ = _
    refine Finset.sum_congr rfl (fun d _ => ?_)
    rw [Matrix.mulVec_diagonal, mul_pow, ← exp_nat_mul]
    have : ((2 : ℕ) : ℝ) * (-l d / 2) = -l d := by push_cast; ring
    rw [this]
    show Matrix.vecMul (y - m) L⁻¹ d * (exp (-l d) * Matrix.vecMul (y - m) L⁻¹ d) = Matrix.vecMul (y - m) L⁻¹ d ^ 2 * exp (-l d)
    ring
  rw [hlog, hq]
  unfold normalChol log2pi
  simp only [Finset.sum_add_distrib, Finset.sum_const, Finset.card_univ, Fintype.card_fin, nsmul_eq_mul]

/-- **C146 (expected errors).** With a one-hot label `categorical_mbr` is the probability given to the other classes. -/
theorem C146_mbr {C : Nat} (k : Fin C) (p : Fin C → ℝ) (hp : ∑ j, p j = 1) :
    categoricalMbr (fun j => if j = k then 1 else 0) p = ∑ j ∈ Finset.univ.erase k, p j := by
  unfold categoricalMbr
  simp only [ite_mul, one_mul, zero_mul, Finset.sum_ite_eq', Finset.mem_univ, if_true]
  rw [← hp, ← Finset.add_sum_erase _ _ (Finset.mem_univ k)]
  ring

/-- **C146 (defect).** `bernoulli` passes the prediction as target: for a label 1 or 0 the loss is an affine function of the
prediction, with the slope fixed by the `epsilon` of Keras, and not minus the log of its probability. -/
theorem C146_bernoulli_swapped (eps : ℝ) (h0 : 0 < eps) (h1 : eps < 1 / 2) (p : ℝ) :
    bernoulli (D := 1) eps (fun _ => 1) (fun _ => p) = -log eps + p * (log eps - log (1 - eps)) ∧
    bernoulli (D := 1) eps (fun _ => 0) (fun _ => p) = -log (1 - eps) - p * (log eps - log (1 - eps)) ∧
    (log eps - log (1 - eps) < 0) ∧
    ∃ p, 0 < p ∧ p < 1 ∧ bernoulli (D := 1) eps (fun _ => 1) (fun _ => p) ≠ -log p := by
  have f1 : ∀ p, bernoulli (D := 1) eps (fun _ => 1) (fun _ => p) = -log eps + p * (log eps - log (1 - eps)) := by
    intro p
    unfold bernoulli binaryCrossentropy
    dsimp only
    rw [max_eq_left (by linarith : eps ≤ 1), min_eq_right (by linarith : 1 - eps ≤ 1)]
    simp
    ring
  refine ⟨f1 p, ?_, ?_, ?_⟩
  · unfold bernoulli binaryCrossentropy
    dsimp only
    rw [max_eq_right h0.le, min_eq_left (by linarith : eps ≤ 1 - eps)]
    simp
    ring
  · have := Real.log_lt_log h0 (by linarith : eps < 1 - eps)
    linarith
  · have hlog : log eps - log (1 - eps) < 0 := by
      have := Real.log_lt_log h0 (by linarith : eps < 1 - eps)
      linarith
    by_contra hn
    push Not at hn
    have a := hn (1 / 2) (by norm_num) (by norm_num)
    have b := hn (1 / 4) (by norm_num) (by norm_num)
    have c := hn (1 / 8) (by norm_num) (by norm_num)
    rw [f1] at a b c
    have l2 : log (1 / 4) = 2 * log (1 / 2) := by rw [show (1 / 4 : ℝ) = (1 / 2) ^ 2 by norm_num, Real.log_pow]; norm_num
    have l3 : log (1 / 8) = 3 * log (1 / 2) := by rw [show (1 / 8 : ℝ) = (1 / 2) ^ 3 by norm_num, Real.log_pow]; norm_num
    rw [l2] at b
    rw [l3] at c
    linarith

/-! ### samplers -/

theorem repeat_get {α : Type} (n : Nat) (x : List α) (i j : Nat) (hj : j < n) : (repeatElements n x)[i * n + j]? = x[i]? := by
  unfold repeatElements
  induction x generalizing i with
  | nil => simp
  | cons a x ih =>
    rw [List.flatMap_cons]
    cases i with
    | zero =>
      rw [List.getElem?_append_left (by simp; omega)]
      simp [List.getElem?_replicate, hj]
    | succ i =>
      rw [List.getElem?_append_right (by simp; nlinarith)]
      have : (i + 1) * n + j - (List.replicate n a).length = i * n + j := by
        simp only [List.length_replicate]
        have : (i + 1) * n = i * n + n := by ring
        omega
      rw [this, ih]
      simp

theorem repeat_length {α : Type} (n : Nat) (x : List α) : (repeatElements n x).length = x.length * n := by
  unfold repeatElements
  simp [List.length_flatMap]

/-- Specification: `p` is the spread, in the given format, of a Gaussian with variance `v`. -/
inductive Spread : String → ℝ → ℝ → Prop
  | stddev (p : ℝ) : Spread "stddev" p (p ^ 2)
  | var (v : ℝ) : Spread "var" v v
  | logvar (v : ℝ) : Spread "logvar" (log v) v

theorem spread_inv {fmt : String} {p v : ℝ} (h : Spread fmt p v) : (fmt = "stddev" → v = p ^ 2) ∧ (fmt = "var" → p = v) ∧ (fmt = "logvar" → p = log v) := by
  cases h <;> simp

theorem stddev_spec (fmt : String) : (stddev fmt = none ↔ fmt ∉ ["stddev", "var", "logvar"]) ∧
    (∀ g, stddev fmt = some g → (∀ p v, 0 < v → Spread fmt p v → g p ^ 2 = v) ∧ ∀ p, 0 ≤ g p) := by
  unfold stddev
  constructor
  · split_ifs <;> simp_all
  · intro g hg
    split_ifs at hg with h1 h2 h3
    · cases hg
      refine ⟨fun p v _ h => ?_, fun p => abs_nonneg p⟩
      rw [(spread_inv h).1 h1, sq_abs]
    · cases hg
      refine ⟨fun p v hv h => ?_, fun p => sqrt_nonneg _⟩
      rw [(spread_inv h).2.1 h2, sq_sqrt (abs_nonneg _), abs_of_pos hv]
    · cases hg
      refine ⟨fun p v hv h => ?_, fun p => (exp_pos _).le⟩
      rw [(spread_inv h).2.2 h3, ← exp_nat_mul]
      have : ((2 : ℕ) : ℝ) * (log v / 2) = log v := by push_cast; ring
      rw [this, exp_log hv]

/-- **C147 (formats).** The samplers raise exactly for unknown words. -/
theorem C147_unknown (fmt : String × String) (n T : Nat) (one : Bool) (p : List ((Fin D → ℝ) × (Fin D → ℝ))) (e : Nat → Fin D → ℝ) (e' : Nat → Nat → Fin D → ℝ) :
    (normalSampler fmt n p e = none ↔ fmt.2 ∉ ["stddev", "var", "logvar"]) ∧ (tiedSampler fmt n T one p e' = none ↔ fmt.2 ∉ ["stddev", "var", "logvar"]) := by
  rw [← (stddev_spec fmt.2).1]
  unfold normalSampler tiedSampler
  cases stddev fmt.2 <;> simp

/-- **C147 (rows).** With `num_samples = n ≥ 1` the sampler returns `n` rows for every row of the batch, in this order: row
`i n + j` is the mean of row `i` plus its standard deviation times noise of its own. -/
theorem C147_rows (fmt : String × String) (n : Nat) (hn : 1 ≤ n) (p : List ((Fin D → ℝ) × (Fin D → ℝ))) (eps : Nat → Fin D → ℝ) (out : List (Fin D → ℝ))
    (h : normalSampler fmt n p eps = some out) :
    out.length = p.length * n ∧ out.length = declaredRows false n p.length ∧
    ∀ (i j : Nat) (q : (Fin D → ℝ) × (Fin D → ℝ)), p[i]? = some q → j < n → ∃ x, out[i * n + j]? = some x ∧
      ∀ (d : Fin D) (m v : ℝ), 0 < v → First fmt.1 (q.1 d) m v → Spread fmt.2 (q.2 d) v → ∃ s, 0 ≤ s ∧ s ^ 2 = v ∧ x d = m + s * eps (i * n + j) d := by
  have hrows : (if n > 1 then repeatElements n p else p) = repeatElements n p := by
    split_ifs with h1
    · rfl
    · have : n = 1 := by omega
      subst this
      unfold repeatElements
      simp
  unfold normalSampler at h
  rw [hrows] at h
  cases hs : stddev fmt.2 with
  | none => simp [hs] at h
  | some g =>
    simp only [hs, Option.bind_eq_bind, Option.bind_some, Option.some.injEq] at h
    have hsp := (stddev_spec fmt.2).2 g hs
    have hlen : out.length = p.length * n := by
      rw [← h, List.length_map, List.length_zipIdx, repeat_length]
    refine ⟨hlen, hlen, ?_⟩
    intro i j q hq hj
    have hr := repeat_get n p i j hj
    rw [hq] at hr
    refine ⟨_, by rw [← h, List.getElem?_map, List.getElem?_zipIdx, hr]; rfl, ?_⟩
    intro d m v hv hF hS
    have hsq := hsp.1 _ _ hv hS
    refine ⟨g (q.2 d), hsp.2 _, hsq, ?_⟩
    have := first_mu hv hF
    simp only [Nat.zero_add]
    rw [← pow_two, hsq, this]

/-- When the noise is independent standard normal, the rows of the result are independent and every coordinate is
Gaussian with the mean and the variance that the parameters describe. -/
theorem affine_law {R : Nat} (m s : Fin R → Fin D → ℝ) (v : Fin R → Fin D → ℝ≥0) (hs : ∀ r d, s r d ^ 2 = v r d) :
    (Measure.pi (fun _ : Fin R => Measure.pi (fun _ : Fin D => gaussianReal 0 1))).map (fun e r d => m r d + s r d * e r d) =
      Measure.pi (fun r => Measure.pi (fun d => gaussianReal (m r d) (v r d))) := by
  have h1 : ∀ r d, (gaussianReal 0 1).map (fun z : ℝ => m r d + s r d * z) = gaussianReal (m r d) (v r d) := by
    intro r d
    have e : (fun z : ℝ => m r d + s r d * z) = (fun z => m r d + z) ∘ (fun z => s r d * z) := rfl
    rw [e, ← Measure.map_map (by fun_prop) (by fun_prop), gaussianReal_map_const_mul, gaussianReal_map_const_add]
    congr 1
    · ring
    · apply NNReal.coe_injective
      simp [hs]
  have h2 : ∀ r, (Measure.pi (fun _ : Fin D => gaussianReal 0 1)).map (fun (e : Fin D → ℝ) d => m r d + s r d * e d) =
      Measure.pi (fun d => gaussianReal (m r d) (v r d)) := by
    intro r
    haveI : ∀ d, SigmaFinite ((gaussianReal 0 1).map (fun z : ℝ => m r d + s r d * z)) := fun d => by rw [h1]; infer_instance
    rw [Measure.pi_map_pi (μ := fun _ => gaussianReal 0 1) (f := fun d z => m r d + s r d * z) (fun d => by fun_prop)]
    simp only [h1]
  haveI : ∀ r, SigmaFinite ((Measure.pi (fun _ : Fin D => gaussianReal 0 1)).map (fun (e : Fin D → ℝ) d => m r d + s r d * e d)) :=
    fun r => by rw [h2]; infer_instance
  rw [Measure.pi_map_pi (μ := fun _ : Fin R => Measure.pi (fun _ : Fin D => gaussianReal 0 1)) (f := fun r (e : Fin D → ℝ) d => m r d + s r d * e d)
    (fun r => (measurable_pi_lambda _ (fun d => ((measurable_pi_apply d).const_mul _).const_add _)).aemeasurable)]
  simp only [h2]

/-- **C147 (law).** When the noise is independent standard normal, the rows of the result are independent and every coordinate is
Gaussian with the mean and the variance that the parameters of its row of the batch describe. -/
theorem C147_law (fmt : String × String) (hf : fmt.2 ∈ ["stddev", "var", "logvar"]) (n : Nat) (hn : 1 ≤ n) (p : List ((Fin D → ℝ) × (Fin D → ℝ)))
    (m : Nat → Fin D → ℝ) (v : Nat → Fin D → ℝ≥0) (hv : ∀ i d, v i d ≠ 0)
    (hd : ∀ (i : Nat) (q : (Fin D → ℝ) × (Fin D → ℝ)), p[i]? = some q → ∀ d, First fmt.1 (q.1 d) (m i d) (v i d) ∧ Spread fmt.2 (q.2 d) (v i d)) :
    (Measure.pi (fun _ : Fin (p.length * n) => Measure.pi (fun _ : Fin D => gaussianReal 0 1))).map (fun e (r : Fin (p.length * n)) d =>
        ((normalSampler fmt n p (fun i d => if h : i < p.length * n then e ⟨i, h⟩ d else 0)).getD []).getD r 0 d) =
      Measure.pi (fun r : Fin (p.length * n) => Measure.pi (fun d => gaussianReal (m (r / n) d) (v (r / n) d))) := by
  have hpos : ∀ i d, (0 : ℝ) < v i d := fun i d => lt_of_le_of_ne (v i d).2 (fun h => hv i d (NNReal.coe_eq_zero.1 h.symm))
  rw [← affine_law (fun (r : Fin (p.length * n)) d => m (r / n) d) (fun r d => sqrt (v (r / n) d)) (fun r d => v (r / n) d) (fun r d => sq_sqrt (hpos _ _).le)]
  congr 1
  funext e r d
  cases ho : normalSampler fmt n p (fun i d => if h : i < p.length * n then e ⟨i, h⟩ d else 0) with
  | none => exact absurd hf (((C147_unknown fmt n 0 true p _ (fun _ _ _ => 0)).1.1 ho))
  | some out =>
    obtain ⟨-, -, h⟩ := C147_rows fmt n hn p _ out ho
    have hrn : r / n < p.length := Nat.div_lt_of_lt_mul (lt_of_lt_of_eq r.2 (Nat.mul_comm _ _))
    obtain ⟨x, hx, h⟩ := h (r / n) (r % n) p[r.1 / n] (List.getElem?_eq_getElem hrn) (Nat.mod_lt _ (by omega))
    have hr : r.1 / n * n + r.1 % n = r.1 := by rw [Nat.mul_comm]; exact Nat.div_add_mod _ _
    simp only [hr] at hx h
    obtain ⟨h1, h2⟩ := hd (r / n) _ (List.getElem?_eq_getElem hrn) d
    obtain ⟨s, hs0, hs, hxd⟩ := h d _ _ (hpos _ d) h1 h2
    have hss : s = sqrt (v (r / n) d) := by rw [← hs, sqrt_sq hs0]
    rw [Option.getD_some, List.getD_eq_getElem?_getD, hx, Option.getD_some, hxd, dif_pos r.2, hss]

/-- **C147 (sequences).** The sampler of sequences returns `T` vectors per row: with `one_per_seq` the same vector at every time,
otherwise one with noise of its own at every time. The declared number of rows leaves out the factor `num_samples`. -/
theorem C147_tied (fmt : String × String) (n T : Nat) (hn : 1 ≤ n) (one : Bool) (p : List ((Fin D → ℝ) × (Fin D → ℝ))) (eps : Nat → Nat → Fin D → ℝ)
    (out : List (List (Fin D → ℝ))) (h : tiedSampler fmt n T one p eps = some out) :
    out.length = p.length * n ∧ (out.length = declaredRows true n p.length ↔ n = 1 ∨ p = []) ∧ (∀ x ∈ out, x.length = T) ∧
    ∀ t, t < T → normalSampler fmt n p (fun r => eps r (if one then 0 else t)) = some (out.map (fun x => x.getD t 0)) := by
  have hrows : (if n > 1 then repeatElements n p else p) = repeatElements n p := by
    split_ifs with h1
    · rfl
    · have : n = 1 := by omega
      subst this
      unfold repeatElements
      simp
  unfold tiedSampler at h
  rw [hrows] at h
  cases hs : stddev fmt.2 with
  | none => simp [hs] at h
  | some g =>
    simp only [hs, Option.bind_eq_bind, Option.bind_some, Option.some.injEq] at h
    have hlen : out.length = p.length * n := by
      rw [← h, List.length_map, List.length_zipIdx, repeat_length]
    refine ⟨hlen, ?_, ?_, ?_⟩
    · rw [hlen]
      show p.length * n = p.length ↔ _
      constructor
      · intro h
        rcases Nat.eq_zero_or_pos p.length with h0 | h0
        · exact Or.inr (List.length_eq_zero_iff.1 h0)
        · exact Or.inl (Nat.eq_of_mul_eq_mul_left h0 (by omega))
      · rintro (h | h)
        · rw [h, Nat.mul_one]
        · rw [h]; simp
    · intro x hx
      rw [← h] at hx
      obtain ⟨q, _, rfl⟩ := List.mem_map.1 hx
      cases one <;> simp
    · intro t ht
      unfold normalSampler
      rw [hrows, hs]
      simp only [Option.bind_eq_bind, Option.bind_some, Option.some.injEq]
      rw [← h, List.map_map]
      apply List.map_congr_left
      intro q _
      funext d
      cases one <;> simp [List.getD, ht]

/-- **C147 (Bernoulli).** Every row gives `n ≥ 1` rows of zeros and ones; under uniform noise the probability of a one is `p`. -/
theorem C147_bernoulli (n : Nat) (hn : 1 ≤ n) (p : List (Fin D → ℝ)) (r : Nat → Fin D → ℝ) :
    (bernoulliSampler n p r).length = p.length * n ∧
    (∀ (i j : Nat) (q : Fin D → ℝ), p[i]? = some q → j < n → (bernoulliSampler n p r)[i * n + j]? = some (fun d => decide (r (i * n + j) d < q d))) ∧
    ∀ a : ℝ, 0 ≤ a → a ≤ 1 → volume ({u : ℝ | u < a} ∩ Set.Ico 0 1) = ENNReal.ofReal a := by
  have hrows : (if n > 0 then repeatElements n p else p) = repeatElements n p := if_pos hn
  unfold bernoulliSampler
  rw [hrows]
  refine ⟨by simp [repeat_length], ?_, ?_⟩
  · intro i j q hq hj
    have hr := repeat_get n p i j hj
    rw [hq] at hr
    dsimp only
    rw [List.getElem?_map, List.getElem?_zipIdx, hr]
    simp
  · intro a h0 h1
    have : {u : ℝ | u < a} ∩ Set.Ico 0 1 = Set.Ico 0 a := by
      ext u
      simp only [Set.mem_inter_iff, Set.mem_setOf_eq, Set.mem_Ico]
      constructor
      · rintro ⟨h, h2, _⟩; exact ⟨h2, h⟩
      · rintro ⟨h2, h⟩; exact ⟨h, h2, by linarith⟩
    rw [this, Real.volume_Ico, sub_zero]

/-- the hypotheses are met: precision 4, mean 3 in natural form; log-variances for the samplers -/
example : First "nat" 12 3 ((1 / 4 : ℝ≥0) : ℝ) ∧ Second 0 "prec" 4 ((1 / 4 : ℝ≥0) : ℝ) ∧ Spread "logvar" 0 1 ∧
    normalSampler (D := 1) ("mean", "logvar") 2 [(fun _ => 1, fun _ => 0)] (fun r _ => r) = some [fun _ => 1, fun _ => 2] := by
  refine ⟨?_, ?_, ?_, ?_⟩
  · have := First.nat 3 ((1 / 4 : ℝ≥0) : ℝ)
    norm_num at this ⊢
    exact this
  · have := Second.prec (b := 0) ((1 / 4 : ℝ≥0) : ℝ)
    norm_num at this ⊢
    exact this
  · have := Spread.logvar 1
    simpa using this
  · simp [normalSampler, stddev, repeatElements, List.zipIdx]
    norm_num

end Hyp.Keras
