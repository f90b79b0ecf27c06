import Verif.Pdfs.DiagGmm
import Verif.Pdfs.MixtureProps

/-!
Properties C69 - C71: diagonal-covariance Gaussian mixtures and diagonal Gaussians.
-/

namespace Hyp.Pdfs
open scoped BigOperators
open Hyp.MathUtils

variable {K d : Nat}

/-! ### specification -/

/-- density of a Gaussian with mean `mu` and precision `lam` -/
noncomputable def gaussPdf (mu lam x : ℝ) : ℝ := Real.sqrt (lam / (2 * Real.pi)) * Real.exp (-(lam * (x - mu) ^ 2 / 2))

/-- density of a Gaussian with independent coordinates -/
noncomputable def diagPdf (mu lam x : Fin d → ℝ) : ℝ := ∏ i, gaussPdf (mu i) (lam i) (x i)

/-- density of a mixture with weights `a` -/
noncomputable def mixPdf (a : Fin (K + 1) → ℝ) (mu lam : Fin (K + 1) → Fin d → ℝ) (x : Fin d → ℝ) : ℝ :=
  ∑ k, a k * diagPdf (mu k) (lam k) x

/-- weighted log-likelihood of a data set -/
noncomputable def logLik (a : Fin (K + 1) → ℝ) (mu lam : Fin (K + 1) → Fin d → ℝ) (rows : List (XRow d)) : ℝ :=
  (rows.map (fun r => r.2 * Real.log (mixPdf a mu lam r.1))).sum

/-- weighted log-likelihood of a data set for one Gaussian -/
noncomputable def logLik1 (mu lam : Fin d → ℝ) (rows : List (XRow d)) : ℝ :=
  (rows.map (fun r => r.2 * Real.log (diagPdf mu lam r.1))).sum

/-- the natural parameters belong to the means and precisions, which are positive -/
def Gmm.WF (g : Gmm K d) : Prop :=
  (∀ k i, 0 < g.Lambda k i) ∧ (∀ k, g.mix.eta k = computeEta (g.mu k) (g.Lambda k)) ∧
  ∀ k, g.mix.A k = computeANat (computeEta (g.mu k) (g.Lambda k))

/-! ### densities -/

theorem gaussPdf_pos (mu lam x : ℝ) (h : 0 < lam) : 0 < gaussPdf mu lam x := by
  unfold gaussPdf
  have := Real.pi_pos
  have : 0 < Real.sqrt (lam / (2 * Real.pi)) := Real.sqrt_pos.mpr (by positivity)
  positivity

theorem diagPdf_pos (mu lam x : Fin d → ℝ) (h : ∀ i, 0 < lam i) : 0 < diagPdf mu lam x :=
  Finset.prod_pos (fun i _ => gaussPdf_pos _ _ _ (h i))

theorem log_gaussPdf (mu lam x : ℝ) (h : 0 < lam) :
    Real.log (gaussPdf mu lam x) = 1 / 2 * Real.log lam - 1 / 2 * Real.log (2 * Real.pi) - lam * (x - mu) ^ 2 / 2 := by
  unfold gaussPdf
  have := Real.pi_pos
  have h1 : 0 < lam / (2 * Real.pi) := by positivity
  rw [Real.log_mul (Real.sqrt_pos.mpr h1).ne' (Real.exp_pos _).ne', Real.log_exp, Real.log_sqrt h1.le,
    Real.log_div h.ne' (by positivity)]
  ring

theorem log_diagPdf (mu lam x : Fin d → ℝ) (h : ∀ i, 0 < lam i) :
    Real.log (diagPdf mu lam x) =
      ∑ i, (1 / 2 * Real.log (lam i) - 1 / 2 * Real.log (2 * Real.pi) - lam i * (x i - mu i) ^ 2 / 2) := by
  unfold diagPdf
  rw [Real.log_prod (fun i _ => (gaussPdf_pos _ _ _ (h i)).ne')]
  exact Finset.sum_congr rfl (fun i _ => log_gaussPdf _ _ _ (h i))

theorem sum_sum_type {f : Fin d ⊕ Fin d → ℝ} : ∑ i, f i = (∑ i, f (.inl i)) + ∑ i, f (.inr i) := Fintype.sum_sum_type f

theorem nat_log (mu lam x : Fin d → ℝ) (h : ∀ i, 0 < lam i) :
    (∑ i, suffStats x i * computeEta mu lam i) - computeANat (computeEta mu lam) = Real.log (diagPdf mu lam x) := by
  rw [log_diagPdf _ _ _ h, sum_sum_type]
  unfold computeANat
  simp only [suffStats, computeEta]
  have e1 : ∀ i, lam i * mu i * (lam i * mu i) / (-(1 / 2) * lam i) = -2 * (lam i * mu i ^ 2) := by
    intro i; have := (h i).ne'; field_simp
  have e2 : ∀ i, -2 * (-(1 / 2) * lam i) = lam i := by intro i; ring
  simp only [e1, e2]
  rw [Finset.sum_sub_distrib, Finset.sum_sub_distrib, Finset.sum_const, Finset.card_univ, Fintype.card_fin,
    ← Finset.mul_sum, ← Finset.mul_sum, nsmul_eq_mul]
  have e3 : ∑ i, lam i * (x i - mu i) ^ 2 / 2 =
      -(∑ i, x i * (lam i * mu i)) - (∑ i, x i * x i * (-(1 / 2) * lam i)) + 1 / 2 * ∑ i, lam i * mu i ^ 2 := by
    rw [Finset.mul_sum, ← Finset.sum_neg_distrib, ← Finset.sum_sub_distrib, ← Finset.sum_add_distrib]
    exact Finset.sum_congr rfl (fun i _ => by ring)
  rw [e3]
  ring

theorem std_log (mu lam x : Fin d → ℝ) (h : ∀ i, 0 < lam i) :
    1 / 2 * (∑ i, Real.log (lam i)) - 1 / 2 * d * Real.log (2 * Real.pi)
      - 1 / 2 * ∑ i, ((x i - mu i) * Real.sqrt (lam i)) ^ 2 = Real.log (diagPdf mu lam x) := by
  rw [log_diagPdf _ _ _ h]
  rw [Finset.sum_sub_distrib, Finset.sum_sub_distrib, Finset.sum_const, Finset.card_univ, Fintype.card_fin,
    ← Finset.mul_sum, nsmul_eq_mul]
  have e3 : ∑ i, lam i * (x i - mu i) ^ 2 / 2 = 1 / 2 * ∑ i, ((x i - mu i) * Real.sqrt (lam i)) ^ 2 := by
    rw [Finset.mul_sum]
    exact Finset.sum_congr rfl (fun i _ => by rw [mul_pow, Real.sq_sqrt (h i).le]; ring)
  rw [e3]; ring

theorem Gmm.logr_eq (g : Gmm K d) (hg : g.WF) (x : Fin d → ℝ) (k : Fin (K + 1)) :
    g.mix.logr (suffStats x) k = g.mix.logPiVal k + Real.log (diagPdf (g.mu k) (g.Lambda k) x) := by
  unfold Mix.logr
  rw [hg.2.1 k, hg.2.2 k, nat_log _ _ _ (hg.1 k)]; ring

theorem mixPdf_eq (g : Gmm K d) (hg : g.WF) (x : Fin d → ℝ) :
    ∑ k, Real.exp (g.mix.logr (suffStats x) k) = mixPdf (fun k => Real.exp (g.mix.logPiVal k)) g.mu g.Lambda x := by
  unfold mixPdf
  refine Finset.sum_congr rfl (fun k _ => ?_)
  rw [g.logr_eq hg, Real.exp_add, Real.exp_log (diagPdf_pos _ _ _ (hg.1 k))]

/-! ### C69: scoring -/

/-- C69: a new model scores a vector with the logarithm of its mixture density (weights `pi + 1e-15`) within 1e-20. -/
theorem C69_log_prob (pi : Fin (K + 1) → ℝ) (hpi : ∀ k, 0 ≤ pi k) (mu lam : Fin (K + 1) → Fin d → ℝ) (g : Gmm K d)
    (h : Gmm.new pi mu lam = some g) (x : Fin d → ℝ) :
    Real.log (mixPdf (fun k => pi k + 1 / 10 ^ 15) mu lam x) ≤ g.logProb x ∧
    g.logProb x ≤ Real.log (mixPdf (fun k => pi k + 1 / 10 ^ 15) mu lam x) + 1 / 10 ^ 20 := by
  unfold Gmm.new at h
  split at h
  · next hl =>
    injection h with h
    have hg : g.WF := by subst h; exact ⟨hl, fun _ => rfl, fun _ => rfl⟩
    have e := mixPdf_eq g hg x
    have e2 : mixPdf (fun k => Real.exp (g.mix.logPiVal k)) g.mu g.Lambda x = mixPdf (fun k => pi k + 1 / 10 ^ 15) mu lam x := by
      subst h
      unfold mixPdf
      refine Finset.sum_congr rfl (fun k _ => ?_)
      have : 0 < pi k + 1 / 10 ^ 15 := by have := hpi k; positivity
      simp only [Mix.logPiVal, Gmm.natParams, Real.exp_log this]
    rw [← e2, ← e]
    exact C66_logsumexp _
  · exact absurd h (by simp)

/-- C69: the two ways of scoring (natural and standard parameters) agree. -/
theorem C69_nat_eq_std (pi : Fin (K + 1) → ℝ) (mu lam : Fin (K + 1) → Fin d → ℝ) (g : Gmm K d)
    (h : Gmm.new pi mu lam = some g) (x : Fin d → ℝ) : g.logProb x = g.logProbStd x := by
  unfold Gmm.new at h
  split at h
  · next hl =>
    injection h with h
    have hg : g.WF := by subst h; exact ⟨hl, fun _ => rfl, fun _ => rfl⟩
    unfold Gmm.logProb Mix.logProb Gmm.logProbStd
    congr 1
    funext k
    rw [g.logr_eq hg, ← std_log _ _ _ (hg.1 k)]
    ring
  · exact absurd h (by simp)

/-- C69: going to natural parameters and back is the identity, and both formulas of the log-normaliser agree, for
every mean and positive precision. -/
theorem C69_parameters (mu lam : Fin d → ℝ) (h : ∀ i, 0 < lam i) :
    computeStd (computeEta mu lam) = (mu, lam) ∧ computeANat (computeEta mu lam) = computeAStd mu lam := by
  constructor
  · unfold computeStd computeEta
    ext i
    · have := (h i).ne'
      simp only
      field_simp
    · simp only; ring
  · unfold computeANat computeAStd computeEta
    have e1 : ∀ i, lam i * mu i * (lam i * mu i) / (-(1 / 2) * lam i) = -2 * (mu i * mu i * lam i) := by
      intro i; have := (h i).ne'; field_simp
    have e2 : ∀ i, -2 * (-(1 / 2) * lam i) = lam i := by intro i; ring
    simp only [e1, e2]
    rw [← Finset.mul_sum]
    ring

/-- C69: the same for one Gaussian: both ways of scoring return the logarithm of the density. -/
theorem C69_normal (g : Normal d) (h : ∀ i, 0 < g.Lambda i) (x : Fin d → ℝ) :
    g.logProb x = Real.log (diagPdf g.mu g.Lambda x) ∧ g.logProbStd x = Real.log (diagPdf g.mu g.Lambda x) :=
  ⟨nat_log _ _ _ h, std_log _ _ _ h⟩

example : ∃ g : Gmm 1 1, Gmm.new ![1 / 2, 1 / 2] ![![0], ![1]] ![![1], ![2]] = some g := by
  refine ⟨_, if_pos ?_⟩
  intro k i
  fin_cases k <;> fin_cases i <;> simp

/-! ### C70: expectation maximisation -/

theorem jensen {n : Nat} (a b : Fin (n + 1) → ℝ) (ha : ∀ k, 0 < a k) (hb : ∀ k, 0 < b k) :
    Real.log (∑ k, a k) + ∑ k, a k / (∑ j, a j) * (Real.log (b k) - Real.log (a k)) ≤ Real.log (∑ k, b k) := by
  have hA : 0 < ∑ j, a j := Finset.sum_pos (fun k _ => ha k) ⟨0, Finset.mem_univ _⟩
  have hB : 0 < ∑ j, b j := Finset.sum_pos (fun k _ => hb k) ⟨0, Finset.mem_univ _⟩
  generalize hAe : ∑ j, a j = SA at hA ⊢
  generalize hBe : ∑ j, b j = SB at hB ⊢
  have key : ∀ k, a k / SA * (Real.log (b k) - Real.log (a k)) ≤
      a k / SA * (Real.log SB - Real.log SA) + (b k / SB - a k / SA) := by
    intro k
    have h1 : Real.log ((b k / SB) / (a k / SA)) ≤ (b k / SB) / (a k / SA) - 1 :=
      Real.log_le_sub_one_of_pos (div_pos (div_pos (hb k) hB) (div_pos (ha k) hA))
    rw [Real.log_div (div_pos (hb k) hB).ne' (div_pos (ha k) hA).ne', Real.log_div (hb k).ne' hB.ne',
      Real.log_div (ha k).ne' hA.ne'] at h1
    have hz : 0 < a k / SA := div_pos (ha k) hA
    have h2 := mul_le_mul_of_nonneg_left h1 hz.le
    have h3 : a k / SA * (b k / SB / (a k / SA) - 1) = b k / SB - a k / SA := by
      have := (ha k).ne'
      field_simp
    rw [h3] at h2
    linarith
  have hs := Finset.sum_le_sum (fun k (_ : k ∈ Finset.univ) => key k)
  rw [Finset.sum_add_distrib, Finset.sum_sub_distrib, ← Finset.sum_mul, ← Finset.sum_div, ← Finset.sum_div,
    hAe, hBe, div_self hA.ne', div_self hB.ne'] at hs
  linarith

/-- the M-step of one coordinate: `N`, `F`, `S2` are the zeroth, first and second moments -/
theorem coord_opt (N F S2 mu lam v : ℝ) (hN : 0 < N) (hl : 0 < lam) (hv : 0 < v)
    (hv2 : v = S2 / N - (F / N) ^ 2 ∨ (S2 / N - (F / N) ^ 2 ≤ v ∧ v ≤ 1 / lam)) :
    N / 2 * Real.log lam - lam / 2 * (S2 - 2 * mu * F + N * mu ^ 2) ≤
    N / 2 * Real.log (1 / v) - 1 / v / 2 * (S2 - 2 * (F / N) * F + N * (F / N) ^ 2) := by
  obtain ⟨V, hV⟩ : ∃ V, V = S2 / N - (F / N) ^ 2 := ⟨_, rfl⟩
  have e1 : S2 - 2 * mu * F + N * mu ^ 2 = N * (V + (F / N - mu) ^ 2) := by rw [hV]; field_simp; ring
  have e2 : S2 - 2 * (F / N) * F + N * (F / N) ^ 2 = N * V := by rw [hV]; field_simp; ring
  rw [← hV] at hv2
  rw [e1, e2]
  have hsq : 0 ≤ (F / N - mu) ^ 2 := sq_nonneg _
  have hlog : Real.log (lam * v) ≤ lam * v - 1 := Real.log_le_sub_one_of_pos (by positivity)
  rw [Real.log_mul hl.ne' hv.ne'] at hlog
  rw [one_div, Real.log_inv]
  have main : Real.log lam - lam * V ≤ -Real.log v - V / v := by
    rcases hv2 with h | ⟨h1, h2⟩
    · rw [← h, div_self hv.ne']; linarith
    · have h3 : lam * v ≤ 1 := by rw [le_div_iff₀ hl] at h2; linarith
      have h4 : V / v ≤ 1 := by rw [div_le_one hv]; exact h1
      have h5 : lam * v - 1 ≤ V / v * (lam * v - 1) := by nlinarith
      have h6 : V / v * (lam * v - 1) = lam * V - V / v := by field_simp
      linarith
  have hv' : v⁻¹ / 2 * (N * V) = N / 2 * (V / v) := by field_simp
  rw [hv']
  nlinarith [mul_nonneg hl.le hsq, mul_nonneg hN.le (mul_nonneg hl.le hsq)]

/-- weighted sum of the logarithms of a Gaussian density in terms of the moments -/
theorem sum_log_gauss (rows : List (XRow d)) (r : XRow d → ℝ) (mu lam : Fin d → ℝ) (h : ∀ i, 0 < lam i) :
    (rows.map (fun x => r x * Real.log (diagPdf mu lam x.1))).sum =
      ∑ i, ((rows.map r).sum / 2 * Real.log (lam i) - lam i / 2 * ((rows.map (fun x => r x * (x.1 i * x.1 i))).sum
        - 2 * mu i * (rows.map (fun x => r x * x.1 i)).sum + (rows.map r).sum * mu i ^ 2)
        - (rows.map r).sum / 2 * Real.log (2 * Real.pi)) := by
  induction rows with
  | nil => simp
  | cons x xs ih =>
    simp only [List.map_cons, List.sum_cons]
    rw [ih, log_diagPdf _ _ _ h, Finset.mul_sum, ← Finset.sum_add_distrib]
    exact Finset.sum_congr rfl (fun i _ => by ring)

theorem list_sum_nonpos (l : List ℝ) (h : ∀ x ∈ l, x ≤ 0) : l.sum ≤ 0 := by
  induction l with
  | nil => simp
  | cons a l ih =>
    rw [List.sum_cons]
    have := h a (List.mem_cons_self ..)
    have := ih (fun x hx => h x (List.mem_cons_of_mem _ hx))
    linarith

theorem list_sum_finset {α : Type} (rows : List α) {n : Nat} (f : α → Fin n → ℝ) :
    (rows.map (fun x => ∑ k, f x k)).sum = ∑ k, (rows.map (fun x => f x k)).sum := by
  induction rows with
  | nil => simp
  | cons x xs ih => simp only [List.map_cons, List.sum_cons]; rw [ih, Finset.sum_add_distrib]

theorem em_step_sum (a : Fin (K + 1) → ℝ) (ha : ∀ k, 0 < a k) (mu lam mu' lam' : Fin (K + 1) → Fin d → ℝ)
    (hl : ∀ k i, 0 < lam k i) (hl' : ∀ k i, 0 < lam' k i) (rows : List (XRow d)) (hw : ∀ r ∈ rows, 0 ≤ r.2)
    (hQ : ∑ k, (rows.map (fun r => r.2 * (a k * diagPdf (mu k) (lam k) r.1 / mixPdf a mu lam r.1) *
        Real.log (diagPdf (mu k) (lam k) r.1))).sum ≤
      ∑ k, (rows.map (fun r => r.2 * (a k * diagPdf (mu k) (lam k) r.1 / mixPdf a mu lam r.1) *
        Real.log (diagPdf (mu' k) (lam' k) r.1))).sum) :
    logLik a mu lam rows ≤ logLik a mu' lam' rows := by
  have h1 : logLik a mu lam rows + (rows.map (fun r => ∑ k, r.2 * (a k * diagPdf (mu k) (lam k) r.1 / mixPdf a mu lam r.1) *
      (Real.log (diagPdf (mu' k) (lam' k) r.1) - Real.log (diagPdf (mu k) (lam k) r.1)))).sum ≤ logLik a mu' lam' rows := by
    unfold logLik
    rw [← List.sum_map_add]
    apply List.sum_le_sum
    intro r hr
    have hp : ∀ k, 0 < a k * diagPdf (mu k) (lam k) r.1 := fun k => mul_pos (ha k) (diagPdf_pos _ _ _ (hl k))
    have hp' : ∀ k, 0 < a k * diagPdf (mu' k) (lam' k) r.1 := fun k => mul_pos (ha k) (diagPdf_pos _ _ _ (hl' k))
    have := jensen _ _ hp hp'
    have h2 := mul_le_mul_of_nonneg_left this (hw r hr)
    rw [mul_add, Finset.mul_sum] at h2
    refine le_trans (le_of_eq ?_) h2
    congr 1
    refine Finset.sum_congr rfl (fun k _ => ?_)
    rw [Real.log_mul (ha k).ne' (diagPdf_pos _ _ _ (hl' k)).ne', Real.log_mul (ha k).ne' (diagPdf_pos _ _ _ (hl k)).ne']
    unfold mixPdf
    ring
  rw [list_sum_finset] at h1
  have h3 : 0 ≤ ∑ k, (rows.map (fun r => r.2 * (a k * diagPdf (mu k) (lam k) r.1 / mixPdf a mu lam r.1) *
      (Real.log (diagPdf (mu' k) (lam' k) r.1) - Real.log (diagPdf (mu k) (lam k) r.1)))).sum := by
    refine le_of_le_of_eq (sub_nonneg.2 hQ) ?_
    rw [← Finset.sum_sub_distrib]
    refine Finset.sum_congr rfl (fun k _ => ?_)
    have e : (rows.map (fun r => r.2 * (a k * diagPdf (mu k) (lam k) r.1 / mixPdf a mu lam r.1) *
        (Real.log (diagPdf (mu' k) (lam' k) r.1) - Real.log (diagPdf (mu k) (lam k) r.1)))).sum =
      (rows.map (fun r => r.2 * (a k * diagPdf (mu k) (lam k) r.1 / mixPdf a mu lam r.1) *
        Real.log (diagPdf (mu' k) (lam' k) r.1))).sum -
      (rows.map (fun r => r.2 * (a k * diagPdf (mu k) (lam k) r.1 / mixPdf a mu lam r.1) *
        Real.log (diagPdf (mu k) (lam k) r.1))).sum := by
      clear hQ h1 hw
      induction rows with
      | nil => simp
      | cons r rs ih => simp only [List.map_cons, List.sum_cons]; rw [ih]; ring
    rw [e]
  linarith

theorem em_step (a : Fin (K + 1) → ℝ) (ha : ∀ k, 0 < a k) (mu lam mu' lam' : Fin (K + 1) → Fin d → ℝ)
    (hl : ∀ k i, 0 < lam k i) (hl' : ∀ k i, 0 < lam' k i) (rows : List (XRow d)) (hw : ∀ r ∈ rows, 0 ≤ r.2)
    (hQ : ∀ k, (rows.map (fun r => r.2 * (a k * diagPdf (mu k) (lam k) r.1 / mixPdf a mu lam r.1) *
        Real.log (diagPdf (mu k) (lam k) r.1))).sum ≤
      (rows.map (fun r => r.2 * (a k * diagPdf (mu k) (lam k) r.1 / mixPdf a mu lam r.1) *
        Real.log (diagPdf (mu' k) (lam' k) r.1))).sum) :
    logLik a mu lam rows ≤ logLik a mu' lam' rows :=
  em_step_sum a ha mu lam mu' lam' hl hl' rows hw (Finset.sum_le_sum (fun k _ => hQ k))

/-! statement of C70 in terms of weighted means and variances -/

/-- mean of coordinate `i` with weights `r` -/
noncomputable def wMean (rows : List (XRow d)) (r : XRow d → ℝ) (i : Fin d) : ℝ :=
  (rows.map (fun x => r x * x.1 i)).sum / (rows.map r).sum

/-- variance of coordinate `i` with weights `r` -/
noncomputable def wVar (rows : List (XRow d)) (r : XRow d → ℝ) (i : Fin d) : ℝ :=
  (rows.map (fun x => r x * (x.1 i - wMean rows r i) ^ 2)).sum / (rows.map r).sum

/-- the mixture weights with which a model computes posteriors and scores -/
noncomputable def Gmm.usedWeights (g : Gmm K d) (k : Fin (K + 1)) : ℝ := Real.exp (g.mix.logPiVal k)

/-- the share of row `r` that belongs to component `k`: sample weight times Bayes posterior -/
noncomputable def Gmm.share (g : Gmm K d) (k : Fin (K + 1)) (r : XRow d) : ℝ :=
  r.2 * (g.usedWeights k * diagPdf (g.mu k) (g.Lambda k) r.1 / mixPdf g.usedWeights g.mu g.Lambda r.1)

theorem wVar_eq (rows : List (XRow d)) (r : XRow d → ℝ) (i : Fin d) (h : (rows.map r).sum ≠ 0) :
    wVar rows r i = (rows.map (fun x => r x * (x.1 i * x.1 i))).sum / (rows.map r).sum - wMean rows r i ^ 2 := by
  have key : ∀ m : ℝ, (rows.map (fun x => r x * (x.1 i - m) ^ 2)).sum =
      (rows.map (fun x => r x * (x.1 i * x.1 i))).sum - 2 * m * (rows.map (fun x => r x * x.1 i)).sum
        + m ^ 2 * (rows.map r).sum := by
    intro m
    clear h
    induction rows with
    | nil => simp
    | cons x xs ih => simp only [List.map_cons, List.sum_cons]; rw [ih]; ring
  unfold wVar
  rw [key]
  unfold wMean
  field_simp
  ring

theorem wVar_nonneg (rows : List (XRow d)) (r : XRow d → ℝ) (i : Fin d) (h : ∀ x ∈ rows, 0 ≤ r x) : 0 ≤ wVar rows r i := by
  apply div_nonneg
  · apply List.sum_nonneg
    intro y hy
    obtain ⟨x, hx, rfl⟩ := List.mem_map.mp hy
    exact mul_nonneg (h x hx) (sq_nonneg _)
  · apply List.sum_nonneg
    intro y hy
    obtain ⟨x, hx, rfl⟩ := List.mem_map.mp hy
    exact h x hx

theorem usedWeights_pos (g : Gmm K d) (k : Fin (K + 1)) : 0 < g.usedWeights k := Real.exp_pos _

theorem pz_share (g : Gmm K d) (hg : g.WF) (r : XRow d) (k : Fin (K + 1)) : g.mix.pz (suffStats r.1) k * r.2 = g.share k r := by
  unfold Mix.pz Gmm.share
  rw [C66_softmax_value, mixPdf_eq g hg, g.logr_eq hg, Real.exp_add, Real.exp_log (diagPdf_pos _ _ _ (hg.1 k))]
  unfold Gmm.usedWeights
  ring

theorem share_nonneg (g : Gmm K d) (hg : g.WF) (r : XRow d) (h : 0 ≤ r.2) (k : Fin (K + 1)) : 0 ≤ g.share k r := by
  unfold Gmm.share
  have h1 := diagPdf_pos (g.mu k) (g.Lambda k) r.1 (hg.1 k)
  have h2 : 0 < mixPdf g.usedWeights g.mu g.Lambda r.1 :=
    Finset.sum_pos (fun j _ => mul_pos (usedWeights_pos g j) (diagPdf_pos _ _ _ (hg.1 j))) ⟨0, Finset.mem_univ _⟩
  have h3 := usedWeights_pos g k
  positivity

/-- the statistics of the E-step in terms of the shares -/
theorem estep_stats (g : Gmm K d) (hg : g.WF) (rows : List (XRow d)) (bs : Option Nat) (st : Stats K (Fin d ⊕ Fin d))
    (h : g.mix.accumSuffStats (xRows rows) bs = some st) :
    (∀ k, st.1 k = (rows.map (g.share k)).sum) ∧ (∀ k i, st.2 k (.inl i) = (rows.map (fun x => g.share k x * x.1 i)).sum) ∧
    ∀ k i, st.2 k (.inr i) = (rows.map (fun x => g.share k x * (x.1 i * x.1 i))).sum := by
  have hst : st = stats1 g.mix.pz (xRows rows) := by
    cases bs with
    | none => exact (Option.some.inj h).symm
    | some n =>
      rcases Nat.eq_zero_or_pos n with rfl | hn
      · simp [Mix.accumSuffStats, accumBatches] at h
      · by_cases hr : xRows rows = []
        · rw [hr] at h; simp [Mix.accumSuffStats, accumBatches, batches] at h
        · have := accumBatches_eq _ (stats1_append (K := K) g.mix.pz) n (xRows rows) hn hr
          unfold Mix.accumSuffStats at h
          simp only at h
          rw [this] at h
          exact (Option.some.inj h).symm
  subst hst
  refine ⟨fun k => ?_, fun k i => ?_, fun k i => ?_⟩ <;>
    simp only [stats1, xRows, List.map_map, Function.comp_def, pz_share g hg, suffStats]

theorem epoch_some (cfg : GmmCfg) (g : Gmm K d) (rows : List (XRow d)) (bs : Option Nat) (e : ℝ) (g' : Gmm K d)
    (h : g.epoch cfg rows bs = some (e, g')) :
    ∃ st, g.mix.accumSuffStats (xRows rows) bs = some st ∧ mstepFails cfg st (newMu cfg st g.mu) = false ∧
      e = g.mix.touchLogPi.elbo st ∧ g'.mu = newMu cfg st g.mu ∧
      g'.Lambda = newLambda cfg st (newMu cfg st g.mu) g.Lambda ∧ g'.mix.pi = newPi cfg st.1 g.mix.pi ∧
      g'.mix.logPi = some g.mix.logPiVal ∧ (∀ k, g'.mix.eta k = computeEta (g'.mu k) (g'.Lambda k)) ∧
      ∀ k, g'.mix.A k = computeANat (computeEta (g'.mu k) (g'.Lambda k)) := by
  unfold Gmm.epoch at h
  cases hst : g.mix.accumSuffStats (xRows rows) bs with
  | none => rw [hst] at h; exact absurd h (by simp)
  | some st =>
    rw [hst] at h
    simp only [Option.bind_eq_bind, Option.bind_some] at h
    unfold Gmm.mstep at h
    simp only at h
    by_cases hf : mstepFails cfg st (newMu cfg st g.mu) = true
    · rw [if_pos hf] at h; exact absurd h (by simp)
    · rw [if_neg hf] at h
      simp only [Option.bind_some, Option.pure_def, Option.some.injEq, Prod.mk.injEq] at h
      obtain ⟨he, hg⟩ := h
      subst hg
      exact ⟨st, rfl, by simpa using hf, he.symm, rfl, rfl, rfl, rfl, fun _ => rfl, fun _ => rfl⟩

theorem mstep_ok (cfg : GmmCfg) (st : Stats K (Fin d ⊕ Fin d)) (mu : Fin (K + 1) → Fin d → ℝ)
    (h : mstepFails cfg st mu = false) :
    (∀ k, st.1 k ≠ 0) ∧ (cfg.updateLambda = true → ∀ k i, newVar cfg st mu k i ≠ 0) ∧
    (cfg.updatePi = true → ∀ k, cfg.minN ≤ st.1 k) := by
  unfold mstepFails at h
  simp only [Bool.or_eq_false_iff, Bool.and_eq_false_iff, decide_eq_false_iff_not, not_exists, not_lt] at h
  obtain ⟨⟨h1, h2⟩, h3⟩ := h
  refine ⟨h1, fun hu => ?_, fun hu => ?_⟩
  · rcases h2 with h2 | h2
    · rw [hu] at h2; exact absurd h2 (by simp)
    · exact h2.2
  · rcases h3 with h3 | h3
    · rw [hu] at h3; exact absurd h3 (by simp)
    · exact h3

/-- C70: what an M-step sets: the new mean of a component is the mean of the data weighted with the component's share, the
new variance is the weighted variance or something larger (the floor), and the new weights are the shares of the total. -/
theorem C70_update (cfg : GmmCfg) (g : Gmm K d) (hg : g.WF) (rows : List (XRow d)) (hw : ∀ r ∈ rows, 0 ≤ r.2)
    (bs : Option Nat) (e : ℝ) (g' : Gmm K d) (h : g.epoch cfg rows bs = some (e, g')) :
    (cfg.updateMu = true → ∀ k i, g'.mu k i = wMean rows (g.share k) i) ∧
    (cfg.updateMu = true → cfg.updateLambda = true → ∀ k i, 0 < g'.Lambda k i ∧ wVar rows (g.share k) i ≤ 1 / g'.Lambda k i) ∧
    (cfg.updatePi = true → ∀ k, g'.mix.pi k = (rows.map (g.share k)).sum / (rows.map (fun r => r.2)).sum) := by
  obtain ⟨st, hst, hf, _, hmu, hla, hpi, _, _, _⟩ := epoch_some cfg g rows bs e g' h
  obtain ⟨s0, s1, s2⟩ := estep_stats g hg rows bs st hst
  obtain ⟨f1, f2, _⟩ := mstep_ok cfg st _ hf
  have hmean : cfg.updateMu = true → ∀ k i, g'.mu k i = wMean rows (g.share k) i := by
    intro hu k i
    rw [hmu]; unfold newMu wMean
    rw [if_pos hu, s0, s1]
  have hraw : cfg.updateMu = true → ∀ k i, rawVar st g'.mu k i = wVar rows (g.share k) i := by
    intro hu k i
    rw [wVar_eq _ _ _ (by rw [← s0]; exact f1 k)]
    unfold rawVar
    rw [s0, s2, hmean hu]
  refine ⟨hmean, fun hu hl k i => ?_, fun hp k => ?_⟩
  · have h1 : g'.Lambda k i = 1 / newVar cfg st g'.mu k i := by rw [hla, ← hmu]; unfold newLambda; rw [if_pos hl]
    have h2 : wVar rows (g.share k) i ≤ newVar cfg st g'.mu k i := by rw [← hraw hu]; exact le_max_left _ _
    have h3 : newVar cfg st g'.mu k i ≠ 0 := by rw [hmu]; exact f2 hl k i
    have h4 := wVar_nonneg rows (g.share k) i (fun x hx => share_nonneg g hg x (hw x hx) k)
    have h5 : 0 < newVar cfg st g'.mu k i := lt_of_le_of_ne (le_trans h4 h2) (Ne.symm h3)
    rw [h1]
    exact ⟨by positivity, by rw [one_div_one_div]; exact h2⟩
  · rw [hpi]; unfold newPi
    rw [if_pos hp]
    have ht := C67_total_mass g.mix (xRows rows) bs st hst
    have e3 : (xRows rows).map (fun r => r.2) = rows.map (fun r => r.2) := by simp [xRows, Function.comp_def]
    rw [ht, s0, e3]

/-- C70: the new variance of a component is exactly the larger of the weighted variance and the floor, which is
`var_floor` times the average of the weighted variances of the components with more than `min_N` frames; parameters that
are not updated do not change. -/
theorem C70_floor (cfg : GmmCfg) (g : Gmm K d) (hg : g.WF) (rows : List (XRow d))
    (bs : Option Nat) (e : ℝ) (g' : Gmm K d) (h : g.epoch cfg rows bs = some (e, g')) :
    (cfg.updateMu = true → cfg.updateLambda = true → ∀ k i,
      1 / g'.Lambda k i = max (wVar rows (g.share k) i)
        (cfg.varFloor * ((∑ j, if cfg.minN < (rows.map (g.share j)).sum then wVar rows (g.share j) i else 0) /
          ∑ j : Fin (K + 1), if cfg.minN < (rows.map (g.share j)).sum then (1 : ℝ) else 0))) ∧
    (cfg.updateMu = false → g'.mu = g.mu) ∧ (cfg.updateLambda = false → g'.Lambda = g.Lambda) ∧
    (cfg.updatePi = false → g'.mix.pi = g.mix.pi) := by
  obtain ⟨st, hst, hf, _, hmu, hla, hpi, _, _, _⟩ := epoch_some cfg g rows bs e g' h
  obtain ⟨s0, s1, s2⟩ := estep_stats g hg rows bs st hst
  obtain ⟨f1, f2, _⟩ := mstep_ok cfg st _ hf
  have hraw : cfg.updateMu = true → ∀ k i, rawVar st g'.mu k i = wVar rows (g.share k) i := by
    intro hu k i
    rw [wVar_eq _ _ _ (by rw [← s0]; exact f1 k)]
    unfold rawVar
    have : g'.mu k i = wMean rows (g.share k) i := by rw [hmu]; unfold newMu wMean; rw [if_pos hu, s0, s1]
    rw [s0, s2, this]
  refine ⟨fun hu hl k i => ?_, fun hu => ?_, fun hu => ?_, fun hu => ?_⟩
  · have h1 : g'.Lambda k i = 1 / newVar cfg st g'.mu k i := by rw [hla, ← hmu]; unfold newLambda; rw [if_pos hl]
    rw [h1, one_div_one_div]
    unfold newVar floorOf
    rw [hraw hu]
    have e1 : ∀ j : Fin (K + 1), st.1 j = (rows.map (g.share j)).sum := fun j => by rw [s0]
    congr 1
    congr 1
    rw [Finset.sum_filter, Finset.card_filter]
    push_cast
    congr 1
    · refine Finset.sum_congr rfl (fun j _ => ?_)
      rw [hraw hu, e1]
    · refine Finset.sum_congr rfl (fun j _ => ?_)
      rw [e1]
  · rw [hmu]; unfold newMu; rw [hu]; rfl
  · rw [hla]; unfold newLambda; rw [hu]; rfl
  · rw [hpi]; unfold newPi; rw [hu]; rfl

/-- C70 (the part that is true): an epoch of `fit` does not decrease the log-likelihood that the model itself computes,
provided that precisions are only updated together with means, and that the variance floor raises no variance above its old
value. Missing because false of the code: see `C70_floor_decreases` and `C70_update_lambda_only`. -/
theorem C70_em_step_partial (cfg : GmmCfg) (g : Gmm K d) (hg : g.WF) (rows : List (XRow d)) (hw : ∀ r ∈ rows, 0 ≤ r.2)
    (bs : Option Nat) (e : ℝ) (g' : Gmm K d) (h : g.epoch cfg rows bs = some (e, g'))
    (hopt : cfg.updateLambda = true → cfg.updateMu = true)
    (hfl : cfg.updateLambda = true → ∀ k i, 1 / g'.Lambda k i = wVar rows (g.share k) i ∨ 1 / g'.Lambda k i ≤ 1 / g.Lambda k i) :
    g'.WF ∧ g'.usedWeights = g.usedWeights ∧
    logLik g.usedWeights g.mu g.Lambda rows ≤ logLik g'.usedWeights g'.mu g'.Lambda rows := by
  obtain ⟨u1, u2, _⟩ := C70_update cfg g hg rows hw bs e g' h
  obtain ⟨st, hst, hf, _, hmu, hla, _, hlp, heta, hA⟩ := epoch_some cfg g rows bs e g' h
  obtain ⟨s0, _, _⟩ := estep_stats g hg rows bs st hst
  obtain ⟨f1, _, _⟩ := mstep_ok cfg st _ hf
  have hused : g'.usedWeights = g.usedWeights := by
    funext k; unfold Gmm.usedWeights; congr 1
    simp only [Mix.logPiVal, hlp]
  have hnew : ∀ k i, 0 < g'.Lambda k i := by
    intro k i
    by_cases hl : cfg.updateLambda = true
    · exact (u2 (hopt hl) hl k i).1
    · rw [hla]; unfold newLambda; rw [if_neg hl]; exact hg.1 k i
  refine ⟨⟨hnew, heta, hA⟩, hused, ?_⟩
  rw [hused]
  apply em_step g.usedWeights (usedWeights_pos g) g.mu g.Lambda g'.mu g'.Lambda hg.1 hnew rows hw
  intro k
  have e1 := sum_log_gauss rows (g.share k) (g.mu k) (g.Lambda k) (hg.1 k)
  have e2 := sum_log_gauss rows (g.share k) (g'.mu k) (g'.Lambda k) (hnew k)
  have hN : 0 < (rows.map (g.share k)).sum := by
    apply lt_of_le_of_ne
    · apply List.sum_nonneg
      intro y hy
      obtain ⟨x, hx, rfl⟩ := List.mem_map.mp hy
      exact share_nonneg g hg x (hw x hx) k
    · rw [← s0]; exact (f1 k).symm
  unfold Gmm.share at e1 e2 hN
  rw [e1, e2]
  apply Finset.sum_le_sum
  intro i _
  apply sub_le_sub_right
  change (rows.map (g.share k)).sum / 2 * _ - _ ≤ _
  by_cases hl : cfg.updateLambda = true
  · have hm := u1 (hopt hl) k i
    obtain ⟨hp, hge⟩ := u2 (hopt hl) hl k i
    have hv := wVar_eq rows (g.share k) i hN.ne'
    have key := coord_opt (rows.map (g.share k)).sum (rows.map (fun x => g.share k x * x.1 i)).sum
      (rows.map (fun x => g.share k x * (x.1 i * x.1 i))).sum (g.mu k i) (g.Lambda k i) (1 / g'.Lambda k i) hN (hg.1 k i)
      (by positivity) (by
        rcases hfl hl k i with h1 | h1
        · left; rw [h1, hv]; rfl
        · right; exact ⟨by rw [hv] at hge; exact hge, h1⟩)
    rw [one_div_one_div] at key
    rw [hm]
    exact key
  · have hlam : g'.Lambda k i = g.Lambda k i := by rw [hla]; unfold newLambda; rw [if_neg hl]
    rw [hlam]
    by_cases hu : cfg.updateMu = true
    · rw [u1 hu k i]
      apply sub_le_sub_left
      apply mul_le_mul_of_nonneg_left _ (by have := hg.1 k i; positivity)
      change _ - 2 * wMean rows (g.share k) i * (rows.map (fun x => g.share k x * x.1 i)).sum + (rows.map (g.share k)).sum * _ ≤
        _ - 2 * g.mu k i * (rows.map (fun x => g.share k x * x.1 i)).sum + (rows.map (g.share k)).sum * _
      change 0 < (rows.map (g.share k)).sum at hN
      unfold wMean
      generalize (rows.map (g.share k)).sum = N at hN ⊢
      generalize (rows.map (fun x => g.share k x * x.1 i)).sum = F
      have e5 : N * (F / N) = F := by field_simp
      have e6 : N * (F / N) ^ 2 = (F / N) * F := by rw [sq]; rw [← mul_assoc, e5]; ring
      have : 0 ≤ N * (F / N - g.mu k i) ^ 2 := by positivity
      have e7 : N * (F / N - g.mu k i) ^ 2 = N * (F / N) ^ 2 - 2 * g.mu k i * (N * (F / N)) + N * g.mu k i ^ 2 := by ring
      rw [e7, e5, e6] at this
      rw [e6]
      change (rows.map (fun x => g.share k x * (x.1 i * x.1 i))).sum - _ + _ ≤
        (rows.map (fun x => g.share k x * (x.1 i * x.1 i))).sum - _ + _
      linarith
    · have : g'.mu k i = g.mu k i := by rw [hmu]; unfold newMu; rw [if_neg hu]
      rw [this]
      exact le_refl _

/-- C70: without a variance floor (`var_floor = 0`) the log-likelihood does not decrease over any number of epochs,
whatever the data, the batch size and the starting point, as long as `fit` succeeds. -/
theorem C70_fit_no_floor (cfg : GmmCfg) (hf : cfg.varFloor = 0) (hopt : cfg.updateLambda = true → cfg.updateMu = true)
    (rows : List (XRow d)) (hw : ∀ r ∈ rows, 0 ≤ r.2) (bs : Option Nat) (n : Nat) (g : Gmm K d) (hg : g.WF)
    (es : List ℝ) (g' : Gmm K d) (h : Gmm.fit cfg rows bs n g = some (es, g')) :
    es.length = n ∧ g'.WF ∧ logLik g.usedWeights g.mu g.Lambda rows ≤ logLik g'.usedWeights g'.mu g'.Lambda rows := by
  induction n generalizing g es with
  | zero =>
    simp only [Gmm.fit, Option.some.injEq, Prod.mk.injEq] at h
    obtain ⟨rfl, rfl⟩ := h
    exact ⟨rfl, hg, le_refl _⟩
  | succ n ih =>
    unfold Gmm.fit at h
    cases h1 : g.epoch cfg rows bs with
    | none => rw [h1] at h; exact absurd h (by simp)
    | some r =>
      obtain ⟨e, g1⟩ := r
      rw [h1] at h
      simp only [Option.bind_eq_bind, Option.bind_some] at h
      cases h2 : Gmm.fit cfg rows bs n g1 with
      | none => rw [h2] at h; exact absurd h (by simp)
      | some r2 =>
        obtain ⟨es2, g2⟩ := r2
        rw [h2] at h
        simp only [Option.bind_some, Option.pure_def, Option.some.injEq, Prod.mk.injEq] at h
        obtain ⟨rfl, rfl⟩ := h
        have hstep := C70_em_step_partial cfg g hg rows hw bs e g1 h1 hopt (by
          intro hl k i
          left
          obtain ⟨st, hst, hf1, _, hmu, hla, _, _, _, _⟩ := epoch_some cfg g rows bs e g1 h1
          obtain ⟨s0, s1, s2⟩ := estep_stats g hg rows bs st hst
          obtain ⟨f1, _, _⟩ := mstep_ok cfg st _ hf1
          have hraw : rawVar st (newMu cfg st g.mu) k i = wVar rows (g.share k) i := by
            rw [wVar_eq _ _ _ (by rw [← s0]; exact f1 k)]
            unfold rawVar newMu wMean
            rw [if_pos (hopt hl), s0, s2, s1]
          have hfloor : floorOf cfg st.1 (rawVar st (newMu cfg st g.mu)) i = 0 := by unfold floorOf; rw [hf, zero_mul]
          have h0 := wVar_nonneg rows (g.share k) i (fun x hx => share_nonneg g hg x (hw x hx) k)
          rw [hla]
          unfold newLambda newVar
          rw [if_pos hl, one_div_one_div, hraw, hfloor, max_eq_left h0])
        obtain ⟨i1, i2, i3⟩ := ih g1 hstep.1 es2 h2
        exact ⟨by simp [i1], i2, le_trans hstep.2.2 i3⟩

/-- C70: the bound that `fit` reports for an epoch is the log-likelihood (under the model at the start of the epoch) minus
the weighted entropy of the posteriors, so it never exceeds the log-likelihood. -/
theorem C70_reported_bound (cfg : GmmCfg) (g : Gmm K d) (hg : g.WF) (rows : List (XRow d)) (hw : ∀ r ∈ rows, 0 ≤ r.2)
    (bs : Option Nat) (e : ℝ) (g' : Gmm K d) (h : g.epoch cfg rows bs = some (e, g')) :
    e = logLik g.usedWeights g.mu g.Lambda rows +
      (rows.map (fun r => r.2 * ∑ k, g.mix.pz (suffStats r.1) k * Real.log (g.mix.pz (suffStats r.1) k))).sum ∧
    e ≤ logLik g.usedWeights g.mu g.Lambda rows := by
  have first : e = logLik g.usedWeights g.mu g.Lambda rows +
      (rows.map (fun r => r.2 * ∑ k, g.mix.pz (suffStats r.1) k * Real.log (g.mix.pz (suffStats r.1) k))).sum := by
    obtain ⟨st, hst, _, he, _⟩ := epoch_some cfg g rows bs e g' h
    obtain ⟨s0, s1, s2⟩ := estep_stats g hg rows bs st hst
    have helbo : e = ∑ k, (rows.map (fun r => g.share k r * g.mix.logr (suffStats r.1) k)).sum := by
      rw [he]
      have ht : g.mix.touchLogPi.logPiVal = g.mix.logPiVal := rfl
      unfold Mix.elbo
      rw [ht, ← Finset.sum_add_distrib]
      refine Finset.sum_congr rfl (fun k _ => ?_)
      change (∑ i, st.2 k i * g.mix.eta k i) + st.1 k * (g.mix.logPiVal k - g.mix.A k) = _
      rw [sum_sum_type]
      simp only [s0, s1, s2]
      clear he hst s0 s1 s2 h hw
      induction rows with
      | nil => simp
      | cons r rs ih =>
        simp only [List.map_cons, List.sum_cons]
        rw [← ih]
        unfold Mix.logr
        rw [sum_sum_type]
        simp only [add_mul, Finset.sum_add_distrib, suffStats]
        have e1 : ∑ x, g.share k r * r.1 x * g.mix.eta k (.inl x) = g.share k r * ∑ x, r.1 x * g.mix.eta k (.inl x) := by
          rw [Finset.mul_sum]; exact Finset.sum_congr rfl (fun i _ => by ring)
        have e2 : ∑ x, g.share k r * (r.1 x * r.1 x) * g.mix.eta k (.inr x) =
            g.share k r * ∑ x, r.1 x * r.1 x * g.mix.eta k (.inr x) := by
          rw [Finset.mul_sum]; exact Finset.sum_congr rfl (fun i _ => by ring)
        rw [e1, e2]
        ring
    rw [helbo, ← list_sum_finset]
    unfold logLik
    rw [← List.sum_map_add]
    congr 1
    apply List.map_congr_left
    intro r _
    have hpz : ∀ k, Real.log (g.mix.pz (suffStats r.1) k) =
        g.mix.logr (suffStats r.1) k - Real.log (mixPdf g.usedWeights g.mu g.Lambda r.1) := by
      intro k
      unfold Mix.pz
      rw [C66_softmax_value, mixPdf_eq g hg, Real.log_div (Real.exp_pos _).ne' _, Real.log_exp]
      · rfl
      · rw [← mixPdf_eq g hg]; exact (sum_exp_pos _).ne'
    simp only [hpz, mul_sub, Finset.sum_sub_distrib]
    rw [← Finset.sum_mul, (C67_posterior g.mix (suffStats r.1)).2.2, Finset.mul_sum]
    have : ∀ k, g.share k r * g.mix.logr (suffStats r.1) k = r.2 * (g.mix.pz (suffStats r.1) k * g.mix.logr (suffStats r.1) k) := by
      intro k; rw [← pz_share g hg]; ring
    simp only [this]
    ring
  refine ⟨first, ?_⟩
  rw [first]
  have : (rows.map (fun r => r.2 * ∑ k, g.mix.pz (suffStats r.1) k * Real.log (g.mix.pz (suffStats r.1) k))).sum ≤ 0 := by
    apply list_sum_nonpos
    intro y hy
    obtain ⟨r, hr, rfl⟩ := List.mem_map.mp hy
    obtain ⟨_, hp, hs⟩ := C67_posterior g.mix (suffStats r.1)
    apply mul_nonpos_of_nonneg_of_nonpos (hw r hr)
    apply Finset.sum_nonpos
    intro k _
    apply mul_nonpos_of_nonneg_of_nonpos (hp k).le
    apply Real.log_nonpos (hp k).le
    rw [← hs]
    exact Finset.single_le_sum (f := fun k => g.mix.pz (suffStats r.1) k) (fun j _ => (hp j).le) (Finset.mem_univ k)
  linarith

/-- C70: the weights after an epoch are a probability distribution. -/
theorem C70_weights (cfg : GmmCfg) (hu : cfg.updatePi = true) (g : Gmm K d) (hg : g.WF) (rows : List (XRow d))
    (hw : ∀ r ∈ rows, 0 ≤ r.2) (bs : Option Nat) (e : ℝ) (g' : Gmm K d) (h : g.epoch cfg rows bs = some (e, g')) :
    (∀ k, 0 ≤ g'.mix.pi k) ∧ ∑ k, g'.mix.pi k = 1 := by
  obtain ⟨st, hst, hf, _, _, _, hpi, _⟩ := epoch_some cfg g rows bs e g' h
  obtain ⟨s0, _, _⟩ := estep_stats g hg rows bs st hst
  obtain ⟨f1, _, _⟩ := mstep_ok cfg st _ hf
  have hn : ∀ k, 0 ≤ st.1 k := by
    intro k; rw [s0]
    apply List.sum_nonneg
    intro y hy
    obtain ⟨x, hx, rfl⟩ := List.mem_map.mp hy
    exact share_nonneg g hg x (hw x hx) k
  have hs : 0 < ∑ k, st.1 k := Finset.sum_pos (fun k _ => lt_of_le_of_ne (hn k) (Ne.symm (f1 k))) ⟨0, Finset.mem_univ _⟩
  rw [hpi]
  unfold newPi
  rw [if_pos hu]
  refine ⟨fun k => div_nonneg (hn k) hs.le, ?_⟩
  rw [← Finset.sum_div, div_self hs.ne']

end Hyp.Pdfs
