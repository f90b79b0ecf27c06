import Verif.Transforms.Up
import Mathlib.Tactic.FieldSimp
import Mathlib.Tactic.Linarith
import Mathlib.Tactic.Positivity

/-!
C139: propagation of uncertainty through centering, whitening and length normalisation.
-/

namespace Hyp.Transforms
open scoped BigOperators
open Matrix

variable {n : Nat}

/-- Specification: a finite family of vectors with weights that sum to one, whose mean is `m` and whose coordinates are
uncorrelated with variances `s`. -/
structure Describes (fam : List (WRow n)) (m s : Vec n) : Prop where
  total : (fam.map (fun r => r.2)).sum = 1
  mean : ∀ i, (fam.map (fun r => r.2 * r.1 i)).sum = m i
  cov : ∀ i j, (fam.map (fun r => r.2 * ((r.1 i - m i) * (r.1 j - m j)))).sum = if i = j then s i else 0

/-- the mean of a function over the family -/
def famMean (fam : List (WRow n)) (f : Vec n → ℝ) : ℝ := (fam.map (fun r => r.2 * f r.1)).sum

/-- the variance of a function over the family -/
def famVar (fam : List (WRow n)) (f : Vec n → ℝ) : ℝ := (fam.map (fun r => r.2 * (f r.1 - famMean fam f) ^ 2)).sum

theorem sum_finset_list {ι α : Type} (s : Finset ι) (l : List α) (f : α → ι → ℝ) :
    (l.map (fun a => ∑ i ∈ s, f a i)).sum = ∑ i ∈ s, (l.map (fun a => f a i)).sum := by
  induction l with
  | nil => simp
  | cons a l ih => simp [ih, Finset.sum_add_distrib]

theorem list_sum_mul (l : List (WRow n)) (f : WRow n → ℝ) (c : ℝ) : (l.map (fun a => f a * c)).sum = (l.map f).sum * c := by
  induction l with
  | nil => simp
  | cons a l ih => simp [ih, add_mul]

theorem list_sum_sub' (l : List (WRow n)) (f g : WRow n → ℝ) :
    (l.map (fun a => f a - g a)).sum = (l.map f).sum - (l.map g).sum := by
  induction l with
  | nil => simp
  | cons a l ih => simp only [List.map_cons, List.sum_cons, ih]; ring

theorem mean_linear {fam : List (WRow n)} {m s : Vec n} (h : Describes fam m s) (mu t : Vec n) :
    famMean fam (fun v => (v - mu) ⬝ᵥ t) = (m - mu) ⬝ᵥ t := by
  unfold famMean
  have : ∀ r : WRow n, r.2 * ((r.1 - mu) ⬝ᵥ t) = ∑ i, (r.2 * r.1 i * t i - r.2 * (mu i * t i)) := by
    intro r
    simp only [dotProduct, Pi.sub_apply, Finset.mul_sum]
    exact Finset.sum_congr rfl (fun i _ => by ring)
  simp only [this]
  rw [sum_finset_list]
  simp only [dotProduct, Pi.sub_apply]
  refine Finset.sum_congr rfl (fun i _ => ?_)
  rw [list_sum_sub', list_sum_mul, list_sum_mul, h.mean, h.total]
  ring

theorem var_linear {fam : List (WRow n)} {m s : Vec n} (h : Describes fam m s) (mu t : Vec n) :
    famVar fam (fun v => (v - mu) ⬝ᵥ t) = ∑ i, t i ^ 2 * s i := by
  unfold famVar
  rw [mean_linear h]
  have : ∀ r : WRow n, r.2 * ((r.1 - mu) ⬝ᵥ t - (m - mu) ⬝ᵥ t) ^ 2 =
      ∑ i, ∑ j, r.2 * ((r.1 i - m i) * (r.1 j - m j)) * (t i * t j) := by
    intro r
    have e : (r.1 - mu) ⬝ᵥ t - (m - mu) ⬝ᵥ t = ∑ i, (r.1 i - m i) * t i := by
      simp only [dotProduct, Pi.sub_apply]
      rw [← Finset.sum_sub_distrib]
      exact Finset.sum_congr rfl (fun i _ => by ring)
    rw [e, pow_two, Finset.sum_mul_sum, Finset.mul_sum]
    refine Finset.sum_congr rfl (fun i _ => ?_)
    rw [Finset.mul_sum]
    exact Finset.sum_congr rfl (fun j _ => by ring)
  simp only [this]
  rw [sum_finset_list]
  refine Finset.sum_congr rfl (fun i _ => ?_)
  rw [sum_finset_list, Finset.sum_eq_single i]
  · rw [list_sum_mul, h.cov, if_pos rfl]; ring
  · intro j _ hj
    rw [list_sum_mul, h.cov, if_neg (Ne.symm hj), zero_mul]
  · simp

theorem assignRow_eq (v : List ℝ) (h : v.length = n) : ∃ f, assignRow n v = some f ∧ List.ofFn f = v := by
  refine ⟨_, dif_pos h, ?_⟩
  subst h
  exact List.ofFn_getElem

theorem cwUpPredict_some (mu : Vec n) (T : List (Vec n)) (hT : T.length = n) (x : List (URow n)) :
    ∃ x', cwUpPredict mu T x = some (x.map (fun r => (project mu T r.1, upVar T r.2)), x') ∧
      x'.map (fun r => (r.1, List.ofFn r.2)) = x.map (fun r => (r.1, upVar T r.2)) := by
  have hex : ∀ r : URow n, ∃ f, assignRow n (upVar T r.2) = some f ∧ List.ofFn f = upVar T r.2 :=
    fun r => assignRow_eq _ (by unfold upVar; rw [List.length_map, hT])
  choose f hf hl using hex
  have hm : x.mapM (fun r => assignRow n (upVar T r.2)) = some (x.map f) := by
    induction x with
    | nil => rfl
    | cons a l ih => rw [List.mapM_cons, hf, ih]; rfl
  have hz : x.zip (x.map f) = x.map (fun r => (r, f r)) := by
    clear hm
    induction x with
    | nil => rfl
    | cons a l ih => rw [List.map_cons, List.zip_cons_cons, ih, List.map_cons]
  refine ⟨x.map (fun r => (r.1, f r)), ?_, ?_⟩
  · unfold cwUpPredict
    rw [hm]
    show some _ = some _
    rw [hz]
    simp only [List.map_map, Function.comp_def, hl]
  · simp only [List.map_map, Function.comp_def, hl]

/-! ### C139 -/

/-- C139: with a square `T`, `CentWhitenUP.predict` returns for every row the mean and the variances of the centred and
whitened vector, if the input is a random vector with uncorrelated coordinates that has the means and variances of the row. -/
theorem C139_cw_propagates (mu : Vec n) (T : List (Vec n)) (hT : T.length = n) (x : List (URow n)) :
    ∃ y x', cwUpPredict mu T x = some (y, x') ∧ y.length = x.length ∧
      ∀ (k : Nat) (hx : k < x.length) (hy : k < y.length), ∀ fam, Describes fam x[k].1 x[k].2 →
        y[k].1 = T.map (fun t => famMean fam (fun v => (v - mu) ⬝ᵥ t)) ∧
        y[k].2 = T.map (fun t => famVar fam (fun v => (v - mu) ⬝ᵥ t)) := by
  obtain ⟨x', h, -⟩ := cwUpPredict_some mu T hT x
  refine ⟨_, x', h, List.length_map _, ?_⟩
  intro k hx hy fam hfam
  rw [List.getElem_map]
  constructor
  · unfold project
    exact List.map_congr_left (fun t _ => (mean_linear hfam mu t).symm)
  · unfold upVar
    refine List.map_congr_left (fun t _ => ?_)
    rw [var_linear hfam mu t]
    exact Finset.sum_congr rfl (fun i _ => by ring)

/-- C139: `LNormUP.predict` divides the vector by one number, computed from its mean: the returned means and variances are
those of the whitened vector divided by `sqrt(|mean|^2 + 1e-10)`. -/
theorem C139_lnorm_propagates (mu : Vec n) (T : List (Vec n)) (hT : T.length = n) (x : List (URow n)) :
    ∃ y x', lnormUpPredict mu T x = some (y, x') ∧ y.length = x.length ∧
      ∀ (k : Nat) (hx : k < x.length) (hy : k < y.length), ∀ fam, Describes fam x[k].1 x[k].2 → ∀ c : ℝ,
        c = Real.sqrt ((T.map (fun t => (famMean fam (fun v => (v - mu) ⬝ᵥ t)) ^ 2)).sum + 1 / 10 ^ 10) →
        y[k].1 = T.map (fun t => famMean fam (fun v => (v - mu) ⬝ᵥ t / c)) ∧
        y[k].2 = T.map (fun t => famVar fam (fun v => (v - mu) ⬝ᵥ t / c)) := by
  obtain ⟨y, x', h, hl, hp⟩ := C139_cw_propagates mu T hT x
  refine ⟨y.map lnormUpRow, x', ?_, by rw [List.length_map, hl], ?_⟩
  · unfold lnormUpPredict; rw [h]; rfl
  intro k hx hy fam hfam c hc
  obtain ⟨h1, h2⟩ := hp k hx (by rw [List.length_map] at hy; exact hy) fam hfam
  have hmean : ∀ f : Vec n → ℝ, famMean fam (fun v => f v / c) = famMean fam f / c := by
    intro f
    unfold famMean
    rw [div_eq_mul_inv, ← list_sum_mul]
    congr 1
    exact List.map_congr_left (fun r _ => by ring)
  have hvar : ∀ f : Vec n → ℝ, famVar fam (fun v => f v / c) = famVar fam f / c ^ 2 := by
    intro f
    unfold famVar
    rw [hmean, div_eq_mul_inv _ (c ^ 2), ← list_sum_mul]
    congr 1
    exact List.map_congr_left (fun r _ => by rw [← sub_div, div_pow]; ring)
  have hnn : 0 ≤ (T.map (fun t => (famMean fam (fun v => (v - mu) ⬝ᵥ t)) ^ 2)).sum + (1 : ℝ) / 10 ^ 10 := by
    have : 0 ≤ (T.map (fun t => (famMean fam (fun v => (v - mu) ⬝ᵥ t)) ^ 2)).sum :=
      List.sum_nonneg (fun a ha => by obtain ⟨t, _, rfl⟩ := List.mem_map.1 ha; positivity)
    positivity
  have hc2 : c ^ 2 = (T.map (fun t => (famMean fam (fun v => (v - mu) ⬝ᵥ t)) ^ 2)).sum + 1 / 10 ^ 10 := by
    rw [hc, Real.sq_sqrt hnn]
  rw [List.getElem_map]
  unfold lnormUpRow
  simp only [h1, h2, List.map_map, Function.comp_def]
  constructor
  · refine List.map_congr_left (fun t _ => ?_)
    rw [hmean, hc]
  · refine List.map_congr_left (fun t _ => ?_)
    rw [hvar, hc2]

/-- C139: the norm of the means returned by `LNormUP` is less than one, and their direction is that of the whitened
means. -/
theorem C139_lnorm_norm (mu : Vec n) (T : List (Vec n)) (x : List (URow n)) (y : List (List ℝ × List ℝ)) (x' : List (URow n))
    (h : lnormUpPredict mu T x = some (y, x')) : ∀ r ∈ y, (r.1.map (fun v => v ^ 2)).sum < 1 := by
  intro r hr
  unfold lnormUpPredict at h
  cases hc : cwUpPredict mu T x with
  | none => rw [hc] at h; exact absurd h (by simp)
  | some z =>
    rw [hc] at h
    obtain ⟨rfl, -⟩ : z.1.map lnormUpRow = y ∧ z.2 = x' := by simpa using h
    obtain ⟨q, _, rfl⟩ := List.mem_map.1 hr
    unfold lnormUpRow
    simp only [List.map_map, Function.comp_def]
    have hs : 0 ≤ (q.1.map (fun v => v ^ 2)).sum := List.sum_nonneg (fun a ha => by obtain ⟨t, _, rfl⟩ := List.mem_map.1 ha; positivity)
    have hpos : 0 < (q.1.map (fun v => v ^ 2)).sum + (1 : ℝ) / 10 ^ 10 := by positivity
    have : ∀ v : ℝ, (v / Real.sqrt ((q.1.map (fun v => v ^ 2)).sum + 1 / 10 ^ 10)) ^ 2 =
        v ^ 2 * ((q.1.map (fun v => v ^ 2)).sum + 1 / 10 ^ 10)⁻¹ := by
      intro v
      rw [div_pow, Real.sq_sqrt hpos.le, div_eq_mul_inv]
    simp only [this]
    rw [List.sum_map_mul_right, ← div_eq_mul_inv, div_lt_one hpos]
    have : (0 : ℝ) < 1 / 10 ^ 10 := by positivity
    linarith

/-- C139 (defect): `LNorm` and `LNormUP` use different scales: for a mean of norm `r > 0` after whitening in `d` dimensions the
output of `LNorm` has norm `sqrt(d) r/(r+1e-10)`, that of `LNormUP` `r/sqrt(r^2+1e-10)`. In nine dimensions, with `r = 1`, one is
almost three times the other. -/
theorem C139_scales_differ : ∃ y : List ℝ, (y.map (fun v => v ^ 2)).sum = 1 ∧
    ((lnorm y).map (fun v => v ^ 2)).sum > 8 ∧ ((lnormUpRow (y, [])).1.map (fun v => v ^ 2)).sum < 1 := by
  refine ⟨1 :: List.replicate 8 0, by simp, ?_, ?_⟩
  · unfold lnorm
    simp
    rw [div_pow, Real.sq_sqrt (by norm_num)]
    norm_num
  · unfold lnormUpRow
    simp only [List.map_map, Function.comp_def, List.map_cons, List.map_replicate, List.sum_cons, List.sum_replicate, div_pow]
    rw [Real.sq_sqrt (by norm_num)]
    norm_num

/-- C139 (defect): `predict` overwrites the array of the caller: after the call the second half of its columns holds the
transformed variances. -/
theorem C139_input_overwritten (mu : Vec n) (T : List (Vec n)) (hT : T.length = n) (x : List (URow n)) (y : List (List ℝ × List ℝ))
    (x' : List (URow n)) (h : cwUpPredict mu T x = some (y, x')) :
    x'.map (fun r => r.1) = x.map (fun r => r.1) ∧ x'.map (fun r => List.ofFn r.2) = y.map (fun r => r.2) := by
  obtain ⟨x2, h2, h3⟩ := cwUpPredict_some mu T hT x
  rw [h] at h2
  simp only [Option.some.injEq, Prod.mk.injEq] at h2
  obtain ⟨rfl, rfl⟩ := h2
  constructor
  · have := congrArg (fun l => l.map (fun p : Vec n × List ℝ => p.1)) h3
    simpa only [List.map_map, Function.comp_def] using this
  · have := congrArg (fun l => l.map (fun p : Vec n × List ℝ => p.2)) h3
    simpa only [List.map_map, Function.comp_def] using this

/-- C139 (defect): a second call on the same array gives other variances: with `T = 2` in one dimension and variance 1 the first
call returns 4, the second 16. -/
theorem C139_second_call_differs : ∃ (x x' x'' : List (URow 1)) (T : List (Vec 1)),
    cwUpPredict 0 T x = some ([([0], [4])], x') ∧ cwUpPredict 0 T x' = some ([([0], [16])], x'') := by
  have hT : ([fun _ => 2] : List (Vec 1)).length = 1 := rfl
  obtain ⟨x', h1, h2⟩ := cwUpPredict_some 0 [fun _ => 2] hT [(fun _ => 0, fun _ => 1)]
  have hx' : x' = [(fun _ => 0, fun _ => 4)] := by
    match x', h2 with
    | [r], h2 =>
      simp only [List.map_cons, List.map_nil, List.cons.injEq, and_true, Prod.mk.injEq, upVar] at h2
      obtain ⟨a, b⟩ := h2
      rw [List.ofFn_succ, List.ofFn_zero] at b
      simp at b
      congr 1
      refine Prod.ext a ?_
      funext i
      rw [Subsingleton.elim i 0, b]
      norm_num
    | [], h2 => simp at h2
    | _ :: _ :: _, h2 => simp at h2
  subst hx'
  obtain ⟨x'', h3, -⟩ := cwUpPredict_some 0 [fun _ => 2] hT [(fun _ => 0, fun _ => 4)]
  refine ⟨_, _, x'', [fun _ => 2], h1.trans ?_, h3.trans ?_⟩
  · simp [project, upVar]; norm_num
  · simp [project, upVar]; norm_num

/-- C139: `fit` on more rows than dimensions (all eigenvalues of the covariance positive) and `predict` on the same rows: whatever
the variances, the returned means have mean zero, variance one and no correlation. -/
theorem C139_fit_whitens (x : List (URow (n + 1))) (hN : n + 1 < x.length) (d : Vec (n + 1)) (V : Matrix (Fin (n + 1)) (Fin (n + 1)) ℝ)
    (hE : IsEigh (cwUpFit (x.map (fun r => (r, 1)))).2 d V) (hd : ∀ j, 0 < d j) :
    ∃ y x', cwUpPredict (cwUpFit (x.map (fun r => (r, 1)))).1 (whitenCols d V) x = some (y, x') ∧
      ∀ a b : Nat, a < n + 1 → b < n + 1 → (y.map (fun r => r.1.getD a 0)).sum / y.length = 0 ∧
        (y.map (fun r => r.1.getD a 0 * r.1.getD b 0)).sum / y.length = if a = b then 1 else 0 := by
  have hlen : (whitenCols d V).length = n + 1 := (C72_dimension d V).2 hd
  obtain ⟨x', h, -⟩ := cwUpPredict_some (cwUpFit (x.map (fun r => (r, 1)))).1 (whitenCols d V) hlen x
  refine ⟨_, x', h, ?_⟩
  intro a b ha hb
  have hst : cwUpFit (x.map (fun r => (r, (1 : ℝ)))) = whitenStats (x.map (fun r => (r.1, (1 : ℝ)))) := by
    unfold cwUpFit; rw [List.map_map]; rfl
  have hw : ((x.map (fun r => (r.1, (1 : ℝ)))).map (fun r => r.2)).sum = x.length := by
    rw [List.map_map]
    show (x.map (fun _ => (1 : ℝ))).sum = _
    rw [List.map_const', List.sum_replicate, nsmul_eq_mul, mul_one]
  have hx0 : (x.length : ℝ) ≠ 0 := by
    rw [Nat.cast_ne_zero]; omega
  rw [hst] at hE ⊢
  obtain ⟨h1, h2⟩ := C72_whitening (x.map (fun r => (r.1, (1 : ℝ)))) (by rw [List.length_map]; exact hN) (by rw [hw]; exact hx0) d V hE a b
    (by rw [hlen]; exact ha) (by rw [hlen]; exact hb)
  unfold avg at h1 h2
  rw [hw] at h1 h2
  simp only [List.map_map, Function.comp_def, one_mul, List.length_map] at h1 h2 ⊢
  exact ⟨h1, h2⟩

/-- C139: with sample weights and more rows than dimensions, `fit` computes the weighted mean and the weighted covariance of the
mean parts of the rows. -/
theorem C139_fit_weighted (rows : List (URow n × ℝ)) (hN : n < rows.length) :
    let W := (rows.map (fun r => r.2)).sum
    let m := fun i => (rows.map (fun r => r.2 * r.1.1 i)).sum / W
    (∀ i, (cwUpFit rows).1 i = m i) ∧ ∀ i j, (cwUpFit rows).2 i j = (rows.map (fun r => r.2 * (r.1.1 i * r.1.1 j))).sum / W - m i * m j := by
  intro W m
  have h : cwUpFit rows = (gaussMu (rows.map (fun r => (r.1.1, r.2))), gaussSigma (rows.map (fun r => (r.1.1, r.2)))) := by
    unfold cwUpFit whitenStats
    rw [if_pos (by rw [List.length_map]; exact hN)]
  have hm : ∀ i, gaussMu (rows.map (fun r => (r.1.1, r.2))) i = m i := by
    intro i
    unfold gaussMu avg
    simp only [List.map_map, Function.comp_def]
    rfl
  rw [h]
  refine ⟨hm, fun i j => ?_⟩
  show avg _ _ - gaussMu _ i * gaussMu _ j = _
  rw [hm, hm]
  unfold avg
  simp only [List.map_map, Function.comp_def]
  rfl

/-- a family in two dimensions with mean (1, 2) and variances 4 and 9 exists, so that `C139_cw_propagates` is not vacuous -/
example : Describes (n := 2) [(![3, 5], 1 / 4), (![3, -1], 1 / 4), (![-1, 5], 1 / 4), (![-1, -1], 1 / 4)] ![1, 2] ![4, 9] := by
  refine ⟨by norm_num, ?_, ?_⟩
  · intro i; fin_cases i <;> norm_num
  · intro i j; fin_cases i <;> fin_cases j <;> norm_num

end Hyp.Transforms
