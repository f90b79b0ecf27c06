import Verif.Plda.SpFit
import Verif.MathUtils.NumericProps
import Mathlib.Analysis.SpecialFunctions.Gamma.Basic

/-!
Model of `LinearGBE`, /repo/hyperion/classifiers/linear_gbe.py, over the real numbers (exact arithmetic). Cholesky
factorisation is the oracle `chol` of `Verif.Plda.Model`. `none` stands for an exception or for a result with entries that are
not numbers (numpy's `nan` / `inf` after a division by zero).
-/

namespace Hyp.Gbe
open scoped BigOperators
open Matrix Hyp.Plda

variable {K n : Nat}

/-- parameters of `LinearGBE`, linear_gbe.py:34-48 -/
@[ext] structure Model (K n : Nat) where
  mu : Fin K → Vec n
  W : Mat n n
  beta : Fin K → ℝ
  nu : ℝ

/-- column `k` of `A = W mu^T`, `_compute_Ab`, linear_gbe.py:268-271 -/
def Model.A (g : Model K n) (k : Fin K) : Vec n := g.W *ᵥ g.mu k

/-- `b[k]`, `_compute_Ab`, linear_gbe.py:272 -/
noncomputable def Model.b (g : Model K n) (k : Fin K) : ℝ := -(1 / 2) * ∑ i, g.mu k i * g.A k i

/-- `eval_linear`, linear_gbe.py:88-89, one row -/
noncomputable def Model.evalLinear (g : Model K n) (x : Vec n) (k : Fin K) : ℝ := x ⬝ᵥ g.A k + g.b k

variable (chol : (n : Nat) → Mat n n → Mat n n)

/-- `eval_llk`, linear_gbe.py:93-98, one row -/
noncomputable def Model.evalLlk (g : Model K n) (x : Vec n) (k : Fin K) : ℝ :=
  x ⬝ᵥ g.A k + g.b k +
    (1 / 2 * logdetPd chol g.W - 1 / 2 * n * Real.log (2 * Real.pi) + -(1 / 2) * ∑ i, (x ᵥ* g.W) i * x i)

/-- `scipy.special.gammaln` -/
noncomputable def gammaln (z : ℝ) : ℝ := Real.log |Real.Gamma z|

/-- `eval_predictive`, linear_gbe.py:102-135, one row (`nu` and the `beta`s are set) -/
noncomputable def Model.evalPredictive (g : Model K n) (x : Vec n) (k : Fin K) : ℝ :=
  let c := g.nu + 1 - n
  let r := g.beta k / (g.beta k + 1)
  let logg := gammaln ((c + n) / 2) - gammaln (c / 2) - 1 / 2 * n * Real.log (c * Real.pi)
  let logK := logdetPd chol ((1 / g.nu) • g.W)
  let logL2 := 1 / 2 * logK + 1 / 2 * n * r
  let delta0 := ∑ i, (x ᵥ* g.W) i * x i - 2 * (x ⬝ᵥ g.A k + g.b k)
  let delta := r * delta0 / g.nu
  logg + logL2 + -(1 / 2) * (c + n) * Real.log (1 + delta)

/-- the `eval_method` argument of `predict`; anything else raises, linear_gbe.py:146-147 -/
inductive Method where
  | linear
  | llk
  | predictive
  | other
deriving DecidableEq

/-- `predict` before normalisation, linear_gbe.py:139-147 -/
noncomputable def Model.logp (g : Model (K + 1) n) (m : Method) (x : Vec n) : Option (Fin (K + 1) → ℝ) :=
  match m with
  | .linear => some (fun k => g.evalLinear x k)
  | .llk => some (fun k => g.evalLlk chol x k)
  | .predictive => some (fun k => g.evalPredictive chol x k)
  | .other => none

/-- `predict`, linear_gbe.py:139-152, one row -/
noncomputable def Model.predict (g : Model (K + 1) n) (m : Method) (normalize : Bool) (x : Vec n) : Option (Fin (K + 1) → ℝ) :=
  (g.logp chol m x).map (fun lp => if normalize then fun k => Real.log (MathUtils.softmax lp k) else lp)

/-! ### training -/

/-- constructor options used by `fit`, linear_gbe.py:25-31 -/
structure Cfg where
  updateMu : Bool
  updateW : Bool
  balance : Bool
  priorBeta : Option ℝ
  priorNu : Option ℝ
  postBeta : Option ℝ
  postNu : Option ℝ

/-- `_load_prior`, linear_gbe.py:68-75 (the prior object given by the caller is changed in place; a prior given as a file name
is loaded first) -/
noncomputable def loadPrior (cfg : Cfg) (p : Model K n) : Model K n :=
  { p with
    beta := (match cfg.priorBeta with | some b => fun _ => b | none => p.beta)
    nu := (match cfg.priorNu with | some v => K * v | none => p.nu) }

/-- `num_classes`, linear_gbe.py:169-173, with `class_ids`: given to the constructor or `np.max(class_ids)+1` -/
def numClasses (given : Option Nat) (ids : List Nat) : Option Nat :=
  match given with
  | some k => some k
  | none => ids.max?.map (· + 1)

/-- `N`, linear_gbe.py:181 -/
def cN (rows : List (Vec n × (Fin K → ℝ))) (k : Fin K) : ℝ := (rows.map (fun r => r.2 k)).sum

/-- `F`, linear_gbe.py:183 -/
def cF (rows : List (Vec n × (Fin K → ℝ))) (k : Fin K) : Vec n := (rows.map (fun r => r.2 k • r.1)).sum

/-- `S_k`, linear_gbe.py:213-214 -/
def cS (rows : List (Vec n × (Fin K → ℝ))) (xbar : Fin K → Vec n) (k : Fin K) : Mat n n :=
  (rows.map (fun r => r.2 k • Matrix.vecMulVec (r.1 - xbar k) (r.1 - xbar k))).sum

/-- `xbar`, linear_gbe.py:185-195 -/
noncomputable def xbar (cfg : Cfg) (cur : Model K n) (rows : List (Vec n × (Fin K → ℝ))) (k : Fin K) : Vec n :=
  if cfg.updateMu then (1 / cN rows k) • cF rows k else cur.mu k

/-- the update of `mu` and `beta`, linear_gbe.py:185-195 -/
noncomputable def updMu (cfg : Cfg) (cur : Model K n) (prior : Option (Model K n)) (rows : List (Vec n × (Fin K → ℝ))) : Model K n :=
  if cfg.updateMu then
    match prior with
    | some p =>
      { cur with
        mu := fun k => (1 - cN rows k / (cN rows k + p.beta k)) • p.mu k + (cN rows k / (cN rows k + p.beta k)) • xbar cfg cur rows k
        beta := fun k => cN rows k + p.beta k }
    | none => { cur with mu := xbar cfg cur rows, beta := cN rows }
  else cur

/-- `nu0`, linear_gbe.py:200, 208 -/
noncomputable def nu0 (prior : Option (Model K n)) : ℝ :=
  match prior with
  | some p => p.nu
  | none => 0

/-- the initial value of `S`, linear_gbe.py:199-209 -/
noncomputable def S0 (cfg : Cfg) (prior : Option (Model K n)) (rows : List (Vec n × (Fin K → ℝ))) : Mat n n :=
  match prior with
  | some p =>
    if cfg.balance then (K - ∑ k, cN rows k / (cN rows k + p.nu / K)) • pdInv chol p.W else p.nu • pdInv chol p.W
  | none => 0

/-- `S_k` after the correction of MAP adaptation, linear_gbe.py:213-217 -/
noncomputable def Sk (cfg : Cfg) (cur : Model K n) (prior : Option (Model K n)) (rows : List (Vec n × (Fin K → ℝ))) (k : Fin K) : Mat n n :=
  match prior with
  | some p =>
    if cfg.updateMu then
      cS rows (xbar cfg cur rows) k +
        (cN rows k * (1 - cN rows k / (cN rows k + p.beta k))) •
          Matrix.vecMulVec (xbar cfg cur rows k - p.mu k) (xbar cfg cur rows k - p.mu k)
    else cS rows (xbar cfg cur rows) k
  | none => cS rows (xbar cfg cur rows) k

/-- `S` before the inversion, linear_gbe.py:199-227 -/
noncomputable def covS (cfg : Cfg) (cur : Model K n) (prior : Option (Model K n)) (rows : List (Vec n × (Fin K → ℝ))) : Mat n n :=
  if cfg.balance then
    (1 / (K : ℝ)) • (S0 chol cfg prior rows + ∑ k, (1 / (cN rows k + nu0 prior / K)) • Sk cfg cur prior rows k)
  else (1 / (nu0 prior + ∑ k, cN rows k)) • (S0 chol cfg prior rows + ∑ k, Sk cfg cur prior rows k)

/-- the divisors of `fit` are not zero: `N` (linear_gbe.py:186), `N+prior.beta` (:188), `N+nu0/num_classes` (:202, 220),
`num_classes` (:225), `nu0+sum(N)` (:227) -/
def divOk (cfg : Cfg) (prior : Option (Model K n)) (rows : List (Vec n × (Fin K → ℝ))) : Prop :=
  (cfg.updateMu = true → ∀ k, cN rows k ≠ 0) ∧
  (cfg.updateMu = true → ∀ p ∈ prior, ∀ k, cN rows k + p.beta k ≠ 0) ∧
  (cfg.updateW = true → cfg.balance = true → K ≠ 0 ∧ ∀ k, cN rows k + nu0 prior / K ≠ 0) ∧
  (cfg.updateW = true → cfg.balance = false → nu0 prior + ∑ k, cN rows k ≠ 0)

/-- `_change_post_r`, linear_gbe.py:79-84 -/
noncomputable def changePost (cfg : Cfg) (g : Model K n) : Model K n :=
  { g with
    beta := (match cfg.postBeta with | some b => fun _ => b | none => g.beta)
    nu := (match cfg.postNu with | some v => K * v | none => g.nu) }

open Classical in
/-- `fit(x, p_theta=...)`, linear_gbe.py:158-233; `prior` is the prior object, `cur` the parameters before (read when an update
flag is off; they must then be set). `invert_pdmat` raises when its argument is not positive definite. -/
noncomputable def fit (cfg : Cfg) (prior : Option (Model K n)) (cur : Model K n) (rows : List (Vec n × (Fin K → ℝ))) :
    Option (Model K n) :=
  let prior := prior.map (loadPrior cfg)
  if divOk cfg prior rows ∧ (cfg.updateW = true → (covS chol cfg cur prior rows).PosDef ∧ ∀ p ∈ prior, p.W.PosDef) then
    let g := updMu cfg cur prior rows
    let g := if cfg.updateW then
        { g with W := pdInv chol (covS chol cfg cur prior rows), nu := ∑ k, cN rows k + nu0 prior }
      else g
    some (changePost cfg g)
  else none

/-- `int2onehot(class_ids, num_classes)` (math.py:345-360) and `sample_weight[:, None]*p_theta`, linear_gbe.py:175-179. The rows
are (vector, class number, weight), with weight 1 when no weights are given; a class number that is too large raises. -/
def onehot (K : Nat) (rows : List (Vec n × Nat × ℝ)) : Option (List (Vec n × (Fin K → ℝ))) :=
  if rows.all (fun r => decide (r.2.1 < K)) then
    some (rows.map (fun r => (r.1, fun k => r.2.2 * (if r.2.1 = k.1 then (1 : ℝ) else 0))))
  else none

/-- `fit(x, class_ids, sample_weight=...)`, linear_gbe.py:158-233, with `K` classes -/
noncomputable def fitIds (cfg : Cfg) (prior : Option (Model K n)) (cur : Model K n) (rows : List (Vec n × Nat × ℝ)) :
    Option (Model K n) := do
  let rows ← onehot K rows
  fit chol cfg prior cur rows

end Hyp.Gbe
