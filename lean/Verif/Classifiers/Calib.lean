import Mathlib.Probability.Distributions.Gaussian.Real
import Mathlib.Tactic.Ring
import Mathlib.Tactic.Linarith
import Mathlib.Tactic.FieldSimp

/-!
Model of `GaussCalibration`, /repo/hyperion/calibration/gauss_calibration.py, over the real numbers (exact arithmetic).
`none` stands for a result that is not a number (numpy's `nan`/`inf` after a division by zero or the mean of nothing) or for
an exception.
-/

namespace Hyp.Calib

/-- numpy division: by zero it gives `nan` or `inf` -/
noncomputable def fdiv (a b : ℝ) : Option ℝ := open Classical in if b = 0 then none else some (a / b)

/-- `np.mean`, `nan` for an empty array -/
noncomputable def mean (l : List ℝ) : Option ℝ := fdiv l.sum l.length

/-- the calibration object after `__init__` or `fit`, gauss_calibration.py:19-28 -/
structure Calib where
  mu1 : ℝ
  mu2 : ℝ
  sigma2 : ℝ
  prior : ℝ
  a : ℝ
  b : ℝ

/-- `_compute_scale_bias`, gauss_calibration.py:35-37, as called by `__init__` (:26-27) and `fit` (:61) -/
noncomputable def scaleBias (mu1 mu2 sigma2 prior : ℝ) : Option Calib := do
  let a ← fdiv (mu1 - mu2) sigma2
  let b ← fdiv (1 / 2 * (mu2 ^ 2 - mu1 ^ 2)) sigma2
  return ⟨mu1, mu2, sigma2, prior, a, b⟩

/-- `predict`, gauss_calibration.py:65-66, one score -/
def Calib.predict (c : Calib) (x : ℝ) : ℝ := c.a * x + c.b

/-- the pairs (score, weight) with label `k`: `x[y==k]`, `sample_weight[y==k]`, gauss_calibration.py:42-43, 50-51 -/
def sel (rows : List (ℝ × Int × ℝ)) (k : Int) : List (ℝ × ℝ) :=
  (rows.filter (fun r => r.2.1 == k)).map (fun r => (r.1, r.2.2))

/-- `fit` from `self.mu1 = ...` on, gauss_calibration.py:54-61, with the weights of the rows in the third component -/
noncomputable def fitW (rows : List (ℝ × Int × ℝ)) (prior : ℝ) : Option Calib := do
  let non := sel rows 0
  let tar := sel rows 1
  let m1 ← mean (tar.map (fun r => r.2 * r.1))
  let w1 ← mean (tar.map (fun r => r.2))
  let mu1 ← fdiv m1 w1
  let m2 ← mean (non.map (fun r => r.2 * r.1))
  let w2 ← mean (non.map (fun r => r.2))
  let mu2 ← fdiv m2 w2
  let s ← fdiv ((tar.map (fun r => r.2 * (r.1 - mu1) ^ 2)).sum + (non.map (fun r => r.2 * (r.1 - mu2) ^ 2)).sum) rows.length
  let w ← mean (rows.map (fun r => r.2.2))
  let sigma2 ← fdiv s w
  scaleBias mu1 mu2 sigma2 prior

/-- `fit(x, y, sample_weight=None)`, gauss_calibration.py:41-61: without weights the code multiplies by the scalar 1, here
every row gets the weight 1; the prior is `len(tar)/len(x)` -/
noncomputable def fit (rows : List (ℝ × Int)) : Option Calib := do
  let prior ← fdiv (sel (rows.map (fun r => (r.1, r.2, (1 : ℝ)))) 1).length rows.length
  fitW (rows.map (fun r => (r.1, r.2, (1 : ℝ)))) prior

/-- `fit(x, y, sample_weight)`, gauss_calibration.py:49-61 -/
noncomputable def fitWeighted (rows : List (ℝ × Int × ℝ)) : Option Calib := do
  let prior ← fdiv ((sel rows 1).map (fun r => r.2)).sum (rows.map (fun r => r.2.2)).sum
  fitW rows prior

end Hyp.Calib
