import Mathlib.Analysis.SpecialFunctions.Log.Basic
import Mathlib.Algebra.BigOperators.Group.Finset.Basic

/-!
Model of the layers on Gaussian posteriors with diagonal covariance and standard normal prior:
`GlobalNormalDiagCovPostStdPriorPooling1D`, /repo/hyperion/keras/layers/pooling.py:217-345,
`ConvertNormalDiagCovPostStdPriorFmt`, /repo/hyperion/keras/layers/sampling.py:13-105,
`CatQScoringDiagNormalHomoPostStdPrior`, /repo/hyperion/keras/layers/scoring.py:99-150.
Coordinates do not interact in the first two: the model is of one coordinate of one sequence. The format words after the split
at the first `+` are given. Real arithmetic.
-/

namespace Hyp.Keras
open scoped BigOperators

/-- `K.clip(x, lo, hi)` with `lo ≤ hi` -/
noncomputable def kclip (x lo hi : ℝ) : ℝ := min (max x lo) hi

/-- `_logitvar_to_prec`, pooling.py:252-256, sampling.py:25-29 -/
noncomputable def logitvarToPrec (b y : ℝ) : ℝ :=
  let e := Real.exp (-(kclip y (-7) 7))
  (1 + e) / (1 + b * e)

/-- `_logprec_minus_1_to_prec`, pooling.py:259-263, sampling.py:32-36 -/
noncomputable def logprec1ToPrec (b y : ℝ) : ℝ :=
  let e := Real.exp (kclip y (-7) 7)
  (1 + e) / (1 + b * e)

/-- `_compute_input_prec`, pooling.py:266-300, sampling.py:39-73. An unknown word gives `None`, with which the arithmetic of
`call` raises. -/
noncomputable def inPrec (b : ℝ) (fmt : String) (p : ℝ) : Option ℝ :=
  if fmt = "logitvar" then some (logitvarToPrec b p)
  else if fmt = "logprec-1" then some (logprec1ToPrec b p)
  else if fmt = "logvar" then some (kclip (Real.exp (-p)) 1 (1 / b))
  else if fmt = "logprec" then some (kclip (Real.exp p) 1 (1 / b))
  else if fmt = "var" then some (kclip (1 / p) 1 (1 / b))
  else if fmt = "prec" then some (kclip p 1 (1 / b))
  else if fmt = "prec-1" then some (kclip (p + 1) 1 (1 / b))
  else none

/-- the second output, pooling.py:322-329, sampling.py:87-94: for an unknown word `r2` is not defined and `call` raises -/
noncomputable def outSecond (fmt : String) (prec : ℝ) : Option ℝ :=
  if fmt = "logvar" then some (-Real.log prec)
  else if fmt = "var" then some (1 / prec)
  else if fmt = "logprec" then some (Real.log prec)
  else if fmt = "prec" then some prec
  else none

/-- `GlobalNormalDiagCovPostStdPriorPooling1D.call`, pooling.py:303-331: frames `(p1, p2, weight)`. The
first line: an unknown word raises also for a sequence without frames. -/
noncomputable def postPool (b pen : ℝ) (fin fout : String × String) (f : List (ℝ × ℝ × ℝ)) : Option (ℝ × ℝ) := do
  let _ ← inPrec b fin.2 1
  let q ← f.mapM (fun x : ℝ × ℝ × ℝ => (inPrec b fin.2 x.2.1).map (fun prec => (if fin.1 = "mean" then x.1 * prec else x.1, prec, x.2.2)))
  let eta := pen * (q.map (fun x => x.1 * x.2.2)).sum
  let prec := kclip (1 + pen * (q.map (fun x => (x.2.1 - 1) * x.2.2)).sum) 1 100000
  let r2 ← outSecond fout.2 prec
  some (if fout.1 = "mean" then eta / prec else eta, r2)

/-- `ConvertNormalDiagCovPostStdPriorFmt.call`, sampling.py:76-96 -/
noncomputable def convertFmt (b : ℝ) (fin fout : String × String) (p1 p2 : ℝ) : Option (ℝ × ℝ) := do
  let prec ← inPrec b fin.2 p2
  let r1 := if fin.1 ≠ fout.1 then (if fin.1 = "mean" then p1 * prec else p1 / prec) else p1
  let r2 ← outSecond fout.2 prec
  some (r1, r2)

/-- `CatQScoringDiagNormalHomoPostStdPrior.call`, scoring.py:124-147: class `k` of `C`, parameters `p1` (means) and `p2`
(precision common to the classes), one observation in the format nat+prec -/
noncomputable def catQScore {C D : Nat} (p1 : Fin C → Fin D → ℝ) (p2 : Fin D → ℝ) (etaT Lt : Fin D → ℝ) (k : Fin C) : ℝ :=
  let etaE := fun d => p2 d * p1 k d
  let Let := fun d => Lt d + p2 d - 1
  let Cet := fun d => 1 / Let d
  let Ce := fun d => Cet d - 1 / p2 d
  let Ct := fun d => Cet d - 1 / Lt d
  let re := ∑ d, Real.log (p2 d) + ∑ d, etaE d * etaE d * Ce d
  let rt := ∑ d, Real.log (Lt d) + ∑ d, Ct d * etaT d ^ 2
  let ret := -∑ d, Real.log (Let d) + 2 * ∑ d, etaT d * Cet d * etaE d
  1 / 2 * (ret + re + rt)

end Hyp.Keras
