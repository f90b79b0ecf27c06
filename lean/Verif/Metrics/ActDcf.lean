import Verif.Metrics.Roc
import Mathlib.Analysis.SpecialFunctions.Log.Basic

/-!
Model of the parts of /repo/hyperion/metrics that use logarithms, over the real numbers (exact arithmetic):
`compute_act_dcf` (dcf.py), `compute_cllr` (cllr.py), `opt_loglr` (utils.py), `neglogsigmoid` (utils/math.py).
-/

namespace Hyp.Metrics

/-- dcf.py:102 `t = - np.log(prior) + np.log(1-prior)`. -/
noncomputable def dcfThreshold (p : ℝ) : ℝ := - Real.log p + Real.log (1 - p)

open Classical in
/-- dcf.py:78-140 `compute_act_dcf` with a vector of priors; triples (cost, P_miss, P_fa). `none`: the assertion that
the priors are in ascending order, or a division by zero, raises. -/
noncomputable def computeActDcf (tar non prior : List ℝ) (normalize : Bool) : Option (List (ℝ × ℝ × ℝ)) :=
  if prior.Pairwise (· ≤ ·) then actDcfAt (prior.map dcfThreshold) tar non prior normalize else none

/-- math.py:143-152 `neglogsigmoid` on one element. -/
noncomputable def negLogSigmoid (x : ℝ) : ℝ := if x < -100 then -x else Real.log (1 + Real.exp (-x))

/-- `np.mean`; the mean of an empty array is not a number, here 0 (division by zero): the theorems about it assume
non-empty lists. -/
noncomputable def meanR (l : List ℝ) : ℝ := l.sum / l.length

/-- cllr.py:15-29 `compute_cllr`. -/
noncomputable def computeCllr (tar non : List ℝ) : ℝ :=
  let c1 := meanR (tar.map negLogSigmoid) / Real.log 2
  let c2 := meanR (non.map negLogSigmoid) / Real.log 2
  (c1 + c2) / 2

/-- utils.py:107-156 `opt_loglr(tar, non, 'laplace')`: the log-likelihood ratios in the order of the sorted scores are
`llr`, they are put back at `sort_idx`; first the targets then the nontargets. `none`: without nontargets or targets the
prior log-odds raise or are infinite. -/
noncomputable def optLoglrLaplace (tar non : List ℝ) : Option (List ℝ × List ℝ) :=
  if tar = [] ∨ non = [] then none
  else
    let n := tar.length + non.length
    let sortIdx := stableArgsort (tar ++ non)
    let pIdeal := [1, 0] ++ sortedLabels tar non ++ [1, 0]
    (pavx pIdeal).map (fun r =>
      let pOpt := (r.ghat.drop 2).dropLast.dropLast
      let prior := Real.log ((tar.length : ℝ) / (non.length : ℝ))
      let llr := pOpt.mapIdx (fun i p => Real.log p - Real.log (1 - p) - prior + 1 / 1000000 * (i : ℝ) / (n : ℝ))
      -- `llr[sort_idx] = llr`
      let out := (List.range n).map (fun i => llr.getD (sortIdx.idxOf i) 0)
      (out.take tar.length, out.drop tar.length))

end Hyp.Metrics
