import Mathlib.Analysis.SpecialFunctions.Sqrt
import Mathlib.Algebra.BigOperators.Ring.List
import Mathlib.Algebra.Order.BigOperators.Group.List

/-!
Model of /repo/hyperion/feats/feature_normalization.py (`MeanVarianceNorm`) and /repo/hyperion/feats/frame_selector.py.

All operations of `MeanVarianceNorm` act on every column of the feature matrix separately; the model is one column, a
list of real numbers (exact arithmetic). Contexts are natural numbers or None. Division by a zero standard deviation
(a constant column in the global normalisation) gives nan in NumPy and 0 here: the theorems exclude it.
-/

namespace Hyp.Feats

/-- `np.mean`. -/
noncomputable def mean (x : List ℝ) : ℝ := x.sum / (x.length : ℝ)

/-- `np.var`: mean of the squared differences to the mean; `np.std` is its square root. -/
noncomputable def var (x : List ℝ) : ℝ := mean (x.map (fun a => (a - mean x) ^ 2))

/-- `np.std`. -/
noncomputable def std (x : List ℝ) : ℝ := Real.sqrt (var x)

/-- feature_normalization.py:18-32: the attributes. -/
structure MvnConfig where
  normMean : Bool
  normVar : Bool
  left : Option Nat
  right : Option Nat

/-- feature_normalization.py:39-48 `normalize_global`. -/
noncomputable def normalizeGlobal (c : MvnConfig) (x : List ℝ) : List ℝ :=
  let x1 := if c.normMean then x.map (fun a => a - mean x) else x
  if c.normVar then x1.map (fun a => a / std x1) else x1

/-- `np.cumsum`. -/
def cumsum (x : List ℝ) : List ℝ := (List.range x.length).map (fun i => (x.take (i + 1)).sum)

/-- feature_normalization.py:135-140: `left_context+1` zeros, the cumulative sums `cs`, and their last value repeated. -/
def padCum (L R : Nat) (cs : List ℝ) : List ℝ := List.replicate (L + 1) 0 ++ cs ++ List.replicate R (cs.getLastD 0)

/-- feature_normalization.py:147-148: `c[total:] - c[:-total]` for an array of length `n + total`. -/
def diffTotal (total n : Nat) (c : List ℝ) : List ℝ := List.zipWith (fun a b => a - b) (c.drop total) (c.take n)

/-- feature_normalization.py:93-107 and 150-158: subtract the local means and divide by the local deviations, floored;
`m` are the means, `m2` the means of the squares. -/
noncomputable def applyStats (c : MvnConfig) (x m m2 : List ℝ) : List ℝ :=
  let y := if c.normMean then List.zipWith (fun a b => a - b) x m else x
  if c.normVar then
    let s2 := List.zipWith (fun a b => if a - b ^ 2 < 1 / 100000 then 1 / 100000 else a - b ^ 2) m2 m
    List.zipWith (fun a b => a / Real.sqrt b) y s2
  else y

/-- feature_normalization.py:111-160 `normalize_cumsum` (which is `normalize`, lines 35-36). -/
noncomputable def normalizeCumsum (c : MvnConfig) (x0 : List ℝ) : List ℝ :=
  let x := normalizeGlobal c x0
  if c.right = none ∧ c.left = none then x
  else
    let L := c.left.getD x.length
    let R := c.right.getD x.length
    let total := L + R + 1
    if x.length ≤ min R L + 1 then x
    else
      let counts := diffTotal total x.length (padCum L R ((List.range x.length).map (fun i : Nat => (i : ℝ) + 1)))
      let m := List.zipWith (fun a b => a / b) (diffTotal total x.length (padCum L R (cumsum x))) counts
      let m2 := List.zipWith (fun a b => a / b) (diffTotal total x.length (padCum L R (cumsum (x.map (fun a => a * a))))) counts
      applyStats c x m m2

/-- `convolve2d(x, ones)[R : R+T]` (full convolution of the column with `total` ones, lines 86-91). -/
def convOnes (total R : Nat) (x : List ℝ) : List ℝ :=
  (((List.range (x.length + total - 1)).map (fun n =>
    ((List.range total).map (fun k => if k ≤ n then x.getD (n - k) 0 else 0)).sum)).drop R).take x.length

/-- feature_normalization.py:52-107 `normalize_conv`. -/
noncomputable def normalizeConv (c : MvnConfig) (x0 : List ℝ) : List ℝ :=
  let x := normalizeGlobal c x0
  if c.right = none ∧ c.left = none then x
  else
    let L := c.left.getD x.length
    let R := c.right.getD x.length
    let total := L + R + 1
    if x.length ≤ min R L + 1 then x
    else
      let counts := convOnes total R (List.replicate x.length 1)
      let m := List.zipWith (fun a b => a / b) (convOnes total R x) counts
      let m2 := List.zipWith (fun a b => a / b) (convOnes total R (x.map (fun a => a * a))) counts
      applyStats c x m m2

/-- feature_normalization.py:186-190: `x[idx1:idx2]`, the frames from `t - L` to `t + R` inside the utterance. -/
def window (x : List ℝ) (L R t : Nat) : List ℝ := (x.drop (t - L)).take (min (t + R) (x.length - 1) + 1 - (t - L))

/-- feature_normalization.py:164-206 `normalize_slow`. -/
noncomputable def normalizeSlow (c : MvnConfig) (x0 : List ℝ) : List ℝ :=
  let x := normalizeGlobal c x0
  if c.right = none ∧ c.left = none then x
  else
    let L := c.left.getD x.length
    let R := c.right.getD x.length
    let m := (List.range x.length).map (fun t => mean (window x L R t))
    let s := (List.range x.length).map (fun t => std (window x L R t))
    let y := if c.normMean then List.zipWith (fun a b => a - b) x m else x
    if c.normVar then
      List.zipWith (fun a b => a / (if b < Real.sqrt (1 / 100000) then Real.sqrt (1 / 100000) else b)) y s
    else y

/-- the frames selected by a boolean mask of the same length: `x[sel, :]`. `none`: NumPy raises IndexError when the
lengths differ. -/
def maskRows {α : Type} (x : List α) (sel : List Bool) : Option (List α) :=
  if x.length = sel.length then some ((x.zip sel).filterMap (fun p => if p.2 then some p.1 else none)) else none

/-- frame_selector.py:24-50 `FrameSelector.select`; rows of any type. `none`: exception. -/
def select {α : Type} (tol : Int) (x : List α) (sel : List Bool) : Option (List α) :=
  if x.length = sel.length then maskRows x sel
  else if x.length > sel.length then
    if (x.length : Int) - sel.length ≤ tol then maskRows (x.take sel.length) sel else none
  else
    if (sel.length : Int) - x.length ≤ tol then maskRows x (sel.take x.length) else none

end Hyp.Feats
