import Verif.Transforms.Whiten

/-!
Model of /repo/hyperion/transforms/cent_whiten_up.py and lnorm_up.py: centering, whitening and length normalisation of
vectors that come with a variance for every coordinate (`x` holds the means in its first half and the variances in the
second half of the columns). Conventions as in `Transforms/Model.lean`; `T` is a matrix, given by its columns.
-/

namespace Hyp.Transforms
open scoped BigOperators
open Matrix

variable {n : Nat}

/-- one row of the input: means and variances, cent_whiten_up.py:27-29 -/
abbrev URow (n : Nat) := Vec n × Vec n

/-- `np.diag(np.dot(self.T.T * s2_x[i], self.T))`, cent_whiten_up.py:32 -/
def upVar (T : List (Vec n)) (s : Vec n) : List ℝ := T.map (fun t => ∑ i, t i * s i * t i)

/-- assignment of an array to a row of `n` columns: same length, or one element for all (numpy broadcasting);
`s2_x[i] = ...`, cent_whiten_up.py:32 -/
def assignRow (n : Nat) (v : List ℝ) : Option (Vec n) :=
  if h : v.length = n then some (fun i => v[i.1]'(h ▸ i.2)) else
    match v with
    | [a] => some (fun _ => a)
    | _ => none

/-- `CentWhitenUP.predict(x)`, cent_whiten_up.py:26-33. First component: the result, one row of means and variances for
every row of `x`. Second component: the array `x` of the caller after the call; `s2_x` is a view of it, so that its second
half has been overwritten. `none`: the assignment raises. -/
def cwUpPredict (mu : Vec n) (T : List (Vec n)) (x : List (URow n)) : Option (List (List ℝ × List ℝ) × List (URow n)) := do
  let s2 ← x.mapM (fun r => assignRow n (upVar T r.2))
  return ((x.zip s2).map (fun p => (project mu T p.1.1, List.ofFn p.2)), (x.zip s2).map (fun p => (p.1.1, p.2)))

/-- `m_x /= np.sqrt(mx2); s2_x /= mx2`, lnorm_up.py:26-28, on one row -/
noncomputable def lnormUpRow (r : List ℝ × List ℝ) : List ℝ × List ℝ :=
  let mx2 := (r.1.map (fun v => v ^ 2)).sum + 1 / 10 ^ 10
  (r.1.map (fun v => v / Real.sqrt mx2), r.2.map (fun v => v / mx2))

/-- `LNormUP.predict(x)`, lnorm_up.py:20-30; results as in `cwUpPredict` -/
noncomputable def lnormUpPredict (mu : Vec n) (T : List (Vec n)) (x : List (URow n)) :
    Option (List (List ℝ × List ℝ) × List (URow n)) := do
  let (y, x') ← cwUpPredict mu T x
  return (y.map lnormUpRow, x')

/-- `CentWhitenUP.fit(x, sample_weight)`, cent_whiten_up.py:37-39: the mean and the matrix whose eigenvectors give `T`. Only
the first half of the columns is used. -/
noncomputable def cwUpFit (rows : List (URow n × ℝ)) : Vec n × Matrix (Fin n) (Fin n) ℝ :=
  whitenStats (rows.map (fun r => (r.1.1, r.2)))

end Hyp.Transforms
