import Verif.Plda.Model
import Verif.NpLemmas
import Mathlib.Algebra.BigOperators.Group.List.Basic
import Mathlib.LinearAlgebra.Matrix.Notation

/-!
Sufficient statistics of PLDA with sample weights and a scaling factor, and their centering.
-/

namespace Hyp.Plda
open Matrix

variable {n : Nat}

/-- what a call of `compute_stats_soft` does: the statistics, and the array of posteriors of the caller afterwards -/
structure SoftCall (n : Nat) where
  stats : Stats n
  ptheta : List (Nat → ℝ)

/-- `compute_stats_soft(x, p_theta, sample_weight, scal_factor)`, plda_base.py:223-232. With weights the product is a new array (225);
`p_theta *= scal_factor` (227) writes into the array it has. `none`: the numbers of rows differ (numpy raises; a single row would be
broadcast, which is not modelled) -/
noncomputable def statsSoftW (M : Nat) (x : List (Vec n)) (p : List (Nat → ℝ)) (w : Option (List ℝ)) (scal : Option ℝ) : Option (SoftCall n) :=
  let p1 := match w with
    | none => p
    | some w => List.zipWith (fun (a : ℝ) (q : Nat → ℝ) => fun c => a * q c) w p
  let p2 := match scal with
    | none => p1
    | some s => p1.map (fun (q : Nat → ℝ) => fun c => q c * s)
  let after := match w with
    | none => p2
    | some _ => p
  if p.length = x.length ∧ (∀ v, w = some v → v.length = p.length) then some ⟨statsSoft M (x.zip p2), after⟩ else none

/-- `compute_stats_hard(x, class_ids, sample_weight, scal_factor)`, plda_base.py:235-241 -/
noncomputable def statsHardW (x : List (Vec n)) (ids : List Nat) (w : Option (List ℝ)) (scal : Option ℝ) : Option (Stats n) :=
  match ids.max? with
  | none => none
  | some m =>
    if ids.length = x.length then
      (statsSoftW (m + 1) x (ids.map (fun i => fun c => if c = i then (1 : ℝ) else 0)) w scal).map SoftCall.stats
    else none

/-- `center_stats(D, mu)`, plda_base.py:244-250 -/
noncomputable def centerStats (D : Stats n) (mu : Vec n) : Stats n where
  M := D.M
  N := D.N
  F := fun c => D.F c - D.N c • mu
  S := D.S - vecMulVec (((List.range D.M).map D.F).sum) mu - (vecMulVec (((List.range D.M).map D.F).sum) mu)ᵀ +
    (((List.range D.M).map D.N).sum) • vecMulVec mu mu

end Hyp.Plda
