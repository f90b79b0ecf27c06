import Mathlib.Algebra.Order.Field.Basic
import Mathlib.Algebra.Order.BigOperators.Group.List
import Mathlib.Algebra.BigOperators.Ring.List
import Mathlib.Tactic.Linarith
import Mathlib.Tactic.FieldSimp
import Mathlib.Tactic.Ring
import Mathlib.Tactic.NormNum

/-!
Model of `pavx`, /repo/hyperion/metrics/utils.py:36-102, over a linearly ordered field (exact arithmetic; the
input array is a float array - for an integer array `np.zeros_like(y)` would truncate the means).
-/

namespace Hyp.Metrics

/-- an interval of the algorithm: entries `index[ci]`, `l[ci]`, `ghat[ci]` of the three arrays. -/
structure Block (K : Type) where
  idx : Nat
  len : Nat
  mean : K
  deriving DecidableEq

variable {K : Type} [Field K] [LinearOrder K]

/-- utils.py:82-88: pool adjacent violators. The first `ci+1` entries of the arrays are kept as a list, the
current interval first. -/
def pool : List (Block K) → List (Block K)
  | [] => []
  | [c] => [c]
  | c :: b :: st =>
    if b.mean ≥ c.mean then
      pool (⟨b.idx, b.len + c.len, b.mean + (c.len : K) / ((b.len + c.len : Nat) : K) * (c.mean - b.mean)⟩ :: st)
    else c :: b :: st
  termination_by l => l.length

/-- utils.py:75-88 (and 69-72 for the first element, where there is nothing to pool): the loop over `j`. -/
def pavLoop : List K → Nat → List (Block K) → List (Block K)
  | [], _, st => st
  | x :: xs, j, st => pavLoop xs (j + 1) (pool (⟨j, 1, x⟩ :: st))

/-- utils.py:95-100: `ghat` for all indices; the intervals from the last one on, `n` the end of the current one. -/
def pavFill : List (Block K) → Nat → List K
  | [], _ => []
  | c :: st, n => pavFill st c.idx ++ List.replicate (n - c.idx) c.mean

/-- the results of `pavx`: `ghat`, `width`, `height`. -/
structure Pav (K : Type) where
  ghat : List K
  width : List Nat
  height : List K
  deriving DecidableEq

/-- utils.py:36-102 `pavx(y)`; `none`: the assertion `n > 0` raises. -/
def pavx (y : List K) : Option (Pav K) :=
  if y = [] then none
  else
    let st := pavLoop y 0 []
    some ⟨pavFill st y.length, (st.map Block.len).reverse, (st.map Block.mean).reverse⟩

end Hyp.Metrics
