import Mathlib.Analysis.SpecialFunctions.Log.Basic
import Mathlib.Algebra.BigOperators.Fin
import Mathlib.Order.Fin.Basic

/-!
Model of `softmax`, `logsumexp`, `logsigmoid`, `neglogsigmoid`, `sigmoid`, /repo/hyperion/utils/math.py:101-165, over the
real numbers (exact arithmetic, no overflow). One vector at a time: the functions act separately on every vector along
`axis`. Vectors are not empty (`np.max` of an empty vector raises).
-/

namespace Hyp.MathUtils
open scoped BigOperators

/-- `np.max(r, axis=axis, keepdims=True)`, math.py:106, 117 -/
noncomputable def npMax {n : Nat} (r : Fin (n + 1) → ℝ) : ℝ := Finset.univ.sup' ⟨0, Finset.mem_univ _⟩ r

/-- `softmax`, math.py:101-109 -/
noncomputable def softmax {n : Nat} (r : Fin (n + 1) → ℝ) : Fin (n + 1) → ℝ :=
  fun k => Real.exp (r k - npMax r) / ∑ j, Real.exp (r j - npMax r)

/-- `logsumexp`, math.py:112-119 -/
noncomputable def logsumexp {n : Nat} (r : Fin (n + 1) → ℝ) : ℝ :=
  Real.log ((∑ j, Real.exp (r j - npMax r)) + 1 / 10 ^ 20) + npMax r

open Classical in
/-- one element of `logsigmoid`, math.py:123-132 -/
noncomputable def logsigmoid (x : ℝ) : ℝ := if x < -100 then x else -Real.log (1 + Real.exp (-x))

open Classical in
/-- one element of `neglogsigmoid`, math.py:136-145 -/
noncomputable def neglogsigmoid (x : ℝ) : ℝ := if x < -100 then -x else Real.log (1 + Real.exp (-x))

open Classical in
/-- one element of `sigmoid`, math.py:148-157 -/
noncomputable def sigmoid (x : ℝ) : ℝ := if x < -100 then 0 else 1 / (1 + Real.exp (-x))

end Hyp.MathUtils
