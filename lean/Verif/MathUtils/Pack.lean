import Mathlib.Algebra.Field.Basic
import Mathlib.Algebra.Ring.Parity
import Mathlib.Data.Nat.Sqrt

/-!
Model of `symmat2vec`, `vec2symmat`, `trimat2vec`, `vec2trimat`, `int2onehot`, /repo/hyperion/utils/math.py:190-275, 345-360.
A square matrix is a dimension and a function from indices; only the entries below the dimension matter.
-/

namespace Hyp.MathUtils

/-- a square array. -/
structure Mat (K : Type) where
  dim : Nat
  val : Nat → Nat → K

/-- `np.triu_indices(d)`: row by row. -/
def triu (d : Nat) : List (Nat × Nat) := (List.range d).flatMap (fun i => (List.range (d - i)).map (fun k => (i, i + k)))

/-- `np.tril_indices(d)`: row by row. -/
def tril (d : Nat) : List (Nat × Nat) := (List.range d).flatMap (fun i => (List.range (i + 1)).map (fun k => (i, k)))

variable {K : Type} [Field K]

/-- `A[np.diag_indices(d)] *= f`. -/
def scaleDiag (f : Option K) (A : Mat K) : Mat K :=
  match f with
  | none => A
  | some f => ⟨A.dim, fun i j => if i = j then A.val i j * f else A.val i j⟩

/-- `A[idx]`. -/
def gather (A : Mat K) (idx : List (Nat × Nat)) : List K := idx.map (fun p => A.val p.1 p.2)

/-- `A[idx] = v` for distinct indices; `none`: the shapes differ (an array of length 1 would be broadcast, but then the
dimension computed below is 1 and there is one index). -/
def scatter (A : Mat K) (idx : List (Nat × Nat)) (v : List K) : Option (Mat K) :=
  if idx.length = v.length then
    some ⟨A.dim, fun i j => if (i, j) ∈ idx then v.getD (idx.idxOf (i, j)) 0 else A.val i j⟩
  else none

/-- math.py:190-208 `symmat2vec`. -/
def symmat2vec (A : Mat K) (lower : Bool) (f : Option K) : List K :=
  let A := scaleDiag f A
  if lower then gather A (tril A.dim) else gather A (triu A.dim)

/-- math.py:224, 266 `int((-1+np.sqrt(1+8*n))/2)` (exact for the sizes for which the floating point square root is;
the integer square root is used here). -/
def dimOf (n : Nat) : Nat := (Nat.sqrt (1 + 8 * n) - 1) / 2

/-- `np.zeros((d, d))`. -/
def zeros (d : Nat) : Mat K := ⟨d, fun _ _ => 0⟩

/-- `A[idx] = A.T[idx]` (the right-hand side is copied before the assignment). -/
def copyTransposed (A : Mat K) (idx : List (Nat × Nat)) : Option (Mat K) :=
  scatter A idx (idx.map (fun p => A.val p.2 p.1))

/-- math.py:211-236 `vec2symmat`. -/
def vec2symmat (v : List K) (lower : Bool) (f : Option K) : Option (Mat K) :=
  let d := dimOf v.length
  if lower then
    ((scatter (zeros d) (tril d) v).bind (fun A => copyTransposed A (triu d))).map (scaleDiag f)
  else
    ((scatter (zeros d) (triu d) v).bind (fun A => copyTransposed A (tril d))).map (scaleDiag f)

/-- math.py:239-251 `trimat2vec`. -/
def trimat2vec (A : Mat K) (lower : Bool) : List K := symmat2vec A lower none

/-- math.py:254-273 `vec2trimat`. -/
def vec2trimat (v : List K) (lower : Bool) : Option (Mat K) :=
  let d := dimOf v.length
  if lower then scatter (zeros d) (tril d) v else scatter (zeros d) (triu d) v

end Hyp.MathUtils
