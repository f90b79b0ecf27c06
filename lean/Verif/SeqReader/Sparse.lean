import Verif.NpLemmas
import Mathlib.Algebra.Order.Field.Basic

/-!
Model of `to_sparse` and `to_dense` of /repo/hyperion/bin/compute-gmm-post.py and of `to_dense`, `to_dense_list` of
/repo/hyperion/helpers/sequence_post_reader.py. A matrix is the list of its rows, numbers are elements of an ordered field,
`none` is an exception. `np.argsort` is any function that gives an order in which the row is not decreasing (`IsArgsort`).
-/

namespace Hyp.Sparse

variable {K : Type} [Field K]

/-- `l[-k:]`: with `k = 0` this is the whole list, compute-gmm-post.py:33 -/
def pyLast {α : Type} (k : Nat) (l : List α) : List α := l.drop (if k = 0 then 0 else l.length - k)

/-- assignment of an array to a row of `k` numbers: same length, or one number for all (numpy broadcasting),
compute-gmm-post.py:36 -/
def assign {α : Type} (k : Nat) (v : List α) : Option (List α) :=
  if v.length = k then some v else
    match v with
    | [a] => some (List.replicate k a)
    | _ => none

/-- one row of `to_sparse`, compute-gmm-post.py:33-37: values and positions. A row of zeros gives zeros here and NaN in
numpy; the theorems ask for a sum that is not zero. -/
def sparseRow (argsort : List K → List Nat) (k : Nat) (r : List K) : Option (List K × List Nat) := do
  let v ← gather r (pyLast k (argsort r))
  let s ← assign k v
  return (s.map (fun a => a / s.sum), pyLast k (argsort r))

/-- `to_sparse(r, num_comp)`, compute-gmm-post.py:32-38 -/
def toSparse (argsort : List K → List Nat) (k : Nat) (r : List (List K)) : Option (List (List K) × List (List Nat)) := do
  let rows ← r.mapM (sparseRow argsort k)
  return (rows.map Prod.fst, rows.map Prod.snd)

/-- `r[i, index[i]] = r_sparse[i]`, compute-gmm-post.py:44, sequence_post_reader.py:40, on a row of zeros: an index out of
range raises, so do lengths that differ unless there is one value for all; an index given twice keeps its last value -/
def denseRow (C : Nat) (v : List K) (idx : List Nat) : Option (List K) := do
  let w ← assign idx.length v
  if idx.all (fun j => decide (j < C)) then some ((idx.zip w).foldl (fun r p => r.set p.1 p.2) (List.replicate C 0)) else none

/-- `to_dense(r_sparse, index, num_comp)`, compute-gmm-post.py:41-46, sequence_post_reader.py:35-41 (positions already
converted to integers) -/
def toDense (C : Nat) (v : List (List K)) (idx : List (List Nat)) : Option (List (List K)) :=
  if idx.length < v.length then none else (v.zip idx).mapM (fun p => denseRow C p.1 p.2)

/-- `to_dense_list(r_sparse, index, num_comp)`, sequence_post_reader.py:45-51 -/
def toDenseList (C : Nat) (v : List (List (List K))) (idx : List (List (List Nat))) : Option (List (List (List K))) :=
  if idx.length < v.length then none else (v.zip idx).mapM (fun p => toDense C p.1 p.2)

/-- a sequence written by `hw.write([key], '.r', ..)` and `hw.write([key], '.index', ..)`, compute-gmm-post.py:80-81, and
read by `read_next_seq`, sequence_post_reader.py:83-88: both arrays go through the floating point type of the file, the
positions are converted back with `astype(int)`; `num` and `pos` are these conversions -/
def storedDense (num : K → K) (pos : Nat → Nat) (C : Nat) (s : List (List K) × List (List Nat)) : Option (List (List K)) :=
  toDense C (s.1.map (fun v => v.map num)) (s.2.map (fun i => i.map pos))

end Hyp.Sparse
