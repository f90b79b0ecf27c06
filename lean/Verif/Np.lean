import Mathlib.Order.Defs.LinearOrder
import Mathlib.Data.List.Basic
import Mathlib.Data.List.Nodup
import Mathlib.Data.List.Perm.Basic
import Mathlib.Data.List.Perm.Subperm

/-!
# numpy primitives used by the models

These are library functions (not part of /repo); they are modelled by their documented contract and
belong to the trusted base.
-/

namespace Hyp

/-- numpy fancy indexing `l[idx]` with a list of non-negative integers; `none` = `IndexError`. -/
def gather {α : Type _} (l : List α) (idx : List Nat) : Option (List α) :=
  idx.mapM (fun i => l[i]?)

/-- `mask.nonzero()[0]` / `np.where(mask)[0]`. -/
def nonzero (m : List Bool) : List Nat :=
  (List.range m.length).filter (fun i => m.getD i false)

/-- insertion into a strictly increasing list without repeating. -/
def insU {α : Type _} [LinearOrder α] (x : α) : List α → List α
  | [] => [x]
  | y :: ys => if x < y then x :: y :: ys else if x = y then y :: ys else y :: insU x ys

/-- `np.unique(l)`: the sorted list of distinct elements. -/
def npUnique {α : Type _} [LinearOrder α] (l : List α) : List α := l.foldr insU []

/-- `np.unique(l, return_inverse=True)[1]`: position of every element in `np.unique(l)`. -/
def npInverse {α : Type _} [LinearOrder α] (l : List α) : List Nat :=
  l.map (fun x => (npUnique l).idxOf x)

/-- `np.union1d`, `np.setdiff1d`, `np.intersect1d`: sorted, duplicate-free results. -/
def npUnion {α : Type _} [LinearOrder α] (a b : List α) : List α := npUnique (a ++ b)
def npSetdiff {α : Type _} [LinearOrder α] (a b : List α) : List α := npUnique (a.filter (fun x => decide (x ∉ b)))
def npIntersect {α : Type _} [LinearOrder α] (a b : List α) : List α := npUnique (a.filter (fun x => decide (x ∈ b)))

/-- `idx` is a possible result of `np.argsort(l)`: numpy's default sort is not stable, so every
permutation of the positions which reads `l` in non-decreasing order is allowed. -/
def IsArgsort {α : Type _} [LinearOrder α] (l : List α) (idx : List Nat) : Prop :=
  idx.Perm (List.range l.length) ∧ (idx.filterMap (fun i => l[i]?)).Pairwise (· ≤ ·)

end Hyp
