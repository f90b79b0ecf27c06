import Verif.Np
import Mathlib.Order.Nat
import Mathlib.Order.Basic

/-!
Model of /repo/hyperion/clustering/ahc.py:55-88: flat clusters from the dendrogram `Z` returned by scipy's `linkage`
(which is not modelled: the dendrogram is any list of merges). `self.flat_clusters` is always None:
`compute_flat_clusters` (the only method that sets it) has no `self` argument and raises when called.
-/

namespace Hyp.Clustering

open Hyp

/-- a row of `Z`: the two clusters merged and the score (or distance) of the merge; the new cluster is `N + i`. -/
structure Merge (K : Type) where
  a : Nat
  b : Nat
  h : K
  deriving DecidableEq

variable {K : Type}

/-- ahc.py:68-71: the loop; `i` is the index of the first row of `Z` in the list. -/
def flatLoop (N : Nat) : List (Merge K) → Nat → List Nat → List Nat
  | [], _, flat => flat
  | m :: ms, i, flat => flatLoop N ms (i + 1) (flat.map (fun c => if c = m.a ∨ c = m.b then N + i else c))

/-- ahc.py:60-74 `get_flat_clusters_from_num_clusters`. `none`: IndexError, when fewer than one cluster is asked for. -/
def flatFromNum (Z : List (Merge K)) (numClusters : Int) : Option (List Nat) :=
  let N := Z.length + 1
  let k := min (N : Int) numClusters
  let p := ((N : Int) - k).toNat
  if p > Z.length then none
  else some (npInverse (flatLoop N (Z.take p) 0 (List.range N)))

/-- ahc.py:78-84 `get_flat_clusters_from_thr`; `sim`: the metric is llr or prob. -/
def flatFromThr [LinearOrder K] (Z : List (Merge K)) (sim : Bool) (thr : K) : Option (List Nat) :=
  let n := if sim then Z.countP (fun m => decide (m.h ≥ thr)) else Z.countP (fun m => decide (m.h ≤ thr))
  flatFromNum Z ((Z.length : Int) + 1 - n)

end Hyp.Clustering
