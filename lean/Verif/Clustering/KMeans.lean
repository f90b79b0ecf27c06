import Mathlib.Algebra.BigOperators.Group.Finset.Basic
import Mathlib.Algebra.Order.Field.Basic
import Mathlib.Data.Fintype.Basic
import Mathlib.Data.Fintype.BigOperators

/-! Model of /repo/hyperion/clustering/kmeans.py over an ordered field (rounding is not modelled). A data set is a list of vectors with `d` coordinates. -/

namespace Hyp.KMeans

variable {K : Type} [Field K] [LinearOrder K] {d : Nat}

/-- `np.sum(np.square(x - m))` (kmeans.py:52, 71). -/
def dist2 (x m : Fin d → K) : K := ∑ i, (x i - m i) ^ 2

/-- `np.argmin` with its value: the first position of the smallest entry; `none`: empty (ValueError). -/
def argmin : List K → Option (Nat × K)
  | [] => none
  | a :: l =>
    match argmin l with
    | none => some (0, a)
    | some (i, b) => if b < a then some (i + 1, b) else some (0, a)

/-- `np.argmax` with its value: the first position of the largest entry. -/
def argmax : List K → Option (Nat × K)
  | [] => none
  | a :: l =>
    match argmax l with
    | none => some (0, a)
    | some (i, b) => if a < b then some (i + 1, b) else some (0, a)

/-- kmeans.py:68-74 `predict`: cluster number and squared error of each point. -/
def predict (mu : List (Fin d → K)) (x : List (Fin d → K)) : Option (List (Nat × K)) :=
  x.mapM (fun p => argmin (mu.map (dist2 p)))

/-- `np.mean(., axis=0)`. -/
def mean (x : List (Fin d → K)) : Fin d → K := fun i => (x.map (fun p => p i)).sum / (x.length : K)

/-- the points `x[index == k]`. -/
def pointsOf (x : List (Fin d → K)) (index : List Nat) (k : Nat) : List (Fin d → K) :=
  ((x.zip index).filter (fun p => decide (p.2 = k))).map Prod.fst

/-- kmeans.py:59-65 `_compute_centroids`: the means of the clusters, zero for an empty one. -/
def centroids (nc : Nat) (x : List (Fin d → K)) (index : List Nat) : List (Fin d → K) :=
  (List.range nc).map (fun k => if pointsOf x index k = [] then 0 else mean (pointsOf x index k))

/-- kmeans.py:49-55: one more seed, the point with the largest sum of squared distances to the seeds so far. -/
def nextSeed (x : List (Fin d → K)) (mu : List (Fin d → K)) : Option (Fin d → K) :=
  match argmax (x.map (fun p => (mu.map (fun m => dist2 p m)).sum)) with
  | none => none
  | some (i, _) => x[i]?

/-- kmeans.py:49: the loop over the remaining seeds. -/
def addSeeds (x : List (Fin d → K)) : Nat → List (Fin d → K) → Option (List (Fin d → K))
  | 0, mu => some mu
  | n + 1, mu =>
    match nextSeed x mu with
    | none => none
    | some m => addSeeds x n (mu ++ [m])

/-- kmeans.py:46-56 `_choose_seeds`. `none`: no clusters or no points (IndexError). -/
def chooseSeeds (nc : Nat) (x : List (Fin d → K)) : Option (List (Fin d → K)) :=
  match nc, x with
  | 0, _ => none
  | _, [] => none
  | n + 1, p :: x' => addSeeds (p :: x') n [p]

/-- `np.mean(err2)`. -/
def meanErr (r : List (Nat × K)) : K := (r.map Prod.snd).sum / (r.length : K)

/-- kmeans.py:37-39: relative change below the tolerance. A division by zero gives nan or inf, and the comparison is false. -/
def small (rtol prev cur : K) : Bool := decide (prev ≠ 0) && decide (|prev - cur| / prev < rtol)

/-- kmeans.py:36-39: the test after an epoch; there is none after the first. -/
def stops (rtol : K) (prev : Option K) (cur : K) : Bool :=
  match prev with
  | none => false
  | some p => small rtol p cur

/-- kmeans.py:32-41: the loop. Remaining epochs, the loss of the previous epoch if any, the current assignment; the results are the centroids, the losses and
the assignment. -/
def loop (nc : Nat) (rtol : K) (x : List (Fin d → K)) :
    Nat → Option K → List (Fin d → K) → List (Nat × K) → Option (List (Fin d → K) × List K × List (Nat × K))
  | 0, _, mu, r => some (mu, [], r)
  | n + 1, prev, _, r =>
    match predict (centroids nc x (r.map Prod.fst)) x with
    | none => none
    | some r' =>
      if stops rtol prev (meanErr r') = true then some (centroids nc x (r.map Prod.fst), [meanErr r'], r')
      else
        match loop nc rtol x n (some (meanErr r')) (centroids nc x (r.map Prod.fst)) r' with
        | none => none
        | some (mu'', ls, r'') => some (mu'', meanErr r' :: ls, r'')

/-- kmeans.py:27-43 `fit`: the centroids left in the model, the returned losses and the returned cluster numbers (with the errors). -/
def fit (nc : Nat) (rtol : K) (x : List (Fin d → K)) (epochs : Nat) : Option (List (Fin d → K) × List K × List (Nat × K)) :=
  match chooseSeeds nc x with
  | none => none
  | some mu =>
    match predict mu x with
    | none => none
    | some r => loop nc rtol x epochs none mu r

end Hyp.KMeans
