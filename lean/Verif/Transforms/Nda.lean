import Verif.Transforms.Rest
import Mathlib.Analysis.SpecialFunctions.Pow.Real

/-!
Model of `NSbSw` (/repo/hyperion/transforms/sb_sw.py:95-162), `NDA` (/repo/hyperion/transforms/nda.py) and of the function
of /repo/hyperion/bin/train-nda.py, over the real numbers.

`BallTree.query` is not modelled: `query pts x k` are the positions in `pts` of the `k` points nearest to `x`, the nearest
first; `IsKnn` (in `NdaProps.lean`) says what it is documented to return.
-/

namespace Hyp.Transforms
open scoped BigOperators
open Matrix

variable {n : Nat}

/-- Euclidean distance, the metric of `BallTree` -/
noncomputable def edist (x y : Vec n) : ℝ := Real.sqrt (∑ i, (x i - y i) ^ 2)

/-- `tree.query(x, k)` on a tree of points: positions of the nearest points -/
abbrev Query (n : Nat) := List (Vec n) → Vec n → Nat → List Nat

/-- the neighbours of `x`, `x_i[NN_i[l]]`, sb_sw.py:124-125 -/
def neighbours (query : Query n) (K : Nat) (pts : List (Vec n)) (x : Vec n) : List (Vec n) :=
  (query pts x K).filterMap (fun i => pts[i]?)

/-- `d_i[:,-1]` and `x[l] - np.mean(x_i[NN_i[l]], axis=0)`, sb_sw.py:122-126 -/
noncomputable def nnStats (query : Query n) (K : Nat) (pts : List (Vec n)) (x : Vec n) : ℝ × Vec n :=
  let nn := neighbours query K pts x
  (((nn.map (edist x)).getLast?).getD 0, x - pcaMu nn)

/-- `d[i][l]` (after `d = d**self.alpha`) and `delta[i,l]`, sb_sw.py:109-128: zero for numbers that are not the number of a
class -/
noncomputable def ndaEntry (query : Query n) (K : Nat) (alpha : ℝ) (rows : List (CRow n)) (i : Nat) (x : Vec n) : ℝ × Vec n :=
  if i ∈ npUnique (rows.map Prod.fst) then
    ((nnStats query K (ofClass rows i) x).1 ^ alpha, (nnStats query K (ofClass rows i) x).2)
  else (0 ^ alpha, 0)

/-- `w_ij = np.minimum(d[i], d[j])/(d[i]+d[j])`, sb_sw.py:137, at one row -/
noncomputable def ndaWeight (query : Query n) (K : Nat) (alpha : ℝ) (rows : List (CRow n)) (i j : Nat) (x : Vec n) : ℝ :=
  min (ndaEntry query K alpha rows i x).1 (ndaEntry query K alpha rows j x).1 /
    ((ndaEntry query K alpha rows i x).1 + (ndaEntry query K alpha rows j x).1)

/-- the pairs of another class number and a row of class `i` over which `Sb_i` and `w_i` are accumulated, sb_sw.py:136-144 -/
def ndaPairs (rows : List (CRow n)) (C i : Nat) : List (Nat × Vec n) :=
  (((List.range C).filter (fun j => decide (j ≠ i))).map (fun j => (ofClass rows i).map (fun x => (j, x)))).flatten

/-- `w_i`, sb_sw.py:143 -/
noncomputable def ndaWi (query : Query n) (K : Nat) (alpha : ℝ) (rows : List (CRow n)) (C i : Nat) : ℝ :=
  ((ndaPairs rows C i).map (fun p => ndaWeight query K alpha rows i p.1 p.2)).sum

/-- `Sb_i`, sb_sw.py:142 -/
noncomputable def ndaSbi (query : Query n) (K : Nat) (alpha : ℝ) (rows : List (CRow n)) (C i : Nat) : Matrix (Fin n) (Fin n) ℝ :=
  ((ndaPairs rows C i).map (fun p => ndaWeight query K alpha rows i p.1 p.2 •
    Matrix.vecMulVec (ndaEntry query K alpha rows p.1 p.2).2 (ndaEntry query K alpha rows p.1 p.2).2)).sum

/-- the contribution of class `i` to `Sw`, sb_sw.py:138-140 -/
noncomputable def ndaSwi (query : Query n) (K : Nat) (alpha : ℝ) (rows : List (CRow n)) (i : Nat) : Matrix (Fin n) (Fin n) ℝ :=
  ((ofClass rows i).map (fun x => (1 / ((ofClass rows i).length : ℝ)) •
    Matrix.vecMulVec (ndaEntry query K alpha rows i x).2 (ndaEntry query K alpha rows i x).2)).sum

/-- `self.num_classes = np.max(u_ids)+1`, sb_sw.py:111 -/
def ndaNumClasses (rows : List (CRow n)) : Nat := (npUnique (rows.map Prod.fst)).foldl max 0 + 1

/-- attributes of `NSbSw` after `fit` with `normalize` -/
structure NdaStats (n : Nat) where
  mu : Vec n
  Sb : Matrix (Fin n) (Fin n) ℝ
  Sw : Matrix (Fin n) (Fin n) ℝ
  numClasses : Nat

open Classical in
/-- the cases in which `fit` raises or leaves NaN in `Sb`, sb_sw.py:103-156: no rows; more neighbours than rows in a class
(`tree.query` raises); a row at distance zero of both neighbourhoods; weights `w_i` that are all zero -/
noncomputable def ndaFails (query : Query n) (K : Nat) (alpha : ℝ) (rows : List (CRow n)) : Bool :=
  decide (rows = []) || decide (K = 0) ||
  decide (∃ i ∈ npUnique (rows.map Prod.fst), (ofClass rows i).length < K) ||
  decide (∃ i ∈ npUnique (rows.map Prod.fst), ∃ p ∈ ndaPairs rows (ndaNumClasses rows) i,
    (ndaEntry query K alpha rows i p.2).1 + (ndaEntry query K alpha rows p.1 p.2).1 = 0) ||
  decide (∃ i ∈ npUnique (rows.map Prod.fst), ndaWi query K alpha rows (ndaNumClasses rows) i = 0)

/-- `NSbSw(K, alpha).fit(x, class_ids)`, sb_sw.py:103-156 -/
noncomputable def ndaStats (query : Query n) (K : Nat) (alpha : ℝ) (rows : List (CRow n)) : Option (NdaStats n) :=
  let ids := npUnique (rows.map Prod.fst)
  let C := ndaNumClasses rows
  if ndaFails query K alpha rows then none
  else
    some ⟨fun k => ((ids.map (fun i => pcaMu (ofClass rows i))).sum) k / C,
      (1 / (C : ℝ)) • (ids.map (fun i => (1 / ndaWi query K alpha rows C i) • ndaSbi query K alpha rows C i)).sum,
      (1 / (C : ℝ)) • (ids.map (fun i => ndaSwi query K alpha rows i)).sum, C⟩

/-- `NDA.fit`, nda.py:35-53, after `d, V = la.eigh(Sb, Sw)`: mean and columns of `T`; `none`: the assertion -/
noncomputable def ndaFit (s : NdaStats (n + 1)) (V : Matrix (Fin (n + 1)) (Fin (n + 1)) ℝ) (ndaDim : Option Nat) :
    Option (Vec (n + 1) × List (Vec (n + 1))) := (pcaCols V ndaDim).map (fun T => (s.mu, T))

/-- `train_nda` of train-nda.py:27-62, without reading and saving: the trained mean and columns; `eig` is `la.eigh`. After
the training the statistics are computed again on the transformed data with the default options `K=10, alpha=1`; `none`: an
exception (not raised for the NaN of this second computation, which is only logged). -/
noncomputable def trainNda (query : Query (n + 1)) (eig : NdaStats (n + 1) → Option (Matrix (Fin (n + 1)) (Fin (n + 1)) ℝ))
    (K : Nat) (alpha : ℝ) (ndaDim : Option Nat) (rows : List (CRow (n + 1))) : Option (Vec (n + 1) × List (Vec (n + 1))) := do
  let s ← ndaStats query K alpha rows
  let V ← eig s
  let m ← ndaFit s V ndaDim
  if (npUnique (rows.map Prod.fst)).any (fun i => decide ((ofClass rows i).length < 10)) then none
  else return m

end Hyp.Transforms
