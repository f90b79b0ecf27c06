import Verif.Np
import Verif.Round
import Mathlib.LinearAlgebra.Matrix.NonsingularInverse
import Mathlib.Analysis.SpecialFunctions.Sqrt
import Mathlib.Data.Real.Sqrt
import Mathlib.Data.List.FinRange

/-!
Model of /repo/hyperion/transforms/{cent_whiten,lnorm,pca,mvn,lda,sb_sw,nap,gaussianizer}.py over the real
numbers (exact arithmetic).

A data set is a list of rows; rows are vectors of dimension `n + 1` (the code reads row 0 of the eigenvectors). A
transformation matrix `T` is the list of its columns, so that `np.dot(x, T)` is the list of the products of `x` with the
columns. The eigenvalue routines of LAPACK are not modelled: `IsEigh` and `IsEighGen` say what they are documented to
return (see DESIGN.md, trusted base).
-/

namespace Hyp.Transforms
open scoped BigOperators
open Matrix

variable {n : Nat}

abbrev Vec (n : Nat) := Fin n → ℝ

/-- result of `la.eigh(C)`: eigenvalues in ascending order, orthonormal eigenvectors as columns; cent_whiten.py:58,
pca.py:57 -/
structure IsEigh (C : Matrix (Fin n) (Fin n) ℝ) (d : Vec n) (V : Matrix (Fin n) (Fin n) ℝ) : Prop where
  asc : ∀ i j, i ≤ j → d i ≤ d j
  orth : Vᵀ * V = 1
  eig : C * V = V * Matrix.diagonal d

/-- result of `la.eigh(Sb, Sw)`: generalised eigenvectors, `V' Sw V = 1`; lda.py:64 -/
structure IsEighGen (Sb Sw : Matrix (Fin n) (Fin n) ℝ) (d : Vec n) (V : Matrix (Fin n) (Fin n) ℝ) : Prop where
  asc : ∀ i j, i ≤ j → d i ≤ d j
  orth : Vᵀ * Sw * V = 1
  eig : Sb * V = Sw * V * Matrix.diagonal d

open Classical in
/-- `p = V[0,:] < 0; V[:,p] *= -1` on one column, cent_whiten.py:62-63, pca.py:60-61, lda.py:67-68 -/
noncomputable def signFix (v : Vec (n + 1)) : Vec (n + 1) := if v 0 < 0 then -v else v

/-- `np.fliplr` on the column numbers: the largest eigenvalue first -/
def flipped (n : Nat) : List (Fin n) := (List.finRange n).reverse

open Classical in
/-- cent_whiten.py:58-69: the columns of `T`: eigenvectors divided by the square root of their eigenvalue, largest
eigenvalue first, sign fixed, columns of eigenvalues that are not positive dropped (before that they hold infinities or
NaN) -/
noncomputable def whitenCols (d : Vec (n + 1)) (V : Matrix (Fin (n + 1)) (Fin (n + 1)) ℝ) : List (Vec (n + 1)) :=
  ((flipped (n + 1)).filter (fun j => decide (0 < d j))).map (fun j => signFix (fun i => V i j * Real.sqrt (1 / d j)))

/-- `predict` with `mu` and `T`, cent_whiten.py:33-42 (`T` a matrix), pca.py:32-35, lda.py:36-39, on one row -/
def project (mu : Vec n) (T : List (Vec n)) (x : Vec n) : List ℝ := T.map (fun t => (x - mu) ⬝ᵥ t)

/-- a row and its sample weight -/
abbrev WRow (n : Nat) := Vec n × ℝ

/-- `sum_i w_i f(x_i) / sum_i w_i` -/
noncomputable def avg (rows : List (WRow n)) (f : Vec n → ℝ) : ℝ :=
  (rows.map (fun r => r.2 * f r.1)).sum / (rows.map (fun r => r.2)).sum

/-- normal.py:117-126 (`F/N`), exp_family.py:42-44 -/
noncomputable def gaussMu (rows : List (WRow n)) : Vec n := fun i => avg rows (fun x => x i)

/-- `gauss.Sigma` after `gauss.fit`, normal.py:122-128, 83-87: `S/N - outer(mu, mu)`; it is inverted twice -/
noncomputable def gaussSigma (rows : List (WRow n)) : Matrix (Fin n) (Fin n) ℝ :=
  Matrix.of (fun i j => avg rows (fun x => x i * x j) - gaussMu rows i * gaussMu rows j)

/-- cent_whiten.py:47-56: the mean and the matrix that is whitened. With no more rows than dimensions the matrix is the
identity and the mean is not weighted. -/
noncomputable def whitenStats (rows : List (WRow n)) : Vec n × Matrix (Fin n) (Fin n) ℝ :=
  if n < rows.length then (gaussMu rows, gaussSigma rows)
  else (fun i => (rows.map (fun r => r.1 i)).sum / rows.length, 1)

/-- `LNorm.predict`, lnorm.py:19-22, after centering and whitening -/
noncomputable def lnorm (y : List ℝ) : List ℝ :=
  y.map (fun v => Real.sqrt y.length * v / (Real.sqrt (y.map (fun v => v ^ 2)).sum + 1 / 10 ^ 10))

/-! ### PCA -/

/-- pca.py:42-44: mean of the data; the sample weights are ignored -/
noncomputable def pcaMu (rows : List (Vec n)) : Vec n := fun i => (rows.map (fun x => x i)).sum / rows.length

/-- pca.py:43-44 -/
noncomputable def pcaCov (rows : List (Vec n)) : Matrix (Fin n) (Fin n) ℝ :=
  Matrix.of (fun i j => (rows.map (fun x => (x - pcaMu rows) i * (x - pcaMu rows) j)).sum / rows.length)

/-- pca.py:56-67; `none`: the assertion `pca_dim <= V.shape[1]` -/
noncomputable def pcaCols (V : Matrix (Fin (n + 1)) (Fin (n + 1)) ℝ) (pcaDim : Option Nat) : Option (List (Vec (n + 1))) :=
  let cols := (flipped (n + 1)).map (fun j => signFix (fun i => V i j))
  match pcaDim with
  | none => some cols
  | some k => if k ≤ n + 1 then some (cols.take k) else none

/-! ### MVN -/

/-- `fit`, mvn.py:34-36: `np.std` -/
noncomputable def mvnStd (rows : List (Vec n)) : Vec n := fun i => Real.sqrt (pcaCov rows i i)

/-- `predict` after `fit`, mvn.py:26-31 -/
noncomputable def mvnPredict (mu s x : Vec n) : Vec n := fun i => (x i - mu i) / s i

/-! ### between and within class matrices, LDA -/

/-- a row with its class -/
abbrev CRow (n : Nat) := Nat × Vec n

/-- `x[class_ids==i]`, sb_sw.py:39-41 -/
def ofClass (rows : List (CRow n)) (c : Nat) : List (Vec n) := (rows.filter (fun r => decide (r.1 = c))).map Prod.snd

/-- attributes of `SbSw`, sb_sw.py:21-28. The constructor ignores its arguments `Sb`, `Sw` and `mu`. -/
structure SbSw (n : Nat) where
  Sb : Option (Matrix (Fin n) (Fin n) ℝ)
  Sw : Option (Matrix (Fin n) (Fin n) ℝ)
  mu : Option (Vec n)
  numClasses : Nat

/-- the constructor, sb_sw.py:23-28 -/
def SbSw.new (_Sb _Sw : Option (Matrix (Fin n) (Fin n) ℝ)) (_mu : Option (Vec n)) (numClasses : Nat) : SbSw n :=
  ⟨none, none, none, numClasses⟩

/-- one class of the loop of `fit`: its contribution to `mu`, `Sb` and `Sw`, sb_sw.py:38-46 -/
noncomputable def classStats (x : List (Vec n)) : Vec n × Matrix (Fin n) (Fin n) ℝ × Matrix (Fin n) (Fin n) ℝ :=
  (pcaMu x, Matrix.vecMulVec (pcaMu x) (pcaMu x), pcaCov x)

/-- `fit(x, class_ids, normalize=False)`, sb_sw.py:31-46 -/
noncomputable def SbSw.fitRaw (rows : List (CRow n)) : SbSw n :=
  let ids := npUnique (rows.map Prod.fst)
  ⟨some ((ids.map (fun c => (classStats (ofClass rows c)).2.1)).sum), some ((ids.map (fun c => (classStats (ofClass rows c)).2.2)).sum),
    some ((ids.map (fun c => (classStats (ofClass rows c)).1)).sum), ids.length⟩

/-- `normalize`, sb_sw.py:52-56; `none`: `None / int` raises -/
noncomputable def SbSw.normalize (s : SbSw n) : Option (SbSw n) := do
  let mu ← s.mu
  let Sb ← s.Sb
  let Sw ← s.Sw
  let m : Vec n := fun i => mu i / s.numClasses
  return ⟨some (Matrix.of (fun i j => Sb i j / s.numClasses - m i * m j)), some (Matrix.of (fun i j => Sw i j / s.numClasses)),
    some m, s.numClasses⟩

/-- `fit(x, class_ids)`, sb_sw.py:31-49 -/
noncomputable def SbSw.fit (rows : List (CRow n)) : Option (SbSw n) := (SbSw.fitRaw rows).normalize

/-- `accum_stats`, sb_sw.py:60-71; `none`: an attribute of one of the parts is `None`, or there are no parts -/
noncomputable def SbSw.accumStats (parts : List (SbSw n)) : Option (SbSw n) :=
  match parts with
  | [] => none
  | _ => do
    let mus ← parts.mapM (fun s => s.mu)
    let Sbs ← parts.mapM (fun s => s.Sb)
    let Sws ← parts.mapM (fun s => s.Sw)
    return SbSw.new (some Sbs.sum) (some Sws.sum) (some mus.sum) ((parts.map (fun s => s.numClasses)).sum)

/-- lda.py:64-75; `none`: the assertion `lda_dim <= V.shape[1]` -/
noncomputable def ldaCols (V : Matrix (Fin (n + 1)) (Fin (n + 1)) ℝ) (ldaDim : Option Nat) : Option (List (Vec (n + 1))) :=
  pcaCols V ldaDim

/-! ### NAP -/

/-- `predict`, nap.py:25-26; the rows of `U` are the directions that are removed. `fit` raises (`np.uniqe`). -/
def napPredict {k : Nat} (U : Matrix (Fin k) (Fin n) ℝ) (x : Vec n) : Vec n := x - (x ᵥ* Uᵀ) ᵥ* U

/-! ### Gaussianizer -/

open Classical in
/-- `np.searchsorted(r, x)` (side 'left') for sorted `r`, gaussianizer.py:40 -/
noncomputable def searchSorted (r : List ℝ) (x : ℝ) : Nat := (r.takeWhile (fun v => decide (v < x))).length

/-- `np.round(np.linspace(0, n-1, m)).astype(int)`, gaussianizer.py:55 (`m = 1` gives `[0]`) -/
def subIdx (n m : Nat) : List Nat :=
  (List.range m).map (fun i : Nat => (roundEven ((i : ℚ) * ((n : ℚ) - 1) / ((m : ℚ) - 1))).toNat)

open Classical in
/-- one column of `self.r[1:]` after `fit`, gaussianizer.py:48-58: the sorted values, at most `max_vectors` of them, evenly
spaced. `none`: `max_vectors=None` cannot be compared with a number. -/
noncomputable def gaussFit (maxVectors : Option Nat) (x : List ℝ) : Option (List ℝ) :=
  match maxVectors with
  | none => none
  | some m =>
    let r := x.mergeSort (fun a b => decide (a ≤ b))
    if r.length > m then gather r (subIdx r.length m) else some r

/-- `y_map[y_index]` for one column, gaussianizer.py:32-43: `m` is the number of stored background values (without the
first row, which is dropped), `quantile p` stands for `erfinv(2*p-1)*sqrt(2)`. `np.linspace(0, 1, m+3)[1:-1]` has the
`m + 1` elements `(i+1)/(m+2)`. `none`: IndexError. -/
noncomputable def gaussianize (quantile : ℝ → ℝ) (r : List ℝ) (x : ℝ) : Option ℝ :=
  if searchSorted r x < r.length + 1 then some (quantile ((searchSorted r x + 1 : ℕ) / (r.length + 2 : ℕ))) else none

end Hyp.Transforms
