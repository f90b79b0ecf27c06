import Verif.Plda.Spec
import Verif.Np
import Mathlib.Analysis.SpecialFunctions.Log.Basic

/-!
Model of /repo/hyperion/pdfs/plda/{plda_base,frplda,splda,plda}.py and of the matrix helpers of
/repo/hyperion/utils/math.py over the real numbers (exact arithmetic). LAPACK's Cholesky factorisation is an
oracle `chol` with the property `IsCholesky`; triangular solves are products with the inverse.
-/

namespace Hyp.Plda
open scoped BigOperators
open Matrix

variable {k n : Nat}

/-- `la.cholesky(A)` / `sla.cholesky(A, lower=False)`: for a positive definite `A` the upper triangular `R` with positive
diagonal and `R' R = A` (trusted base; a positive semidefinite argument that is not definite raises in the code) -/
def IsCholesky (chol : (n : Nat) → Mat n n → Mat n n) : Prop :=
  ∀ (n : Nat) (A : Mat n n), A.PosDef →
    (∀ i j : Fin n, j < i → chol n A i j = 0) ∧ (∀ i, 0 < chol n A i i) ∧ (chol n A)ᵀ * chol n A = A

/-- `invert_trimat(R, right_inv=True)[0]`, math.py:86-87: `x R^{-1}` -/
noncomputable def triRight (R : Mat n n) (x : Vec n) : Vec n := x ᵥ* R⁻¹

/-- `invert_trimat(R, return_logdet=True)[1]`, math.py:96-98 -/
noncomputable def logdetTri (R : Mat n n) : ℝ := ∑ i, Real.log (R i i)

variable (chol : (n : Nat) → Mat n n → Mat n n)

/-- `logdet_pdmat`, math.py:18-23; also `invert_pdmat(..., return_logdet=True)[2]`, math.py:54-56 -/
noncomputable def logdetPd (A : Mat n n) : ℝ := 2 * ∑ i, Real.log (chol n A i i)

/-- `invert_pdmat(A, right_inv=True)[0]`, math.py:43-46: `la.cho_solve` with the factor `R` computes `R^{-1} R'^{-1} x` -/
noncomputable def pdRight (A : Mat n n) (x : Vec n) : Vec n := (chol n A)⁻¹ *ᵥ (((chol n A)ᵀ)⁻¹ *ᵥ x)

/-- `invert_pdmat(A, return_inv=True)[-1]`, math.py:58-60 -/
noncomputable def pdInv (A : Mat n n) : Mat n n := (chol n A)⁻¹ * ((chol n A)ᵀ)⁻¹

/-! ### sufficient statistics -/

/-- `(N, F, S)`: `N[c]`, `F[c]` for `c < M` -/
structure Stats (n : Nat) where
  M : Nat
  N : Nat → ℝ
  F : Nat → Vec n
  S : Mat n n

/-- `compute_stats_soft(x, p_theta)`, plda_base.py:223-232, with `M` columns of `p_theta` (without the optional weights) -/
noncomputable def statsSoft (M : Nat) (rows : List (Vec n × (Nat → ℝ))) : Stats n where
  M := M
  N := fun c => (rows.map (fun r => r.2 c)).sum
  F := fun c => (rows.map (fun r => r.2 c • r.1)).sum
  S := (rows.map (fun r => ((List.range M).map r.2).sum • Matrix.vecMulVec r.1 r.1)).sum

/-- `compute_stats_hard(x, class_ids)`, plda_base.py:236-241; `none`: `np.max` of no rows raises -/
noncomputable def statsHard (rows : List (Vec n × Nat)) : Option (Stats n) :=
  match (rows.map Prod.snd).max? with
  | none => none
  | some m => some (statsSoft (m + 1) (rows.map (fun r => (r.1, fun c => if c = r.2 then (1 : ℝ) else 0))))

/-! ### full-rank PLDA -/

/-- parameters of `FRPLDA`, frplda.py:21-31 -/
structure FR (n : Nat) where
  mu : Vec n
  B : Mat n n
  W : Mat n n

/-- one entry of `llr_1vs1`, frplda.py:266-304 (rows of `x1` and `x2` are treated independently) -/
noncomputable def FR.llr1vs1 (g : FR n) (x1 x2 : Vec n) : ℝ :=
  let Rnon := chol n (g.B + g.W)
  let logLnon := 2 * logdetTri Rnon
  let Rtar := chol n (g.B + (2 : ℝ) • g.W)
  let logLtar := 2 * logdetTri Rtar
  let WF1 := x1 ᵥ* g.W
  let WF2 := x2 ᵥ* g.W
  let Bmu := g.mu ᵥ* g.B
  let non1 := triRight Rnon (WF1 + Bmu)
  let non2 := triRight Rnon (WF2 + Bmu)
  let tar1 := triRight Rtar (WF1 + (1 / 2 : ℝ) • Bmu)
  let tar2 := triRight Rtar (WF2 + (1 / 2 : ℝ) • Bmu)
  (2 * (tar1 ⬝ᵥ tar2) + (tar1 ⬝ᵥ tar1 - non1 ⬝ᵥ non1 + tar2 ⬝ᵥ tar2 - non2 ⬝ᵥ non2) +
    (2 * logLnon - logLtar - logdetPd chol g.B + (g.mu ᵥ* g.B) ⬝ᵥ g.mu)) * (1 / 2)

/-- the block of `llr_NvsM_book` for counts `a` and `b`, frplda.py:320-358 -/
noncomputable def FR.bookBlock (g : FR n) (a b : ℝ) (F1 F2 : Vec n) : ℝ :=
  let R1 := chol n (g.B + a • g.W)
  let R2 := chol n (g.B + b • g.W)
  let Rtar := chol n (g.B + (a + b) • g.W)
  let Bmu := g.mu ᵥ* g.B
  let WF1 := F1 ᵥ* g.W
  let WF2 := F2 ᵥ* g.W
  let non1 := triRight R1 (WF1 + Bmu)
  let non2 := triRight R2 (WF2 + Bmu)
  let tar1 := triRight Rtar (WF1 + (1 / 2 : ℝ) • Bmu)
  let tar2 := triRight Rtar (WF2 + (1 / 2 : ℝ) • Bmu)
  2 * (tar1 ⬝ᵥ tar2) + (tar1 ⬝ᵥ tar1 - non1 ⬝ᵥ non1 + tar2 ⬝ᵥ tar2 - non2 ⬝ᵥ non2) +
    (2 * logdetTri R1 + 2 * logdetTri R2 - 2 * logdetTri Rtar)

open Classical in
/-- the two loops over the distinct counts, writing `scores[np.ix_(i,j)]`, frplda.py:317-359 -/
noncomputable def FR.bookLoop (g : FR n) (D1 D2 : Stats n) (pairs : List (ℝ × ℝ)) (scores : Nat → Nat → ℝ) : Nat → Nat → ℝ :=
  pairs.foldl (fun s ab i j => if D1.N i = ab.1 ∧ D2.N j = ab.2 then g.bookBlock chol ab.1 ab.2 (D1.F i) (D2.F j) else s i j) scores

/-- the distinct counts, `np.unique(N)` -/
noncomputable def Stats.counts (D : Stats n) : List ℝ := npUnique ((List.range D.M).map D.N)

/-- `llr_NvsM_book`, frplda.py:308-363: the score of class `i` of `D1` against class `j` of `D2` -/
noncomputable def FR.book (g : FR n) (D1 D2 : Stats n) (i j : Nat) : ℝ :=
  let s := g.bookLoop chol D1 D2 (D1.counts.flatMap (fun a => D2.counts.map (fun b => (a, b)))) (fun _ _ => 0)
  (s i j + (-logdetPd chol g.B + (g.mu ᵥ* g.B) ⬝ᵥ g.mu)) * (1 / 2)

/-! ### averaging methods, any PLDA with a 1vs1 score -/

/-- `llr_NvsM_vavg(D1, D2, do_lnorm=False)`, plda_base.py:269-278 -/
noncomputable def nvsmVavg (score : Vec n → Vec n → ℝ) (D1 D2 : Stats n) (i j : Nat) : ℝ :=
  score (fun l => D1.F i l / D1.N i) (fun l => D2.F j l / D2.N j)

/-- `llr_NvsM_savg`, plda_base.py:281-287: average over the rows of class `i` of `x1`, then over those of class `j` of `x2` -/
noncomputable def nvsmSavg (score : Vec n → Vec n → ℝ) (rows1 rows2 : List (Vec n × Nat)) (i j : Nat) : ℝ :=
  let nvs1 : Vec n → ℝ := fun x2 => (rows1.map (fun r => (if i = r.2 then (1 : ℝ) else 0) * score r.1 x2)).sum /
    (rows1.map (fun r => if i = r.2 then (1 : ℝ) else 0)).sum
  (rows2.map (fun r => (if j = r.2 then (1 : ℝ) else 0) * nvs1 r.1)).sum / (rows2.map (fun r => if j = r.2 then (1 : ℝ) else 0)).sum

/-! ### simplified PLDA and PLDA -/

/-- parameters of `SPLDA`, splda.py:21-31; `V` has `y_dim` rows -/
structure SP (k n : Nat) where
  mu : Vec n
  V : Mat k n
  W : Mat n n

/-- one entry of `llr_1vs1` given the matrices `VW = W V'` and `VV = V W V'`, splda.py:283-320, plda.py:424-462 -/
noncomputable def lowRankLlr (mu : Vec n) (WV : Mat n k) (VV : Mat k k) (x1 x2 : Vec n) : ℝ :=
  let Rnon := chol k (1 + VV)
  let logLnon := 2 * logdetTri Rnon
  let Rtar := chol k (1 + (2 : ℝ) • VV)
  let logLtar := 2 * logdetTri Rtar
  let VWF1 := (x1 - mu) ᵥ* WV
  let VWF2 := (x2 - mu) ᵥ* WV
  let non1 := triRight Rnon VWF1
  let non2 := triRight Rnon VWF2
  let tar1 := triRight Rtar VWF1
  let tar2 := triRight Rtar VWF2
  (2 * (tar1 ⬝ᵥ tar2) + (tar1 ⬝ᵥ tar1 - non1 ⬝ᵥ non1 + tar2 ⬝ᵥ tar2 - non2 ⬝ᵥ non2) + (2 * logLnon - logLtar)) * (1 / 2)

/-- `SPLDA.llr_1vs1`, splda.py:283-320 -/
noncomputable def SP.llr1vs1 (g : SP k n) (x1 x2 : Vec n) : ℝ :=
  lowRankLlr chol g.mu (g.W * g.Vᵀ) (g.V * (g.W * g.Vᵀ)) x1 x2

/-- parameters of `PLDA`, plda.py:21-50; `D` is the diagonal of a precision matrix -/
structure Full (k l n : Nat) where
  mu : Vec n
  V : Mat k n
  U : Mat l n
  D : Vec n

variable {l : Nat}

/-- `compute_aux`, plda.py:71-82: `DU` -/
def Full.DU (g : Full k l n) : Mat l n := Matrix.of (fun i j => g.U i j * g.D j)
/-- `_J` -/
def Full.J (g : Full k l n) : Mat k l := g.V * g.DUᵀ
/-- `_Lz` -/
def Full.Lz (g : Full k l n) : Mat l l := 1 + g.DU * g.Uᵀ
/-- `DUiLz`: `mult_iLz` on every row of `DU'` -/
noncomputable def Full.DUiLz (g : Full k l n) : Mat n l := Matrix.of (fun j => pdRight chol g.Lz (fun i => g.DU i j))
/-- `_W` -/
noncomputable def Full.W (g : Full k l n) : Mat n n := Matrix.diagonal g.D - g.DUiLz chol * g.DU
/-- `_VW` -/
noncomputable def Full.VW (g : Full k l n) : Mat n k :=
  (Matrix.of (fun i j => g.V i j * g.D j))ᵀ - g.DUiLz chol * g.Jᵀ
/-- `_VWV` -/
noncomputable def Full.VWV (g : Full k l n) : Mat k k := g.V * g.VW chol

/-- `PLDA.llr_1vs1`, plda.py:424-462 -/
noncomputable def Full.llr1vs1 (g : Full k l n) (x1 x2 : Vec n) : ℝ := lowRankLlr chol g.mu (g.VW chol) (g.VWV chol) x1 x2

/-! ### posterior of the speaker variable, E step, bound -/

/-- `FRPLDA.compute_py_g_x` for one class, frplda.py:82-161: posterior mean, posterior covariance, log posterior density at
zero -/
noncomputable def FR.posterior (g : FR n) (N : ℝ) (F : Vec n) : Vec n × Mat n n × ℝ :=
  let gamma := F ᵥ* g.W + g.mu ᵥ* g.B
  let L := g.B + N • g.W
  let y := pdRight chol L gamma
  (y, pdInv chol L, -(1 / 2) * n * Real.log (2 * Real.pi) + 1 / 2 * (logdetPd chol L - y ⬝ᵥ gamma))

/-- statistics of the E step, frplda.py:165-184 -/
structure FRAcc (n : Nat) where
  N : ℝ
  M : ℝ
  S : Mat n n
  logpy : ℝ
  y : Vec n
  Ry : Mat n n
  Cy : Mat n n
  Py : Mat n n

/-- `FRPLDA.Estep`, frplda.py:165-184. `Ry` does not get the posterior covariances (frplda.py:146-147 only adds them to
`Py`). -/
noncomputable def FR.estep (g : FR n) (D : Stats n) : FRAcc n :=
  let cs := List.range D.M
  let post := fun c => g.posterior chol (D.N c) (D.F c)
  { N := (cs.map D.N).sum
    M := D.M
    S := D.S
    logpy := (cs.map (fun c => (post c).2.2)).sum
    y := (cs.map (fun c => (post c).1)).sum
    Ry := (cs.map (fun c => D.N c • Matrix.vecMulVec (post c).1 (post c).1)).sum
    Cy := (cs.map (fun c => Matrix.vecMulVec (D.F c) (post c).1)).sum
    Py := (cs.map (fun c => (post c).2.1)).sum + (cs.map (fun c => Matrix.vecMulVec (post c).1 (post c).1)).sum }

/-- `FRPLDA.elbo`, frplda.py:187-199 -/
noncomputable def FR.elbo (g : FR n) (a : FRAcc n) : ℝ :=
  1 / 2 * (-a.N * n * Real.log (2 * Real.pi) + a.N * logdetPd chol g.W - ∑ i, ∑ j, g.W i j * a.S i j) +
    1 / 2 * a.M * (-n * Real.log (2 * Real.pi) + logdetPd chol g.B - (g.mu ᵥ* g.B) ⬝ᵥ g.mu) - a.logpy

/-- update options of `FRPLDA`, frplda.py:21-31 -/
structure FRCfg where
  updateMu : Bool
  updateB : Bool
  updateW : Bool
  fullcovW : Bool

/-- `FRPLDA.MstepML`, frplda.py:214-232 (`muybar` is subtracted twice instead of once with its transpose) -/
noncomputable def FR.mstep (cfg : FRCfg) (g : FR n) (a : FRAcc n) : FR n :=
  let ybar : Vec n := fun i => a.y i / a.M
  let mu := if cfg.updateMu then ybar else g.mu
  let iB : Mat n n := if cfg.updateMu then (1 / a.M) • a.Py - Matrix.vecMulVec mu mu
    else (1 / a.M) • a.Py - Matrix.vecMulVec mu ybar - Matrix.vecMulVec mu ybar + Matrix.vecMulVec mu mu
  let iW : Mat n n := (1 / a.N) • (a.S - a.Cy - a.Cyᵀ + a.Ry)
  { mu := mu
    B := if cfg.updateB then pdInv chol iB else g.B
    W := if cfg.updateW then (if cfg.fullcovW then pdInv chol iW else Matrix.diagonal (fun i => 1 / iW i i)) else g.W }

/-- `PLDABase.fit` after initialisation, plda_base.py:69-82 (`MstepMD` does nothing for `FRPLDA`): the bounds of the epochs
and the final model -/
noncomputable def FR.fit (cfg : FRCfg) (D : Stats n) : Nat → FR n → List ℝ × FR n
  | 0, g => ([], g)
  | e + 1, g =>
    let a := g.estep chol D
    let r := FR.fit cfg D e (g.mstep chol cfg a)
    (g.elbo chol a :: r.1, r.2)

/-- `SPLDA.compute_py_g_x` for one class, splda.py:78-160: the statistics are centred with `F - mu` whatever the count -/
noncomputable def SP.posterior (g : SP k n) (N : ℝ) (F : Vec n) : Vec k × Mat k k × ℝ :=
  let Fc := F - g.mu
  let WV := g.W * g.Vᵀ
  let gamma := Fc ᵥ* WV
  let L := 1 + N • (g.V * WV)
  let y := pdRight chol L gamma
  (y, pdInv chol L, -(1 / 2) * k * Real.log (2 * Real.pi) + 1 / 2 * (logdetPd chol L - y ⬝ᵥ gamma))

/-- statistics of the E step of `SPLDA`, splda.py:162-182 -/
structure SPAcc (k n : Nat) where
  N : ℝ
  M : ℝ
  F : Vec n
  S : Mat n n
  logpy : ℝ
  y : Vec k
  Ry1 : Vec k
  Ry : Mat k k
  Cy : Mat n k
  Py : Mat k k

/-- the sums of `Estep` for any function that gives the posterior of a class, splda.py:162-182, plda.py:200-228 -/
noncomputable def accOf (post : ℝ → Vec n → Vec k × Mat k k × ℝ) (D : Stats n) : SPAcc k n :=
  let cs := List.range D.M
  let p := fun c => post (D.N c) (D.F c)
  { N := (cs.map D.N).sum
    M := D.M
    F := (cs.map D.F).sum
    S := D.S
    logpy := (cs.map (fun c => (p c).2.2)).sum
    y := (cs.map (fun c => (p c).1)).sum
    Ry1 := (cs.map (fun c => D.N c • (p c).1)).sum
    Ry := (cs.map (fun c => D.N c • (p c).2.1)).sum + (cs.map (fun c => D.N c • Matrix.vecMulVec (p c).1 (p c).1)).sum
    Cy := (cs.map (fun c => Matrix.vecMulVec (D.F c) (p c).1)).sum
    Py := (cs.map (fun c => (p c).2.1)).sum + (cs.map (fun c => Matrix.vecMulVec (p c).1 (p c).1)).sum }

/-- `SPLDA.Estep`, splda.py:162-182 -/
noncomputable def SP.estep (g : SP k n) (D : Stats n) : SPAcc k n := accOf (g.posterior chol) D

/-- `Shat` of `elbo`, splda.py:189-190 -/
noncomputable def shat (mu : Vec n) (a : SPAcc k n) : Mat n n :=
  let Fmu := Matrix.vecMulVec a.F mu
  a.S - Fmu - Fmuᵀ + a.N • Matrix.vecMulVec mu mu

/-- `SPLDA.elbo`, splda.py:185-197 -/
noncomputable def SP.elbo (g : SP k n) (a : SPAcc k n) : ℝ :=
  1 / 2 * (-a.N * n * Real.log (2 * Real.pi) + a.N * logdetPd chol g.W - ∑ i, ∑ j, g.W i j * shat g.mu a i j) +
    -(1 / 2) * a.M * k * Real.log (2 * Real.pi) - a.logpy

/-- `np.vstack((V, mu))`, splda.py:224 -/
def augV (V : Mat k n) (mu : Vec n) : Mat (k + 1) n := Matrix.of (Fin.snoc (α := fun _ => Vec n) V mu)

/-- `Rytilde`, splda.py:203-205 -/
def augR (Ry : Mat k k) (Ry1 : Vec k) (N : ℝ) : Mat (k + 1) (k + 1) :=
  Matrix.of (Fin.snoc (α := fun _ => Vec (k + 1)) (fun i => Fin.snoc (α := fun _ => ℝ) (Ry i) (Ry1 i)) (Fin.snoc (α := fun _ => ℝ) Ry1 N))

/-- `Cytilde`, splda.py:207 -/
def augC (Cy : Mat n k) (F : Vec n) : Mat n (k + 1) := Matrix.of (fun i => Fin.snoc (α := fun _ => ℝ) (Cy i) (F i))

/-- `invert_pdmat(A)[0](X)`: `la.cho_solve((R, False), X)`, math.py:48 -/
noncomputable def pdLeft {m : Nat} (A : Mat m m) (X : Mat m n) : Mat m n := (chol m A)⁻¹ * (((chol m A)ᵀ)⁻¹ * X)

/-- update options of `SPLDA`, splda.py:21-31 -/
structure SPCfg where
  updateMu : Bool
  updateV : Bool
  updateW : Bool
  fullcovW : Bool

/-- the updates of `V` and `mu`, splda.py:209-221 -/
noncomputable def SP.updVmu (cfg : SPCfg) (g : SP k n) (a : SPAcc k n) : Mat k n × Vec n :=
  match cfg.updateMu, cfg.updateV with
  | true, false => (g.V, fun j => (a.F j - (a.Ry1 ᵥ* g.V) j) / a.N)
  | false, true => (pdLeft chol a.Ry (a.Cyᵀ - Matrix.vecMulVec a.Ry1 g.mu), g.mu)
  | true, true =>
    let Vt := pdLeft chol (augR a.Ry a.Ry1 a.N) (augC a.Cy a.F)ᵀ
    (Matrix.of (fun i => Vt i.castSucc), Vt (Fin.last k))
  | false, false => (g.V, g.mu)

/-- `iW`, splda.py:224-230 -/
noncomputable def SP.iW (cfg : SPCfg) (V : Mat k n) (mu : Vec n) (a : SPAcc k n) : Mat n n :=
  if cfg.updateMu && cfg.updateV then (1 / a.N) • (a.S - a.Cy * V - Matrix.vecMulVec a.F mu)
  else
    let Vt := augV V mu
    let CVt := augC a.Cy a.F * Vt
    (1 / a.N) • (a.S - CVt - CVtᵀ + Vtᵀ * augR a.Ry a.Ry1 a.N * Vt)

/-- `SPLDA.MstepML`, splda.py:200-234 -/
noncomputable def SP.mstepML (cfg : SPCfg) (g : SP k n) (a : SPAcc k n) : SP k n :=
  let Vm := g.updVmu chol cfg a
  let iW := SP.iW cfg Vm.1 Vm.2 a
  { mu := Vm.2
    V := Vm.1
    W := if cfg.updateW then (if cfg.fullcovW then pdInv chol iW else Matrix.diagonal (fun i => 1 / iW i i)) else g.W }

/-- `SPLDA.MstepMD`, splda.py:237-247 -/
noncomputable def SP.mstepMD (cfg : SPCfg) (g : SP k n) (a : SPAcc k n) : SP k n :=
  let muy : Vec k := fun i => a.y i / a.M
  { mu := if cfg.updateMu then g.mu + muy ᵥ* g.V else g.mu
    V := if cfg.updateV then chol k ((1 / a.M) • a.Py - Matrix.vecMulVec muy muy) * g.V else g.V
    W := g.W }

/-- one epoch of `PLDABase.fit` for `SPLDA`, plda_base.py:71-82; `ml`, `md`: the steps selected by `ml_md` and `md_epochs` -/
noncomputable def SP.epoch (cfg : SPCfg) (ml md : Bool) (D : Stats n) (g : SP k n) : SP k n :=
  let a := g.estep chol D
  let g1 := if ml then g.mstepML chol cfg a else g
  if md then g1.mstepMD chol cfg a else g1

/-- the epochs of `PLDABase.fit`, plda_base.py:69-82: `steps` tells for each epoch which M steps are run -/
noncomputable def SP.fit (cfg : SPCfg) (D : Stats n) : List (Bool × Bool) → SP k n → List ℝ × SP k n
  | [], g => ([], g)
  | s :: steps, g =>
    let r := SP.fit cfg D steps (g.epoch chol cfg s.1 s.2 D)
    (g.elbo chol (g.estep chol D) :: r.1, r.2)

/-- `PLDA.compute_py_g_x` for one class, plda.py:115-197 -/
noncomputable def Full.posterior (g : Full k l n) (N : ℝ) (F : Vec n) : Vec k × Mat k k × ℝ :=
  let Fc := F - g.mu
  let gamma := Fc ᵥ* g.VW chol
  let L := 1 + N • g.VWV chol
  let y := pdRight chol L gamma
  (y, pdInv chol L, -(1 / 2) * k * Real.log (2 * Real.pi) + 1 / 2 * (logdetPd chol L - y ⬝ᵥ gamma))

/-- `PLDA.elbo(Estep(D))`, plda.py:247-261 -/
noncomputable def Full.elbo (g : Full k l n) (a : SPAcc k n) : ℝ :=
  1 / 2 * (-a.N * n * Real.log (2 * Real.pi) + a.N * ((∑ i, Real.log (g.D i)) - logdetPd chol g.Lz) - ∑ i, ∑ j, g.W chol i j * shat g.mu a i j) +
    -(1 / 2) * a.M * k * Real.log (2 * Real.pi) - a.logpy

end Hyp.Plda
