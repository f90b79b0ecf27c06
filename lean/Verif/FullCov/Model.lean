import Verif.FullCov.Floor
import Verif.Pdfs.MixtureProps

/-!
Model of full-covariance Gaussians and their mixtures: /repo/hyperion/pdfs/core/normal.py (with exp_family.py) and /repo/hyperion/pdfs/mixtures/gmm.py (with
exp_family_mixture.py, `Verif/Pdfs/Mixture.lean`), over the reals; `none` is an exception. Vectors of the upper triangle of a matrix are functions of its
positions (`symmat2vec`, `vec2symmat` and `compute_suff_stats` use the same order of the positions, see C37 for the order). Matrices given by the user are symmetric.
-/

namespace Hyp.FullCov
open scoped BigOperators
open Matrix Hyp.Plda Hyp.MathUtils
open Hyp.Pdfs (Mix Row)

variable {d K : Nat}

/-- the positions of the upper triangle -/
abbrev Up (d : Nat) := {p : Fin d × Fin d // p.1 ≤ p.2}

/-- positions of the vector of natural parameters and sufficient statistics -/
abbrev Ix (d : Nat) := Fin d ⊕ Up d

/-- `symmat2vec(A, diag_factor=f)`, utils/math.py:190-208 -/
def sym2vec (f : ℝ) (A : Mat d d) : Up d → ℝ := fun p => if p.1.1 = p.1.2 then f * A p.1.1 p.1.2 else A p.1.1 p.1.2

/-- `vec2symmat(v, diag_factor=f)`, utils/math.py:212-238 -/
def vec2sym (f : ℝ) (v : Up d → ℝ) : Mat d d := Matrix.of (fun i j =>
  if h : i ≤ j then (if i = j then f * v ⟨(i, j), h⟩ else v ⟨(i, j), h⟩) else v ⟨(j, i), (not_le.1 h).le⟩)

/-- `compute_suff_stats`, normal.py:300-311, gmm.py:414-425 -/
def suff (x : Vec d) : Ix d → ℝ
  | .inl i => x i
  | .inr p => x p.1.1 * x p.1.2

/-- `compute_eta`, normal.py:229-233 -/
noncomputable def computeEta (mu : Vec d) (L : Mat d d) : Ix d → ℝ
  | .inl i => (mu ᵥ* L) i
  | .inr p => -(sym2vec (1 / 2) L p)

/-- `eta2` of `compute_std` and `compute_A_nat`, normal.py:250, 262 -/
noncomputable def eta2 (eta : Ix d → ℝ) : Mat d d := (1 / 2 : ℝ) • vec2sym 2 (fun p => eta (.inr p))

/-- `eta1`, normal.py:249, 261 -/
def eta1 (eta : Ix d → ℝ) : Vec d := fun i => eta (.inl i)

variable (svd : (n : Nat) → Mat n n → Mat n n × Vec n) (chol : (n : Nat) → Mat n n → Mat n n)

/-- `compute_std`, normal.py:246-254 -/
noncomputable def computeStd (eta : Ix d → ℝ) : Vec d × Mat d d :=
  ((1 / 2 : ℝ) • pdRight chol (-eta2 eta) (eta1 eta), (-2 : ℝ) • eta2 eta)

/-- `compute_A_nat`, normal.py:258-267 -/
noncomputable def computeANat (eta : Ix d → ℝ) : ℝ :=
  1 / 2 * d * Real.log (2 * Real.pi) + 1 / 4 * (pdRight chol (-eta2 eta) (eta1 eta) ⬝ᵥ eta1 eta) +
    (-(1 / 2) * d * Real.log 2 - 1 / 2 * logdetPd chol (-eta2 eta))

/-- `compute_A_std`, normal.py:271-277 -/
noncomputable def computeAStd (mu : Vec d) (L : Mat d d) : ℝ :=
  1 / 2 * d * Real.log (2 * Real.pi) + -(1 / 2) * logdetPd chol L + 1 / 2 * ((mu ᵥ* L) ⬝ᵥ mu)

/-- `compute_x_dim_from_eta`, normal.py:237-241, for `m` natural parameters -/
noncomputable def xDim (m : Nat) : Option Nat :=
  if (⌊(1 / 2 : ℝ) * (-3 + Real.sqrt (9 + 8 * m))⌋ : ℝ) = 1 / 2 * (-3 + Real.sqrt (9 + 8 * m))
  then some ⌊(1 / 2 : ℝ) * (-3 + Real.sqrt (9 + 8 * m))⌋.toNat else none

/-! ### one Gaussian -/

/-- parameters of `Normal`, normal.py:23-38 -/
structure Norm (d : Nat) where
  mu : Vec d
  L : Mat d d

/-- options of `Normal` (`var_floor` is not used by the code), normal.py:25-34 -/
structure NormCfg where
  updateMu : Bool
  updateL : Bool

/-- a row: vector and weight (1 without weights) -/
abbrev XRow (d : Nat) := Vec d × ℝ

/-- `accum_suff_stats`, normal.py:101-115: number, sums, upper triangle of the second moments -/
noncomputable def nStats (rows : List (XRow d)) : ℝ × (Ix d → ℝ) :=
  ((rows.map (fun r => r.2)).sum, fun
    | .inl i => (rows.map (fun r => r.2 * r.1 i)).sum
    | .inr p => (rows.map (fun r => r.2 * r.1 p.1.1 * r.1 p.1.2)).sum)

/-- `S = vec2symmat(S/N); S -= np.outer(mu, mu)`, normal.py:145-146 -/
noncomputable def rawCov (N : ℝ) (u : Ix d → ℝ) (mu : Vec d) : Mat d d :=
  vec2sym 1 (fun p => u (.inr p) / N) - Matrix.vecMulVec mu mu

/-- `invert_pdmat` raises when its argument is not positive definite, numpy/utils/math.py:35-49 -/
noncomputable def invPd (C : Mat d d) : Option (Mat d d) := open Classical in if C.PosDef then some (pdInv chol C) else none

/-- `Mstep`, normal.py:135-154: division by a zero count and a covariance that is not positive definite raise -/
noncomputable def Norm.mstep (cfg : NormCfg) (g : Norm d) (st : ℝ × (Ix d → ℝ)) : Option (Norm d) :=
  let mu := if cfg.updateMu then (fun i => st.2 (.inl i) / st.1) else g.mu
  open Classical in
  if st.1 = 0 then none
  else if cfg.updateL then (invPd chol (rawCov st.1 st.2 mu)).map (fun P => ⟨mu, P⟩)
  else some ⟨mu, g.L⟩

/-- `elbo`, exp_family.py:128-136 with the parameters set by `_compute_nat_params`, normal.py:281-283 -/
noncomputable def Norm.elbo (g : Norm d) (st : ℝ × (Ix d → ℝ)) : ℝ :=
  (∑ i, st.2 i * computeEta g.mu g.L i) - st.1 * computeAStd chol g.mu g.L

/-- `fit`, exp_family.py:37-44 (the batch size is ignored by `Normal.accum_suff_stats`) -/
noncomputable def Norm.fit (cfg : NormCfg) (g : Norm d) (rows : List (XRow d)) : Option (ℝ × Norm d) := do
  let g' ← g.mstep chol cfg (nStats rows)
  some (g'.elbo chol (nStats rows), g')

/-- `log_prob_nat`, exp_family.py:146-150 -/
noncomputable def Norm.logProb (g : Norm d) (x : Vec d) : ℝ := (∑ i, suff x i * computeEta g.mu g.L i) - computeAStd chol g.mu g.L

/-- `log_prob_nat` of `Normal(eta=eta)`: the normaliser is `compute_A_nat(eta)`, normal.py:47-50 -/
noncomputable def logProbEta (eta : Ix d → ℝ) (x : Vec d) : ℝ := (∑ i, suff x i * eta i) - computeANat chol eta

/-- `log_prob_std`, normal.py:158-161; `cholLambda` is the transposed upper factor, normal.py:57-59 -/
noncomputable def Norm.logProbStd (g : Norm d) (x : Vec d) : ℝ :=
  1 / 2 * logdetPd chol g.L - 1 / 2 * d * Real.log (2 * Real.pi) - 1 / 2 * ∑ i, (((x - g.mu) ᵥ* (chol d g.L)ᵀ) i) ^ 2

/-- `norm_suff_stats(N, u_x)` (first order), normal.py:119-131; the second order raises (undefined names) -/
noncomputable def Norm.normStats (g : Norm d) (N : ℝ) (u : Ix d → ℝ) : Vec d := ((fun i => u (.inl i)) - N • g.mu) ᵥ* ((chol d g.L)ᵀ)ᵀ

/-! ### mixtures -/

/-- `GMM`, gmm.py:25-42: weights and natural parameters (with the cached log weights) and the standard parameters -/
structure Gmm (K d : Nat) where
  mix : Mix K (Ix d)
  mu : Fin (K + 1) → Vec d
  L : Fin (K + 1) → Mat d d

/-- options, gmm.py:27-36 -/
structure GmmCfg where
  varFloor : ℝ
  updateMu : Bool
  updateL : Bool

/-- `_compute_nat_params`, gmm.py:400-402 -/
noncomputable def Gmm.natParams (g : Gmm K d) : Gmm K d :=
  { g with mix := { g.mix with eta := fun k => computeEta (g.mu k) (g.L k), A := fun k => computeANat chol (computeEta (g.mu k) (g.L k)) } }

/-- `GMM(pi, mu, Lambda)`, gmm.py:25-42: precisions that are not positive definite raise -/
noncomputable def Gmm.new (pi : Fin (K + 1) → ℝ) (mu : Fin (K + 1) → Vec d) (L : Fin (K + 1) → Mat d d) : Option (Gmm K d) :=
  open Classical in
  if ∀ k, (L k).PosDef then some (Gmm.natParams chol ⟨⟨pi, none, fun _ _ => 0, fun _ => 0⟩, mu, L⟩) else none

/-- rows with sufficient statistics -/
def xRows (rows : List (XRow d)) : List (Row (Ix d)) := rows.map (fun r => (suff r.1, r.2))

/-- means of `Mstep`, gmm.py:175-176 -/
noncomputable def newMu (cfg : GmmCfg) (st : Pdfs.Stats K (Ix d)) (mu : Fin (K + 1) → Vec d) : Fin (K + 1) → Vec d :=
  if cfg.updateMu then fun k i => st.2 k (.inl i) / st.1 k else mu

/-- `Sfloor`, gmm.py:183 -/
noncomputable def floorCov (cfg : GmmCfg) (C : Fin (K + 1) → Mat d d) : Mat d d := cfg.varFloor • ((1 / (K + 1 : ℝ)) • ∑ k, C k)

/-- `la.cholesky` raises when its argument is not positive definite, gmm.py:184 -/
noncomputable def cholPd (C : Mat d d) : Option (Mat d d) := open Classical in if C.PosDef then some (chol d C) else none

/-- `Mstep`, gmm.py:171-193. The weights are not touched. A zero count raises, and so does a floor that is not positive definite. -/
noncomputable def Gmm.mstep (cfg : GmmCfg) (g : Gmm K d) (st : Pdfs.Stats K (Ix d)) : Option (Gmm K d) :=
  let mu := newMu cfg st g.mu
  let C := fun k => rawCov (st.1 k) (st.2 k) (mu k)
  open Classical in
  if ∃ k, st.1 k = 0 then none
  else if cfg.updateL then
    (cholPd chol (floorCov cfg C)).map (fun F =>
      Gmm.natParams chol ⟨g.mix, mu, fun k => pdInv chol (varfloor svd chol (C k) F true false)⟩)
  else some (Gmm.natParams chol ⟨g.mix, mu, g.L⟩)

/-- one epoch of `fit`, exp_family_mixture.py:72-76: bound before the update, updated model -/
noncomputable def Gmm.epoch (cfg : GmmCfg) (g : Gmm K d) (rows : List (XRow d)) (bs : Option Nat) : Option (ℝ × Gmm K d) := do
  let st ← g.mix.accumSuffStats (xRows rows) bs
  let g1 : Gmm K d := { g with mix := g.mix.touchLogPi }
  let g2 ← g1.mstep svd chol cfg st
  return (g1.mix.elbo st, g2)

/-- `fit` of an initialised model, exp_family_mixture.py:58-87 -/
noncomputable def Gmm.fit (cfg : GmmCfg) (rows : List (XRow d)) (bs : Option Nat) : Nat → Gmm K d → Option (List ℝ × Gmm K d)
  | 0, g => some ([], g)
  | n + 1, g => do
    let (e, g1) ← g.epoch svd chol cfg rows bs
    let (es, g2) ← Gmm.fit cfg rows bs n g1
    return (e :: es, g2)

/-- `log_prob(x)`, exp_family_mixture.py:417-430 -/
noncomputable def Gmm.logProb (g : Gmm K d) (x : Vec d) : ℝ := g.mix.logProb (suff x)

/-- `log_prob_std`, gmm.py:228-236 -/
noncomputable def Gmm.logProbStd (g : Gmm K d) (x : Vec d) : ℝ :=
  logsumexp (fun k => g.mix.logPiVal k + 1 / 2 * logdetPd chol (g.L k) - 1 / 2 * d * Real.log (2 * Real.pi)
    - 1 / 2 * ∑ i, (((x - g.mu k) ᵥ* (chol d (g.L k))ᵀ) i) ^ 2)

end Hyp.FullCov
