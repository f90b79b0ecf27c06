import Verif.Pdfs.Mixture
import Mathlib.Analysis.SpecialFunctions.Trigonometric.Basic
import Mathlib.Analysis.SpecialFunctions.Sqrt

/-!
Model of /repo/hyperion/pdfs/mixtures/gmm_diag_cov.py (`GMMDiagCov`), of `fit` of
/repo/hyperion/pdfs/mixtures/exp_family_mixture.py:58-87 and of /repo/hyperion/pdfs/core/normal_diag_cov.py
(`NormalDiagCov`) with `fit` of /repo/hyperion/pdfs/core/exp_family.py:37-53, over the real numbers (exact arithmetic).

`d` is `x_dim`. A vector of sufficient statistics `hstack((x, x*x))` is indexed by `Fin d ⊕ Fin d`. Where NumPy would
produce NaN or infinity (a division by zero, the logarithm of a number that is not positive) the model returns `none`.
-/

namespace Hyp.Pdfs
open scoped BigOperators
open Hyp.MathUtils

variable {K d : Nat}

/-- `compute_suff_stats`, gmm_diag_cov.py:389-395, normal_diag_cov.py:262-268 -/
def suffStats (x : Fin d → ℝ) : Fin d ⊕ Fin d → ℝ
  | .inl i => x i
  | .inr i => x i * x i

/-- one row of `compute_eta`, gmm_diag_cov.py:336-340, normal_diag_cov.py:209-213 -/
noncomputable def computeEta (mu Lambda : Fin d → ℝ) : Fin d ⊕ Fin d → ℝ
  | .inl i => Lambda i * mu i
  | .inr i => -(1 / 2) * Lambda i

/-- one row of `compute_std`, gmm_diag_cov.py:344-351, normal_diag_cov.py:217-224 -/
noncomputable def computeStd (eta : Fin d ⊕ Fin d → ℝ) : (Fin d → ℝ) × (Fin d → ℝ) :=
  (fun i => -(1 / 2) * eta (.inl i) / eta (.inr i), fun i => -2 * eta (.inr i))

/-- one element of `compute_A_nat`, gmm_diag_cov.py:355-363, normal_diag_cov.py:228-236 -/
noncomputable def computeANat (eta : Fin d ⊕ Fin d → ℝ) : ℝ :=
  1 / 2 * d * Real.log (2 * Real.pi) + -(1 / 4) * ∑ i, eta (.inl i) * eta (.inl i) / eta (.inr i)
    + -(1 / 2) * ∑ i, Real.log (-2 * eta (.inr i))

/-- one element of `compute_A_std`, gmm_diag_cov.py:367-373, normal_diag_cov.py:240-246 -/
noncomputable def computeAStd (mu Lambda : Fin d → ℝ) : ℝ :=
  1 / 2 * d * Real.log (2 * Real.pi) + -(1 / 2) * ∑ i, Real.log (Lambda i) + 1 / 2 * ∑ i, mu i * mu i * Lambda i

/-- options of `GMMDiagCov`, gmm_diag_cov.py:27-36, exp_family_mixture.py:22-33 -/
structure GmmCfg where
  varFloor : ℝ
  minN : ℝ
  updatePi : Bool
  updateMu : Bool
  updateLambda : Bool

/-- attributes of `GMMDiagCov`, gmm_diag_cov.py:27-44; the caches `_logLambda`, `_cholLambda` and `_Sigma` are reset
whenever `Lambda` changes and are not modelled -/
structure Gmm (K d : Nat) where
  mix : Mix K (Fin d ⊕ Fin d)
  mu : Fin (K + 1) → Fin d → ℝ
  Lambda : Fin (K + 1) → Fin d → ℝ

/-- `_compute_nat_params`, gmm_diag_cov.py:377-379 -/
noncomputable def Gmm.natParams (g : Gmm K d) : Gmm K d :=
  { g with mix := { g.mix with eta := fun k => computeEta (g.mu k) (g.Lambda k),
                               A := fun k => computeANat (computeEta (g.mu k) (g.Lambda k)) } }

open Classical in
/-- the constructor with `pi`, `mu` and `Lambda`, gmm_diag_cov.py:27-50, 298-302 -/
noncomputable def Gmm.new (pi : Fin (K + 1) → ℝ) (mu Lambda : Fin (K + 1) → Fin d → ℝ) : Option (Gmm K d) :=
  if ∀ k i, 0 < Lambda k i then
    some (Gmm.natParams ⟨⟨pi, none, fun _ _ => 0, fun _ => 0⟩, mu, Lambda⟩)
  else none

/-- a data row: the feature vector and its weight -/
abbrev XRow (d : Nat) := (Fin d → ℝ) × ℝ

/-- `u_x = self.compute_suff_stats(x)` for all rows, exp_family_mixture.py:172-173 -/
def xRows (rows : List (XRow d)) : List (Row (Fin d ⊕ Fin d)) := rows.map (fun r => (suffStats r.1, r.2))

/-- `S = S/N[:,None] - self.mu**2`, gmm_diag_cov.py:144 -/
noncomputable def rawVar (st : Stats K (Fin d ⊕ Fin d)) (mu : Fin (K + 1) → Fin d → ℝ) (k : Fin (K + 1)) (i : Fin d) : ℝ :=
  st.2 k (.inr i) / st.1 k - mu k i ^ 2

open Classical in
/-- `self.var_floor * np.mean(S[N>self.min_N], axis=0)`, gmm_diag_cov.py:145 -/
noncomputable def floorOf (cfg : GmmCfg) (N : Fin (K + 1) → ℝ) (S : Fin (K + 1) → Fin d → ℝ) (i : Fin d) : ℝ :=
  cfg.varFloor * ((∑ k ∈ Finset.univ.filter (fun k => cfg.minN < N k), S k i) /
    ((Finset.univ.filter (fun k => cfg.minN < N k)).card : ℝ))

/-- `self.mu = F/N[:, None]` if `update_mu`, gmm_diag_cov.py:140-141 -/
noncomputable def newMu (cfg : GmmCfg) (st : Stats K (Fin d ⊕ Fin d)) (mu : Fin (K + 1) → Fin d → ℝ) :
    Fin (K + 1) → Fin d → ℝ :=
  if cfg.updateMu then fun k i => st.2 k (.inl i) / st.1 k else mu

/-- `S = np.maximum(S, S_floor)`, gmm_diag_cov.py:144-146; `mu` is the attribute after its update -/
noncomputable def newVar (cfg : GmmCfg) (st : Stats K (Fin d ⊕ Fin d)) (mu : Fin (K + 1) → Fin d → ℝ) :
    Fin (K + 1) → Fin d → ℝ :=
  fun k i => max (rawVar st mu k i) (floorOf cfg st.1 (rawVar st mu) i)

/-- `self.Lambda = 1/S` if `update_Lambda`, gmm_diag_cov.py:143-150 -/
noncomputable def newLambda (cfg : GmmCfg) (st : Stats K (Fin d ⊕ Fin d)) (mu Lambda : Fin (K + 1) → Fin d → ℝ) :
    Fin (K + 1) → Fin d → ℝ :=
  if cfg.updateLambda then fun k i => 1 / newVar cfg st mu k i else Lambda

/-- `self.pi = N/np.sum(N)` if `update_pi`, gmm_diag_cov.py:152-158; the cache `_log_pi` is not reset -/
noncomputable def newPi (cfg : GmmCfg) (N pi : Fin (K + 1) → ℝ) : Fin (K + 1) → ℝ :=
  if cfg.updatePi then fun k => N k / ∑ j, N j else pi

open Classical in
/-- the cases in which `Mstep` raises or produces NaN or infinity, gmm_diag_cov.py:135-160: an empty component, no
component above `min_N` for the floor, a component below `min_N` (`mu[N0] = 0` refers to an undefined name), a variance
that is zero -/
noncomputable def mstepFails (cfg : GmmCfg) (st : Stats K (Fin d ⊕ Fin d)) (mu : Fin (K + 1) → Fin d → ℝ) : Bool :=
  decide (∃ k, st.1 k = 0) ||
  (cfg.updateLambda && (decide (∀ k, st.1 k ≤ cfg.minN) || decide (∃ k i, newVar cfg st mu k i = 0))) ||
  (cfg.updatePi && decide (∃ k, st.1 k < cfg.minN))

/-- `Mstep`, gmm_diag_cov.py:135-160 -/
noncomputable def Gmm.mstep (cfg : GmmCfg) (g : Gmm K d) (st : Stats K (Fin d ⊕ Fin d)) : Option (Gmm K d) :=
  if mstepFails cfg st (newMu cfg st g.mu) then none
  else
    some (Gmm.natParams ⟨{ g.mix with pi := newPi cfg st.1 g.mix.pi }, newMu cfg st g.mu,
      newLambda cfg st (newMu cfg st g.mu) g.Lambda⟩)

/-- one epoch of `fit`, exp_family_mixture.py:72-76: E-step, bound, M-step. The E-step reads `log_pi` and so fills the
cache. Returns the reported bound and the new model. -/
noncomputable def Gmm.epoch (cfg : GmmCfg) (g : Gmm K d) (rows : List (XRow d)) (bs : Option Nat) : Option (ℝ × Gmm K d) := do
  let st ← g.mix.accumSuffStats (xRows rows) bs
  let g1 : Gmm K d := { g with mix := g.mix.touchLogPi }
  let g2 ← g1.mstep cfg st
  return (g1.mix.elbo st, g2)

/-- `fit` of an initialised model, exp_family_mixture.py:58-87: the list of reported bounds and the fitted model -/
noncomputable def Gmm.fit (cfg : GmmCfg) (rows : List (XRow d)) (bs : Option Nat) : Nat → Gmm K d → Option (List ℝ × Gmm K d)
  | 0, g => some ([], g)
  | n + 1, g => do
    let (e, g1) ← g.epoch cfg rows bs
    let (es, g2) ← Gmm.fit cfg rows bs n g1
    return (e :: es, g2)

/-- `log_prob(x)`, exp_family_mixture.py:417-430 -/
noncomputable def Gmm.logProb (g : Gmm K d) (x : Fin d → ℝ) : ℝ := g.mix.logProb (suffStats x)

/-- `log_prob_std`, gmm_diag_cov.py:188-194 -/
noncomputable def Gmm.logProbStd (g : Gmm K d) (x : Fin d → ℝ) : ℝ :=
  logsumexp (fun k => g.mix.logPiVal k + 1 / 2 * (∑ i, Real.log (g.Lambda k i)) - 1 / 2 * d * Real.log (2 * Real.pi)
    - 1 / 2 * ∑ i, ((x i - g.mu k i) * Real.sqrt (g.Lambda k i)) ^ 2)

/-! ### one diagonal Gaussian -/

/-- attributes of `NormalDiagCov`, normal_diag_cov.py:24-40 -/
structure Normal (d : Nat) where
  mu : Fin d → ℝ
  Lambda : Fin d → ℝ

/-- options of `NormalDiagCov`, normal_diag_cov.py:24-32 -/
structure NormCfg where
  varFloor : ℝ
  updateMu : Bool
  updateLambda : Bool

/-- `_accum_suff_stats_1batch`, exp_family.py:80-90 -/
def nStats (rows : List (Row (Fin d ⊕ Fin d))) : ℝ × (Fin d ⊕ Fin d → ℝ) :=
  ((rows.map (fun r => r.2)).sum, fun i => (rows.map (fun r => r.1 i * r.2)).sum)

open Classical in
/-- `Mstep`, normal_diag_cov.py:111-127; `none` if `N = 0` (NaN) or a variance stays 0 (no floor) -/
noncomputable def Normal.mstep (cfg : NormCfg) (g : Normal d) (st : ℝ × (Fin d ⊕ Fin d → ℝ)) : Option (Normal d) :=
  if st.1 = 0 then none
  else
    let mu := if cfg.updateMu then fun i => st.2 (.inl i) / st.1 else g.mu
    let S : Fin d → ℝ := fun i =>
      if st.2 (.inr i) / st.1 - mu i ^ 2 < cfg.varFloor then cfg.varFloor else st.2 (.inr i) / st.1 - mu i ^ 2
    if cfg.updateLambda = true ∧ ∃ i, S i = 0 then none
    else some ⟨mu, if cfg.updateLambda then fun i => 1 / S i else g.Lambda⟩

/-- `elbo` with `log_h = 0`, exp_family.py:133-143 -/
noncomputable def Normal.elbo (g : Normal d) (st : ℝ × (Fin d ⊕ Fin d → ℝ)) : ℝ :=
  (∑ i, st.2 i * computeEta g.mu g.Lambda i) - st.1 * computeANat (computeEta g.mu g.Lambda)

/-- `Estep`, exp_family.py:70-78, 127-129 -/
def Normal.estep (rows : List (XRow d)) (bs : Option Nat) : Option (ℝ × (Fin d ⊕ Fin d → ℝ)) :=
  match bs with
  | none => some (nStats (xRows rows))
  | some b => accumBatches nStats b (xRows rows)

/-- `fit` without validation data, exp_family.py:37-44 -/
noncomputable def Normal.fit (cfg : NormCfg) (g : Normal d) (rows : List (XRow d)) (bs : Option Nat) : Option (ℝ × Normal d) := do
  let st ← Normal.estep rows bs
  let g1 ← g.mstep cfg st
  return (g1.elbo st, g1)

/-- one row of `log_prob`, exp_family.py:147-158 -/
noncomputable def Normal.logProb (g : Normal d) (x : Fin d → ℝ) : ℝ :=
  (∑ i, suffStats x i * computeEta g.mu g.Lambda i) - computeANat (computeEta g.mu g.Lambda)

/-- one row of `log_prob_std`, normal_diag_cov.py:131-134 -/
noncomputable def Normal.logProbStd (g : Normal d) (x : Fin d → ℝ) : ℝ :=
  1 / 2 * (∑ i, Real.log (g.Lambda i)) - 1 / 2 * d * Real.log (2 * Real.pi)
    - 1 / 2 * ∑ i, ((x i - g.mu i) * Real.sqrt (g.Lambda i)) ^ 2

end Hyp.Pdfs
