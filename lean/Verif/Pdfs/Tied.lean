import Verif.Pdfs.DiagGmm

/-!
Model of /repo/hyperion/pdfs/mixtures/gmm_tied_diag_cov.py (`GMMTiedDiagCov`: a mixture of Gaussians with one diagonal
covariance for all components) and of `split_comp` of it and of `GMMDiagCov`. Conventions as in `DiagGmm.lean`.
-/

namespace Hyp.Pdfs
open scoped BigOperators
open Hyp.MathUtils

variable {K d : Nat}

/-- attributes of `GMMTiedDiagCov`, gmm_tied_diag_cov.py:27-34; the caches of the parent are not modelled -/
structure TiedGmm (K d : Nat) where
  mix : Mix K (Fin d ⊕ Fin d)
  mu : Fin (K + 1) → Fin d → ℝ
  Lambda : Fin d → ℝ

/-- `compute_eta`, gmm_tied_diag_cov.py:171-175 -/
noncomputable def tiedEta (mu : Fin (K + 1) → Fin d → ℝ) (Lambda : Fin d → ℝ) (k : Fin (K + 1)) : Fin d ⊕ Fin d → ℝ
  | .inl i => Lambda i * mu k i
  | .inr i => -(1 / 2) * Lambda i

/-- `compute_std`, gmm_tied_diag_cov.py:179-186 -/
noncomputable def tiedStd (eta : Fin (K + 1) → Fin d ⊕ Fin d → ℝ) : (Fin (K + 1) → Fin d → ℝ) × (Fin d → ℝ) :=
  (fun k i => -(1 / 2) * eta k (.inl i) / eta k (.inr i), fun i => -2 * eta 0 (.inr i))

/-- `_compute_nat_params`, gmm_diag_cov.py:376-378 with the `compute_eta` of the class -/
noncomputable def TiedGmm.natParams (g : TiedGmm K d) : TiedGmm K d :=
  { g with mix := { g.mix with eta := tiedEta g.mu g.Lambda, A := fun k => computeANat (tiedEta g.mu g.Lambda k) } }

open Classical in
/-- the constructor with `pi`, `mu` and `Lambda`, gmm_tied_diag_cov.py:27-45, 164-166 -/
noncomputable def TiedGmm.new (pi : Fin (K + 1) → ℝ) (mu : Fin (K + 1) → Fin d → ℝ) (Lambda : Fin d → ℝ) : Option (TiedGmm K d) :=
  if ∀ i, 0 < Lambda i then some (TiedGmm.natParams ⟨⟨pi, none, fun _ _ => 0, fun _ => 0⟩, mu, Lambda⟩) else none

/-- `Spool = np.sum(N[:, None]*S, axis=0)/np.sum(N)`, gmm_tied_diag_cov.py:86-89; `mu` is the attribute after its update -/
noncomputable def pool (cfg : GmmCfg) (st : Stats K (Fin d ⊕ Fin d)) (mu : Fin (K + 1) → Fin d → ℝ) (i : Fin d) : ℝ :=
  (∑ k, st.1 k * newVar cfg st mu k i) / ∑ k, st.1 k

/-- `self.Lambda=1/Spool` if `update_Lambda`, gmm_tied_diag_cov.py:85-93 -/
noncomputable def tiedLambda (cfg : GmmCfg) (st : Stats K (Fin d ⊕ Fin d)) (mu : Fin (K + 1) → Fin d → ℝ) (Lambda : Fin d → ℝ) :
    Fin d → ℝ :=
  if cfg.updateLambda then fun i => 1 / pool cfg st mu i else Lambda

open Classical in
/-- the cases in which `Mstep` raises or produces NaN or infinity, gmm_tied_diag_cov.py:78-103: an empty component, no
component above `min_N` for the floor, a component below `min_N` (`mu[N0] = 0` refers to an undefined name), a variance
that is zero -/
noncomputable def tiedFails (cfg : GmmCfg) (st : Stats K (Fin d ⊕ Fin d)) (mu : Fin (K + 1) → Fin d → ℝ) : Bool :=
  decide (∃ k, st.1 k = 0) ||
  (cfg.updateLambda && (decide (∀ k, st.1 k ≤ cfg.minN) || decide (∃ i, pool cfg st mu i = 0))) ||
  (cfg.updatePi && decide (∃ k, st.1 k < cfg.minN))

/-- `Mstep`, gmm_tied_diag_cov.py:78-103 -/
noncomputable def TiedGmm.mstep (cfg : GmmCfg) (g : TiedGmm K d) (st : Stats K (Fin d ⊕ Fin d)) : Option (TiedGmm K d) :=
  if tiedFails cfg st (newMu cfg st g.mu) then none
  else
    some (TiedGmm.natParams ⟨{ g.mix with pi := newPi cfg st.1 g.mix.pi }, newMu cfg st g.mu,
      tiedLambda cfg st (newMu cfg st g.mu) g.Lambda⟩)

/-- one epoch of `fit`, exp_family_mixture.py:72-76 -/
noncomputable def TiedGmm.epoch (cfg : GmmCfg) (g : TiedGmm K d) (rows : List (XRow d)) (bs : Option Nat) : Option (ℝ × TiedGmm K d) := do
  let st ← g.mix.accumSuffStats (xRows rows) bs
  let g1 : TiedGmm K d := { g with mix := g.mix.touchLogPi }
  let g2 ← g1.mstep cfg st
  return (g1.mix.elbo st, g2)

/-- `fit` of an initialised model, exp_family_mixture.py:58-87 -/
noncomputable def TiedGmm.fit (cfg : GmmCfg) (rows : List (XRow d)) (bs : Option Nat) : Nat → TiedGmm K d → Option (List ℝ × TiedGmm K d)
  | 0, g => some ([], g)
  | n + 1, g => do
    let (e, g1) ← g.epoch cfg rows bs
    let (es, g2) ← TiedGmm.fit cfg rows bs n g1
    return (e :: es, g2)

/-- `log_prob(x)`, exp_family_mixture.py:417-430 -/
noncomputable def TiedGmm.logProb (g : TiedGmm K d) (x : Fin d → ℝ) : ℝ := g.mix.logProb (suffStats x)

/-- `log_prob_std`, gmm_tied_diag_cov.py:128-134 -/
noncomputable def TiedGmm.logProbStd (g : TiedGmm K d) (x : Fin d → ℝ) : ℝ :=
  logsumexp (fun k => g.mix.logPiVal k + 1 / 2 * (∑ i, Real.log (g.Lambda i)) - 1 / 2 * d * Real.log (2 * Real.pi)
    - 1 / 2 * ∑ i, ((x i - g.mu k i) * Real.sqrt (g.Lambda i)) ^ 2)

/-- `_initialize_kmeans` after the k-means, for more than one component, gmm_tied_diag_cov.py:62-74: `idx` the cluster of
every row, `mu` the centroids. `none`: a coordinate with no variance. -/
noncomputable def tiedInit (mu : Fin (K + 1) → Fin d → ℝ) (x : List ((Fin d → ℝ) × Fin (K + 1))) : Option (TiedGmm K d) :=
  let C := fun i => ∑ k, ((x.filter (fun r => r.2 = k)).map (fun r => (r.1 i - mu k i) ^ 2)).sum
  TiedGmm.new (fun k => ((x.filter (fun r => r.2 = k)).length : ℝ) / x.length) mu (fun i => x.length / C i)

/-! ### splitting components -/

/-- `np.repeat(v, K, axis=0)`: the row of the old component. -/
def oldComp (K s : Nat) (hs : 0 < s) (j : Fin ((K + 1) * s)) : Fin (K + 1) :=
  ⟨j.1 / s, by rw [Nat.div_lt_iff_lt_mul hs]; exact j.2⟩

/-- the number of new components, as a successor. -/
theorem split_card (K s : Nat) (hs : 0 < s) : ((K + 1) * s - 1) + 1 = (K + 1) * s :=
  Nat.sub_add_cancel (Nat.mul_pos (Nat.succ_pos K) hs)

/-- the sign of `std_dev` for a new component, gmm_diag_cov.py:183-189, gmm_tied_diag_cov.py:115-121: for `K=2` the even
ones go up and the odd ones down; otherwise the signs are drawn. -/
def splitSign (s : Nat) (rnd : Nat → Fin (K + 1) → Fin d → Bool) (j : Nat) (k : Fin (K + 1)) (i : Fin d) : ℝ :=
  if s = 2 then (if j % 2 = 0 then 1 else -1) else (if rnd (j % s) k i then 1 else -1)

/-- the options that the new model gets from `**config`, gmm_diag_cov.py:191-192: `min_n` and `update_lambda` are not
arguments of the constructor and are swallowed. -/
def splitCfg (cfg : GmmCfg) : GmmCfg := ⟨cfg.varFloor, 0, cfg.updatePi, cfg.updateMu, true⟩

/-- `GMMDiagCov.split_comp(K)`, gmm_diag_cov.py:174-192; `rnd` are the signs drawn. -/
noncomputable def Gmm.split (g : Gmm K d) (s : Nat) (hs : 0 < s) (rnd : Nat → Fin (K + 1) → Fin d → Bool) :
    Option (Gmm ((K + 1) * s - 1) d) :=
  let old := fun j : Fin (((K + 1) * s - 1) + 1) => oldComp K s hs (j.cast (split_card K s hs))
  Gmm.new (fun j => g.mix.pi (old j) / s)
    (fun j i => g.mu (old j) i + splitSign s rnd j.1 (old j) i * (1 / Real.sqrt (g.Lambda (old j) i)))
    (fun j i => g.Lambda (old j) i * s ^ 2)

/-- `GMMTiedDiagCov.split_comp(K)`, gmm_tied_diag_cov.py:107-124. For `K != 2` one sign per coordinate is drawn for all
components. -/
noncomputable def TiedGmm.split (g : TiedGmm K d) (s : Nat) (hs : 0 < s) (rnd : Nat → Fin d → Bool) :
    Option (TiedGmm ((K + 1) * s - 1) d) :=
  let old := fun j : Fin (((K + 1) * s - 1) + 1) => oldComp K s hs (j.cast (split_card K s hs))
  TiedGmm.new (fun j => g.mix.pi (old j) / s)
    (fun j i => g.mu (old j) i + splitSign s (fun r _ => rnd r) j.1 (old j) i * (1 / Real.sqrt (g.Lambda i)))
    g.Lambda

end Hyp.Pdfs
