import Verif.MathUtils.NumericProps
import Mathlib.Probability.Distributions.Gaussian.Real
import Mathlib.MeasureTheory.Integral.Pi
import Mathlib.Tactic.Ring
import Mathlib.Tactic.Linarith
import Mathlib.Tactic.FieldSimp

/-!
Model of `QScoringHomoGBE`, /repo/hyperion/classifiers/q_scoring_homo_gbe.py, over the real numbers (exact arithmetic). The
observations are Gaussians (mean and variance of every component); `none` stands for an exception.
-/

namespace Hyp.QScore
open scoped BigOperators

abbrev Vec (n : Nat) := Fin n → ℝ

variable {K n : Nat}

/-- parameters of `QScoringHomoGBE`, q_scoring_homo_gbe.py:31-36 -/
structure Model (K n : Nat) where
  mu : Fin K → Vec n
  W : Vec n
  N : Fin K → ℝ

/-- `predict` before normalisation, q_scoring_homo_gbe.py:130-150, one observation with means `m` and variances `s` -/
noncomputable def Model.logp (g : Model K n) (m s : Vec n) (k : Fin K) : ℝ :=
  let prec : Vec n := fun d => 1 / s d
  let etaE : Vec n := fun d => g.mu k d * g.W d
  let Le : Vec n := g.W
  let etaT : Vec n := fun d => prec d * m d
  let Lt : Vec n := prec
  let Let : Vec n := fun d => Lt d + Le d - 1
  let Cet : Vec n := fun d => 1 / Let d
  let Ce : Vec n := fun d => Cet d - 1 / Le d
  let Ct : Vec n := fun d => Cet d - 1 / Lt d
  let re := ∑ d, Real.log (Le d) + ∑ d, etaE d * etaE d * Ce d
  let rt := ∑ d, Real.log (Lt d) + ∑ d, Ct d * etaT d ^ 2
  let ret := -∑ d, Real.log (Let d) + 2 * ∑ d, etaT d * Cet d * etaE d
  1 / 2 * (ret + re + rt)

/-- `predict`, q_scoring_homo_gbe.py:130-155 -/
noncomputable def Model.predict (g : Model (K + 1) n) (normalize : Bool) (m s : Vec n) : Fin (K + 1) → ℝ :=
  if normalize then fun k => Real.log (MathUtils.softmax (g.logp m s) k) else g.logp m s

/-- constructor options, q_scoring_homo_gbe.py:23-28 -/
structure Cfg where
  balance : Bool
  priorN : Option ℝ
  postN : Option ℝ

/-- an observation with its class probabilities (after multiplication with the sample weight): means, variances, `p_theta` -/
abbrev Row (K n : Nat) := Vec n × Vec n × (Fin K → ℝ)

/-- `np.mean` of one number per class -/
noncomputable def meanK (f : Fin K → ℝ) : ℝ := (∑ k, f k) / K

/-- `_load_prior`, q_scoring_homo_gbe.py:61-67. With `prior_N` the precision of the prior is computed from `self.W`, the precision of the
model that is being trained (`curW`), which is `None` before the first training: `None - 1` raises. -/
noncomputable def loadPrior (cfg : Cfg) (curW : Option (Vec n)) (p : Model K n) : Option (Model K n) :=
  match cfg.priorN with
  | none => some p
  | some v => curW.map (fun W => ⟨p.mu, fun d => 1 + v / meanK p.N * (W d - 1), fun _ => v⟩)

/-- `_change_post_N`, q_scoring_homo_gbe.py:71-78 -/
noncomputable def changePost (cfg : Cfg) (g : Model K n) : Model K n :=
  match cfg.postN with
  | none => g
  | some v => ⟨g.mu, fun d => 1 + v / meanK g.N * (g.W d - 1), fun _ => v⟩

/-- `eta`, q_scoring_homo_gbe.py:113, 116 -/
noncomputable def eta (prior : Option (Model K n)) (rows : List (Row K n)) (k : Fin K) (d : Fin n) : ℝ :=
  (rows.map (fun r => r.2.2 k * (1 / r.2.1 d * r.1 d))).sum + (match prior with | some p => p.W d * p.mu k d | none => 0)

/-- `prec` before the average over the classes, q_scoring_homo_gbe.py:114, 117 -/
noncomputable def prec (prior : Option (Model K n)) (rows : List (Row K n)) (k : Fin K) (d : Fin n) : ℝ :=
  1 + (rows.map (fun r => r.2.2 k * (1 / r.2.1 d - 1))).sum + (match prior with | some p => p.W d - 1 | none => 0)

/-- `N`, q_scoring_homo_gbe.py:112, 118 -/
noncomputable def count (prior : Option (Model K n)) (rows : List (Row K n)) (k : Fin K) : ℝ :=
  (rows.map (fun r => r.2.2 k)).sum + (match prior with | some p => p.N k | none => 0)

/-- `W`, q_scoring_homo_gbe.py:124-128 -/
noncomputable def newW (cfg : Cfg) (prior : Option (Model K n)) (rows : List (Row K n)) (d : Fin n) : ℝ :=
  if cfg.balance then 1 + meanK (fun k => prec prior rows k d - 1)
  else 1 + (rows.map (fun r => 1 / r.2.1 d - 1)).sum / K

/-- `fit` after the prior has been loaded, q_scoring_homo_gbe.py:112-130 (with at least one class) -/
noncomputable def fitCore (cfg : Cfg) (prior : Option (Model K n)) (rows : List (Row K n)) : Model K n :=
  changePost cfg ⟨fun k d => 1 / prec prior rows k d * eta prior rows k d, newW cfg prior rows, count prior rows⟩

/-- `fit(x, p_theta=...)`, q_scoring_homo_gbe.py:82-130; `curW` is the precision of the model before training -/
noncomputable def fit (cfg : Cfg) (curW : Option (Vec n)) (prior : Option (Model K n)) (rows : List (Row K n)) : Option (Model K n) :=
  match prior with
  | none => some (fitCore cfg none rows)
  | some p => (loadPrior cfg curW p).map (fun p => fitCore cfg (some p) rows)

end Hyp.QScore
