import Mathlib.Analysis.SpecialFunctions.Pow.Real
import Mathlib.Analysis.SpecialFunctions.Trigonometric.Basic

/-!
Model of /repo/hyperion/torch/lr_schedulers/{lr_scheduler,exp_lr,cos_lr,red_lr_on_plateau}.py.

The optimizer has `g` parameter groups; `base`, `minLr` and `lr` are functions of the group. Exact real arithmetic. The
scheduler is new (`last_epoch = last_batch = -1`), `epoch_begin_step` is called without argument or, as the trainer does,
with the number of the epoch. `none` is an exception. `AdamCosineLR` is not modelled: its constructor raises
(`super(AdamCosineLR, super)`).
-/

namespace Hyp.Torch

/-- lr_scheduler.py:15-43: what the constructor stores. -/
structure LrCfg (g : Nat) where
  base : Fin g → ℝ
  minLr : Fin g → ℝ
  warmup : Int
  onBatch : Bool

/-- the counters, the learning rates in the optimizer, and the state `ext` of the subclass. -/
structure LrSt (g : Nat) (σ : Type) where
  lastEpoch : Int
  lastBatch : Int
  lr : Fin g → ℝ
  ext : σ

/-- a new scheduler on a new optimizer, whose rates are the base rates. -/
def LrSt.init {g : Nat} {σ : Type} (c : LrCfg g) (ext : σ) : LrSt g σ := ⟨-1, -1, c.base, ext⟩

/-- lr_scheduler.py:70-73 `get_warmup_lr`: ZeroDivisionError when there are no warm-up steps. -/
noncomputable def warmupLr {g : Nat} (c : LrCfg g) (x : Int) : Option (Fin g → ℝ) :=
  if c.warmup = 0 then none
  else some (fun i => (c.base i - c.minLr i) / (c.warmup : ℝ) * (x : ℝ) + c.minLr i)

/-- `get_lr` of a subclass: from its state, `self.last_epoch` and the step to its new state and the rates. -/
abbrev GetLr (g : Nat) (σ : Type) := σ → Int → Int → σ × (Fin g → ℝ)

/-- lr_scheduler.py:80-87 `epoch_begin_step` -/
def epochBeginStep {g : Nat} {σ : Type} (c : LrCfg g) (getLr : GetLr g σ) (s : LrSt g σ) : LrSt g σ :=
  let e := s.lastEpoch + 1
  if c.onBatch then { s with lastEpoch := e }
  else { s with lastEpoch := e, lr := (getLr s.ext e e).2, ext := (getLr s.ext e e).1 }

/-- lr_scheduler.py:94-105 `batch_step`; `in_warmup` is lines 46-48. -/
noncomputable def batchStep {g : Nat} {σ : Type} (c : LrCfg g) (getLr : GetLr g σ) (s : LrSt g σ) : Option (LrSt g σ) :=
  let b := s.lastBatch + 1
  if b ≤ c.warmup then (warmupLr c b).map (fun lr => { s with lastBatch := b, lr := lr })
  else if c.onBatch then
    some { s with lastBatch := b, lr := (getLr s.ext s.lastEpoch b).2, ext := (getLr s.ext s.lastEpoch b).1 }
  else some { s with lastBatch := b }

/-- the calls of the trainer (torch_trainer.py:59-89), in any order. -/
inductive LrEv where
  | epochBegin
  | batch
  | epochEnd
  deriving DecidableEq

/-- one call; `epochEnd` is the `epoch_end_step` of the subclass. -/
noncomputable def lrStep {g : Nat} {σ : Type} (c : LrCfg g) (getLr : GetLr g σ) (epochEnd : LrSt g σ → Option (LrSt g σ))
    (s : LrSt g σ) : LrEv → Option (LrSt g σ)
  | .epochBegin => some (epochBeginStep c getLr s)
  | .batch => batchStep c getLr s
  | .epochEnd => epochEnd s

noncomputable def lrRun {g : Nat} {σ : Type} (c : LrCfg g) (getLr : GetLr g σ) (epochEnd : LrSt g σ → Option (LrSt g σ)) :
    LrSt g σ → List LrEv → Option (LrSt g σ)
  | s, [] => some s
  | s, e :: es => (lrStep c getLr epochEnd s e).bind (fun s' => lrRun c getLr epochEnd s' es)

/-! ### exponential -/

/-- exp_lr.py:15-23 -/
structure ExpCfg (g : Nat) extends LrCfg g where
  decayRate : ℝ
  decaySteps : ℝ
  holdSteps : ℝ

/-- exp_lr.py:26-34 `get_lr` -/
noncomputable def expGetLr {g : Nat} (c : ExpCfg g) : GetLr g Unit := fun _ _ step =>
  ((), fun i => if (step : ℝ) < c.holdSteps then c.base i
    else max (c.minLr i) (c.base i * c.decayRate ^ (((step : ℝ) - c.holdSteps) / c.decaySteps)))

/-- a history of calls of a new exponential scheduler (lr_scheduler.py:90-91: `epoch_end_step` does nothing). -/
noncomputable def expRun {g : Nat} (c : ExpCfg g) (es : List LrEv) : Option (LrSt g Unit) :=
  lrRun c.toLrCfg (expGetLr c) some (LrSt.init c.toLrCfg ()) es

/-! ### cosine -/

/-- cos_lr.py:40-50: the parameters that do not change. -/
structure CosCfg (g : Nat) extends LrCfg g where
  tMul : ℝ
  warmRestarts : Bool
  gamma : ℝ

/-- cos_lr.py:40-50: the fields that change. -/
structure CosSt where
  T : ℝ
  lastRestart : Int
  numRestarts : Nat

/-- cos_lr.py:54-59: the period, after the adjustment in the first epoch. -/
noncomputable def cosT {g : Nat} (c : CosCfg g) (s : CosSt) (lastEpoch step : Int) : ℝ :=
  if (((step - s.lastRestart : Int) : ℝ) ≥ s.T ∧ c.onBatch = true ∧ c.warmRestarts = true) ∧ lastEpoch = 0
  then ((step - s.lastRestart : Int) : ℝ) + 1 else s.T

/-- cos_lr.py:71-76: the formula (`x` steps after the restart). Division by a zero period is not modelled. -/
noncomputable def cosRate {g : Nat} (c : CosCfg g) (T : ℝ) (numRestarts : Nat) (x : ℝ) (i : Fin g) : ℝ :=
  c.minLr i + (c.gamma ^ numRestarts * c.base i - c.minLr i) * (1 + Real.cos (Real.pi / T * x)) / 2

/-- cos_lr.py:53-76 `get_lr` -/
noncomputable def cosGetLr {g : Nat} (c : CosCfg g) : GetLr g CosSt := fun s lastEpoch step =>
  let x : ℝ := ((step - s.lastRestart : Int) : ℝ)
  let T := cosT c s lastEpoch step
  if x ≥ T then
    if c.warmRestarts then (⟨T * c.tMul, step, s.numRestarts + 1⟩, cosRate c (T * c.tMul) (s.numRestarts + 1) 0)
    else ({ s with T := T }, c.minLr)
  else ({ s with T := T }, cosRate c T s.numRestarts x)

/-- cos_lr.py:79-83 `epoch_end_step`: ZeroDivisionError when the first epoch had one batch. -/
noncomputable def cosEpochEnd {g : Nat} (c : CosCfg g) (s : LrSt g CosSt) : Option (LrSt g CosSt) :=
  if s.lastEpoch = 0 ∧ c.onBatch = true ∧ c.warmRestarts = true then
    if s.lastBatch = 0 then none
    else some { s with ext := { s.ext with T := (⌈s.ext.T / (s.lastBatch : ℝ)⌉ : ℝ) * (s.lastBatch : ℝ) } }
  else some s

/-- a history of calls of a new cosine scheduler with period `T` and the given `last_restart` (default 1). -/
noncomputable def cosRun {g : Nat} (c : CosCfg g) (T : ℝ) (lastRestart : Int) (es : List LrEv) : Option (LrSt g CosSt) :=
  lrRun c.toLrCfg (cosGetLr c) (cosEpochEnd c) (LrSt.init c.toLrCfg ⟨T, lastRestart, 0⟩) es

end Hyp.Torch
