import Verif.Torch.LrSched

/-! Model of /repo/hyperion/torch/lr_schedulers/red_lr_on_plateau.py. -/

namespace Hyp.Torch

/-- red_lr_on_plateau.py:54-80; `modeMin`: mode 'min' (else 'max'), `rel`: threshold_mode 'rel' (else 'abs'). `factor < 1` is
checked by the constructor (line 62). In 'min'/'rel' mode the threshold is taken to be below 1, so that everything is
better than the initial best, infinity. -/
structure PlateauCfg (g : Nat) extends LrCfg g where
  modeMin : Bool
  rel : Bool
  threshold : ℝ
  factor : ℝ
  patience : Int
  cooldown : Int
  eps : ℝ

/-- red_lr_on_plateau.py:83-87; `best = none` is the worst value (plus or minus infinity). -/
structure PlateauSt where
  best : Option ℝ
  numBad : Int
  cool : Int

/-- red_lr_on_plateau.py:135-148 `_cmp`; `a = none` is NaN, which is never better. -/
noncomputable def isBetter {g : Nat} (c : PlateauCfg g) (a : Option ℝ) (best : Option ℝ) : Prop :=
  match a, best with
  | none, _ => False
  | some _, none => True
  | some a, some b =>
    if c.modeMin then (if c.rel then a < b * (1 - c.threshold) else a < b - c.threshold)
    else (if c.rel then a > b * (c.threshold + 1) else a > b + c.threshold)

/-- red_lr_on_plateau.py:122-129 `_reduce_lr` -/
noncomputable def reduceLr {g : Nat} (c : PlateauCfg g) (lr : Fin g → ℝ) : Fin g → ℝ := fun i =>
  let new := max (lr i * c.factor) (c.minLr i)
  if lr i - new > c.eps then new else lr i

open Classical in
/-- red_lr_on_plateau.py:105-114: best value, number of bad epochs and cooldown counter before the decision. -/
noncomputable def plateauCount {g : Nat} (c : PlateauCfg g) (p : PlateauSt) (metric : Option ℝ) : PlateauSt :=
  let best := if isBetter c metric p.best then metric else p.best
  let bad := if isBetter c metric p.best then 0 else p.numBad + 1
  if p.cool > 0 then ⟨best, 0, p.cool - 1⟩ else ⟨best, bad, p.cool⟩

/-- red_lr_on_plateau.py:104-119 `epoch_end_step`; the metric is read from the logs of the epoch. -/
noncomputable def plateauEnd {g : Nat} (c : PlateauCfg g) (s : LrSt g PlateauSt) (metric : Option ℝ) : LrSt g PlateauSt :=
  let p := plateauCount c s.ext metric
  if p.numBad > c.patience then { s with lr := reduceLr c s.lr, ext := ⟨p.best, 0, c.cooldown⟩ }
  else { s with ext := p }

/-- the calls of the trainer; the end of an epoch comes with the monitored metric. -/
inductive PlEv where
  | epochBegin
  | batch
  | epochEnd (metric : Option ℝ)

/-- red_lr_on_plateau.py:90-101: `batch_step` and `epoch_begin_step`. -/
noncomputable def plStep {g : Nat} (c : PlateauCfg g) (s : LrSt g PlateauSt) : PlEv → Option (LrSt g PlateauSt)
  | .epochBegin => some { s with lastEpoch := s.lastEpoch + 1 }
  | .batch =>
    if s.lastBatch + 1 ≤ c.warmup then (warmupLr c.toLrCfg (s.lastBatch + 1)).map (fun lr => { s with lastBatch := s.lastBatch + 1, lr := lr })
    else some { s with lastBatch := s.lastBatch + 1 }
  | .epochEnd m => some (plateauEnd c s m)

noncomputable def plRun {g : Nat} (c : PlateauCfg g) : LrSt g PlateauSt → List PlEv → Option (LrSt g PlateauSt)
  | s, [] => some s
  | s, e :: es => (plStep c s e).bind (fun s' => plRun c s' es)

/-- a new scheduler. -/
def plInit {g : Nat} (c : PlateauCfg g) : LrSt g PlateauSt := LrSt.init c.toLrCfg ⟨none, 0, 0⟩

end Hyp.Torch
