import Verif.Torch.Trainer
import Verif.PyDict
import Mathlib.Data.Rat.Defs
import Mathlib.Algebra.Order.Ring.Unbundled.Rat

/-!
Model of the callbacks of the Keras trainer: /repo/hyperion/keras/callbacks/checkpointers.py, lr_schedulers.py and
/repo/hyperion/keras/helpers/callbacks_factory.py. Metric values and learning rates are rationals.
-/

namespace Hyp.Keras

open Hyp.Text Hyp

/-- `sub in s` -/
def hasSub (sub s : Str) : Bool := s.tails.any (fun t => sub.isPrefixOf t)

/-- arguments of `HypModelCheckpoint`, checkpointers.py:13-16. `path` is `filepath.format(epoch=epoch)` (fields of other
logs left out). -/
structure CkCfg where
  monitor : Str
  mode : Str
  period : Nat
  saveBestOnly : Bool
  path : Nat → Str

/-- the attributes that the constructor of Keras' `ModelCheckpoint` sets for mode and period -/
structure CkOp where
  greater : Bool
  period : Nat

/-- Keras 2 `ModelCheckpoint.__init__`: in mode auto the greater value is better for names that contain `acc` or begin with
`fmeasure` -/
def kerasOp (monitor mode : Str) (period : Nat) : CkOp :=
  { greater := if mode = "min".toList then false else if mode = "max".toList then true else hasSub "acc".toList monitor || "fmeasure".toList.isPrefixOf monitor
    period := period }

/-- `HypModelCheckpoint.__init__`, checkpointers.py:13-20: passes `mode='auto', period=1` whatever it was given -/
def ckOp (c : CkCfg) : CkOp := kerasOp c.monitor "auto".toList 1

/-- `best` (`none` is plus or minus infinity), epochs since the last save, and the disk: model of which epoch is stored where -/
structure CkSt where
  best : Option Rat
  since : Nat
  disk : List (Str × Nat)
deriving DecidableEq

/-- `monitor_op(current, best)` -/
def improves (greater : Bool) (cur : Rat) (best : Option Rat) : Bool :=
  match best with
  | none => true
  | some b => if greater then decide (b < cur) else decide (cur < b)

/-- `on_epoch_end(epoch, logs)`, checkpointers.py:23-47; `cur` is `logs.get(monitor)`; NaN left out -/
def ckEpoch (c : CkCfg) (s : CkSt) (epoch : Nat) (cur : Option Rat) : CkSt :=
  let o := ckOp c
  if o.period ≤ s.since + 1 then
    if c.saveBestOnly then
      match cur with
      | none => { s with since := 0 }
      | some v => if improves o.greater v s.best then { best := some v, since := 0, disk := dictSet s.disk (c.path epoch) epoch } else { s with since := 0 }
    else { s with since := 0, disk := dictSet s.disk (c.path epoch) epoch }
  else { s with since := s.since + 1 }

/-- the epochs `first, first + 1, …` with their logs -/
def ckRun (c : CkCfg) (first : Nat) (logs : List (Option Rat)) (disk : List (Str × Nat)) : CkSt :=
  ((List.range logs.length).zip logs).foldl (fun s p => ckEpoch c s (first + p.1) p.2) { best := none, since := 0, disk := disk }

/-- the schedule of `LearningRateSteps`: a dictionary as documented, or the list of strings that the command line option
`--lr-steps` gives (callbacks_factory.py:144-145) -/
inductive Schedule
  | dict (d : List (Nat × Rat))
  | strs (l : List Str)

/-- `on_epoch_begin`, lr_schedulers.py:26-34: a number is never in a list of strings -/
def lrBegin (sch : Schedule) (lr : Rat) (epoch : Nat) : Rat :=
  match sch with
  | .dict d => (dictGet d epoch).getD lr
  | .strs _ => lr

/-- learning rate of the last of `n` epochs, the first of which is `first` -/
def lrAfter (sch : Schedule) (lr0 : Rat) (first n : Nat) : Rat := ((List.range n).map (first + ·)).foldl (lrBegin sch) lr0

/-- kinds of callbacks -/
inductive Cb
  | checkpoint (c : CkCfg)
  | csv (path : Str) (append : Bool)
  | early (monitor mode : Str) (patience : Nat)
  | steps (s : Schedule)
  | plateau (monitor mode : Str) (factor : Rat) (patience : Nat)

/-- arguments of `create_callbacks` -/
structure CbArgs where
  dir : Str
  saveAll : Bool
  monitor : Str
  mode : Str
  patience : Option Nat
  lrSteps : Option Schedule
  lrMonitor : Option Str
  lrMode : Str
  lrPatience : Option Nat
  lrFactor : Rat
  lrRedFactor : Option Rat
  lrIncFactor : Option Rat
  append : Bool

/-- the last part of `create_callbacks`, callbacks_factory.py:50-70: the constructor of `ReduceLROnPlateauIncreaseOnImprovement`
(lr_schedulers.py:77-82) uses undefined names and always raises -/
def plateauCb (a : CbArgs) : Option (List Cb) :=
  match a.lrPatience, a.lrIncFactor with
  | none, _ => some []
  | some _, some _ => none
  | some p, none => some [.plateau (a.lrMonitor.getD a.monitor) a.lrMode (a.lrRedFactor.getD a.lrFactor) p]

/-- `CallbacksFactory.create_callbacks`, callbacks_factory.py:13-72 -/
def createCallbacks (a : CbArgs) : Option (List Cb) := do
  let ck : CkCfg := { monitor := a.monitor, mode := a.mode, period := 1, saveBestOnly := !a.saveAll
                      path := fun e => if a.saveAll then a.dir ++ ("/model.".toList ++ Torch.Trainer.pad4 e) else a.dir ++ "/model.best".toList }
  let early : List Cb := match a.patience with
    | none => []
    | some p => [.early a.monitor a.mode p]
  let steps : List Cb := match a.lrSteps with
    | none => []
    | some s => [.steps s]
  let pl ← plateauCb a
  some ([.checkpoint ck, .csv (a.dir ++ "/train.log".toList) a.append] ++ early ++ steps ++ pl)

end Hyp.Keras
