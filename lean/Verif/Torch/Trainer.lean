import Verif.Text

/-!
Model of /repo/hyperion/torch/torch_trainer.py: `fit`, `save_checkpoint`, `load_checkpoint`,
`load_last_checkpoint`, and of the epoch log of /repo/hyperion/torch/loggers/csv_logger.py, with crashes.

* `σ` is everything that a checkpoint stores: the state dictionaries of the model, the optimizer, the loss and the
  learning rate scheduler. `l` are the metrics of an epoch.
* `ρ` is what a process does not store: the state of the random generators, the order of the data. What an epoch
  of training does is an arbitrary function of `ρ`, of the epoch number and of `σ`.
* The disk holds the checkpoint files and the rows of `train.log`. `torch.save` first creates (or truncates) the
  file and then fills it: a crash in between leaves a file that cannot be loaded.
-/

namespace Hyp.Torch.Trainer
open Hyp.Text

/-- `'%04d' % n`. -/
def pad4 (n : Nat) : Str := List.replicate (4 - (printNat n).length) '0' ++ printNat n

/-- torch_trainer.py:173, 196: the file of an epoch. -/
def ckptPath (exp : Str) (epoch : Nat) : Str := exp ++ ("/model_ep".toList ++ (pad4 epoch ++ ".pth".toList))

/-- torch_trainer.py:155-168 `checkpoint`. -/
structure Ckpt (σ l : Type) where
  epoch : Nat
  state : σ
  logs : l
  deriving DecidableEq

/-- a checkpoint file: complete, or cut by a crash inside `torch.save`. -/
inductive File (σ l : Type)
  | broken
  | ok (c : Ckpt σ l)
  deriving DecidableEq

/-- the experiment directory: checkpoint files by path, and the epoch column of the rows of `train.log`. -/
structure Disk (σ l : Type) where
  files : Str → Option (File σ l)
  log : List Nat

/-- atomic effects on the disk. -/
inductive Action (σ l : Type)
  | logOpen
  | logRow (e : Nat)
  | saveBegin (path : Str)
  | saveEnd (path : Str) (c : Ckpt σ l)

variable {σ l ρ : Type}

/-- effect of an action. -/
def Action.apply (d : Disk σ l) : Action σ l → Disk σ l
  | .logOpen => { d with log := [] }
  | .logRow e => { d with log := d.log ++ [e] }
  | .saveBegin p => { d with files := fun q => if q = p then some .broken else d.files q }
  | .saveEnd p c => { d with files := fun q => if q = p then some (.ok c) else d.files q }

/-- csv_logger.py:39-54 `on_train_begin`: with `append` the code calls `os.path.exist`, which does not exist
(AttributeError, `none`); without it the file is opened with mode 'w'. -/
def onTrainBegin (append : Bool) : Option (Action σ l) := if append then none else some .logOpen

/-- torch_trainer.py:56-76: the epochs of `fit`, `n` of them from `cur` on: train (and validate), count the epoch,
write the row of the log (csv_logger.py:74-77), save the checkpoint under the new epoch number. -/
def fitLoop (train : Nat → σ → σ × l) (exp : Str) : Nat → Nat → σ → List (Action σ l)
  | 0, _, _ => []
  | n + 1, cur, s =>
    .logRow (cur + 1) :: .saveBegin (ckptPath exp (cur + 1)) ::
      .saveEnd (ckptPath exp (cur + 1)) ⟨cur + 1, (train cur s).1, (train cur s).2⟩ :: fitLoop train exp n (cur + 1) (train cur s).1

/-- torch_trainer.py:49-76 `fit` with the default loggers of a trainer built with `cur_epoch=0`
(141-144: `append=self.cur_epoch>0` is evaluated at construction). -/
def fit (train : Nat → σ → σ × l) (exp : Str) (epochs cur : Nat) (s : σ) : List (Action σ l) :=
  .logOpen :: fitLoop train exp (epochs - cur) cur s

/-- result of `load_last_checkpoint`. -/
inductive Load (σ l : Type)
  | nothing
  | raised
  | got (c : Ckpt σ l)
  deriving DecidableEq

/-- torch_trainer.py:192-201 `load_last_checkpoint` (with 178-190): the first existing file from `epochs` down to
1 is loaded; a broken file makes `torch.load` raise. -/
def loadLast (files : Str → Option (File σ l)) (exp : Str) : Nat → Load σ l
  | 0 => .nothing
  | e + 1 =>
    match files (ckptPath exp (e + 1)) with
    | none => loadLast files exp e
    | some .broken => .raised
    | some (.ok c) => .got c

/-- one process: build the trainer with initial state `s0`, `load_last_checkpoint()`, `fit(...)`. `none` = loading
raises. -/
def process (train : Nat → σ → σ × l) (exp : Str) (epochs : Nat) (s0 : σ) (d : Disk σ l) : Option (List (Action σ l)) :=
  match loadLast d.files exp epochs with
  | .raised => none
  | .nothing => some (fit train exp epochs 0 s0)
  | .got c => some (fit train exp epochs c.epoch c.state)

/-- what the user and the machine can do: run a process, which is killed after `k` actions (or ends before), or
remove a broken checkpoint. -/
inductive Event (σ ρ : Type)
  | run (r : ρ) (s0 : σ) (epochs k : Nat)
  | rm (epoch : Nat)

/-- disk after an event. -/
def Event.exec (train : ρ → Nat → σ → σ × l) (exp : Str) (d : Disk σ l) : Event σ ρ → Disk σ l
  | .run r s0 epochs k =>
    match process (train r) exp epochs s0 d with
    | none => d
    | some as => (as.take k).foldl Action.apply d
  | .rm e =>
    match d.files (ckptPath exp e) with
    | some .broken => { d with files := fun q => if q = ckptPath exp e then none else d.files q }
    | _ => d

/-- empty experiment directory. -/
def Disk.empty : Disk σ l := ⟨fun _ => none, []⟩

/-- disk after a history. -/
def execAll (train : ρ → Nat → σ → σ × l) (exp : Str) (h : List (Event σ ρ)) : Disk σ l :=
  h.foldl (Event.exec train exp) Disk.empty

end Hyp.Torch.Trainer
