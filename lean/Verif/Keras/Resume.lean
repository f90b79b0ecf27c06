import Verif.Keras.Callbacks

/-!
Model of a training script of the x-vectors with Keras, /repo/hyperion/bin/keras-train-cat-seq-embed-gen-v1.py and -v2.py, with the
checkpoints of /repo/hyperion/keras/keras_model_loader.py and the files of /repo/hyperion/keras/embed/seq_embed.py, and with crashes.

* A model is a pair of networks: the encoder before the pooling (`α`) and the classifier after it (`β`).
* `ω` is the state of the optimizer (moments, learning rate), which no file holds.
* `ρ` is what else a process does not store (random numbers, order of the data). One epoch of training is an arbitrary function of
  `ρ`, the epoch, the optimizer and the model; it gives also the monitored metric when that exists.
* Writing a file first creates (or truncates) it and then fills it: a crash in between leaves a file that cannot be loaded.
* Left out: `train.log`, freezing, the transform; the arguments that only the data generator uses.
-/

namespace Hyp.Keras.Resume
open Hyp.Text Hyp

variable {α β ω ρ : Type}

/-- content of a file: cut by a crash, the configuration, or one of the networks -/
inductive File (α β : Type)
  | broken
  | json
  | enc (a : α)
  | pt (b : β)

/-- the files by path -/
abbrev Disk (α β : Type) := Str → Option (File α β)

/-- atomic effects: a file is created or truncated; a file gets its content -/
inductive Action (α β : Type)
  | start (path : Str)
  | fill (path : Str) (f : File α β)

/-- effect of an action -/
def Action.apply (d : Disk α β) : Action α β → Disk α β
  | .start p => fun q => if q = p then some .broken else d q
  | .fill p f => fun q => if q = p then some f else d q

/-- `SeqEmbed.save(file_path)`, seq_embed.py:311-319: configuration, encoder, classifier, in this order -/
def saveActs (p : Str) (m : α × β) : List (Action α β) :=
  [.start (p ++ ".json".toList), .fill (p ++ ".json".toList) .json,
   .start (p ++ ".enc.h5".toList), .fill (p ++ ".enc.h5".toList) (.enc m.1),
   .start (p ++ ".pt.h5".toList), .fill (p ++ ".pt.h5".toList) (.pt m.2)]

/-- the configuration file can be read: `HypModel.load_config`, hyp_model.py:91-98 -/
def readJson (d : Disk α β) (q : Str) : Option Unit :=
  match d q with
  | some .json => some ()
  | _ => none

/-- Keras' `load_model` of the encoder -/
def readEnc (d : Disk α β) (q : Str) : Option α :=
  match d q with
  | some (.enc a) => some a
  | _ => none

/-- Keras' `load_model` of the classifier -/
def readPt (d : Disk α β) (q : Str) : Option β :=
  match d q with
  | some (.pt b) => some b
  | _ => none

/-- `KerasModelLoader.load(model_path)`, keras_model_loader.py:30-36, with `SeqEmbed.load`, seq_embed.py:323-338; `none` = raises -/
def load (d : Disk α β) (p : Str) : Option (α × β) := do
  let _ ← readJson d (p ++ ".json".toList)
  let a ← readEnc d (p ++ ".enc.h5".toList)
  let b ← readPt d (p ++ ".pt.h5".toList)
  some (a, b)

/-- `s.rstrip('.json')`: removes from the end every character that is one of `.json` -/
def stripJson (s : Str) : Str := (s.reverse.dropWhile (fun c => ".json".toList.contains c)).reverse

/-- keras_model_loader.py:43-48: the file of the largest epoch `e ≤ epochs` that exists -/
def findEpoch (d : Disk α β) (dir : Str) : Nat → Option (Str × Nat)
  | 0 =>
    let q := dir ++ ("/model.".toList ++ (Torch.Trainer.pad4 0 ++ ".json".toList))
    if (d q).isSome then some (q, 0) else none
  | e + 1 =>
    let q := dir ++ ("/model.".toList ++ (Torch.Trainer.pad4 (e + 1) ++ ".json".toList))
    if (d q).isSome then some (q, e + 1) else findEpoch d dir e

/-- keras_model_loader.py:50-53: otherwise `model.best` with epoch 0 -/
def findBest (d : Disk α β) (dir : Str) : Option (Str × Nat) :=
  let q := dir ++ "/model.best.json".toList
  if (d q).isSome then some (q, 0) else none

/-- `KerasModelLoader.load_checkpoint(model_path, epochs)`, keras_model_loader.py:40-60: outer `none` = raises; inner `none` = no model -/
def loadCheckpoint (d : Disk α β) (dir : Str) (epochs : Nat) : Option (Option (α × β) × Nat) :=
  match (findEpoch d dir epochs).orElse (fun _ => findBest d dir) with
  | none => some (none, 0)
  | some (q, e) => (load d (stripJson q)).map (fun m => (some m, e))

/-- one epoch of training: optimizer, model, and the metric that the checkpoint monitors -/
abbrev Epoch (α β ω : Type) := Nat → ω × (α × β) → (ω × (α × β)) × Option Rat

/-- the epochs of Keras' `fit_generator`, `n` of them from `epoch` on: each trains and calls the checkpoint callback
(checkpointers.py:23-47, `ckEpoch`), which saves the model. Gives the writes and the last model. -/
def fitLoop (train : Epoch α β ω) (c : CkCfg) : Nat → Nat → CkSt → ω × (α × β) → List (Action α β) × (α × β)
  | 0, _, _, s => ([], s.2)
  | n + 1, epoch, k, s =>
    let t := train epoch s
    let k' := ckEpoch c { k with disk := [] } epoch t.2
    let r := fitLoop train c n (epoch + 1) k' t.1
    (k'.disk.flatMap (fun f => saveActs f.1 t.1.2) ++ r.1, r.2)

/-- arguments of the script -/
structure Args where
  cb : CbArgs
  epochs : Nat
  initPath : Option Str
  initEpoch : Nat
  hasVal : Bool
  /-- 0 in gen-v1 (line 63) and lde-gen-v1 (65), 1 in gen-v2 (61) -/
  bump : Nat

/-- gen-v1.py:54-63: a new network, or the loaded one and its epoch (gen-v2.py:61: the epoch after it) -/
def chosen (a : Args) (fresh : α × β) (r : Option (α × β) × Nat) : (α × β) × Nat :=
  match r.1 with
  | none => (fresh, a.initEpoch)
  | some m => (m, r.2 + a.bump)

/-- gen-v1.py:52-66: the model to start from and the first epoch. `none` = raises -/
def begins (a : Args) (fresh : α × β) (d : Disk α β) : Option ((α × β) × Nat) :=
  match a.initPath with
  | some p => (load d p).map (fun m => (m, a.initEpoch))
  | none => (loadCheckpoint d a.cb.dir a.epochs).map (chosen a fresh)

/-- the checkpoint callback of the list -/
def ckOf (l : List Cb) : Option CkCfg := l.findSome? (fun c => match c with
  | .checkpoint c => some c
  | _ => none)

/-- gen-v1.py:42-122 `train_embed`: the writes of the process. `stop`: early stopping or a signal ends the loop after that many epochs.
Without a validation list `sg_val` is not defined at line 115: raises. -/
def process (train : Epoch α β ω) (o0 : ω) (a : Args) (fresh : α × β) (stop : Nat) (d : Disk α β) : Option (List (Action α β)) := do
  let st ← begins a fresh d
  let cbs ← createCallbacks a.cb
  let c ← ckOf cbs
  if a.hasVal then
    let r := fitLoop train c (min (a.epochs - st.2) stop) st.2 { best := none, since := 0, disk := [] } (o0, st.1)
    some (r.1 ++ saveActs (a.cb.dir ++ "/model".toList) r.2)
  else none

/-- what the user and the machine can do: start the script, which is killed after `k` writes (or ends before), or remove the
three files of the checkpoint of an epoch that cannot be loaded -/
inductive Event (α β ρ : Type)
  | run (a : Args) (r : ρ) (fresh : α × β) (stop k : Nat)
  | rm (epoch : Nat)

/-- disk after a process that is killed after `k` writes -/
def runKill (train : Epoch α β ω) (o0 : ω) (a : Args) (fresh : α × β) (stop k : Nat) (d : Disk α β) : Disk α β :=
  match process train o0 a fresh stop d with
  | none => d
  | some as => (as.take k).foldl Action.apply d

/-- name of the checkpoint of an epoch, callbacks_factory.py:29 -/
def epochPath (dir : Str) (e : Nat) : Str := dir ++ ("/model.".toList ++ Torch.Trainer.pad4 e)

/-- removes the files of a checkpoint that cannot be loaded -/
def remove (d : Disk α β) (p : Str) : Disk α β := fun q =>
  if (load d p).isNone ∧ (q = p ++ ".json".toList ∨ q = p ++ ".enc.h5".toList ∨ q = p ++ ".pt.h5".toList) then none else d q

/-- disk after an event in the directory `dir` -/
def Event.exec (train : ρ → Epoch α β ω) (o0 : ω) (dir : Str) (d : Disk α β) : Event α β ρ → Disk α β
  | .run a r fresh stop k => runKill (train r) o0 a fresh stop k d
  | .rm e => remove d (epochPath dir e)

/-- disk after a history that begins with an empty disk -/
def execAll (train : ρ → Epoch α β ω) (o0 : ω) (dir : Str) (h : List (Event α β ρ)) : Disk α β :=
  h.foldl (Event.exec train o0 dir) (fun _ => none)

end Hyp.Keras.Resume
