import Verif.Cli.Eval
import Verif.Cli.Feats

/-!
Factories behind command lines: optimisers and learning-rate schedulers of torch, optimisers and callbacks of Keras.
-/

namespace Hyp.Cli

/-- a call `f(**kw)`: parameters in order, `none` for one without default; an unknown or missing argument raises TypeError. The result: all
parameters with their values. -/
def bindKw (sig : List (String × Option Val)) (kw : List (String × Val)) : Option (List (String × Val)) :=
  if kw.all (fun q => sig.any (fun p => decide (p.1 = q.1))) then
    sig.mapM (fun p : String × Option Val => ((dictGet kw p.1).orElse (fun _ => p.2)).map (fun v : Val => (p.1, v)))
  else none

/-- a made object: its class and arguments -/
structure Made where
  cls : String
  args : List (String × Val)
deriving DecidableEq

/-- a variable of a function after its call was bound -/
def arg (a : List (String × Val)) (k : String) : Val := (dictGet a k).getD .null

/-- torch/helpers/optimizer_factory.py:82-159 -/
def optOpts : List Opt :=
  [⟨["optimizer"], "opt_type", .store .lower (some [.str "sgd", .str "adam", .str "adadelta", .str "adagrad", .str "sparse_adam", .str "adamax", .str "asgd",
      .str "lbfgs", .str "rmsprop", .str "rprop"]), .str "adam", false⟩,
   ⟨["lr"], "lr", .store .float none, .dec 1 3, false⟩,
   ⟨["momentum"], "momentum", .store .float none, .dec 6 1, false⟩,
   ⟨["beta1"], "beta1", .store .float none, .dec 9 1, false⟩,
   ⟨["beta2"], "beta2", .store .float none, .dec 99 2, false⟩,
   ⟨["rho"], "rho", .store .float none, .dec 9 1, false⟩,
   ⟨["eps"], "eps", .store .float none, .dec 1 8, false⟩,
   ⟨["weight-decay"], "weight_decay", .store .float none, .dec 1 6, false⟩,
   ⟨["amsgrad"], "amsgrad", .const true, .bool false, false⟩,
   ⟨["nesterov"], "nesterov", .const true, .bool false, false⟩,
   ⟨["lambd"], "lambd", .store .float none, .dec 1 4, false⟩,
   ⟨["asgd-alpha"], "asgd_alpha", .store .float none, .dec 75 2, false⟩,
   ⟨["t0"], "t0", .store .float none, .int 1000000, false⟩,
   ⟨["rmsprop-alpha"], "rmsprop_alpha", .store .float none, .dec 99 2, false⟩,
   ⟨["centered"], "centered", .const true, .bool false, false⟩,
   ⟨["lr-decay"], "lr_decay", .store .float none, .dec 1 6, false⟩,
   ⟨["init-acc-val"], "init_acc_val", .store .float none, .int 0, false⟩,
   ⟨["max-iter"], "max_iter", .store .int none, .int 20, false⟩]

/-- torch/helpers/optimizer_factory.py:66-79 -/
def optValid : List String :=
  ["opt_type", "lr", "momentum", "beta1", "beta2", "rho", "eps", "weight_decay", "amsgrad", "nesterov", "lambd", "asgd_alpha", "t0", "rmsprop_alpha",
   "centered", "lr_decay", "init_acc_val", "max_iter"]

/-- torch/helpers/optimizer_factory.py:14-19: parameters of `create` after `params` -/
def optSig : List (String × Option Val) :=
  [("opt_type", none), ("lr", none), ("momentum", some (.int 0)), ("beta1", some (.dec 9 1)), ("beta2", some (.dec 99 2)), ("rho", some (.dec 9 1)),
   ("eps", some (.dec 1 8)), ("weight_decay", some (.int 0)), ("amsgrad", some (.bool false)), ("nesterov", some (.bool false)), ("lambd", some (.dec 1 4)),
   ("asgd_alpha", some (.dec 75 2)), ("t0", some (.int 1000000)), ("rmsprop_alpha", some (.dec 99 2)), ("centered", some (.bool false)),
   ("lr_decay", some (.int 0)), ("init_acc_val", some (.int 0)), ("max_iter", some (.int 20))]

/-- torch/helpers/optimizer_factory.py:21-61: the tests on `opt_type` in order; a pair of numbers stands as two entries -/
def optCases (a : List (String × Val)) : List (Val × Made) :=
  [(.str "sgd", ⟨"SGD", [("lr", arg a "lr"), ("momentum", arg a "momentum"), ("dampening", .int 0), ("weight_decay", arg a "weight_decay"),
      ("nesterov", arg a "nesterov")]⟩),
   (.str "adam", ⟨"Adam", [("lr", arg a "lr"), ("betas[0]", arg a "beta1"), ("betas[1]", arg a "beta2"), ("eps", arg a "eps"),
      ("weight_decay", arg a "weight_decay"), ("amsgrad", arg a "amsgrad")]⟩),
   (.str "adadelta", ⟨"Adadelta", [("lr", arg a "lr"), ("rho", arg a "rho"), ("eps", arg a "eps"), ("weight_decay", arg a "weight_decay")]⟩),
   (.str "adagrad", ⟨"Adagrad", [("lr", arg a "lr"), ("lr_decay", arg a "lr_decay"), ("weight_decay", arg a "weight_decay"),
      ("initial_accumulator_value", arg a "init_acc_val")]⟩),
   (.str "sparse_adam", ⟨"SparseAdam", [("lr", arg a "lr"), ("betas[0]", arg a "beta1"), ("betas[1]", arg a "beta2"), ("eps", arg a "eps")]⟩),
   (.str "adamax", ⟨"Adamax", [("lr", arg a "lr"), ("betas[0]", arg a "beta1"), ("betas[1]", arg a "beta2"), ("eps", arg a "eps"),
      ("weight_decay", arg a "weight_decay")]⟩),
   (.str "asgd", ⟨"ASGD", [("lr", arg a "lr"), ("lambd", arg a "lambd"), ("alpha", arg a "asgd_alpha"), ("t0", arg a "t0"),
      ("weight_decay", arg a "weight_decay")]⟩),
   (.str "lbfgs", ⟨"LBFGS", [("lr", arg a "lr"), ("max_iter", arg a "max_iter")]⟩),
   (.str "rmsprop", ⟨"RMSprop", [("lr", arg a "lr"), ("alpha", arg a "rmsprop_alpha"), ("eps", arg a "eps"), ("weight_decay", arg a "weight_decay"),
      ("momentum", arg a "momentum"), ("centered", arg a "centered")]⟩),
   (.str "rprop", ⟨"Rprop", [("lr", arg a "lr"), ("etas[0]", .dec 5 1), ("etas[1]", .dec 12 1), ("step_sizes[0]", .dec 1 6), ("step_sizes[1]", .int 50)]⟩)]

/-- torch/helpers/optimizer_factory.py:13-61 `create`; inner `none`: the function returns None -/
def optCreate (kw : List (String × Val)) : Option (Option Made) :=
  (bindKw optSig kw).map (fun a => dictGet (optCases a) (arg a "opt_type"))

/-- torch/lr_schedulers/factory.py:74-159 -/
def schOpts : List Opt :=
  [⟨["lrsch-type"], "lrsch_type", .store .lower (some [.str "none", .str "exp_lr", .str "cos_lr", .str "adamcos_lr", .str "red_lr_on_plateau"]), .str "none", false⟩,
   ⟨["decay-rate"], "decay_rate", .store .float none, .dec 1 2, false⟩,
   ⟨["decay-steps"], "decay_steps", .store .int none, .int 100, false⟩,
   ⟨["hold-steps"], "hold_steps", .store .int none, .int 10, false⟩,
   ⟨["t"], "T", .store .int none, .int 10, false⟩,
   ⟨["t-mul"], "T_mul", .store .int none, .int 1, false⟩,
   ⟨["gamma"], "gamma", .store .float none, .dec 1 2, false⟩,
   ⟨["warm-restarts"], "warm_restarts", .const true, .bool false, false⟩,
   ⟨["monitor"], "monitor", .store .str none, .str "val_loss", false⟩,
   ⟨["mode"], "mode", .store .str (some [.str "min", .str "max"]), .str "min", false⟩,
   ⟨["factor"], "factor", .store .float none, .dec 1 1, false⟩,
   ⟨["patience"], "patience", .store .int none, .int 10, false⟩,
   ⟨["threshold"], "threshold", .store .float none, .dec 1 4, false⟩,
   ⟨["threshold_mode"], "threshold_mode", .store .str (some [.str "rel", .str "abs"]), .str "rel", false⟩,
   ⟨["cooldown"], "cooldown", .store .int none, .int 0, false⟩,
   ⟨["eps"], "eps", .store .float none, .dec 1 8, false⟩,
   ⟨["min-lr"], "min_lr", .store .float none, .int 0, false⟩,
   ⟨["warmup-steps"], "warmup_steps", .store .int none, .int 0, false⟩,
   ⟨["update-lr-on-batch"], "update_lr_on_batch", .const true, .bool false, false⟩]

/-- torch/lr_schedulers/factory.py:55-69 -/
def schValid : List String :=
  ["lrsch_type", "decay_rate", "decay_steps", "hold_steps", "T", "T_mul", "warm_restarts", "gamma", "monitor", "mode", "factor", "patience", "threshold",
   "threshold_mode", "cooldown", "eps", "min_lr", "warmup_steps", "update_lr_on_batch"]

/-- torch/lr_schedulers/factory.py:18-25: parameters of `create` after `optimizer` -/
def schSig : List (String × Option Val) :=
  [("lrsch_type", none), ("decay_rate", some (.dec 1 2)), ("decay_steps", some (.int 100)), ("hold_steps", some (.int 10)), ("T", some (.int 10)),
   ("T_mul", some (.int 1)), ("warm_restarts", some (.bool false)), ("gamma", some (.int 1)), ("monitor", some (.str "val_loss")), ("mode", some (.str "min")),
   ("factor", some (.dec 1 1)), ("patience", some (.int 10)), ("threshold", some (.dec 1 4)), ("threshold_mode", some (.str "rel")), ("cooldown", some (.int 0)),
   ("eps", some (.dec 1 8)), ("min_lr", some (.int 0)), ("warmup_steps", some (.int 0)), ("update_lr_on_batch", some (.bool false))]

/-- torch/lr_schedulers/factory.py:30-52; positional arguments stand under the names of the constructors (exp_lr.py:15-17, cos_lr.py:40-42, 88-90,
red_lr_on_plateau.py:54-57) -/
def schCases (a : List (String × Val)) : List (Val × Made) :=
  [(.str "exp_lr", ⟨"ExponentialLR", [("decay_rate", arg a "decay_rate"), ("decay_steps", arg a "decay_steps"), ("hold_steps", arg a "hold_steps"),
      ("min_lr", arg a "min_lr"), ("warmup_steps", arg a "warmup_steps"), ("update_lr_on_batch", .bool false)]⟩),
   (.str "cos_lr", ⟨"CosineLR", [("T", arg a "T"), ("T_mul", arg a "T_mul"), ("min_lr", arg a "min_lr"), ("warmup_steps", arg a "warmup_steps"),
      ("warm_restarts", arg a "warm_restarts"), ("gamma", arg a "gamma"), ("update_lr_on_batch", arg a "update_lr_on_batch")]⟩),
   (.str "adamcos_lr", ⟨"AdamCosineLR", [("T", arg a "T"), ("T_mul", arg a "T_mul"), ("warmup_steps", arg a "warmup_steps"),
      ("warm_restarts", arg a "warm_restarts"), ("gamma", arg a "gamma"), ("update_lr_on_batch", arg a "update_lr_on_batch")]⟩),
   (.str "red_lr_on_plateau", ⟨"ReduceLROnPlateau", [("monitor", arg a "monitor"), ("mode", arg a "mode"), ("factor", arg a "factor"),
      ("patience", arg a "patience"), ("threshold", arg a "threshold"), ("threshold_mode", arg a "threshold_mode"), ("cooldown", arg a "cooldown"),
      ("min_lr", arg a "min_lr"), ("warmup_steps", arg a "warmup_steps"), ("eps", arg a "eps")]⟩)]

/-- `v < 1.0` for a number; anything else raises TypeError in the comparison -/
def belowOne : Val → Bool
  | .int z => decide (z < 1)
  | .dec n k => decide (n < 10 ^ k)
  | .bool b => !b
  | _ => false

/-- constructors that raise: cos_lr.py:91 (`super(AdamCosineLR, super)` is a TypeError), red_lr_on_plateau.py:62-63 (a factor that is not below one) -/
def schCtor (m : Made) : Option Made :=
  if m.cls = "AdamCosineLR" then none else if m.cls = "ReduceLROnPlateau" && !belowOne (arg m.args "factor") then none else some m

/-- torch/lr_schedulers/factory.py:18-52 `create`; inner `none`: the function returns None -/
def schCreate (kw : List (String × Val)) : Option (Option Made) :=
  (bindKw schSig kw).bind (fun a => if arg a "lrsch_type" = .str "none" then some none
    else match dictGet (schCases a) (arg a "lrsch_type") with
      | none => some none
      | some m => (schCtor m).map some)

/-- keras/helpers/optimizer_factory.py:53-104 -/
def kofOpts : List Opt :=
  [⟨["optimizer"], "opt_type", .store .lower (some [.str "sgd", .str "nsgd", .str "rmsprop", .str "adam", .str "nadam", .str "adamax"]), .str "adam", false⟩,
   ⟨["lr"], "lr", .store .float none, .dec 2 3, false⟩,
   ⟨["momentum"], "momentum", .store .float none, .dec 6 1, false⟩,
   ⟨["lr-decay"], "lr_decay", .store .float none, .dec 1 6, false⟩,
   ⟨["rho"], "rho", .store .float none, .dec 9 1, false⟩,
   ⟨["epsilon"], "epsilon", .store .float none, .dec 1 8, false⟩,
   ⟨["amsgrad"], "amsgrad", .const true, .bool false, false⟩,
   ⟨["beta1"], "beta_1", .store .float none, .dec 9 1, false⟩,
   ⟨["beta2"], "beta_2", .store .float none, .dec 999 3, false⟩,
   ⟨["clipnorm"], "clipnorm", .store .float none, .int 10, false⟩,
   ⟨["clipvalue"], "clipvalue", .store .float none, .int 100, false⟩]

/-- keras/helpers/optimizer_factory.py:38-48 -/
def kofValid : List String := ["opt_type", "lr", "momentum", "lr_decay", "rho", "epsilon", "beta_1", "beta_2", "clipnorm", "clipvalue"]

/-- keras/helpers/optimizer_factory.py:11-13 -/
def kofSig : List (String × Option Val) :=
  [("opt_type", none), ("lr", none), ("momentum", some (.int 0)), ("lr_decay", some (.int 0)), ("rho", some (.dec 9 1)), ("epsilon", some .null),
   ("beta_1", some (.dec 9 1)), ("beta_2", some (.dec 999 3)), ("clipnorm", some (.int 10)), ("clipvalue", some (.int 100)), ("amsgrad", some (.bool false))]

/-- keras/helpers/optimizer_factory.py:15-35 -/
def kofCases (a : List (String × Val)) : List (Val × Made) :=
  [(.str "sgd", ⟨"SGD", [("lr", arg a "lr"), ("momentum", arg a "momentum"), ("decay", arg a "lr_decay"), ("nesterov", .bool false),
      ("clipnorm", arg a "clipnorm"), ("clipvalue", arg a "clipvalue")]⟩),
   (.str "nsgd", ⟨"SGD", [("lr", arg a "lr"), ("momentum", arg a "momentum"), ("decay", arg a "lr_decay"), ("nesterov", .bool true),
      ("clipnorm", arg a "clipnorm"), ("clipvalue", arg a "clipvalue")]⟩),
   (.str "rmsprop", ⟨"RMSprop", [("lr", arg a "lr"), ("rho", arg a "rho"), ("epsilon", arg a "epsilon"), ("decay", arg a "lr_decay"),
      ("clipnorm", arg a "clipnorm"), ("clipvalue", arg a "clipvalue")]⟩),
   (.str "adam", ⟨"Adam", [("lr", arg a "lr"), ("beta_1", arg a "beta_1"), ("beta_2", arg a "beta_2"), ("epsilon", arg a "epsilon"), ("decay", arg a "lr_decay"),
      ("amsgrad", arg a "amsgrad"), ("clipnorm", arg a "clipnorm"), ("clipvalue", arg a "clipvalue")]⟩),
   (.str "nadam", ⟨"Nadam", [("lr", arg a "lr"), ("beta_1", arg a "beta_1"), ("beta_2", arg a "beta_2"), ("epsilon", arg a "epsilon"),
      ("schedule_decay", arg a "lr_decay"), ("clipnorm", arg a "clipnorm"), ("clipvalue", arg a "clipvalue")]⟩),
   (.str "adamax", ⟨"Adamax", [("lr", arg a "lr"), ("beta_1", arg a "beta_1"), ("beta_2", arg a "beta_2"), ("epsilon", arg a "epsilon"), ("decay", arg a "lr_decay"),
      ("clipnorm", arg a "clipnorm"), ("clipvalue", arg a "clipvalue")]⟩)]

/-- keras/helpers/optimizer_factory.py:10-35 `create_optimizer` -/
def kofCreate (kw : List (String × Val)) : Option (Option Made) :=
  (bindKw kofSig kw).map (fun a => dictGet (kofCases a) (arg a "opt_type"))

/-- keras/helpers/callbacks_factory.py:89-147 -/
def cbOpts : List Opt :=
  [⟨["monitor"], "monitor", .store .str none, .str "val_loss", false⟩,
   ⟨["lr-monitor"], "lr_monitor", .store .str none, .null, false⟩,
   ⟨["monitor-mode"], "monitor_mode", .store .str (some [.str "min", .str "max", .str "auto"]), .str "auto", false⟩,
   ⟨["lr-monitor-mode"], "lr_monitor_mode", .store .str (some [.str "min", .str "max", .str "auto"]), .str "auto", false⟩,
   ⟨["patience"], "patience", .store .int none, .int 100, false⟩,
   ⟨["lr-patience"], "lr_patience", .store .int none, .int 10, false⟩,
   ⟨["lr-factor"], "lr_factor", .store .float none, .dec 1 1, false⟩,
   ⟨["lr-red-factor"], "lr_red_factor", .store .float none, .null, false⟩,
   ⟨["lr-inc-factor"], "lr_inc_factor", .store .float none, .null, false⟩,
   ⟨["min-delta"], "min_delta", .store .float none, .dec 1 4, false⟩,
   ⟨["min-lr"], "min_lr", .store .float none, .dec 1 5, false⟩,
   ⟨["lr-steps"], "lr_steps", .store .words none, .null, false⟩,
   ⟨["save-all-epochs"], "save_all_epochs", .const true, .bool false, false⟩,
   ⟨["log-append"], "log_append", .const true, .bool false, false⟩]

/-- keras/helpers/callbacks_factory.py:73-86 -/
def cbValid : List String :=
  ["save_all_epochs", "monitor_mode", "lr_monitor_mode", "monitor", "patience", "min_delta", "lr_monitor", "lr_steps", "lr_patience", "lr_factor", "lr_red_factor",
   "lr_inc_factor", "min_lr", "log_append"]

/-- keras/helpers/callbacks_factory.py:13-21: parameters of `create_callbacks` after `model` and `file_path` -/
def cbSig : List (String × Option Val) :=
  [("save_all_epochs", some (.bool false)), ("monitor", some (.str "val_loss")), ("monitor_mode", some (.str "auto")), ("patience", some .null),
   ("min_delta", some (.dec 1 4)), ("lr_steps", some .null), ("lr_monitor", some .null), ("lr_monitor_mode", some (.str "auto")), ("lr_patience", some .null),
   ("lr_factor", some (.dec 1 1)), ("lr_red_factor", some .null), ("lr_inc_factor", some .null), ("min_lr", some (.dec 1 7)), ("log_append", some (.bool false))]

/-- keras/helpers/callbacks_factory.py:29-37 and callbacks/checkpointers.py:14-21: the attributes of the checkpoint callback after its constructor,
which passes `mode='auto', period=1` on whatever it was given -/
def checkpoint (path : String) (a : List (String × Val)) : Made :=
  ⟨"HypModelCheckpoint",
    [("filepath", .str (path ++ (if arg a "save_all_epochs" = .bool true then "/model.{epoch:04d}" else "/model.best"))), ("monitor", arg a "monitor"),
     ("save_best_only", .bool (decide (arg a "save_all_epochs" ≠ .bool true))), ("mode", .str "auto"), ("period", .int 1)]⟩

/-- keras/helpers/callbacks_factory.py:51-66: `none` is an exception: the constructor of `ReduceLROnPlateauIncreaseOnImprovement` uses an undefined
name (callbacks/lr_schedulers.py:73-75) -/
def plateau (a : List (String × Val)) : Option (List Made) :=
  if arg a "lr_patience" = .null then some []
  else if arg a "lr_inc_factor" = .null then
    some [⟨"ReduceLROnPlateau", [("monitor", if arg a "lr_monitor" = .null then arg a "monitor" else arg a "lr_monitor"),
      ("factor", if arg a "lr_red_factor" = .null then arg a "lr_factor" else arg a "lr_red_factor"), ("patience", arg a "lr_patience"),
      ("mode", arg a "lr_monitor_mode"), ("min_delta", arg a "min_delta"), ("cooldown", .int 0), ("min_lr", arg a "min_lr")]⟩]
  else none

/-- keras/helpers/callbacks_factory.py:12-70 `create_callbacks` (without the verbosity of the callbacks and the creation of the directory) -/
def cbCreate (path : String) (kw : List (String × Val)) : Option (List Made) :=
  (bindKw cbSig kw).bind (fun a => (plateau a).map (fun pl =>
    [checkpoint path a, ⟨"CSVLogger", [("filename", .str (path ++ "/train.log")), ("separator", .str ","), ("append", arg a "log_append")]⟩] ++
    (if arg a "patience" = .null then [] else [⟨"EarlyStopping", [("monitor", arg a "monitor"), ("patience", arg a "patience"), ("min_delta", arg a "min_delta"),
      ("mode", arg a "monitor_mode")]⟩]) ++
    (if arg a "lr_steps" = .null then [] else [⟨"LearningRateSteps", [("schedule", arg a "lr_steps")]⟩]) ++ pl))

/-- callbacks/lr_schedulers.py:24-29: `epoch in self.schedule` for an epoch number and a schedule from a command line: a number never equals a text -/
def epochIn (v : Val) (e : Int) : Bool :=
  match v with
  | .ints l => l.contains e
  | _ => false

/-- the end of a script: the object made by a factory from a command line, with a parser that has the options `all` -/
def madeIn {α : Type} (all : List Opt) (p : Option String) (valid : List String) (create : List (String × Val) → Option α) (conv : Ty → String → Option Val)
    (us : List Use) : Option α :=
  (build all).bind (fun q => (parse conv q us).bind (fun ns => create (pickP p valid ns)))

/-- the same with no other options -/
def made {α : Type} (p : Option String) (opts : List Opt) (valid : List String) (create : List (String × Val) → Option α) (conv : Ty → String → Option Val)
    (us : List Use) : Option α := madeIn (opts.map (addPre p)) p valid create conv us

end Hyp.Cli
