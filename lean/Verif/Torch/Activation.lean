import Verif.Cli.Model

/-!
Activation functions of the torch models: `ActivationFactory`.
-/

namespace Hyp.Torch

open Hyp.Cli (Val)

/-- an activation module: class of `torch.nn` and constructor arguments, which torch keeps as attributes (torch is not part of this code: an assumption) -/
structure ActMod where
  cls : String
  attrs : List (String × Val)
deriving DecidableEq

/-- constructors of `torch.nn`: parameters in order, with default if there is one (torch, an assumption; `dec n k` is n/10^k, and the two defaults of
`RReLU`, 1/8 and 1/3, stand as texts) -/
def torchSig (cls : String) : Option (List (String × Option Val)) :=
  dictGet [("ELU", [("alpha", some (.int 1)), ("inplace", some (.bool false))]),
    ("Hardshrink", [("lambd", some (.dec 5 1))]),
    ("Hardtanh", [("min_val", some (.int (-1))), ("max_val", some (.int 1)), ("inplace", some (.bool false))]),
    ("LeakyReLU", [("negative_slope", some (.dec 1 2)), ("inplace", some (.bool false))]),
    ("LogSigmoid", []),
    ("PReLU", [("num_parameters", some (.int 1)), ("init", some (.dec 25 2))]),
    ("ReLU", [("inplace", some (.bool false))]),
    ("ReLU6", [("inplace", some (.bool false))]),
    ("RReLU", [("lower", some (.dec 125 3)), ("upper", some (.str "1/3")), ("inplace", some (.bool false))]),
    ("SELU", [("inplace", some (.bool false))]),
    ("CELU", [("alpha", some (.int 1)), ("inplace", some (.bool false))]),
    ("Sigmoid", []),
    ("Softplus", [("beta", some (.int 1)), ("threshold", some (.int 20))]),
    ("Softshrink", [("lambd", some (.dec 5 1))]),
    ("Softsign", []),
    ("Tanh", []),
    ("Tanhshrink", []),
    ("Threshold", [("threshold", none), ("value", none), ("inplace", some (.bool false))]),
    ("Softmin", [("dim", some .null)]),
    ("Softmax", [("dim", some .null)]),
    ("Softmax2d", []),
    ("LogSoftmax", [("dim", some .null)]),
    ("AdaptiveLogSoftmaxWithLoss", [("in_features", none), ("n_classes", none), ("cutoffs", none), ("div_value", some (.int 4)), ("head_bias", some (.bool false))])]
    cls

/-- a Python call `cls(**kwargs)`: an unknown or missing argument raises TypeError -/
def construct (cls : String) (kw : List (String × Val)) : Option ActMod :=
  (torchSig cls).bind (fun sig =>
    if kw.all (fun q => sig.any (fun p => decide (p.1 = q.1))) then
      (sig.mapM (fun p : String × Option Val => ((dictGet kw p.1).orElse (fun _ => p.2)).map (fun v : Val => (p.1, v)))).map (fun a => ⟨cls, a⟩)
    else none)

/-- torch/helpers/activation_factory.py:11-35 `act_dict` -/
def actDict : List (String × String) :=
  [("elu", "ELU"), ("hardshrink", "Hardshrink"), ("hardtanh", "Hardtanh"), ("leakyrelu", "LeakyReLU"), ("logsigmoid", "LogSigmoid"), ("prelu", "PReLU"),
   ("relu", "ReLU"), ("relu6", "ReLU6"), ("rrelu", "RReLU"), ("selu", "SELU"), ("celu", "CELU"), ("sigmoid", "Sigmoid"), ("softplus", "Softplus"),
   ("softshrink", "Softshrink"), ("softsign", "Softsign"), ("tanh", "Tanh"), ("tanhshrink", "Tanhshrink"), ("threshold", "Threshold"),
   ("softmin", "Softmin"), ("softmax", "Softmax"), ("softmax2d", "Softmax2d"), ("logsoftmax", "LogSoftmax"), ("alogsoftmax", "AdaptiveLogSoftmaxWithLoss")]

/-- torch/helpers/activation_factory.py:56-58 `create_from_str` -/
def createFromStr (name : String) (kw : List (String × Val)) : Option ActMod := (dictGet actDict name).bind (fun c => construct c kw)

/-- argument of `create`: a name, a dict, or an object (a module or None) -/
inductive ActArg where
  | name (s : String)
  | dict (d : List (String × Val))
  | obj (m : Option ActMod)

/-- `del kwargs.name` on a dict: dicts have no attributes, AttributeError -/
def delAttr (_ : List (String × Val)) : Option (List (String × Val)) := none

/-- torch/helpers/activation_factory.py:40-53 `create`; the outer `none` is an exception -/
def create : ActArg → List (String × Val) → Option (Option ActMod)
  | .name s, kw => (createFromStr s kw).map some
  | .dict d, _ =>
    match dictGet d "name" with
    | some (.str n) => (delAttr d).bind (fun kw => (createFromStr n kw).map some)
    | _ => none
  | .obj m, _ => some m

/-- `isinstance`: in `torch.nn`, `ReLU6` is a subclass of `Hardtanh` (with the bounds 0 and 6), and there is no other inheritance between these classes -/
def isInst (m : ActMod) (c : String) : Bool := decide (m.cls = c) || (decide (m.cls = "ReLU6") && decide (c = "Hardtanh"))

/-- attribute of a module; `ReLU6` has the bounds of `Hardtanh`; the missing one raises AttributeError -/
def attr (m : ActMod) (k : String) : Option Val :=
  if m.cls = "ReLU6" ∧ k = "min_val" then some (.int 0) else if m.cls = "ReLU6" ∧ k = "max_val" then some (.int 6) else dictGet m.attrs k

/-- torch/helpers/activation_factory.py:64-143: the tests of `get_config` in order, the name that it gives, and the attributes it copies -/
def configTests : List (String × String × List String) :=
  [("ELU", "elu", ["alpha", "inplace"]), ("Hardshrink", "hardshrink", ["lambd"]), ("Hardtanh", "hardtanh", ["min_val", "max_val", "inplace"]),
   ("LeakyReLU", "leakyrelu", ["negative_slope", "inplace"]), ("LogSigmoid", "logsigmoid", []), ("PReLU", "prelu", ["num_parameters", "init"]),
   ("ReLU", "relu", ["inplace"]), ("ReLU6", "relu6", ["inplace"]), ("RReLU", "rrelu", ["lower", "upper", "inplace"]), ("SELU", "selu", ["inplace"]),
   ("CELU", "celu", ["alpha", "inplace"]), ("Sigmoid", "simoid", []), ("Softplus", "softplus", ["beta", "threshold"]), ("Softshrink", "softshrink", []),
   ("Softsign", "softsign", ["lambd"]), ("Tanh", "tanh", []), ("Tanhshrink", "tanhshrink", []), ("Threshold", "threshold", ["threshold", "value", "inplace"]),
   ("Softmin", "softmin", ["dim"]), ("Softmax", "softmax", ["dim"]), ("Softmax2d", "softmax2d", []), ("LogSoftmax", "logsoftmax", ["dim"]),
   ("AdaptiveLogSoftmaxWithLoss", "asoftmax", ["in_features", "n_classes", "cutoffs", "div_value", "head_bias"])]

/-- torch/helpers/activation_factory.py:62-143 `get_config` of a module: name and arguments; `some none`: no test applies, the function returns None -/
def getConfig (m : ActMod) : Option (Option (String × List (String × Val))) :=
  match configTests.find? (fun t => isInst m t.1) with
  | none => some none
  | some t => (t.2.2.mapM (fun k : String => (attr m k).map (fun v : Val => (k, v)))).map (fun a => some (t.2.1, a))

end Hyp.Torch
