import Verif.Torch.Activation

/-!
Feed-forward networks of the torch models: `FCNetV1` and `FFNetV1`. A layer is known by its role and position; what it computes is a parameter, its shape is
modelled. A size of a dropout rate matters only through `rate > 0`.
-/

namespace Hyp.Torch

open Hyp.Cli (Val)

/-- an activation given to a constructor: a name, a dict, or a module (with its identity) -/
inductive ActIn where
  | name (s : String)
  | dict (d : List (String × Val))
  | obj (m : ActMod) (id : Nat)

/-- torch/helpers/activation_factory.py:40-58 with identities: a name makes a new module (number `next`) -/
def mkAct (next : Nat) : ActIn → Option ((ActMod × Nat) × Nat)
  | .name s => (createFromStr s []).map (fun m => ((m, next), next + 1))
  | .dict d => ((create (.dict d) []).bind id).map (fun m => ((m, next), next + 1))
  | .obj m i => some ((m, i), next)

/-- `AF.create(x)` where `x` may be None -/
def mkAct? (next : Nat) : Option ActIn → Option (Option (ActMod × Nat) × Nat)
  | none => some (none, next)
  | some a => (mkAct next a).map (fun r => (some r.1, r.2))

/-- torch/archs/fcnet.py:58-61: the loop assigns to its own argument -/
def actLoop : Nat → Nat → ActIn → Option (List (ActMod × Nat))
  | 0, _, _ => some []
  | n + 1, next, a => (mkAct next a).bind (fun r => (actLoop n r.2 (.obj r.1.1 r.1.2)).map (fun l => r.1 :: l))

/-- a layer: batch normalisation `l` over `d` units, linear layer `l` from `i` to `o` units, activation, dropout `l`, dropout and batch normalisation at the
output -/
inductive Part where
  | bn (l d : Nat)
  | fc (l i o : Nat)
  | act (a : ActMod × Nat)
  | drop (l : Nat)
  | outDrop
  | outBn (d : Nat)
deriving DecidableEq

variable {X : Type}

/-- a layer on a batch with `dim x` features: the wrong size raises RuntimeError -/
def applyPart (dim : X → Nat) (f : Part → X → X) (p : Part) (x : X) : Option X :=
  match p with
  | .bn _ d => if dim x = d then some (f p x) else none
  | .fc _ i _ => if dim x = i then some (f p x) else none
  | .outBn d => if dim x = d then some (f p x) else none
  | _ => some (f p x)

/-- `hid_units`: a number or a list -/
inductive Units where
  | same (d : Nat)
  | list (ds : List Nat)

/-- arguments of `FCNetV1` -/
structure FCArgs where
  numHid : Nat
  inp : Nat
  hid : Units
  out : Nat
  hidAct : Option ActIn
  outAct : Option ActIn
  useBn : Bool
  rate : Bool
  noOut : Bool
  outBn : Bool
  outDrop : Bool

/-- attributes of `FCNetV1` that `forward` reads -/
structure FCNet where
  numHid : Nat
  fc : List Part
  acts : Option (List (ActMod × Nat))
  bn : Option (List Part)
  drop : Option (List Part)
  outDropM : Option Part
  outBnM : Option Part
  outAct : Option (ActMod × Nat)
  useBn : Bool
  rate : Bool
  noOut : Bool
  useOutBn : Bool

/-- torch/archs/fcnet.py:40-44, ffnet.py:40-43: the list of units; an AssertionError for a list of another length -/
def unitList (n : Nat) : Units → Option (List Nat)
  | .same d => some (List.replicate n d)
  | .list ds => if n = ds.length then some ds else none

/-- torch/archs/fcnet.py:55-61: the activations of the hidden layers -/
def hidActs (n next : Nat) : Option ActIn → Option (Option (List (ActMod × Nat)))
  | none => some none
  | some h => (actLoop n next h).map some

/-- torch/archs/fcnet.py:18-96 `FCNetV1.__init__`; `units[i]` in range because the list of units has length numHid + 1 -/
def fcInit (a : FCArgs) : Option FCNet :=
  if a.numHid < 1 then none
  else (mkAct? 0 a.outAct).bind (fun oa => (unitList a.numHid a.hid).bind (fun hid =>
    let units := a.inp :: hid
    let fc := (List.range a.numHid).map (fun i => Part.fc i (units.getD i 0) (units.getD (i + 1) 0))
    (hidActs a.numHid oa.2 a.hidAct).map (fun acts =>
      let bn := if a.useBn then some ((List.range a.numHid).map (fun i => Part.bn i (units.getD i 0))) else none
      let drop := if a.rate then some ((List.range a.numHid).map Part.drop) else none
      let last := units.getLastD 0
      if a.noOut then
        ⟨a.numHid, fc, acts, bn, drop, none, if a.outBn then some (.outBn last) else none, oa.1, a.useBn, a.rate, true, a.outBn⟩
      else
        ⟨a.numHid, fc ++ [.fc a.numHid last a.out], acts, bn.map (fun b => b ++ [.bn a.numHid last]), drop,
          if a.outDrop && a.rate then some .outDrop else none, if a.outBn then some (.outBn a.out) else none, oa.1, a.useBn, a.rate, false, a.outBn⟩)))

/-- `layers[l](x)` -/
def applyAt (dim : X → Nat) (f : Part → X → X) (ls : Option (List Part)) (l : Nat) (x : X) : Option X :=
  (ls.bind (fun ls => ls[l]?)).bind (fun p => applyPart dim f p x)

/-- torch/archs/fcnet.py:107-108: `hid_acts[l](x)` unless `hid_acts` is None -/
def applyAct (dim : X → Nat) (f : Part → X → X) : Option (List (ActMod × Nat)) → Nat → X → Option X
  | none, _, x => some x
  | some as, l, x => (as[l]?).bind (fun a => applyPart dim f (.act a) x)

/-- torch/archs/fcnet.py:119-120: `output_act(x)` unless it is None -/
def applyOutAct (dim : X → Nat) (f : Part → X → X) : Option (ActMod × Nat) → X → Option X
  | none, x => some x
  | some a, x => applyPart dim f (.act a) x

/-- torch/archs/fcnet.py:102-112: one hidden layer -/
def fcHidden (dim : X → Nat) (f : Part → X → X) (net : FCNet) (x : X) (l : Nat) : Option X :=
  (if net.useBn then applyAt dim f net.bn l x else some x).bind (fun x => (applyAt dim f (some net.fc) l x).bind (fun x =>
    (applyAct dim f net.acts l x).bind (fun x => if net.rate then applyAt dim f net.drop l x else some x)))

/-- torch/archs/fcnet.py:114-124: the output layer; `self.droput_layers` is no attribute of the object (AttributeError) -/
def fcOutput (dim : X → Nat) (f : Part → X → X) (net : FCNet) (x : X) : Option X :=
  (if net.bn.isSome then applyAt dim f net.bn net.numHid x else some x).bind (fun x => (applyAt dim f (some net.fc) net.numHid x).bind (fun x =>
    (applyOutAct dim f net.outAct x).bind (fun x => if net.outDropM.isSome then none else some x)))

/-- torch/archs/fcnet.py:100-129 `forward`: at the end it calls `output_dropout` in place of `output_batchnorm` (TypeError when it is None) -/
def fcForward (dim : X → Nat) (f : Part → X → X) (net : FCNet) (x : X) : Option X :=
  ((List.range net.numHid).foldlM (fcHidden dim f net) x).bind (fun x =>
    (if net.noOut then some x else fcOutput dim f net x).bind (fun x =>
      if net.useOutBn then net.outDropM.bind (fun p => applyPart dim f p x) else some x))

/-- arguments of `FFNetV1` -/
structure FFArgs where
  numLayers : Nat
  inp : Nat
  hid : Units
  out : Nat
  hidAct : Option ActIn
  outAct : Option ActIn
  useBn : Bool
  rate : Bool
  outBn : Bool
  outDrop : Bool

/-- torch/archs/ffnet.py:54-55, 66-67: an activation unless it is None -/
def actParts : Option (ActMod × Nat) → List Part
  | none => []
  | some m => [.act m]

/-- torch/archs/ffnet.py:48-57: hidden layer `i` (counted from 0) -/
def ffHidden (a : FFArgs) (units : List Nat) (act : Option (ActMod × Nat)) (i : Nat) : List Part :=
  (if a.useBn then [Part.bn i (units.getD i 0)] else []) ++ [.fc i (units.getD i 0) (units.getD (i + 1) 0)] ++
    actParts act ++ (if a.rate then [.drop i] else [])

/-- torch/archs/ffnet.py:20-74 `FFNetV1.__init__`: the list of layers -/
def ffInit (a : FFArgs) : Option (List Part) :=
  if a.numLayers < 1 then none
  else (mkAct? 0 a.outAct).bind (fun oa => (mkAct? oa.2 a.hidAct).bind (fun ha => (unitList (a.numLayers - 1) a.hid).map (fun hid =>
    let units := a.inp :: hid
    let last := units.getLastD 0
    (List.range (a.numLayers - 1)).flatMap (ffHidden a units ha.1) ++
      (if a.useBn then [Part.bn (a.numLayers - 1) last] else []) ++ [.fc (a.numLayers - 1) last a.out] ++
      actParts oa.1 ++ (if a.outDrop && a.rate then [.outDrop] else []) ++ (if a.outBn then [.outBn a.out] else []))))

/-- torch/archs/ffnet.py:77-82 `forward` -/
def ffForward (dim : X → Nat) (f : Part → X → X) (layers : List Part) (x : X) : Option X := layers.foldlM (fun x p => applyPart dim f p x) x

/-- torch/archs/fcnet.py:30-38, 51-96: attributes set by the constructor of `FCNetV1` -/
def fcAttrs : List String :=
  ["num_hid_layers", "output_units", "input_units", "hid_units", "use_batchnorm", "dropout_rate", "without_output_layer", "use_output_batchnorm",
   "use_output_dropout", "output_act", "fc_layers", "hid_acts", "batchnorm_layers", "dropout_layers", "output_dropout", "output_batchnorm"]

/-- torch/archs/fcnet.py:133-150: attributes read by `get_config`; an attribute that is not there raises -/
def fcConfig : Option (List String) :=
  ["output_act", "hid_acts", "num_hid_layers", "output_units", "hidden_units", "input_units", "use_batchnorm", "dropout_rate", "output_batchnorm",
   "output_dropout"].mapM (fun k : String => if fcAttrs.contains k then some k else none)

end Hyp.Torch
