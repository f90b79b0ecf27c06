import Mathlib.Data.List.Basic
import Mathlib.Data.Rat.Floor
import Mathlib.Algebra.BigOperators.Group.List.Basic

/-!
Model of the TDNN networks of /repo/hyperion/keras/archs/tdnn.py at inference: a network maps a sequence of frames to a
sequence of frames, and the constructors report the number of context frames. The layers themselves are arbitrary: a
convolution computes an output frame by any function of the `kernel_size` frames of its window (kernel, bias and everything
else), dense layers, batch normalization (at inference) and activations are any function of one frame. Dropout layers are the
identity at inference. All frames live in one type with a distinguished zero frame (padding value).
-/

namespace Hyp.Keras.Tdnn

/-- argument that is a number or a list, e.g. tdnn.py:168-176 -/
inductive NumOr where
  | one (n : Nat)
  | many (l : List Nat)
deriving DecidableEq

/-- `padding` of Keras' `Conv1D` -/
inductive Pad where
  | same | valid | causal
deriving DecidableEq

/-- arguments of the constructors that matter for the shape of the computation, tdnn.py:152-161 -/
structure TdCfg where
  numTd : Nat
  numFc : Nat
  kernel : NumOr
  dil : NumOr
  dilFactor : Nat
  fcUnits : NumOr
  pad : Pad
  useBn : Bool
deriving DecidableEq

/-- the weights: functions computed by the layers. `conv i` maps the frames of the window to the output frame. -/
structure Params (F : Type) where
  bnTd : Nat → F → F
  conv : Nat → List F → F
  act : F → F
  bnFc : Nat → F → F
  fc : Nat → F → F
  bnOut : F → F
  out : F → F

variable {F : Type}

/-- `Conv1D(..., kernel_size=k, dilation_rate=d, padding=pad)` with stride 1 (Keras with the TensorFlow backend): `same` adds
`d (k - 1)` zero frames, half of them (rounded down) in front; `causal` adds all in front. A sequence too short for `valid`
raises in TensorFlow: the model gives no frames. -/
def conv1d (pad : Pad) (d k : Nat) (z : F) (f : List F → F) (x : List F) : List F :=
  let tot := d * (k - 1)
  let xp := match pad with
    | .same => List.replicate (tot / 2) z ++ x ++ List.replicate (tot - tot / 2) z
    | .valid => x
    | .causal => List.replicate tot z ++ x
  (List.range (xp.length - tot)).map (fun t => f ((List.range k).map (fun j => xp.getD (t + j * d) z)))

/-- `kernel_size` per layer, tdnn.py:168-171 (same lines in the other constructors) -/
def kernels (n : Nat) : NumOr → Option (List Nat)
  | .many l => if n = l.length then some l else none
  | .one k => some ((List.range n).map (fun _ => k))

/-- `dilation_rate` per layer, tdnn.py:173-176 -/
def dilations (n fac : Nat) : NumOr → Option (List Nat)
  | .many l => if n = l.length then some l else none
  | .one d => some ((List.range n).map (fun i => fac * i + d))

/-- `dilation_rate` per layer of the transposed networks, tdnn.py:629-632 -/
def dilationsT (n fac : Nat) : NumOr → Option (List Nat)
  | .many l => if n = l.length then some l else none
  | .one d => some ((List.range n).map (fun i => fac * (n - i) + d))

/-- the assertion on `hidden_fc_units`: `n` sizes, tdnn.py:178-181 (`n = num_fc_layers - 1`), 499-502 (`n = num_fc_layers`) -/
def fcAssert (n : Nat) : NumOr → Option Unit
  | .many l => if n = l.length then some () else none
  | .one _ => some ()

/-- `int(np.sum(np.array(dilation_rate)*(np.array(kernel_size)-1)/2))`, tdnn.py:270, 466, 602, 732 (kernel sizes are at
least one; halves are exact in floating point) -/
def context (ds ks : List Nat) : Nat :=
  ⌊(List.zipWith (fun d k => ((d * (k - 1) : Nat) : ℚ) / 2) ds ks).sum⌋.toNat

/-- `if use_batchnorm: h = BatchNormalization()(h)` -/
def bnIf (c : TdCfg) (f : F → F) (h : List F) : List F := if c.useBn then h.map f else h

/-- one time-delay layer, tdnn.py:187-209 -/
def tdLayer (c : TdCfg) (ds ks : List Nat) (P : Params F) (z : F) (h : List F) (i : Nat) : List F :=
  (conv1d c.pad (ds.getD i 1) (ks.getD i 1) z (P.conv i) (bnIf c (P.bnTd i) h)).map P.act

/-- one dense layer, tdnn.py:212-231 -/
def fcLayer (c : TdCfg) (P : Params F) (h : List F) (i : Nat) : List F :=
  ((bnIf c (P.bnFc i) h).map (P.fc i)).map P.act

/-- `TDNNV1` (= `TDNNV2`) with `return_context=True`, tdnn.py:152-276: the network and the context. With a list of outputs
every output has its own last dense layer; the model has one. -/
def tdnnV1 (c : TdCfg) (P : Params F) (z : F) : Option ((List F → List F) × Nat) := do
  guard (1 ≤ c.numTd)
  guard (1 ≤ c.numFc)
  let ks ← kernels c.numTd c.kernel
  let ds ← dilations c.numTd c.dilFactor c.dil
  fcAssert (c.numFc - 1) c.fcUnits
  some (fun x =>
    let h := (List.range c.numTd).foldl (tdLayer c ds ks P z) x
    let h := (List.range (c.numFc - 1)).foldl (fcLayer c P) h
    (bnIf c P.bnOut h).map P.out, context ds ks)

/-- `TDNNV1Transpose` with `return_context=True`, tdnn.py:608-734: dense layers first, the last convolution is the output
layer (its activation is part of `P.out`) -/
def tdnnT (c : TdCfg) (P : Params F) (z : F) : Option ((List F → List F) × Nat) := do
  guard (1 ≤ c.numTd)
  guard (1 ≤ c.numFc)
  let ks ← kernels c.numTd c.kernel
  let ds ← dilationsT c.numTd c.dilFactor c.dil
  fcAssert c.numFc c.fcUnits
  some (fun x =>
    let h := (List.range c.numFc).foldl (fcLayer c P) x
    let h := (List.range (c.numTd - 1)).foldl (tdLayer c ds ks P z) h
    (conv1d c.pad (ds.getLastD 1) (ks.getLastD 1) z (P.conv (c.numTd - 1)) (bnIf c P.bnOut h)).map P.out, context ds ks)

/-- `Concatenate(axis=-1)([a, b])` of two sequences, frame by frame; different lengths raise -/
def merge (f : F → F → F) (a b : List F) : Option (List F) := if a.length = b.length then some (List.zipWith f a b) else none

/-- `Add()([a, b])` of two sequences: a sequence of one frame is added to every frame of the other one (broadcasting), other
different lengths raise -/
def addSeq (f : F → F → F) (a b : List F) : Option (List F) :=
  if a.length = b.length then some (List.zipWith f a b)
  else match a, b with
    | [u], b => some (b.map (f u))
    | a, [v] => some (a.map (fun u => f u v))
    | _, _ => none

/-- weights of `ResTDNNV1` that `Params` does not have: the residual projections and the sum of frames; the second layer of
the dense blocks -/
structure ResParams (F : Type) extends Params F where
  resTd : F → F
  resFc : F → F
  fc2 : Nat → F → F
  add : F → F → F

/-- time-delay block `i` of `ResTDNNV1`, tdnn.py:316-369. `h_i_1` is computed and not used: the second convolution is applied
to `h_i`, tdnn.py:349-357. -/
def resTdBlock (c : TdCfg) (ds ks : List Nat) (P : ResParams F) (z : F) (h : List F) (i : Nat) : Option (List F) :=
  let j := 2 * i
  let hi := bnIf c (P.bnTd i) h
  let res := if i = 0 then hi.map P.resTd else hi
  let _h1 := (conv1d c.pad (ds.getD j 1) (ks.getD j 1) z (P.conv j) hi).map P.act
  let h2 := (conv1d c.pad (ds.getD (j + 1) 1) (ks.getD (j + 1) 1) z (P.conv (j + 1)) hi).map P.act
  addSeq P.add h2 res

/-- dense block `i` of `ResTDNNV1`, tdnn.py:373-424, with the same omission; `proj`: `hidden_td_units != hidden_fc_units` -/
def resFcBlock (c : TdCfg) (proj : Bool) (P : ResParams F) (h : List F) (i : Nat) : Option (List F) :=
  let hi := bnIf c (P.bnFc i) h
  let res := if i = 0 ∧ proj then hi.map P.resFc else hi
  let _h1 := (hi.map (P.fc i)).map P.act
  let h2 := (hi.map (P.fc2 i)).map P.act
  addSeq P.add h2 res

/-- `ResTDNNV1` with `return_context=True`, tdnn.py:280-468; `numTd`, `numFc` are numbers of blocks -/
def resTdnn (c : TdCfg) (proj : Bool) (P : ResParams F) (z : F) : Option ((List F → Option (List F)) × Nat) := do
  guard (1 ≤ c.numTd)
  let ks ← kernels (c.numTd * 2) c.kernel
  let ds ← dilations (c.numTd * 2) c.dilFactor c.dil
  some (fun x => do
    let h ← (List.range c.numTd).foldlM (resTdBlock c ds ks P z) x
    let h ← (List.range c.numFc).foldlM (resFcBlock c proj P) h
    some ((bnIf c P.bnOut h).map P.out), context ds ks)

/-- dense layer `i` of `TDNNV1WithEmbedInputV1`, tdnn.py:539-562: the embedding input is appended before the first dense layer,
or before all of them -/
def embFc (c : TdCfg) (toAll : Bool) (P : Params F) (cat : F → F → F) (e : List F) (h : List F) (i : Nat) : Option (List F) := do
  let h ← if i = 0 ∨ toAll = true then merge cat h e else some h
  some (fcLayer c P h i)

/-- `TDNNV1WithEmbedInputV1` with `return_context=True`, tdnn.py:475-604 -/
def tdnnEmb (c : TdCfg) (toAll : Bool) (P : Params F) (cat : F → F → F) (z : F) : Option ((List F → List F → Option (List F)) × Nat) := do
  guard (1 ≤ c.numTd)
  guard (1 ≤ c.numFc)
  let ks ← kernels c.numTd c.kernel
  let ds ← dilations c.numTd c.dilFactor c.dil
  fcAssert c.numFc c.fcUnits
  some (fun x e => do
    let h := (List.range c.numTd).foldl (tdLayer c ds ks P z) x
    let h ← (List.range (c.numFc - 1)).foldlM (embFc c toAll P cat e) h
    let h ← if c.numFc = 1 then merge cat h e else some h
    some ((bnIf c P.bnOut h).map P.out), context ds ks)

end Hyp.Keras.Tdnn
