import Verif.Keras.Tdnn

/-!
Model of `ResNetV1`, /repo/hyperion/keras/archs/resnet.py:155-360, for sequences (`is_sequence=True`) at inference, and of
the context it reports. Only the time axis is followed: a frame is everything at one position of the axis 1 (all frequencies and
channels), a convolution computes a frame by an arbitrary function of the frames in its window, the other layers are arbitrary
functions of one frame. The strides and kernels are the same in both axes; the shapes along the frequency axis, which may
also make `Add` raise, are left out. The functional API of Keras is run on the frames themselves: shapes are lengths.
-/

namespace Hyp.Keras.ResNet
open Hyp.Keras.Tdnn (NumOr addSeq)

/-- arguments that matter, resnet.py:155-171 -/
structure Cfg where
  blocks : Nat
  subs : NumOr
  fcLayers : Nat
  filters : NumOr
  filtersFactor : Nat
  maxFilters : Nat
  fcUnits : NumOr
  kernel : Nat
  ibStride : Nat
  inKernel : Nat
  inStride : Nat
  poolSize : Nat
  poolStride : Nat
  bottleneck : Bool
  useBn : Bool
deriving DecidableEq

/-- the functions computed by the layers; `b i` are the numbers of block and sub-block -/
structure Params (F : Type) where
  bnIn : F → F
  conv0 : List F → F
  act : F → F
  pool : List F → F
  bn1 : Nat → Nat → F → F
  conv1 : Nat → Nat → List F → F
  bn2 : Nat → Nat → F → F
  conv2 : Nat → Nat → List F → F
  short : Nat → Nat → F → F
  add : F → F → F
  bnFc : Nat → F → F
  fc : Nat → F → F
  bnOut : F → F
  out : F → F

variable {F : Type}

/-- `Conv2D(…, kernel_size=k, strides=s, padding='same')` or `MaxPooling2D`, along one axis (TensorFlow): `⌈L/s⌉` outputs,
`max((⌈L/s⌉ - 1) s + k - L, 0)` padding values `z`, half of them (rounded down) in front. -/
def conv (k s : Nat) (z : F) (f : List F → F) (x : List F) : List F :=
  let n := (x.length + s - 1) / s
  let tot := (n - 1) * s + k - x.length
  (List.range n).map (fun t => f ((List.range k).map (fun j => (List.replicate (tot / 2) z ++ x).getD (t * s + j) z)))

/-- `if use_batchnorm: h = BatchNormalization()(h)` -/
def bnIf (c : Cfg) (f : F → F) (h : List F) : List F := if c.useBn then h.map f else h

/-- `conv2d_res_block`, resnet.py:14-70 (`dropout` is the identity at inference): the shortcut starts after the normalization -/
def resBlock (c : Cfg) (P : Params F) (z : F) (b i s : Nat) (proj : Bool) (x : List F) : Option (List F) :=
  let x := bnIf c (P.bn1 b i) x
  let h := (conv c.kernel s z (P.conv1 b i) x).map P.act
  let h := conv c.kernel 1 z (P.conv2 b i) (bnIf c (P.bn2 b i) h)
  let x := if proj then conv 1 s z (fun w => P.short b i (w.headD z)) x else x
  (addSeq P.add h x).map (fun h => h.map P.act)

/-- a number per block: the lists of filters and of sub-blocks, resnet.py:184-195 -/
def filterList (c : Cfg) : Option (List Nat) :=
  match c.filters with
  | .many l => if l.length = c.blocks then some l else none
  | .one f => some ((List.range c.blocks).map (fun i => min c.maxFilters (f * c.filtersFactor ^ i)))

/-- resnet.py:191-194 -/
def subList (c : Cfg) : Option (List Nat) :=
  match c.subs with
  | .many l => if l.length = c.blocks then some l else none
  | .one n => some (List.replicate c.blocks n)

/-- the assertion on `hidden_fc_units`, resnet.py:196-199 -/
def fcAssert (c : Cfg) : Option Unit :=
  match c.fcUnits with
  | .many l => if l.length = c.fcLayers - 1 then some () else none
  | .one _ => some ()

/-- `int(dec_ratio*(k-1)/2)` with `dec_ratio = x._keras_shape[1]/h_i._keras_shape[1]`, resnet.py:234-235, 256-257 (`k ≥ 1`) -/
def addContext (T h k : Nat) : Nat := ⌊((T : ℚ) / h) * ((k : ℚ) - 1) / 2⌋.toNat

/-- one sub-block, resnet.py:253-301. `conv2d_bn_res_block` uses an undefined name and raises (line 87). Strides are one except
in the first sub-block of the blocks after the first. -/
def subBlock (c : Cfg) (P : Params F) (z : F) (T : Nat) (filters : List Nat) (st : List F × Nat) (bi : Nat × Nat) : Option (List F × Nat) :=
  let ctx := st.2 + addContext T st.1.length c.kernel
  let s := if 0 < bi.1 ∧ bi.2 = 0 then c.ibStride else 1
  let proj := decide (0 < bi.1 ∧ bi.2 = 0 ∧ filters.getD bi.1 0 ≠ filters.getD (bi.1 - 1) 0)
  if c.bottleneck then none
  else (resBlock c P z bi.1 bi.2 s proj st.1).map (fun h => (h, ctx))

/-- one of the dense layers before the last, resnet.py:314-337 -/
def fcLayer (c : Cfg) (P : Params F) (h : List F) (i : Nat) : List F := ((bnIf c (P.bnFc i) h).map (P.fc i)).map P.act

/-- the order in which the sub-blocks are made, resnet.py:249-253 -/
def subOrder (subs : List Nat) : List (Nat × Nat) :=
  (List.range subs.length).flatMap (fun b => (List.range (subs.getD b 0)).map (fun i => (b, i)))

/-- `ResNetV1(…, padding='same', is_sequence=True, return_context=True)`, resnet.py:155-360: output frames and context. `zp` is
the padding value of the maximum. -/
def resnet (c : Cfg) (P : Params F) (z zp : F) (x : List F) : Option (List F × Nat) := do
  guard (2 ≤ c.blocks)
  guard (1 ≤ c.fcLayers)
  let filters ← filterList c
  let subs ← subList c
  fcAssert c
  let h := (conv c.inKernel c.inStride z P.conv0 (bnIf c P.bnIn x)).map P.act
  let ctx := (c.inKernel - 1) / 2 + addContext x.length h.length c.poolSize
  let h := conv c.poolSize c.poolStride zp P.pool h
  let st ← (subOrder subs).foldlM (subBlock c P z x.length filters) (h, ctx)
  let h := (List.range (c.fcLayers - 1)).foldl (fcLayer c P) st.1
  some ((bnIf c P.bnOut h).map P.out, st.2)

/-- `ResNet18V1`, resnet.py:364-396 -/
def resnet18 (filters maxFilters : Nat) (useBn : Bool) : Cfg :=
  { blocks := 4, subs := .one 2, fcLayers := 1, filters := .one filters, filtersFactor := 2, maxFilters := maxFilters,
    fcUnits := .one 2048, kernel := 3, ibStride := 2, inKernel := 7, inStride := 2, poolSize := 3, poolStride := 2,
    bottleneck := false, useBn := useBn }

/-- `ResNet50V1`, `ResNet101V1`, `ResNet152V1`, resnet.py:428-525: the numbers of filters given are not used -/
def resnetDeep (subs : List Nat) (useBn : Bool) : Cfg :=
  { blocks := 4, subs := .many subs, fcLayers := 1, filters := .one 64, filtersFactor := 2, maxFilters := 512,
    fcUnits := .one 2048, kernel := 3, ibStride := 2, inKernel := 7, inStride := 2, poolSize := 3, poolStride := 2,
    bottleneck := true, useBn := useBn }

end Hyp.Keras.ResNet
