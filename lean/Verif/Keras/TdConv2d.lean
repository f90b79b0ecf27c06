import Verif.Keras.Tdnn

/-!
Model of `TDConv2DNetV1`, /repo/hyperion/keras/archs/convnet.py:107-211, and `TDVGGNetV1`, `TDVGG16`, `TDVGG19`,
/repo/hyperion/keras/archs/vgg.py:166-325, at inference along the time axis: a frame is everything at one position of the time
axis (all frequencies and channels), a convolution computes a frame by an arbitrary function of the frames in its window, the
maximum over frequencies (`pool_size` and `pool_strides` 1 in time, the defaults) and the other layers by arbitrary
functions of one frame. Only `padding='same'` (the default) is modelled: with the others the last `Reshape` does not fit the
number of frames. `ConvNetZhang17V1`, `VGGNetV1` (and `VGG16`, `VGG19`) always raise, convnet.py:74, vgg.py:52, and are left out.
-/

namespace Hyp.Keras.TdConv
open Hyp.Keras.Tdnn (NumOr conv1d kernels dilations fcAssert)

/-- arguments of `TDConv2DNetV1` that matter along the time axis, convnet.py:107-118; `kernel`, `dil`: the first component of
every tuple -/
structure ConvCfg where
  numConv : Nat
  numFc : Nat
  kernel : NumOr
  filters : NumOr
  dil : NumOr
  dilFactor : Nat
  numPool : Nat
  useBn : Bool
deriving DecidableEq

/-- arguments of `TDVGGNetV1`, vgg.py:166-179 -/
structure VggCfg where
  blocks : Nat
  layers : NumOr
  numFc : Nat
  filters : NumOr
  fcUnits : NumOr
  kernel : Nat
  dil : NumOr
  dilFactor : Nat
  useBn : Bool
deriving DecidableEq

/-- the functions computed by the layers -/
structure Params (F : Type) where
  bn : Nat → Nat → F → F
  conv : Nat → Nat → List F → F
  act : F → F
  pool : Nat → F → F
  bnFc : Nat → F → F
  fc : Nat → F → F
  bnOut : F → F
  out : F → F

variable {F : Type}

/-- normalization, convolution, activation, convnet.py:150-165, vgg.py:217-230; dropout is the identity at inference -/
def convLayer (useBn : Bool) (P : Params F) (z : F) (k d b i : Nat) (h : List F) : List F :=
  (conv1d .same d k z (P.conv b i) (if useBn then h.map (P.bn b i) else h)).map P.act

/-- the dense layers, frame by frame (`TimeDistributed`), convnet.py:175-208, vgg.py:239-269 -/
def dense (useBn : Bool) (P : Params F) (n : Nat) (h : List F) : List F :=
  let h := (List.range (n - 1)).foldl (fun h i => ((if useBn then h.map (P.bnFc i) else h).map (P.fc i)).map P.act) h
  (if useBn then h.map P.bnOut else h).map P.out

/-- one turn of the loop of `TDConv2DNetV1`, convnet.py:148-171 -/
def convStep (c : ConvCfg) (ks ds : List Nat) (P : Params F) (z : F) (h : List F) (i : Nat) : List F :=
  let h := convLayer c.useBn P z (ks.getD i 1) (ds.getD i 1) i 0 h
  if i < c.numPool then h.map (P.pool i) else h

/-- `TDConv2DNetV1`, convnet.py:107-211 -/
def tdConv2d (c : ConvCfg) (P : Params F) (z : F) : Option (List F → List F) := do
  guard (1 ≤ c.numConv)
  guard (1 ≤ c.numFc)
  let ks ← kernels c.numConv c.kernel
  fcAssert c.numConv c.filters
  let ds ← dilations c.numConv c.dilFactor c.dil
  some (fun x => dense c.useBn P c.numFc ((List.range c.numConv).foldl (convStep c ks ds P z) x))

/-- the numbers of layers per block, vgg.py:191-194: a number `n` is repeated `n` times, not once per block -/
def blockLayers (n : Nat) : NumOr → Option (List Nat)
  | .many l => if l.length = n then some l else none
  | .one m => some ((List.range m).map (fun _ => m))

/-- one turn of the outer loop of `TDVGGNetV1`, vgg.py:215-235; `num_block_layers[block]` out of range raises -/
def vggBlock (c : VggCfg) (ns ds : List Nat) (P : Params F) (z : F) (h : List F) (b : Nat) : Option (List F) := do
  let n ← ns[b]?
  some (((List.range n).foldl (fun h i => convLayer c.useBn P z c.kernel (ds.getD b 1) b i h) h).map (P.pool b))

/-- `TDVGGNetV1`, vgg.py:166-271. Like Keras, the constructor runs through the layers: the result for `x` is `none` when the
constructor raises. -/
def tdVgg (c : VggCfg) (P : Params F) (z : F) (x : List F) : Option (List F) := do
  guard (1 ≤ c.blocks)
  guard (1 ≤ c.numFc)
  fcAssert c.blocks c.filters
  let ns ← blockLayers c.blocks c.layers
  fcAssert (c.numFc - 1) c.fcUnits
  let ds ← dilations c.blocks c.dilFactor c.dil
  let h ← (List.range c.blocks).foldlM (vggBlock c ns ds P z) x
  some (dense c.useBn P c.numFc h)

/-- `TDVGG16` (`last = 3`), `TDVGG19` (`last = 4`), vgg.py:275-325 -/
def vggNamed (last d fac : Nat) (useBn : Bool) : VggCfg :=
  { blocks := 5, layers := .many [2, 2, last, last, last], numFc := 3, filters := .one 64, fcUnits := .one 4096, kernel := 3,
    dil := .one d, dilFactor := fac, useBn := useBn }

end Hyp.Keras.TdConv
