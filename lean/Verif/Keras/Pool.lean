import Mathlib.Analysis.SpecialFunctions.Pow.Real
import Mathlib.Analysis.SpecialFunctions.Sqrt
import Mathlib.Analysis.SpecialFunctions.Log.Basic

/-!
Model of the pooling layers of /repo/hyperion/keras/layers/pooling.py:22-420 and of `CreateMask`,
/repo/hyperion/keras/layers/masking.py. The elements of a batch do not interact: the model is of one sequence, a list of
frames with their weights. A frame has `D` coordinates and a weight for each of them; weights given per frame (two axes, or a
last axis of length one) are the same for all coordinates. Real arithmetic: divisions by zero are zero here and NaN in
Keras, the theorems exclude them.
-/

namespace Hyp.Keras

/-- a frame: coordinates and weights -/
abbrev Frame (D : Nat) := (Fin D → ℝ) × (Fin D → ℝ)

/-- `K.mean(·, axis=1)` of one coordinate -/
noncomputable def kmean (l : List ℝ) : ℝ := l.sum / l.length

/-- `K.expand_dims(weights, axis=-1)` with broadcasting, pooling.py:69-70 -/
def expandW {D : Nat} (l : List ((Fin D → ℝ) × ℝ)) : List (Frame D) := l.map (fun p => (p.1, fun _ => p.2))

/-- `GlobalWeightedAveragePooling1D.call`, pooling.py:67-72 -/
noncomputable def wAvg {D : Nat} (f : List (Frame D)) : Fin D → ℝ :=
  fun d => kmean (f.map (fun p => p.1 d * p.2 d)) / kmean (f.map (fun p => p.2 d))

/-- `GlobalWeightedSumPooling1D.call`, pooling.py:94-99 -/
def wSum {D : Nat} (f : List (Frame D)) : Fin D → ℝ := fun d => (f.map (fun p => p.1 d * p.2 d)).sum

/-- `GlobalWeightedMeanStdPooling1D.call`, pooling.py:122-134 -/
noncomputable def wMeanStd {D : Nat} (f : List (Frame D)) : (Fin D → ℝ) × (Fin D → ℝ) :=
  let N := fun d => kmean (f.map (fun p => p.2 d))
  let mu1 := fun d => kmean (f.map (fun p => p.1 d * p.2 d)) / N d
  let s1 := fun d => Real.sqrt (kmean (f.map (fun p => (p.1 d - mu1 d) ^ 2 * p.2 d)) / N d)
  (mu1, s1)

/-- `GlobalWeightedMeanLogVarPooling1D.call`, pooling.py:157-169 -/
noncomputable def wMeanLogVar {D : Nat} (f : List (Frame D)) : (Fin D → ℝ) × (Fin D → ℝ) :=
  let N := fun d => kmean (f.map (fun p => p.2 d))
  let mu1 := fun d => kmean (f.map (fun p => p.1 d * p.2 d)) / N d
  let logvar1 := fun d => Real.log (kmean (f.map (fun p => (p.1 d - mu1 d) ^ 2 * p.2 d)) / N d + 1 / 10 ^ 10)
  (mu1, logvar1)

/-- `GlobalSumPooling1D.call` and `GlobalSumWeights.call`, pooling.py:189-190, 213-214 -/
def sumPool {D : Nat} (f : List (Fin D → ℝ)) : Fin D → ℝ := fun d => (f.map (fun x => x d)).sum

/-- `tf.reduce_max` over the frames -/
def kmax : List ℝ → Option ℝ
  | [] => none
  | a :: l => some (l.foldl max a)

/-- `max_with_mask`, backend_addons/tensorflow_backend.py:24-26, as called by `GlobalMaskedMaxPooling1D.call`,
pooling.py:34-36 (weights with a last axis: without it the product does not broadcast over the frames) -/
def maxMask {D : Nat} (f : List (Frame D)) : Fin D → Option ℝ :=
  fun d => kmax (f.map (fun p => (p.1 d - 10 ^ 10 * (1 - p.2 d)) * p.2 d))

open Classical in
/-- `CreateMask.call`, masking.py:24-29: one for a frame with a coordinate that differs from `mask_value`, times the mask
that is passed along -/
noncomputable def createMask {D : Nat} (value : ℝ) (mask : Option (List ℝ)) (x : List (Fin D → ℝ)) : List ℝ :=
  let m := x.map (fun v => if ∃ d, v d ≠ value then (1 : ℝ) else 0)
  match mask with
  | none => m
  | some k => List.zipWith (· * ·) m k

/-- distances to the centres, pooling.py:387-394 -/
noncomputable def ldeDelta {D : Nat} (order : Nat) (x mu : Fin D → ℝ) : ℝ :=
  if order = 1 then ∑ d, |x d - mu d| else ∑ d, (x d - mu d) * (x d - mu d)

/-- `K.softmax(total_weights, axis=-1)` of a frame, pooling.py:395-397 -/
noncomputable def ldeAssign {D C : Nat} (order : Nat) (mu : Fin C → Fin D → ℝ) (s : Fin C → ℝ) (x : Fin D → ℝ) (k : Fin C) : ℝ :=
  Real.exp (-s k * ldeDelta order x (mu k)) / ∑ j, Real.exp (-s j * ldeDelta order x (mu j))

/-- `LDE1D.call`, pooling.py:381-408: one vector per component (concatenated in Keras) -/
noncomputable def lde {D C : Nat} (order : Nat) (mu : Fin C → Fin D → ℝ) (s : Fin C → ℝ) (f : List ((Fin D → ℝ) × ℝ)) (k : Fin C) :
    Fin D → ℝ :=
  let w := fun p : (Fin D → ℝ) × ℝ => ldeAssign order mu s p.1 k * p.2
  fun d => kmean (f.map (fun p => p.1 d * w p)) / kmean (f.map w) + -mu k d

end Hyp.Keras
