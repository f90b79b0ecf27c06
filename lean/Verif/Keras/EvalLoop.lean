import Mathlib.Data.List.Basic
import Mathlib.Data.Real.Basic

/-!
Model of `make_batches`, `_eval_loop` and `weighted_objective_per_sample`, /repo/hyperion/keras/keras_utils.py:180-390.
-/

namespace Hyp.Keras

/-- `make_batches`, keras_utils.py:293-299: `int(ceil(size / float(batch_size)))` written with natural numbers (exact while the
float quotient is); a batch size of zero divides by zero -/
def makeBatches (size batch : Nat) : Option (List (Nat × Nat)) :=
  if batch = 0 then none
  else some ((List.range ((size + (batch - 1)) / batch)).map (fun i => (i * batch, min size ((i + 1) * batch))))

/-- `out[ids] = v` for the ids `j, …, k-1`: a result of another length raises (one single value is repeated by NumPy: the model
raises) -/
def storeIds {γ : Type} (out : List γ) (j k : Nat) (v : List γ) : Option (List γ) :=
  if v.length = k - j then some (out.take j ++ v ++ out.drop k) else none

/-- body of the loop for a function that returns a list of outputs, keras_utils.py:325-343: the arrays are made in the first batch,
one per output; a later batch with more outputs raises, with fewer leaves the others as they are -/
def evalStep {ξ γ : Type} (f : List ξ → List (List γ)) (zero : γ) (x : List ξ) (outs : List (List γ)) (b : Nat × (Nat × Nat)) : Option (List (List γ)) := do
  let r := f ((x.drop b.2.1).take (b.2.2 - b.2.1))
  let outs := if b.1 = 0 then outs ++ List.replicate r.length (List.replicate x.length zero) else outs
  guard (r.length ≤ outs.length)
  let hd ← (outs.zip r).mapM (fun (p : List γ × List γ) => storeIds p.1 b.2.1 b.2.2 p.2)
  some (hd ++ outs.drop r.length)

/-- `_eval_loop`, keras_utils.py:303-352, for functions that return a list; the samples of all inputs together are `x`. Returns all
outputs (the caller gets the array itself instead of a list of one: `evalUnwrap`). -/
def evalLoop {ξ γ : Type} (f : List ξ → List (List γ)) (zero : γ) (x : List ξ) (batch : Nat) : Option (List (List γ)) := do
  let bs ← makeBatches x.length batch
  ((List.range bs.length).zip bs).foldlM (evalStep f zero x) []

/-- `return outs[0]` when there is one output, keras_utils.py:350-352 -/
def evalUnwrap {γ : Type} (outs : List (List γ)) : List γ ⊕ List (List γ) :=
  match outs with
  | [o] => .inl o
  | os => .inr os

/-- `_eval_loop` for functions that return a single array, keras_utils.py:344-347: the index `i` has no value there, so the
first batch raises -/
def evalLoopArray {ξ γ : Type} (_f : List ξ → List γ) (x : List ξ) (batch : Nat) : Option (List (List γ)) := do
  let bs ← makeBatches x.length batch
  match bs with
  | [] => some []
  | _ :: _ => none

/-- `weighted_objective_per_sample`, keras_utils.py:180-199, for weights with one axis more than the batch (one per frame): the
scores of one sequence, already averaged over the further axes -/
noncomputable def weightedSeq (score w : List ℝ) : ℝ :=
  let s := (score.zip w).map (fun p => p.1 * p.2)
  let m := w.sum / w.length
  (s.map (fun v => v / m)).sum / s.length

/-- the same for one weight per sample: no axis is left to average, so the mean of the weights is the weight itself -/
noncomputable def weightedSample (score w : ℝ) : ℝ := score * w / w

end Hyp.Keras
