import Verif.PyDict
import Verif.Np
import Mathlib.Algebra.Order.Field.Basic
import Mathlib.Algebra.BigOperators.Group.List.Basic

/-!
Model of /repo/hyperion/metrics/confusion_matrix.py, /repo/hyperion/metrics/acc.py and /repo/hyperion/torch/metrics/accuracy_functional.py. scikit-learn's
`confusion_matrix(y_true, y_pred, labels, sample_weight)` and `accuracy_score` are modelled by their source (library behaviour, part of the trusted base). `none` is an
exception. Numbers are elements of an ordered field; quotients with denominator 0 are `none` (nan) inside matrices.
-/

namespace Hyp.Confusion

/-- a sample: true label, predicted label, weight -/
structure Sample (κ K : Type) where
  y : κ
  p : κ
  w : K

section
variable {κ : Type} [LinearOrder κ] {K : Type} [Field K]

/-- the samples with their weights, 1 without `sample_weight`; `check_consistent_length` -/
def samples (yTrue yPred : List κ) (weight : Option (List K)) : Option (List (Sample κ K)) :=
  let w := weight.getD (List.replicate yTrue.length 1)
  if yTrue.length = yPred.length ∧ yTrue.length = w.length then some (((yTrue.zip yPred).zip w).map (fun t => ⟨t.1.1, t.1.2, t.2⟩)) else none

/-- `CM = coo_matrix((sample_weight, (y_true, y_pred)))` of scikit-learn's `confusion_matrix`: labels are numbered by a dictionary, so that the last of equal labels
counts; samples with a label that is not listed are left out -/
def countMatrix (labels : List κ) (ss : List (Sample κ K)) : List (List K) :=
  (List.range labels.length).map (fun i => (List.range labels.length).map (fun j =>
    ((ss.filter (fun s => decide (dictGet (enumDict labels) s.y = some i ∧ dictGet (enumDict labels) s.p = some j))).map Sample.w).sum))

/-- scikit-learn's `confusion_matrix`: without labels, all labels in increasing order; raises when no label is a true label -/
def skConfusion (yTrue yPred : List κ) (labels : Option (List κ)) (weight : Option (List K)) : Option (List (List K)) := do
  let ss ← samples yTrue yPred weight
  match labels with
  | none => some (countMatrix (npUnique (yTrue ++ yPred)) ss)
  | some l => if l.all (fun x => !yTrue.contains x) then none else some (countMatrix l ss)

variable [DecidableEq K]

/-- `C/np.sum(C, axis=1, keepdims=True)`, confusion_matrix.py:34-35, 102-103 -/
def normRows (C : List (List K)) : List (List (Option K)) :=
  C.map (fun row => row.map (fun x => if row.sum = 0 then none else some (x / row.sum)))

/-- `compute_confusion_matrix`, confusion_matrix.py:18-36 -/
def confusion (yTrue yPred : List κ) (labels : Option (List κ)) (normalize : Bool) (weight : Option (List K)) : Option (List (List (Option K))) := do
  let C ← skConfusion yTrue yPred labels weight
  some (if normalize then normRows C else C.map (fun row => row.map some))

/-- `accuracy_score(y_true, y_pred, normalize, sample_weight)` of `compute_accuracy`, acc.py:14-29: `np.average` raises for weights of sum 0 and is nan without samples -/
def accuracy (yTrue yPred : List κ) (normalize : Bool) (weight : Option (List K)) : Option K := do
  let ss ← samples yTrue yPred weight
  let ok := (ss.map (fun s => if s.y = s.p then s.w else 0)).sum
  if normalize then (if (ss.map Sample.w).sum = 0 then none else some (ok / (ss.map Sample.w).sum)) else some ok

/-- `C[:num_classes_test, num_classes_test:]`, confusion_matrix.py:101 -/
def corner (n : Nat) (C : List (List K)) : List (List K) := (C.take n).map (fun row => row.drop n)

/-- what `compute_xlabel_confusion_matrix` leaves behind: the matrix and the caller's arrays `y_pred` and `labels_train` -/
structure XOut (K : Type) where
  C : List (List (Option K))
  yPred : List Int
  labelsTrain : Option (List Int)
deriving DecidableEq

/-- `compute_xlabel_confusion_matrix` for arrays of integers, confusion_matrix.py:40-104; `y_pred += num_classes_test` and `labels_train += num_classes_test` work in
place, on the caller's arrays (`list2ndarray` does not copy arrays). -/
def xconfusion (yTrue yPred : List Int) (labelsTrain labelsTest : Option (List Int)) (normalize : Bool) (weight : Option (List K)) : Option (XOut K) := do
  let lt := labelsTest.getD (npUnique yTrue)
  let ltr := (labelsTrain.getD (npUnique yPred)).map (fun x => x + (lt.length : Int))
  let yp := yPred.map (fun x => x + (lt.length : Int))
  let C ← skConfusion yTrue yp (some (lt ++ ltr)) weight
  let D := corner lt.length C
  some ⟨if normalize then normRows D else D.map (fun row => row.map some), yp, labelsTrain.map (fun _ => ltr)⟩

/-- `compute_xlabel_confusion_matrix` for arrays of strings: `issubclass(_, np.dtype('U'))` raises `TypeError`, confusion_matrix.py:78-79 -/
def xconfusionStr (_yTrue _yPred : List String) (_labelsTrain _labelsTest : Option (List String)) : Option (XOut K) := none

end

/-! ### torch -/

section
variable {K : Type} [Field K] [LinearOrder K]

/-- `reduction` of the torch metrics -/
inductive Red where
  | none
  | sum
  | mean
deriving DecidableEq

/-- targets of `categorical_accuracy`: class numbers or one row of scores per sample -/
inductive Target (K : Type) where
  | index : List Nat → Target K
  | rows : List (List K) → Target K

/-- what the metrics return: a number per element or one number -/
inductive Out (K : Type) where
  | all : List K → Out K
  | one : K → Out K

/-- numbers of classes of the targets, accuracy_functional.py:23-25; `argmax` is `torch.max(., dim=-1)[1]` -/
def targetClasses (argmax : List K → Nat) : Target K → List Nat
  | .index l => l
  | .rows r => r.map argmax

/-- number of targets -/
def Target.len : Target K → Nat
  | .index l => l.length
  | .rows r => r.length

/-- `ok *= weight` -/
def applyWeight (ok : List K) : Option (List K) → List K
  | .none => ok
  | .some w => List.zipWith (fun a b => a * b) ok w

/-- mean of a list -/
def mean (l : List K) : K := l.sum / (l.length : K)

/-- `categorical_accuracy` for a matrix of scores, one row per sample, accuracy_functional.py:12-45. Without samples the mean is nan (`none`). -/
def categoricalAccuracy (argmax : List K → Nat) (input : List (List K)) (target : Target K) (weight : Option (List K)) (red : Red) : Option (Out K) :=
  if input.length ≠ target.len then Option.none
  else
    let ok : List K := List.zipWith (fun r t => if argmax r = t then 1 else 0) input (targetClasses argmax target)
    match red with
    | .none => some (.all ok)
    | .sum => if (weight.getD ok).length ≠ input.length then Option.none else some (.one (applyWeight ok weight).sum)
    | .mean =>
      if (weight.getD ok).length ≠ input.length then Option.none
      else if (weight.elim 1 mean) = 0 ∨ input = [] then Option.none
      else some (.one (mean (applyWeight ok weight) / weight.elim 1 mean))

/-- `binary_accuracy` for a matrix, accuracy_functional.py:49-84: with `reduction='mean'` the value returned is `ok.item()`, which raises unless there is exactly one element -/
def binaryAccuracy (input target : List (List K)) (weight : Option (List K)) (red : Red) (thr : K) : Option (Out K) :=
  if input.map List.length ≠ target.map List.length then Option.none
  else
    let ok : List (List K) := List.zipWith (fun r t => List.zipWith (fun x y => if (if thr < x then (1 : K) else 0) = y then 1 else 0) r t) input target
    let wok : List (List K) := weight.elim ok (fun w => List.zipWith (fun r b => r.map (fun a => a * b)) ok w)
    match red with
    | .none => some (.all ok.flatten)
    | .sum => if weight.elim input.length List.length ≠ input.length then Option.none else some (.one wok.flatten.sum)
    | .mean =>
      if weight.elim input.length List.length ≠ input.length then Option.none
      else match wok.flatten with
        | [x] => some (.one x)
        | _ => Option.none

end

end Hyp.Confusion
