import Verif.MathUtils.NumericProps
import Mathlib.Data.Matrix.Mul
import Mathlib.Tactic.Ring
import Mathlib.Tactic.Linarith
import Mathlib.Tactic.FieldSimp

/-!
Model of the wrappers of scikit-learn in /repo/hyperion/classifiers/{logistic_regression,binary_logistic_regression,
linear_svmc}.py over the real numbers (exact arithmetic). The optimiser of scikit-learn is an arbitrary function of the training
data and weights; the scores of the trained scikit-learn model are `x·coef_ + intercept_`. `none` stands for an exception.
-/

namespace Hyp.LogReg
open scoped BigOperators
open Matrix

abbrev Vec (n : Nat) := Fin n → ℝ

variable {n : Nat}

/-- the `priors` argument, logistic_regression.py:23 -/
inductive Priors where
  | unset
  | dict (f : Nat → Option ℝ)
  | list (l : List ℝ)

/-- `self.priors[i]` -/
def Priors.get : Priors → Nat → Option ℝ
  | .unset, _ => none
  | .dict f, i => f i
  | .list l, i => l[i]?

/-- the local variable `priors` of `fit`, logistic_regression.py:163-166 -/
noncomputable def localPriors (p : Priors) (K : Nat) : Option (List ℝ) :=
  match p with
  | .unset => some (List.replicate K (1 / (K : ℝ)))
  | p => (List.range K).mapM p.get

/-- `counts[k]`, logistic_regression.py:160 -/
def count (ids : List Nat) (k : Nat) : Nat := (ids.filter (fun i => i == k)).length

/-- the weights passed to scikit-learn, logistic_regression.py:158-173; `sw` is the caller's `sample_weight` array, which `*=` changes in
place: the result is also the new content of that array. Arrays of different lengths raise. -/
noncomputable def fitWeights (p : Priors) (ids : List Nat) (sw : Option (List ℝ)) : Option (List ℝ) := do
  let m ← ids.max?
  let priors ← localPriors p (m + 1)
  let cw := ids.map (fun i => priors.getD i 0 / count ids i)
  match sw with
  | none => some cw
  | some w => if w.length = ids.length then some (List.zipWith (fun a b => a * b) w cw) else none

/-- the adjustment of the intercepts, logistic_regression.py:177-184; `K` is `num_classes`. With one-versus-rest and more than one
intercept the local `priors` is a list when priors are given, and `1-priors` raises. -/
noncomputable def adjust (multinomial : Bool) (p : Priors) (K : Nat) (s : ℝ) (intercept : List ℝ) : Option (List ℝ) :=
  if multinomial then
    match p with
    | .list l => if l.length = intercept.length then some (List.zipWith (fun i q => i - Real.log q / s) intercept l) else none
    | _ => none
  else if intercept.length = 1 then
    (p.get 1).map (fun q => intercept.map (fun i => i - Real.log (q / (1 - q)) / s))
  else
    match p with
    | .unset => if intercept.length = K then
        some (intercept.map (fun i => i - Real.log (1 / (K : ℝ) / (1 - 1 / (K : ℝ))) / s)) else none
    | _ => none

/-- a trained scikit-learn model: a list of coefficient vectors and intercepts -/
structure Sk (n : Nat) where
  coef : List (Vec n)
  intercept : List ℝ

/-- `LogisticRegression.fit`, logistic_regression.py:152-184: returns the model and the content of the caller's weight array -/
noncomputable def fit (solver : List (Vec n) → List Nat → List ℝ → Sk n) (multinomial : Bool) (p : Priors) (s : ℝ)
    (xs : List (Vec n)) (ids : List Nat) (sw : Option (List ℝ)) : Option (Sk n × Option (List ℝ)) := do
  let w ← fitWeights p ids sw
  let m ← ids.max?
  let sk := solver xs ids w
  let i ← adjust multinomial p (m + 1) s sk.intercept
  return (⟨sk.coef, i⟩, sw.map (fun _ => w))

/-- the property `b`, logistic_regression.py:126-128, linear_svmc.py:66-68 -/
def propB (s : ℝ) (m : Sk n) : List ℝ := m.intercept.map (fun i => i * s)

/-- `np.dot(x, self.A) + self.b`, one row -/
def scores (s : ℝ) (m : Sk n) (x : Vec n) : List ℝ := List.zipWith (fun c b => x ⬝ᵥ c + b) m.coef (propB s m)

/-- the argument `eval_type` of `predict`; any other string means `logit` -/
inductive Eval where
  | logit
  | post
  | logPost
deriving DecidableEq

/-- `BinaryLogisticRegression.predict`, binary_logistic_regression.py:52-64, one row: scores `y` before, `prior` the target prior -/
noncomputable def binPredict (prior : ℝ) (e : Eval) (y : ℝ) : ℝ :=
  match e with
  | .logit => y
  | .logPost => -Real.log (1 + Real.exp (-(y + Real.log (prior / (1 - prior)))))
  | .post => 1 / (1 + Real.exp (-(y + Real.log (prior / (1 - prior)))))

/-- `LogisticRegression.predict`, logistic_regression.py:138-149, one row with scores `y` and array `priors` -/
noncomputable def multiPredict {K : Nat} (priors : Fin (K + 1) → ℝ) (e : Eval) (y : Fin (K + 1) → ℝ) (k : Fin (K + 1)) : ℝ :=
  match e with
  | .logit => y k
  | .logPost => Real.log (MathUtils.softmax (fun j => y j + Real.log (priors j)) k + 1 / 10 ^ 10)
  | .post => MathUtils.softmax (fun j => y j + Real.log (priors j)) k

/-- `LogisticRegression` made from saved parameters: `A` and `b` are stored (save_params), and `__init__` divides `b` by `bias_scaling`,
logistic_regression.py:111-114, 187-200 -/
noncomputable def lrReload (s : ℝ) (m : Sk n) : Sk n := ⟨m.coef, (propB s m).map (fun b => b / s)⟩

/-- `LinearSVMC` made from saved parameters: `__init__` does not divide, linear_svmc.py:54-58, 103-118 -/
def svmReload (s : ℝ) (m : Sk n) : Sk n := ⟨m.coef, propB s m⟩

/-- the two-class outputs of `LinearSVMC.predict`, linear_svmc.py:80-93, one score -/
noncomputable def svmBinPost (y : ℝ) : ℝ := 1 / (1 + Real.exp (-y))
noncomputable def svmBinLogPost (y : ℝ) : ℝ := Real.log (1 + Real.exp (-y))

/-- the arguments of `LogisticRegression.__init__` that set the regularisation and the seed -/
structure InitArgs where
  lambdaReg : ℝ
  seed : Nat

/-- what `BinaryLogisticRegression.__init__` passes on, binary_logistic_regression.py:17-31: `lambda_reg` is passed under the misspelt name
`labmda_reg`, which `HypModel.__init__` accepts and drops, so the default `1e-5` of `LogisticRegression` is used; `lr_seed` is always 1024 -/
noncomputable def binaryInit (_lambda : ℝ) (_seed : Nat) : InitArgs := ⟨1 / 10 ^ 5, 1024⟩

end Hyp.LogReg
