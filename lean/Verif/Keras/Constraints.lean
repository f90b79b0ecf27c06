import Mathlib.Data.Real.Basic
import Mathlib.Analysis.SpecialFunctions.Log.Basic
import Mathlib.Algebra.BigOperators.Fin

/-!
Model of the constraints on weights of /repo/hyperion/keras/constraints.py, of the layers `ConstTriu` (keras/layers/core.py), `MultConstDiagCov` and
`MultConstDiagCovStdPrior` (keras/layers/cov.py) and `Repeat` (keras/layers/tensor_manipulation.py). Real arithmetic. `MultConstCovStdPrior`
(`self.chol.T` of a TensorFlow variable, `self.input_dim`), `ExpandAndTile` (`K.ndims`) and `ExpandDim` (`Expand`) raise whenever they are used and are
not modelled. The tiled layers are those of the Theano backend: with TensorFlow graphs `list(K.shape(mu))` raises.
-/

namespace Hyp.Keras.Constr

/-- `np.triu(np.ones((dim, dim)), k)`, constraints.py:37, 39 -/
def triuOnes {d : Nat} (k : Nat) (i j : Fin d) : ℝ := if (i : Nat) + k ≤ j then 1 else 0

/-- `Triu(dim, diag_val)` called with `p`, constraints.py:32-51 -/
noncomputable def triu {d : Nat} (diagVal : Option ℝ) (p : Fin d → Fin d → ℝ) : Fin d → Fin d → ℝ :=
  match diagVal with
  | none => fun i j => triuOnes 0 i j * p i j
  | some v => if v = 0 then fun i j => triuOnes 1 i j * p i j else fun i j => triuOnes 1 i j * p i j + v * (if i = j then 1 else 0)

/-- `Clip(min_val, max_val)` called with `p`, constraints.py:63-69; `K.clip` takes a maximum below the minimum as the minimum. `none`: no bound -/
noncomputable def clip1 (lo hi : Option ℝ) (x : ℝ) : ℝ :=
  let hi' := match lo, hi with
    | some l, some h => if h < l then some l else some h
    | _, h => h
  let y := match lo with | some l => max x l | none => x
  match hi' with | some h => min y h | none => y

/-- `ConstraintList(constraint_list)` called with `p`, constraints.py:18-24 -/
def constraintList {α : Type} (cs : List (α → α)) (p : α) : α := cs.foldl (fun p c => c p) p

/-- training of a weight with constraint `c` from `w0`: after every update of the optimiser, which may be anything, Keras puts `c` of the weight into
its place -/
def trained {α : Type} (c : α → α) (update : Nat → α → α) (w0 : α) : Nat → α
  | 0 => w0
  | n + 1 => c (update n (trained c update w0 n))

/-- the weight of `ConstTriu(units, diag_val)` after `n` updates, core.py:129-153: it starts as the identity, the constraint given to the constructor is
not used -/
noncomputable def constTriu {d : Nat} (diagVal : Option ℝ) (_constraint : (Fin d → Fin d → ℝ) → (Fin d → Fin d → ℝ))
    (update : Nat → (Fin d → Fin d → ℝ) → (Fin d → Fin d → ℝ)) (n : Nat) : Fin d → Fin d → ℝ :=
  trained (triu diagVal) update (fun i j => if i = j then 1 else 0) n

/-- `MultConstDiagCov.call` on the frames `x` with weight `logvar`, cov.py:48-54: the means and the logarithms of the variances -/
noncomputable def multDiag {d : Nat} (logvar : Fin d → ℝ) (x : List (Fin d → ℝ)) : List (Fin d → ℝ) × List (Fin d → ℝ) :=
  (x.map (fun r i => r i * Real.exp (logvar i)), List.replicate x.length logvar)

/-- `MultConstDiagCovStdPrior.call` on the frames `x` with weight `prec_1`, cov.py:107-115 -/
noncomputable def multDiagPrior {d : Nat} (prec : Fin d → ℝ) (x : List (Fin d → ℝ)) : List (Fin d → ℝ) × List (Fin d → ℝ) :=
  let logvar := fun i => - Real.log (1 + Real.exp (prec i))
  (x.map (fun r i => r i * Real.exp (logvar i)), List.replicate x.length logvar)

/-- `Repeat(n, axis).call` for the slices `l` along the axis, tensor_manipulation.py:31-32 -/
def repeatAxis {α : Type} (n : Nat) (l : List α) : List α := l.flatMap (fun a => List.replicate n a)

/-- `Repeat.compute_output_shape`, tensor_manipulation.py:24-28; `none`: a dimension that is not known; the axis is in range -/
def repeatShape (n axis : Nat) (shape : List (Option Nat)) : List (Option Nat) := shape.modify axis (fun s => s.map (fun k => k * n))

end Hyp.Keras.Constr
