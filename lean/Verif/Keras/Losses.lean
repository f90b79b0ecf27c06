import Mathlib.Analysis.SpecialFunctions.Log.Basic
import Mathlib.Analysis.SpecialFunctions.Sqrt
import Mathlib.LinearAlgebra.Matrix.NonsingularInverse
import Mathlib.Analysis.Real.Pi.Bounds

/-!
Model of the divergence layers, losses and samplers of Keras: /repo/hyperion/keras/layers/losses.py,
/repo/hyperion/keras/objectives.py, /repo/hyperion/keras/losses.py, /repo/hyperion/keras/layers/sampling.py:108-245.
One element of a batch at a time except in the samplers; real arithmetic; `log2pi` is the exact logarithm.
-/

namespace Hyp.Keras
open scoped BigOperators

/-- `normal_param2_to_var()`, layers/losses.py:18-22; an unknown word is a `KeyError` -/
noncomputable def param2Var (fmt : String) : Option (ℝ → ℝ) :=
  if fmt = "var" then some (fun x => x)
  else if fmt = "prec" then some (fun x => 1 / x)
  else if fmt = "logvar" then some (fun x => Real.exp x)
  else if fmt = "logprec" then some (fun x => Real.exp (-x))
  else none

/-- `normal_param2_to_logvar()`, layers/losses.py:25-29 -/
noncomputable def param2Logvar (fmt : String) : Option (ℝ → ℝ) :=
  if fmt = "var" then some (fun x => Real.log x)
  else if fmt = "prec" then some (fun x => -Real.log x)
  else if fmt = "logvar" then some (fun x => x)
  else if fmt = "logprec" then some (fun x => -x)
  else none

/-- `log2pi` -/
noncomputable def log2pi : ℝ := Real.log (2 * Real.pi)

/-- `get_seq_length`, losses.py:19-20: number of frames that are not all zero -/
noncomputable def seqLength {D : Nat} (x : List (Fin D → ℝ)) : ℝ :=
  haveI := Classical.decPred (fun v : Fin D → ℝ => ∃ d, v d ≠ 0)
  ((x.filter (fun v => decide (∃ d, v d ≠ 0))).length : ℝ)

/-- the divergence of one frame before the limit, layers/losses.py:70 -/
noncomputable def klStdSum {D : Nat} (beta : ℝ) (mu var logvar : Fin D → ℝ) : ℝ :=
  1 / (2 * beta) * ∑ d, ((beta - 1) * log2pi - logvar d - 1 + beta * (mu d ^ 2 + var d))

/-- `KLDivNormalVsStdNormal.call` on a vector, layers/losses.py:52-71 -/
noncomputable def klStd {D : Nat} (fmt : String × String) (minKl beta : ℝ) (p1 p2 : Fin D → ℝ) : Option ℝ := do
  let fv ← param2Var fmt.2
  let fl ← param2Logvar fmt.2
  let var := fun d => fv (p2 d)
  let mu := fun d => if fmt.1 = "nat" then var d * p1 d else p1 d
  some (1 * max (klStdSum beta mu var (fun d => fl (p2 d))) minKl)

/-- `KLDivNormalVsStdNormal.call` on a sequence, layers/losses.py:52-71 -/
noncomputable def klStdSeq {D : Nat} (fmt : String × String) (minKl beta : ℝ) (timeNorm : Bool) (f : List ((Fin D → ℝ) × (Fin D → ℝ))) :
    Option (List ℝ) := do
  let fv ← param2Var fmt.2
  let fl ← param2Logvar fmt.2
  let mu := fun (p : (Fin D → ℝ) × (Fin D → ℝ)) d => if fmt.1 = "nat" then fv (p.2 d) * p.1 d else p.1 d
  let T := if timeNorm then 1 else seqLength (f.map mu)
  some (f.map (fun p => T * max (klStdSum beta (mu p) (fun d => fv (p.2 d)) (fun d => fl (p.2 d))) minKl))

/-- `KLDivNormalVsDiagNormal.call`, layers/losses.py:105-126 -/
noncomputable def klDiag {D : Nat} (fmt : String × String) (minKl beta : ℝ) (p11 p12 p21 p22 : Fin D → ℝ) : Option ℝ := do
  let fv ← param2Var fmt.2
  let fl ← param2Logvar fmt.2
  let var1 := fun d => fv (p12 d)
  let var2 := fun d => fv (p22 d)
  let mu1 := fun d => if fmt.1 = "nat" then p11 d * var1 d else p11 d
  let mu2 := fun d => if fmt.1 = "nat" then p21 d * var2 d else p21 d
  some (max (1 / (2 * beta) * ∑ d, ((beta - 1) * log2pi + beta * fl (p22 d) - fl (p12 d) - 1 + beta * ((mu1 d - mu2 d) ^ 2 + var1 d) / var2 d)) minKl)

/-- `kl_normal_vs_std_normal`, objectives.py:90-94 -/
noncomputable def klStdObj {D : Nat} (beta : ℝ) (mean logvar : Fin D → ℝ) : ℝ :=
  let T := 1 / beta;
  -(1 / 2) * ∑ d, ((T - 1) * log2pi + T + T * logvar d - mean d ^ 2 - Real.exp (logvar d))

/-- `kl_normal_vs_diag_normal`, objectives.py:97-104 -/
noncomputable def klDiagObj {D : Nat} (beta : ℝ) (mean1 logvar1 mean2 logvar2 : Fin D → ℝ) : ℝ :=
  let T := 1 / beta;
  -(1 / 2) * ∑ d, ((T - 1) * log2pi + T + T * logvar1 d - logvar2 d -
    ((mean1 d - mean2 d) ^ 2 + Real.exp (logvar1 d)) / Real.exp (logvar2 d))

/-- `diag_normal`, objectives.py:23-27 -/
noncomputable def diagNormal {D : Nat} (y mean logvar : Fin D → ℝ) : ℝ :=
  1 / 2 * ∑ d, (log2pi + logvar d + (y d - mean d) ^ 2 / Real.exp (logvar d))

/-- `normal_1chol`, objectives.py:30-38 (and `normal`, 41-51, on one element of a batch) -/
noncomputable def normalChol {D : Nat} (y mean logvar : Fin D → ℝ) (chol : Matrix (Fin D) (Fin D) ℝ) : ℝ :=
  let distn := fun d => Matrix.vecMul (fun i => y i - mean i) chol⁻¹ d * Real.exp (-logvar d / 2)
  1 / 2 * ∑ d, (log2pi + logvar d + distn d ^ 2)

/-- `nllk_normal_diag_cov` of a frame, losses.py:38-49: the first `y_dim` numbers of the prediction are the means, the others
the log-variances (as many: otherwise the sum of tensors raises) -/
noncomputable def nllkFrame (T : ℝ) (y pred : List ℝ) : ℝ :=
  let mean := pred.take y.length
  let logvar := pred.drop y.length
  1 / 2 * T * (List.zipWith (fun a b : ℝ => a + b) (logvar.map (fun v => log2pi + v))
    (List.zipWith (fun d v => d ^ 2 / Real.exp v) (List.zipWith (fun a b : ℝ => a - b) y mean) logvar)).sum

/-- `categorical_mbr`, losses.py:63-65 -/
noncomputable def categoricalMbr {C : Nat} (y p : Fin C → ℝ) : ℝ := 1 - ∑ k, y k * p k

/-- `K.binary_crossentropy(target, output)` of Keras 2, with its `epsilon` -/
noncomputable def binaryCrossentropy (eps target output : ℝ) : ℝ :=
  let o := min (max output eps) (1 - eps);
  -(target * Real.log o + (1 - target) * Real.log (1 - o))

/-- `bernoulli`, objectives.py:19-20, and `nllk_bernoulli`, losses.py:30-34 with `time_norm`: the prediction is passed as target -/
noncomputable def bernoulli {D : Nat} (eps : ℝ) (yTrue yPred : Fin D → ℝ) : ℝ := ∑ d, binaryCrossentropy eps (yPred d) (yTrue d)

/-! ### samplers -/

/-- `_compute_stddev`, sampling.py:148-156 -/
noncomputable def stddev (fmt : String) : Option (ℝ → ℝ) :=
  if fmt = "stddev" then some (fun p => |p|)
  else if fmt = "var" then some (fun p => Real.sqrt |p|)
  else if fmt = "logvar" then some (fun p => Real.exp (p / 2))
  else none

/-- `K.repeat_elements(x, n, axis=0)` -/
def repeatElements {α : Type} (n : Nat) (x : List α) : List α := x.flatMap (fun a => List.replicate n a)

/-- `NormalDiagCovSampler.call`, sampling.py:168-181: the batch of parameters and one vector of noise per row of the result -/
noncomputable def normalSampler {D : Nat} (fmt : String × String) (n : Nat) (p : List ((Fin D → ℝ) × (Fin D → ℝ))) (eps : Nat → Fin D → ℝ) :
    Option (List (Fin D → ℝ)) := do
  let rows := if n > 1 then repeatElements n p else p
  let g ← stddev fmt.2
  some (rows.zipIdx.map (fun q d =>
    let s := g (q.1.2 d)
    let mu := if fmt.1 = "nat" then s * s * q.1.1 d else q.1.1 d
    mu + s * eps q.2 d))

/-- `TiedNormalDiagCovSampler.call`, sampling.py:211-237: for every row `T` vectors; the noise has one vector per row
(`one_per_seq`) or one per row and time -/
noncomputable def tiedSampler {D : Nat} (fmt : String × String) (n T : Nat) (onePerSeq : Bool) (p : List ((Fin D → ℝ) × (Fin D → ℝ)))
    (eps : Nat → Nat → Fin D → ℝ) : Option (List (List (Fin D → ℝ))) := do
  let rows := if n > 1 then repeatElements n p else p
  let g ← stddev fmt.2
  let x := fun (q : ((Fin D → ℝ) × (Fin D → ℝ)) × Nat) (t : Nat) (d : Fin D) =>
    let s := g (q.1.2 d)
    let mu := if fmt.1 = "nat" then s * s * q.1.1 d else q.1.1 d
    mu + s * eps q.2 t d
  some (rows.zipIdx.map (fun q => if onePerSeq then List.replicate T (x q 0) else (List.range T).map (x q)))

/-- number of rows declared by `compute_output_shape` for a batch of known size, sampling.py:159-163 and 203-206 -/
def declaredRows (tied : Bool) (n batch : Nat) : Nat := if tied then batch else batch * n

/-- `BernoulliSampler.call`, sampling.py:129-133: `r` is the uniform noise -/
noncomputable def bernoulliSampler {D : Nat} (n : Nat) (p : List (Fin D → ℝ)) (r : Nat → Fin D → ℝ) : List (Fin D → Bool) :=
  let rows := if n > 0 then repeatElements n p else p
  rows.zipIdx.map (fun q d => decide (r q.2 d < q.1 d))

end Hyp.Keras
