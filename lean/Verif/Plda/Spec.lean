import Mathlib.LinearAlgebra.Matrix.PosDef
import Mathlib.LinearAlgebra.Matrix.NonsingularInverse
import Mathlib.MeasureTheory.Integral.Pi
import Mathlib.MeasureTheory.Measure.Lebesgue.Basic
import Mathlib.Analysis.SpecialFunctions.Gaussian.GaussianIntegral
import Mathlib.Tactic.Ring
import Mathlib.Tactic.Linarith
import Mathlib.Tactic.FieldSimp

/-!
Specification of probabilistic linear discriminant analysis, written without any reference to the code: multivariate
Gaussian densities, and the probability density of a set of vectors of one speaker, which is an integral over the unknown
speaker variable.
-/

namespace Hyp.Plda
open scoped BigOperators
open Matrix MeasureTheory

abbrev Vec (n : Nat) := Fin n → ℝ
abbrev Mat (m n : Nat) := Matrix (Fin m) (Fin n) ℝ

/-- density of the Gaussian with mean `m` and precision matrix (inverse covariance) `P` at `x` -/
noncomputable def gaussPdf {n : Nat} (m : Vec n) (P : Mat n n) (x : Vec n) : ℝ :=
  Real.sqrt P.det / Real.sqrt (2 * Real.pi) ^ n * Real.exp (-(1 / 2) * ((x - m) ⬝ᵥ (P *ᵥ (x - m))))

/-- density of the vectors `X`, all of one speaker: the speaker variable `y` has a Gaussian prior with mean `m` and
precision `B`; given `y` the vectors are independent Gaussians with mean `mu + y V` and precision `W` -/
noncomputable def evidence {k n : Nat} (m : Vec k) (B : Mat k k) (mu : Vec n) (V : Mat k n) (W : Mat n n) (X : List (Vec n)) : ℝ :=
  ∫ y : Vec k, gaussPdf m B y * (X.map (fun x => gaussPdf (mu + y ᵥ* V) W x)).prod

/-- log likelihood ratio of "the vectors `X1` and `X2` are of one speaker" and "`X1` and `X2` are of two independent
speakers" -/
noncomputable def logLikRatio {k n : Nat} (m : Vec k) (B : Mat k k) (mu : Vec n) (V : Mat k n) (W : Mat n n)
    (X1 X2 : List (Vec n)) : ℝ :=
  Real.log (evidence m B mu V W (X1 ++ X2) / (evidence m B mu V W X1 * evidence m B mu V W X2))

/-- the vectors of speaker `i` in a list of (vector, speaker) pairs -/
def classVecs {n : Nat} (rows : List (Vec n × Nat)) (i : Nat) : List (Vec n) := (rows.filter (fun r => r.2 = i)).map Prod.fst

/-- density of one vector given the speaker variable under a model with a channel variable `z` (standard Gaussian), channel
subspace `U` and diagonal noise precision `D`: an integral over the channel variable -/
noncomputable def channelPdf {l n : Nat} (c : Vec n) (U : Mat l n) (D : Vec n) (x : Vec n) : ℝ :=
  ∫ z : Vec l, gaussPdf 0 1 z * gaussPdf (c + z ᵥ* U) (Matrix.diagonal D) x

/-- density of the vectors `X` of one speaker under the model with speaker and channel subspaces -/
noncomputable def evidence2 {k l n : Nat} (mu : Vec n) (V : Mat k n) (U : Mat l n) (D : Vec n) (X : List (Vec n)) : ℝ :=
  ∫ y : Vec k, gaussPdf 0 1 y * (X.map (fun x => channelPdf (mu + y ᵥ* V) U D x)).prod

/-- log likelihood ratio under the model with speaker and channel subspaces -/
noncomputable def logLikRatio2 {k l n : Nat} (mu : Vec n) (V : Mat k n) (U : Mat l n) (D : Vec n) (X1 X2 : List (Vec n)) : ℝ :=
  Real.log (evidence2 mu V U D (X1 ++ X2) / (evidence2 mu V U D X1 * evidence2 mu V U D X2))

end Hyp.Plda
