import Mathlib.Data.Real.Sqrt
import Mathlib.Algebra.BigOperators.Fin

/-!
Model of /repo/hyperion/score_norm/{z_norm,t_norm,s_norm,adapt_s_norm}.py.

A score matrix of shape (m, n) is a function `Fin m → Fin n → ℝ` (exact arithmetic, shapes that numpy accepts without
broadcasting: shape errors are not modelled). `mask = none` is Python's `mask=None`. Division by zero (an empty cohort,
a row without valid cohort scores) gives NaN in numpy; here it gives Lean's `x / 0 = 0`, so that all theorems about values
carry a hypothesis that excludes it. The square root is only applied to numbers proved to be non-negative.
-/

namespace Hyp.ScoreNorm

open scoped BigOperators

/-- `scores_coh[mask==False] = 0` (z_norm.py:25, t_norm.py, adapt_s_norm.py:36-39): a row of the matrix. The code
writes into the array of the caller. -/
def zeroMasked {c : Nat} (x : Fin c → ℝ) (mask : Option (Fin c → Bool)) : Fin c → ℝ :=
  match mask with
  | none => x
  | some mk => fun k => if mk k then x k else 0

/-- `np.mean` of a vector. -/
noncomputable def npMean {c : Nat} (x : Fin c → ℝ) : ℝ := (∑ k, x k) / c

/-- `np.std` of a vector. -/
noncomputable def npStd {c : Nat} (x : Fin c → ℝ) : ℝ := Real.sqrt (npMean (fun k => (x k - npMean x) ^ 2))

/-- the mean of a mask: numpy takes True as 1. -/
noncomputable def npMeanMask {c : Nat} (mk : Fin c → Bool) : ℝ := npMean (fun k => if mk k then 1 else 0)

/-- z_norm.py:21-28 (t_norm.py, the same lines, on columns): mean and standard deviation before the floor. -/
noncomputable def stats {c : Nat} (x : Fin c → ℝ) (mask : Option (Fin c → Bool)) : ℝ × ℝ :=
  match mask with
  | none => (npMean x, npStd x)
  | some mk =>
    let y := zeroMasked x (some mk)
    let n := npMeanMask mk
    let mu := npMean y / n
    (mu, Real.sqrt (npMean (fun k => y k ^ 2) / n - mu ^ 2))

/-- z_norm.py:30-32: floor and normalise one score. -/
noncomputable def normOne (floor : ℝ) (st : ℝ × ℝ) (s : ℝ) : ℝ := (s - st.1) / (if st.2 < floor then floor else st.2)

/-- z_norm.py:19-33 `ZNorm.predict`: the normalised scores, and the cohort array of the caller after the call. -/
noncomputable def zNorm {m n c : Nat} (floor : ℝ) (scores : Fin m → Fin n → ℝ) (coh : Fin m → Fin c → ℝ)
    (mask : Option (Fin m → Fin c → Bool)) : (Fin m → Fin n → ℝ) × (Fin m → Fin c → ℝ) :=
  (fun i j => normOne floor (stats (coh i) (mask.map (fun mk => mk i))) (scores i j),
   fun i => zeroMasked (coh i) (mask.map (fun mk => mk i)))

/-- t_norm.py:18-32 `TNorm.predict`: statistics over axis 0 (columns). -/
noncomputable def tNorm {m n c : Nat} (floor : ℝ) (scores : Fin m → Fin n → ℝ) (coh : Fin c → Fin n → ℝ)
    (mask : Option (Fin c → Fin n → Bool)) : (Fin m → Fin n → ℝ) × (Fin c → Fin n → ℝ) :=
  (fun i j => normOne floor (stats (fun k => coh k j) (mask.map (fun mk k => mk k j))) (scores i j),
   fun k j => zeroMasked (fun k => coh k j) (mask.map (fun mk k => mk k j)) k)

/-- s_norm.py:27-33 `SNorm.predict`. -/
noncomputable def sNorm {m n c d : Nat} (floor : ℝ) (scores : Fin m → Fin n → ℝ) (cohTest : Fin c → Fin n → ℝ)
    (enrCoh : Fin m → Fin d → ℝ) (maskCohTest : Option (Fin c → Fin n → Bool)) (maskEnrCoh : Option (Fin m → Fin d → Bool)) :
    Fin m → Fin n → ℝ :=
  fun i j => ((zNorm floor scores enrCoh maskEnrCoh).1 i j + (tNorm floor scores cohTest maskCohTest).1 i j) / Real.sqrt 2

/-- `np.argsort`: the sort numpy uses is not stable, so any function giving a sorting permutation is allowed. -/
def IsArgsort {c : Nat} (σ : (Fin c → ℝ) → Equiv.Perm (Fin c)) : Prop := ∀ x, Monotone (x ∘ σ x)

/-- adapt_s_norm.py:31-34: the number of cohort members used. -/
def nBest (c nbest discard : Nat) : Nat := if nbest > c - discard then c - discard else nbest

theorem nBest_le (c nbest discard : Nat) : nBest c nbest discard ≤ c - discard := by
  unfold nBest; split <;> omega

/-- adapt_s_norm.py:41, 62: `np.flip(np.argsort(x))[discard:discard+nbest]`. -/
def bestIdx {c : Nat} (σ : (Fin c → ℝ) → Equiv.Perm (Fin c)) (x : Fin c → ℝ) (nbest discard : Nat) (h : discard < c)
    (r : Fin (nBest c nbest discard)) : Fin c :=
  σ x (Fin.rev ⟨discard + r.1, by have := nBest_le c nbest discard; have := r.2; omega⟩)

/-- adapt_s_norm.py:46-57 / 67-78: mean and standard deviation over the chosen cohort members; `x` is already zeroed where
masked, and the mean is divided by the fraction of valid members. There is no floor. -/
noncomputable def adaptStats {b : Nat} (x : Fin b → ℝ) (mask : Option (Fin b → Bool)) : ℝ × ℝ :=
  match mask with
  | none => (npMean x, npStd x)
  | some mk =>
    let n := npMeanMask mk
    let mu := npMean x / n
    (mu, Real.sqrt (npMean (fun k => x k ^ 2) / n - mu ^ 2))

/-- adapt_s_norm.py:27-83 `AdaptSNorm.predict`; the assertion `nbest_discard < cohort size` (line 30) is the argument `h`;
the second assertion (line 29) is in the types. -/
noncomputable def adaptSNorm {m n c : Nat} (σ : (Fin c → ℝ) → Equiv.Perm (Fin c)) (nbest discard : Nat) (h : discard < c)
    (scores : Fin m → Fin n → ℝ) (cohTest : Fin c → Fin n → ℝ) (enrCoh : Fin m → Fin c → ℝ)
    (maskCohTest : Option (Fin c → Fin n → Bool)) (maskEnrCoh : Option (Fin m → Fin c → Bool)) : Fin m → Fin n → ℝ :=
  let ct : Fin n → Fin c → ℝ := fun j => zeroMasked (fun k => cohTest k j) (maskCohTest.map (fun mk k => mk k j))
  let ec : Fin m → Fin c → ℝ := fun i => zeroMasked (enrCoh i) (maskEnrCoh.map (fun mk => mk i))
  fun i j =>
    let bz := bestIdx σ (ct j) nbest discard h
    let sz := adaptStats (fun r => ec i (bz r)) (maskEnrCoh.map (fun mk r => mk i (bz r)))
    let bt := bestIdx σ (ec i) nbest discard h
    let st := adaptStats (fun r => ct j (bt r)) (maskCohTest.map (fun mk r => mk (bt r) j))
    ((scores i j - sz.1) / sz.2 + (scores i j - st.1) / st.2) / Real.sqrt 2

end Hyp.ScoreNorm
