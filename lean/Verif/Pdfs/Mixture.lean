import Verif.MathUtils.Numeric

/-!
Model of /repo/hyperion/pdfs/mixtures/exp_family_mixture.py (sufficient statistics, E-step, posteriors, scoring) over the
real numbers (exact arithmetic).

A data set is a list of rows; a row is a vector of sufficient statistics `u_x` and its sample weight. `sample_weight=None`
is the weight 1 (multiplying by 1 changes nothing). The index type `ι` of a vector of sufficient statistics is any finite
type. The number of components is `K + 1`: an empty mixture cannot be scored.
-/

namespace Hyp.Pdfs
open scoped BigOperators
open Hyp.MathUtils

variable {K : Nat} {ι : Type} [Fintype ι]

/-- a row of the data: sufficient statistics and sample weight -/
abbrev Row (ι : Type) := (ι → ℝ) × ℝ

/-- attributes of `ExpFamilyMixture`, exp_family_mixture.py:22-33; `logPi` is the cache `_log_pi` -/
structure Mix (K : Nat) (ι : Type) where
  pi : Fin (K + 1) → ℝ
  logPi : Option (Fin (K + 1) → ℝ)
  eta : Fin (K + 1) → ι → ℝ
  A : Fin (K + 1) → ℝ

/-- the value returned by the property `log_pi`, exp_family_mixture.py:46-50 -/
noncomputable def Mix.logPiVal (g : Mix K ι) : Fin (K + 1) → ℝ :=
  match g.logPi with
  | some c => c
  | none => fun k => Real.log (g.pi k + 1 / 10 ^ 15)

/-- the state after reading the property `log_pi`, exp_family_mixture.py:46-50 -/
noncomputable def Mix.touchLogPi (g : Mix K ι) : Mix K ι := { g with logPi := some g.logPiVal }

/-- `np.dot(u_x, self.eta.T) - self.A + self.log_pi`, exp_family_mixture.py:148, 428 -/
noncomputable def Mix.logr (g : Mix K ι) (u : ι → ℝ) : Fin (K + 1) → ℝ :=
  fun k => (∑ i, u i * g.eta k i) - g.A k + g.logPiVal k

/-- one row of `compute_pz_nat`, exp_family_mixture.py:145-149 -/
noncomputable def Mix.pz (g : Mix K ι) (u : ι → ℝ) : Fin (K + 1) → ℝ := softmax (g.logr u)

/-- `log_prob_nat` (with `log_h = 0`), exp_family_mixture.py:424-430 -/
noncomputable def Mix.logProb (g : Mix K ι) (u : ι → ℝ) : ℝ := logsumexp (g.logr u)

/-- statistics `(N, acc_u_x)` -/
abbrev Stats (K : Nat) (ι : Type) := (Fin (K + 1) → ℝ) × (Fin (K + 1) → ι → ℝ)

/-- `_accum_suff_stats_1batch`, exp_family_mixture.py:171-181, given the posteriors -/
def stats1 (pz : (ι → ℝ) → Fin (K + 1) → ℝ) (rows : List (Row ι)) : Stats K ι :=
  (fun k => (rows.map (fun r => pz r.1 k * r.2)).sum, fun k i => (rows.map (fun r => pz r.1 k * r.2 * r.1 i)).sum)

/-- `x[i1:i2]` for `i1` in `xrange(0, n, batch_size)`, `i2 = min(i1 + batch_size, n)`, exp_family_mixture.py:187-189;
`fuel` is at least the number of rows -/
def batches {α : Type} (bs : Nat) : Nat → List α → List (List α)
  | 0, _ => []
  | fuel + 1, l => if l = [] then [] else l.take bs :: batches bs fuel (l.drop bs)

/-- the accumulation loop of the `_nbatches` functions, exp_family_mixture.py:185-199: the first batch is assigned, the
others are added. A batch size of zero raises in `xrange`; without rows the result variables are not assigned and the
`return` raises. -/
def accumBatches {α S : Type} [Add S] (stat : List α → S) (bs : Nat) (rows : List α) : Option S :=
  if bs = 0 then none
  else
    match batches bs rows.length rows with
    | [] => none
    | b :: rest => some (rest.foldl (fun acc c => acc + stat c) (stat b))

/-- `accum_suff_stats`, exp_family_mixture.py:163-168, 184-199 (without `u_x`) -/
noncomputable def Mix.accumSuffStats (g : Mix K ι) (rows : List (Row ι)) (batchSize : Option Nat) : Option (Stats K ι) :=
  match batchSize with
  | none => some (stats1 g.pz rows)
  | some bs => accumBatches (stats1 g.pz) bs rows

/-- `accum_suff_stats_segments`, exp_family_mixture.py:203-224: both ends of a segment are included -/
noncomputable def Mix.accumSegments (g : Mix K ι) (rows : List (Row ι)) (segments : List (Nat × Nat))
    (batchSize : Option Nat) : Option (List (Stats K ι)) :=
  segments.mapM (fun s => g.accumSuffStats ((rows.take (s.2 + 1)).drop s.1) batchSize)

/-- a row together with the probabilities of the segments, exp_family_mixture.py:228-236 -/
abbrev PRow (ι : Type) (s : Nat) := Row ι × (Fin s → ℝ)

/-- `_accum_suff_stats_segments_prob_1batch`, exp_family_mixture.py:239-256 -/
noncomputable def Mix.segProb1 {s : Nat} (g : Mix K ι) (rows : List (PRow ι s)) : Fin s → Stats K ι :=
  fun j =>
    (fun k => (rows.map (fun r => g.pz r.1.1 k * r.1.2 * r.2 j)).sum,
     fun k i => (rows.map (fun r => g.pz r.1.1 k * r.1.2 * r.2 j * r.1.1 i)).sum)

/-- `accum_suff_stats_segments_prob`, exp_family_mixture.py:228-277 -/
noncomputable def Mix.segProb {s : Nat} (g : Mix K ι) (rows : List (PRow ι s)) (batchSize : Option Nat) :
    Option (Fin s → Stats K ι) :=
  match batchSize with
  | none => some (g.segProb1 rows)
  | some bs => accumBatches g.segProb1 bs rows

/-- `elbo` with the statistics given and `log_h = 0`, exp_family_mixture.py:407-413 -/
noncomputable def Mix.elbo (g : Mix K ι) (st : Stats K ι) : ℝ :=
  (∑ k, ∑ i, st.2 k i * g.eta k i) + ∑ k, st.1 k * (g.logPiVal k - g.A k)

/-! ### statistics of sliding windows -/

/-- `np.cumsum`, exp_family_mixture.py:313, 319 -/
def cumsum (x : List ℝ) : List ℝ := (List.range x.length).map (fun i => (x.take (i + 1)).sum)

/-- Python's `x[start:end:step]` for natural numbers and `step > 0`, exp_family_mixture.py:315-316; `fuel` is at least the
number of elements -/
def strided (step : Nat) : Nat → List ℝ → List ℝ
  | 0, _ => []
  | fuel + 1, l =>
    match l with
    | [] => []
    | a :: l' => a :: strided step fuel (l'.drop (step - 1))

/-- `x[start:end:step]` -/
def slice (x : List ℝ) (start stop step : Nat) : List ℝ := strided step x.length ((x.take stop).drop start)

/-- number of segments, exp_family_mixture.py:295: `int(np.floor((num_frames-frame_length)/frame_shift + 1))`; zero or a
negative number (here 0) when the recording is shorter than a segment by `frame_shift` -/
def numSegments (numFrames len shift : Nat) : Int := ((numFrames : Int) - len) / shift + 1

/-- one column of `_accum_suff_stats_sorttime_1batch`, exp_family_mixture.py:291-323: `v` is `z[:, k]` or
`z[:, k] * u_x[:, i]`. With one segment the call `self._accum_suff_stats_1batch(self, x, ...)` has one argument too many
and raises; with none `N[0] = ...` raises; `frame_shift = 0` divides by zero (with NumPy floats it ends in an exception
of `int(inf)`). Assigning `ns - 1` rows from slices of another length would raise. `cum[frame_length-1]` with
`frame_length = 0` would read the last element (index -1). -/
def sortTime1 (len shift : Nat) (v : List ℝ) : Option (List ℝ) :=
  if shift = 0 then none
  else
    let ns := numSegments v.length len shift
    if ns ≤ 1 then none
    else
      let n := ns.toNat
      let cum := cumsum v
      let start1 := shift - 1
      let end1 := (n - 1) * shift
      let start2 := start1 + len
      let end2 := end1 + len
      let first := if len = 0 then cum.getLast? else cum[len - 1]?
      let hi := slice cum start2 end2 shift
      let lo := slice cum start1 end1 shift
      if hi.length = n - 1 ∧ lo.length = n - 1 then
        first.map (fun f => f :: List.zipWith (fun a b => a - b) hi lo)
      else none

/-- `_accum_suff_stats_sorttime_nbatches`, exp_family_mixture.py:327-354, one column; the argument `batch_size` is
overwritten and has no effect. The assignment `N[cur:cur+n_i] = N_i` appends (the array has `num_segments` rows; writing
past its end raises). -/
def sortTimeN (len shift : Nat) (v : List ℝ) : Option (List ℝ) :=
  if shift = 0 then none
  else
    let ns := numSegments v.length len shift
    if ns ≤ 1 then none
    else
      let n := ns.toNat
      let bsize := (n - 1) * shift + len
      let bshift := n * shift
      (((List.range v.length).filter (fun i => i % bshift = 0)).mapM
        (fun i1 => sortTime1 len shift ((v.take (i1 + bsize)).drop i1))).map List.flatten

end Hyp.Pdfs
