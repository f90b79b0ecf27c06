import Verif.Metrics.Pav

/-!
Model of /repo/hyperion/metrics/roc.py (`compute_roc`, `compute_rocch`, `rocch2eer`), of
/repo/hyperion/metrics/dcf.py and of /repo/hyperion/metrics/eer.py, over a linearly ordered field (exact arithmetic).
-/

namespace Hyp.Metrics

variable {K : Type} [Field K] [LinearOrder K]

/-- `i` comes before `j` in a stable ascending sort of `l`: smaller value, or same value and smaller position. -/
def stableBefore (l : List K) (i j : Nat) : Bool := decide (l.getD i 0 < l.getD j 0 ∨ (l.getD i 0 = l.getD j 0 ∧ i ≤ j))

/-- `np.argsort(l, kind='mergesort')` (a stable sort). -/
def stableArgsort (l : List K) : List Nat := (List.range l.length).mergeSort (stableBefore l)

/-- roc.py:35-49 `labels[indx]`: the labels (1 target, 0 nontarget) in the order of the sorted scores, also
roc.py:74-84 `Pideal[perturb]`. -/
def sortedLabels (tar non : List K) : List K :=
  (stableArgsort (tar ++ non)).map (fun i => (List.replicate tar.length (1 : K) ++ List.replicate non.length 0).getD i 0)

/-- roc.py:17-56 `compute_roc`; the list of pairs (p_miss, p_fa). `none`: an assertion raises. `cumsum` of the
labels up to position `i` is the sum of the first `i+1` labels. -/
def computeRoc (tar non : List K) : Option (List (K × K)) :=
  if tar = [] ∨ non = [] then none
  else
    let labels := sortedLabels tar non
    some ((0, 1) :: (List.range (tar.length + non.length)).map (fun i =>
      let sumtrue := (labels.take (i + 1)).sum
      (sumtrue / (tar.length : K), ((non.length : K) - ((i : K) + 1 - sumtrue)) / (non.length : K))))

/-- roc.py:97-105: the loop over the bins; pairs (p_miss, p_fa). -/
def rocchLoop (p : List K) (nt nn : K) : List Nat → Nat → K → K → List (K × K)
  | [], _, miss, fa => [(miss / nt, fa / nn)]
  | w :: ws, left, miss, fa =>
    (miss / nt, fa / nn) ::
      rocchLoop p nt nn ws (left + w) (p.take (left + w)).sum
        (((p.length : K) - ((left + w : Nat) : K)) - (p.drop (left + w)).sum)

/-- roc.py:60-107 `compute_rocch`; the vertices as pairs (p_miss, p_fa). `none`: no scores at all (assertion in
`pavx`) or a division by zero when there are no targets or no nontargets. -/
def computeRocch (tar non : List K) : Option (List (K × K)) :=
  if tar = [] ∨ non = [] then none
  else
    let p := sortedLabels tar non
    (pavx p).map (fun r => rocchLoop p (tar.length : K) (non.length : K) r.width 0 0 (non.length : K))

/-- roc.py:131-143: the candidate for the EER of one segment: 0 for a horizontal or vertical segment, else
`1/(a+b)` where `(a, b)` solves `a x + b y = 1` at both ends. `none`: `sla.solve` raises on a singular system. -/
def eerSeg (p q : K × K) : Option K :=
  let x1 := p.2; let y1 := p.1; let x2 := q.2; let y2 := q.1
  if min |x1 - x2| |y1 - y2| = 0 then some 0
  else
    let det := x1 * y2 - y1 * x2
    if det = 0 then none
    else
      let a := (y2 - y1) / det
      let b := (x1 - x2) / det
      some (1 / (a + b))

/-- roc.py:130-145: the loop of `rocch2eer`. -/
def eerLoop : List (K × K) → K → Option K
  | p :: q :: ps, eer => (eerSeg p q).bind (fun e => eerLoop (q :: ps) (max eer e))
  | _, eer => some eer

/-- roc.py:110-147 `rocch2eer(p_miss, p_fa)`. `none`: the assertions (p_miss ascending, p_fa descending) or the
solver raise. -/
def rocch2eer (pts : List (K × K)) : Option K :=
  if (pts.map Prod.fst).Pairwise (· ≤ ·) ∧ (pts.map Prod.snd).Pairwise (· ≥ ·) then eerLoop pts 0 else none

/-- eer.py:16-27 `compute_eer`. -/
def computeEer (tar non : List K) : Option K := (computeRocch tar non).bind rocch2eer

/-- eer.py:31-46 `compute_prbep`. -/
def computePrbep (tar non : List K) : Option K :=
  (computeRocch tar non).bind (fun pts =>
    rocch2eer (pts.map (fun p => (p.1 * (tar.length : K), p.2 * (non.length : K)))))

/-- dcf.py:14-39 `compute_dcf` at one operating point. -/
def computeDcf (p : K × K) (prior : K) (normalize : Bool) : K :=
  let dcf := prior * p.1 + (1 - prior) * p.2
  if normalize then dcf / min prior (1 - prior) else dcf

/-- utils.py:17-31 `effective_prior`. -/
def effectivePrior (pTar cMiss cFa : K) : K :=
  let beta := pTar * cMiss / (1 - pTar) / cFa
  beta / (1 + beta)

/-- `np.argmin`: position of the first smallest element; `none` for an empty array (which raises). -/
def argminOf : List K → Option Nat
  | [] => none
  | x :: xs => some (xs.foldl (fun (st : Nat × Nat × K) y => if y < st.2.2 then (st.1 + 1, st.1 + 1, y) else (st.1 + 1, st.2.1, st.2.2)) (0, 0, x)).2.1

/-- dcf.py:43-74 `compute_min_dcf` for one prior: cost and operating point. -/
def computeMinDcf (tar non : List K) (prior : K) (normalize : Bool) : Option (K × K × K) := do
  let pts ← computeRocch tar non
  let dcf := pts.map (fun p => computeDcf p prior normalize)
  let i ← argminOf dcf
  let c ← dcf[i]?
  let p ← pts[i]?
  return (c, p.1, p.2)

/-- dcf.py:107-111, 115-119: the (1-based) ranks of the first `m` elements of `l` in its stable sort. -/
def ranks (l : List K) (m : Nat) : List Nat :=
  let ii := stableArgsort l
  (List.range m).map (fun i => ii.idxOf i + 1)

/-- dcf.py:104-137 of `compute_act_dcf`: given the thresholds `t` (one per prior), the numbers of misses and false alarms,
and the costs. `none`: the division by the number of targets or nontargets raises. -/
def actDcfAt (t tar non : List K) (prior : List K) (normalize : Bool) : Option (List (K × K × K)) :=
  if tar = [] ∨ non = [] then none
  else
    let m := t.length
    let rt := ranks (t ++ tar) m
    let rn := ranks (t ++ non) m
    some ((List.range m).map (fun i =>
      let nMiss : Int := (rt.getD i 0 : Int) - ((m : Int) - i)
      let nFa : Int := (non.length : Int) - (rn.getD i 0 : Int) + ((m : Int) - i)
      let pMiss : K := (nMiss : K) / (tar.length : K)
      let pFa : K := (nFa : K) / (non.length : K)
      (computeDcf (pMiss, pFa) (prior.getD i 0) normalize, pMiss, pFa)))

end Hyp.Metrics
