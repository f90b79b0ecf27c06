import Verif.ListUtils.Model

/-!
Model of /repo/hyperion/utils/trial_ndx.py, trial_key.py, trial_scores.py.

A numpy 2-D array is a shape plus an access function; only entries inside the shape are meaningful.
Model and segment names are elements of one linearly ordered type (Python strings are ordered by
code points). `none` = the Python code raises.
-/

namespace Hyp.Trials
open Hyp.ListUtils

/-- numpy 2-D array. -/
structure Mat (α : Type _) where
  rows : Nat
  cols : Nat
  entry : Nat → Nat → α

namespace Mat
variable {α β γ : Type _}

/-- `np.zeros(shape)` / `np.ones(shape)`. -/
def full (r c : Nat) (v : α) : Mat α := ⟨r, c, fun _ _ => v⟩

/-- `M[np.ix_(ri, ci)]` for in-range indices. -/
def ix (M : Mat α) (ri ci : List Nat) : Mat α :=
  ⟨ri.length, ci.length, fun i j => M.entry (ri.getD i 0) (ci.getD j 0)⟩

/-- `M[np.ix_(ri, ci)] = V` (the indices are distinct in every use). -/
def setIx (M : Mat α) (ri ci : List Nat) (V : Mat α) : Mat α :=
  ⟨M.rows, M.cols, fun i j =>
    if i ∈ ri ∧ j ∈ ci then V.entry (ri.idxOf i) (ci.idxOf j) else M.entry i j⟩

/-- elementwise binary operation on arrays of the same shape -/
def zip (f : α → β → γ) (A : Mat α) (B : Mat β) : Mat γ :=
  ⟨A.rows, A.cols, fun i j => f (A.entry i j) (B.entry i j)⟩

def map (f : α → β) (A : Mat α) : Mat β := ⟨A.rows, A.cols, fun i j => f (A.entry i j)⟩

/-- `M[mask]` for a boolean mask of the same shape: row-major selection. -/
def select (M : Mat α) (mask : Mat Bool) : List α :=
  (List.range M.rows).flatMap (fun i =>
    ((List.range M.cols).filter (fun j => mask.entry i j)).map (fun j => M.entry i j))

/-- `np.any(M)` -/
def any (M : Mat Bool) : Bool :=
  (List.range M.rows).any (fun i => (List.range M.cols).any (fun j => M.entry i j))

/-- `(M.T == True).nonzero()` as `(idx[0], idx[1])` pairs: column (of `M`) first. -/
def nonzeroT (M : Mat Bool) : List (Nat × Nat) :=
  (List.range M.cols).flatMap (fun j =>
    ((List.range M.rows).filter (fun i => M.entry i j)).map (fun i => (j, i)))

end Mat

variable {ν : Type} [LinearOrder ν]

/-- trial_ndx.py:28-33 -/
structure Ndx (ν : Type _) where
  models : List ν
  segs : List ν
  mask : Mat Bool

/-- `len(np.unique(l)) == len(l)` -/
def uniqueOk (l : List ν) : Bool := decide ((npUnique l).length = l.length)

/-- trial_ndx.py:28-33 and `validate` 288-301. -/
def Ndx.create (models segs : List ν) (mask : Option (Mat Bool)) : Option (Ndx ν) :=
  if uniqueOk models && uniqueOk segs then
    match mask with
    | none => some ⟨models, segs, Mat.full models.length segs.length true⟩
    | some m =>
      if m.rows = models.length ∧ m.cols = segs.length then some ⟨models, segs, m⟩ else none
  else none

/-- trial_ndx.py:183-189 (and 191-198; trial_key.py:270-279, 291-300; trial_scores.py:200-209, 213-222):
scatter an array labelled by `(oldM, oldS)` into a zero array labelled by `(newM, newS)`.
`intersect(..., assume_unique=True)` on duplicate-free lists is the ordinary intersection; its index
outputs never hold the "not found" sentinel, so dropping `none` is faithful. -/
def scatter {α : Type _} (zero : α) (newM newS oldM oldS : List ν) (A : Mat α) : Mat α :=
  let (_, mi_a, mi_b) := intersect newM oldM
  let (_, si_a, si_b) := intersect newS oldS
  (Mat.full newM.length newS.length zero).setIx mi_a.reduceOption si_a.reduceOption
    (A.ix mi_b.reduceOption si_b.reduceOption)

/-- trial_ndx.py:179-202, one turn of the merge loop. -/
def Ndx.mergeStep (acc x : Ndx ν) : Ndx ν :=
  let newM := npUnion acc.models x.models
  let newS := npUnion acc.segs x.segs
  let mask1 := scatter false newM newS acc.models acc.segs acc.mask
  let mask2 := scatter false newM newS x.models x.segs x.mask
  ⟨newM, newS, Mat.zip (· || ·) mask1 mask2⟩

/-- trial_ndx.py:166-204 `TrialNdx.merge`. -/
def Ndx.merge : List (Ndx ν) → Option (Ndx ν)
  | [] => none
  | x :: xs =>
    let r := xs.foldl Ndx.mergeStep x
    Ndx.create r.models r.segs (some r.mask)

/-- trial_ndx.py:255-258: `f, idx = ismember(names, own); assert np.all(f)`. -/
def requireAll (names own : List ν) : Option (List Nat) :=
  let (f, idx) := ismember names own
  if f.all id then some idx.reduceOption else none

/-- trial_ndx.py:239-262 `TrialNdx.filter`. (Line 260 assigns the unused name `set_set`, so the
segment list returned is the requested one.) -/
def Ndx.filter (x : Ndx ν) (models segs : List ν) (keep : Bool) : Option (Ndx ν) := do
  let models := if keep then models else npSetdiff x.models models
  let segs := if keep then segs else npSetdiff x.segs segs
  let mi ← requireAll models x.models
  let si ← requireAll segs x.segs
  let models' ← gather x.models mi
  Ndx.create models' segs (some (x.mask.ix mi si))

/-- trial_ndx.py:266-284 `TrialNdx.split`. -/
def Ndx.split (x : Ndx ν) (mIdx mParts sIdx sParts : Nat) : Option (Ndx ν) := do
  let (models, mi) ← splitList x.models mIdx mParts
  let (segs, si) ← splitList x.segs sIdx sParts
  Ndx.create models segs (some (x.mask.ix mi si))

/-- trial_ndx.py:50-54 `TrialNdx.sort`; `pm`, `ps` are the outcomes of argsort. -/
def Ndx.sort (x : Ndx ν) (pm ps : List Nat) : Option (Ndx ν) := do
  let (models, mi) ← sortWith x.models false pm
  let (segs, si) ← sortWith x.segs false ps
  pure ⟨models, segs, x.mask.ix mi si⟩

/-- trial_ndx.py:94-103 `save_txt`: the records written, one per line, `(model, segment)`. -/
def Ndx.saveRecords (x : Ndx ν) : Option (List (ν × ν)) :=
  x.mask.nonzeroT.mapM (fun p => do
    let m ← x.models[p.2]?
    let s ← x.segs[p.1]?
    pure (m, s))

/-- trial_ndx.py:152-161 `load_txt` from the parsed fields. -/
def Ndx.loadRecords (recs : List (ν × ν)) : Option (Ndx ν) :=
  let ms := recs.map Prod.fst
  let ss := recs.map Prod.snd
  let cells := (npInverse ms).zip (npInverse ss)
  Ndx.create (npUnique ms) (npUnique ss)
    (some ⟨(npUnique ms).length, (npUnique ss).length, fun i j => decide ((i, j) ∈ cells)⟩)

/-- trial_ndx.py:305-325 `apply_segmentation_to_test`; `ids file` is
`segment_list.ext_segment_ids_from_file(file)`. `np.concatenate` of an empty tuple raises. -/
def Ndx.applySegmentation (x : Ndx ν) (ids : ν → List ν) : Option (Ndx ν) :=
  if x.segs = [] then none
  else
    let cols : List (ν × Nat) := x.segs.zipIdx.flatMap (fun p => (ids p.1).map (fun e => (e, p.2)))
    Ndx.create x.models (cols.map Prod.fst)
      (some ⟨x.models.length, cols.length, fun i j => x.mask.entry i ((cols.map Prod.snd).getD j 0)⟩)

/-! ### TrialKey -/

/-- trial_key.py:36-50, without the optional condition arrays (see `KeyCond`). -/
structure Key (ν : Type _) where
  models : List ν
  segs : List ν
  tar : Mat Bool
  non : Mat Bool

/-- trial_key.py:424-440 `validate`. -/
def Key.create (models segs : List ν) (tn : Option (Mat Bool × Mat Bool)) : Option (Key ν) :=
  if uniqueOk models && uniqueOk segs then
    match tn with
    | none => some ⟨models, segs, Mat.full models.length segs.length false,
        Mat.full models.length segs.length false⟩
    | some (t, n) =>
      if t.rows = models.length ∧ t.cols = segs.length ∧ n.rows = models.length ∧ n.cols = segs.length
      then some ⟨models, segs, t, n⟩ else none
  else none

/-- trial_key.py:264-314, one turn of the merge loop (condition arrays `None`). -/
def Key.mergeStep (acc x : Key ν) : Key ν :=
  let newM := npUnion acc.models x.models
  let newS := npUnion acc.segs x.segs
  let tar1 := scatter false newM newS acc.models acc.segs acc.tar
  let non1 := scatter false newM newS acc.models acc.segs acc.non
  let tar2 := scatter false newM newS x.models x.segs x.tar
  let non2 := scatter false newM newS x.models x.segs x.non
  ⟨newM, newS, Mat.zip (· || ·) tar1 tar2, Mat.zip (· || ·) non1 non2⟩

/-- trial_key.py:239-326 `TrialKey.merge`. -/
def Key.merge : List (Key ν) → Option (Key ν)
  | [] => none
  | x :: xs =>
    let r := xs.foldl Key.mergeStep x
    Key.create r.models r.segs (some (r.tar, r.non))

/-- trial_key.py:330-372 `TrialKey.filter`. -/
def Key.filter (x : Key ν) (models segs : List ν) (keep : Bool) : Option (Key ν) := do
  let models := if keep then models else npSetdiff x.models models
  let segs := if keep then segs else npSetdiff x.segs segs
  let mi ← requireAll models x.models
  let si ← requireAll segs x.segs
  let models' ← gather x.models mi
  Key.create models' segs (some (x.tar.ix mi si, x.non.ix mi si))

/-- trial_key.py:376-410 `TrialKey.split`. -/
def Key.split (x : Key ν) (mIdx mParts sIdx sParts : Nat) : Option (Key ν) := do
  let (models, mi) ← splitList x.models mIdx mParts
  let (segs, si) ← splitList x.segs sIdx sParts
  Key.create models segs (some (x.tar.ix mi si, x.non.ix mi si))

/-- trial_key.py:414-421 `to_ndx`. -/
def Key.toNdx (x : Key ν) : Option (Ndx ν) :=
  Ndx.create x.models x.segs (some (Mat.zip (· || ·) x.tar x.non))

/-- trial_key.py:109 the int8 array stored by `save_h5`. -/
def Key.h5Mask (x : Key ν) : Mat Int :=
  Mat.zip (fun (t n : Bool) => (if t then 1 else 0) - (if n then 1 else 0)) x.tar x.non

/-- trial_key.py:176-205 `load_h5` from the stored names and int8 array. -/
def Key.loadH5 (models segs : List ν) (m : Mat Int) : Option (Key ν) :=
  Key.create models segs (some (m.map (fun v => decide (v > 0)), m.map (fun v => decide (v < 0))))

/-- trial_key.py:132-146 `save_txt` records: `(model, segment, is 'target')`. -/
def Key.saveRecords (x : Key ν) : Option (List (ν × ν × Bool)) := do
  let t ← x.tar.nonzeroT.mapM (fun p => do
    let m ← x.models[p.2]?
    let s ← x.segs[p.1]?
    pure (m, s, true))
  let n ← x.non.nonzeroT.mapM (fun p => do
    let m ← x.models[p.2]?
    let s ← x.segs[p.1]?
    pure (m, s, false))
  pure (t ++ n)

/-- trial_key.py:220-234 `load_txt` from the parsed fields (`is_tar = (field == 'target')`). -/
def Key.loadRecords (recs : List (ν × ν × Bool)) : Option (Key ν) :=
  let ms := recs.map (fun r => r.1)
  let ss := recs.map (fun r => r.2.1)
  let cells := ((npInverse ms).zip (npInverse ss)).zip (recs.map (fun r => r.2.2))
  Key.create (npUnique ms) (npUnique ss)
    (some (⟨(npUnique ms).length, (npUnique ss).length, fun i j => decide (((i, j), true) ∈ cells)⟩,
           ⟨(npUnique ms).length, (npUnique ss).length, fun i j => decide (((i, j), false) ∈ cells)⟩))

/-! ### TrialScores -/

/-- trial_scores.py:34-40; scores are elements of an arbitrary type with `0` and `+`
(finite floats: `np.isfinite` is always true here). -/
structure Scores (ν α : Type _) where
  models : List ν
  segs : List ν
  scores : Mat α
  mask : Mat Bool

variable {α : Type} [Zero α] [Add α]

/-- trial_scores.py:305-325 `validate`, with `scores` given (with `scores=None` the code raises
NameError) and `score_mask` given or `None`. -/
def Scores.create (models segs : List ν) (scores : Mat α) (mask : Option (Mat Bool)) :
    Option (Scores ν α) :=
  if uniqueOk models && uniqueOk segs then
    if scores.rows = models.length ∧ scores.cols = segs.length then
      match mask with
      | none => some ⟨models, segs, scores, Mat.full models.length segs.length true⟩
      | some m =>
        if m.rows = models.length ∧ m.cols = segs.length then some ⟨models, segs, scores, m⟩ else none
    else none
  else none

/-- trial_scores.py:194-228, one turn of the merge loop; `none` = the assertion of line 227 fails. -/
def Scores.mergeStep (acc x : Scores ν α) : Option (Scores ν α) :=
  let newM := npUnion acc.models x.models
  let newS := npUnion acc.segs x.segs
  let sc1 := scatter 0 newM newS acc.models acc.segs acc.scores
  let mk1 := scatter false newM newS acc.models acc.segs acc.mask
  let sc2 := scatter 0 newM newS x.models x.segs x.scores
  let mk2 := scatter false newM newS x.models x.segs x.mask
  if (Mat.zip (· && ·) mk1 mk2).any then none
  else some ⟨newM, newS, Mat.zip (· + ·) sc1 sc2, Mat.zip (· || ·) mk1 mk2⟩

/-- trial_scores.py:180-230 `TrialScores.merge`. -/
def Scores.merge : List (Scores ν α) → Option (Scores ν α)
  | [] => none
  | x :: xs => do
    let r ← xs.foldlM Scores.mergeStep x
    Scores.create r.models r.segs r.scores (some r.mask)

/-- trial_scores.py:234-276 `TrialScores.filter`. Line 250 subtracts from `self.model_set`, not
`self.seg_set`. -/
def Scores.filter (x : Scores ν α) (models segs : List ν) (keep raiseMissing : Bool) :
    Option (Scores ν α) :=
  let models := if keep then models else npSetdiff x.models models
  let segs := if keep then segs else npSetdiff x.models segs
  let (fm, mi) := ismember models x.models
  let (fs, si) := ismember segs x.segs
  if fm.all id && fs.all id then do
    let models' ← gather x.models mi.reduceOption
    Scores.create models' segs (x.scores.ix mi.reduceOption si.reduceOption)
      (some (x.mask.ix mi.reduceOption si.reduceOption))
  else if raiseMissing then none
  else
    let sc := (Mat.full models.length segs.length 0).setIx (nonzero fm) (nonzero fs)
      (x.scores.ix mi.reduceOption si.reduceOption)
    let mk := (Mat.full models.length segs.length false).setIx (nonzero fm) (nonzero fs)
      (x.mask.ix mi.reduceOption si.reduceOption)
    Scores.create models segs sc (some mk)

/-- trial_scores.py:280-301 `TrialScores.split`. -/
def Scores.split (x : Scores ν α) (mIdx mParts sIdx sParts : Nat) : Option (Scores ν α) := do
  let (models, mi) ← splitList x.models mIdx mParts
  let (segs, si) ← splitList x.segs sIdx sParts
  Scores.create models segs (x.scores.ix mi si) (some (x.mask.ix mi si))

/-- trial_scores.py:329-357 `align_with_ndx`, for the names and trial mask of a TrialNdx. -/
def Scores.align (x : Scores ν α) (ndx : Ndx ν) (raiseMissing : Bool) : Option (Scores ν α) := do
  let scr ← x.filter ndx.models ndx.segs true raiseMissing
  let mk := Mat.zip (· && ·) ndx.mask scr.mask
  let missing := Mat.zip (fun a b => a && !b) ndx.mask mk
  if missing.any && raiseMissing then none
  else pure { scr with mask := mk }

/-- trial_scores.py:343-344: for a TrialKey the trial mask is `tar or non`. -/
def Key.asNdx (k : Key ν) : Ndx ν := ⟨k.models, k.segs, Mat.zip (· || ·) k.tar k.non⟩

/-- trial_scores.py:360-375 `get_tar_non`. -/
def Scores.getTarNon (x : Scores ν α) (key : Key ν) : Option (List α × List α) := do
  let scr ← x.align key.asNdx true
  let tm := Mat.zip (· && ·) scr.mask key.tar
  let nm := Mat.zip (· && ·) scr.mask key.non
  pure (scr.scores.select tm, scr.scores.select nm)

/-- trial_scores.py:379-398 `set_missing_to_value`. -/
def Scores.setMissing (x : Scores ν α) (ndx : Ndx ν) (val : α) : Option (Scores ν α) := do
  let scr ← x.align ndx false
  let mk := Mat.zip (fun b a => !b && a) scr.mask ndx.mask
  pure { scr with
    scores := ⟨scr.scores.rows, scr.scores.cols,
      fun i j => if mk.entry i j then val else scr.scores.entry i j⟩
    mask := ⟨scr.mask.rows, scr.mask.cols, fun i j => mk.entry i j || scr.mask.entry i j⟩ }

/-- trial_scores.py:402-409 `transform`, for an elementwise function `f`. -/
def Scores.transform (x : Scores ν α) (f : α → α) : Scores ν α :=
  { x with scores := ⟨x.scores.rows, x.scores.cols,
      fun i j => if x.mask.entry i j then f (x.scores.entry i j) else x.scores.entry i j⟩ }

/-- trial_scores.py:59-65 `sort`. -/
def Scores.sort (x : Scores ν α) (pm ps : List Nat) : Option (Scores ν α) := do
  let (models, mi) ← sortWith x.models false pm
  let (segs, si) ← sortWith x.segs false ps
  pure ⟨models, segs, x.scores.ix mi si, x.mask.ix mi si⟩

/-- trial_scores.py:99-110 `save_txt` records `(model, segment, score)`. The `%f` rendering (6 decimals) is
not modelled: the record carries the score itself. -/
def Scores.saveRecords (x : Scores ν α) : Option (List (ν × ν × α)) :=
  x.mask.nonzeroT.mapM (fun p => do
    let m ← x.models[p.2]?
    let s ← x.segs[p.1]?
    pure (m, s, x.scores.entry p.2 p.1))

/-- last value assigned to a cell by the loop of trial_scores.py:173-175 -/
def lastVal (cells : List ((Nat × Nat) × α)) (i j : Nat) : α :=
  cells.foldl (fun acc c => if c.1 = (i, j) then c.2 else acc) 0

/-- trial_scores.py:160-176 `load_txt` from the parsed fields. -/
def Scores.loadRecords (recs : List (ν × ν × α)) : Option (Scores ν α) :=
  let ms := recs.map (fun r => r.1)
  let ss := recs.map (fun r => r.2.1)
  let idx := (npInverse ms).zip (npInverse ss)
  let cells := idx.zip (recs.map (fun r => r.2.2))
  Scores.create (npUnique ms) (npUnique ss)
    ⟨(npUnique ms).length, (npUnique ss).length, fun i j => lastVal cells i j⟩
    (some ⟨(npUnique ms).length, (npUnique ss).length, fun i j => decide ((i, j) ∈ idx)⟩)

end Hyp.Trials
