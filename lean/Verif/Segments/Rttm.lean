import Verif.NpLemmas
import Mathlib.Data.List.SplitBy
import Mathlib.Algebra.Order.Field.Basic
import Mathlib.Algebra.Order.Ring.Rat

/-! Model of /repo/hyperion/utils/rttm.py. Times are elements of an ordered field (exact arithmetic; floats in the code). -/

namespace Hyp.Segments

/-- a row of the table, rttm.py:66-75. The columns chnl, ortho, stype, conf and slat are never looked at by the modelled methods and
stay with their row; they are not in the model. -/
structure Row (K : Type) where
  stype : String
  file : String
  name : String
  tbeg : K
  tdur : K
deriving DecidableEq

variable {K : Type} [Field K] [LinearOrder K]

/-- end time of a row: `tbeg + tdur`. -/
def Row.tend (r : Row K) : K := r.tbeg + r.tdur

/-- rttm.py:134-139 `validate`: start times do not decrease between consecutive rows of the same file. -/
def validate (rows : List (Row K)) : Bool :=
  (rows.zip rows.tail).all (fun p => decide (p.2.tbeg - p.1.tbeg ≥ 0) || decide (p.2.file ≠ p.1.file))

/-- rttm.py:329-335: the condition of merging a row with the one before, on the rows as they are at the start of the call. -/
def joinable (margin : K) (p r : Row K) : Bool :=
  decide (r.file = p.file) && decide (r.stype = p.stype) && decide (r.name = p.name) && decide (r.tbeg - p.tbeg - p.tdur ≤ margin)

/-- `index` of line 333: one flag per row (`shift(1)` makes the first row compare with NaN: False). -/
def joinFlags (margin : K) (rows : List (Row K)) : List Bool :=
  (rows.take 1).map (fun _ => false) ++ (rows.zip rows.tail).map (fun p => joinable margin p.1 p.2)

/-- rttm.py:341-346: the loop from the last row to the second one. It is written as a recursion on the rows: the rows after the current one have
been processed. A flagged row gives its end to the row before and is marked 'DROP'. -/
def mergeLoop : List (Row K × Bool) → List (Row K × Bool)
  | [] => []
  | (r, f) :: rest =>
    match mergeLoop rest with
    | [] => [(r, f)]
    | (r', f') :: out =>
      if f' then ({ r with tdur := (r'.tbeg + r'.tdur) - r.tbeg }, f) :: ({ r' with stype := "DROP" }, f') :: out
      else (r, f) :: (r', f') :: out

/-- rttm.py:327-348 `merge_adjacent_segments`: the new table. -/
def mergeAdjacent (margin : K) (rows : List (Row K)) : List (Row K) :=
  ((mergeLoop (rows.zip (joinFlags margin rows))).map Prod.fst).filter (fun r => decide (r.stype ≠ "DROP"))

/-- `Series.unique()` of pandas (library): the distinct values in order of first appearance. -/
def pdUnique {α : Type} [DecidableEq α] (l : List α) : List α := l.foldl (fun acc x => if x ∈ acc then acc else acc ++ [x]) []

/-- a query: file, start, end (a row of a SegmentList). -/
structure Query (K : Type) where
  file : String
  tbeg : K
  tend : K
deriving DecidableEq

/-- rttm.py:393-396, 428-429: the test on one row, for a window. -/
def hits (tb te : K) (r : Row K) : Bool :=
  (decide (r.tbeg ≤ tb) && decide (r.tbeg + r.tdur > tb)) || (decide (r.tbeg < te) && decide (r.tbeg + r.tdur ≥ te))

/-- rttm.py:397-404, 431-438: the answer for the selected rows: joined distinct names and their number. -/
def answer (sep : String) (sel : List (Row K)) : String × Nat :=
  if sel.length = 0 then ("<NA>", 0)
  else ((sep.intercalate (pdUnique (sel.map Row.name))), (pdUnique (sel.map Row.name)).length)

/-- rttm.py:381-406 `get_segment_names_slow`. -/
def namesSlow (rows : List (Row K)) (qs : List (Query K)) (sep stype : String) : List (String × Nat) :=
  qs.map (fun q => answer sep (rows.filter (fun r => decide (r.stype = stype) && decide (r.file = q.file) && hits q.tbeg q.tend r)))

/-- rttm.py:409-440 `get_segment_names`: the rows of the last file are kept between queries. `prev` starts as '' and the rows of the file as an
undefined variable (`none`; its use is an exception). -/
def namesFast (rows : List (Row K)) (sep stype : String) : List (Query K) → String → Option (List (Row K)) → Option (List (String × Nat))
  | [], _, _ => some []
  | q :: qs, prev, segf =>
    let segf' := if q.file ≠ prev then some ((rows.filter (fun r => decide (r.stype = stype))).filter (fun r => decide (r.file = q.file))) else segf
    let prev' := if q.file ≠ prev then q.file else prev
    match segf' with
    | none => none
    | some s =>
      match namesFast rows sep stype qs prev' segf' with
      | none => none
      | some out => some (answer sep (s.filter (hits q.tbeg q.tend)) :: out)

def getSegmentNames (rows : List (Row K)) (qs : List (Query K)) (sep stype : String) : Option (List (String × Nat)) :=
  namesFast rows sep stype qs "" none

/-- rttm.py:444-448 `get_files_with_names_diff_to_file`. -/
def filesWithOtherNames (rows : List (Row K)) (file stype : String) : List String :=
  let segs := rows.filter (fun r => decide (r.stype = stype))
  let names := pdUnique ((segs.filter (fun r => decide (r.file = file))).map Row.name)
  pdUnique ((segs.filter (fun r => decide (r.name ∉ names))).map Row.file)

/-- rttm.py:451-454 `prepend_file_id_to_name`. -/
def prependFileId (rows : List (Row K)) (stype : String) : List (Row K) :=
  rows.map (fun r => if r.stype = stype then { r with name := "_".intercalate [r.file, r.name] } else r)

/-- rttm.py:457-467: does a row start before the end of the row before it (same file and type)? -/
def overlapsPrev (p r : Row K) : Bool := decide (r.file = p.file) && decide (r.stype = p.stype) && decide (r.tbeg < p.tend)

/-- rttm.py:457-479 `eliminate_overlaps`, for a table indexed by file (the default). `p` is the row before, `n` the row after. The start of an overlapping
row becomes the middle of the overlap (line 471); the duration of the row before is set so that it ends there (line 476; the two label sequences are equal, so
pandas matches the values by position); last, the duration of the overlapping row is recomputed from its old end (line 478), which overrides line 476
for a row that overlaps both its neighbours. With `index_by_file=False` line 476 matches by row number instead and writes NaN: see `elimOverlapsByRow`. -/
def elimRow (p : Option (Row K)) (r : Row K) (n : Option (Row K)) : Row K :=
  match p.filter (fun p => overlapsPrev p r) with
  | some p => { r with tbeg := (r.tbeg + p.tend) / 2, tdur := r.tend - (r.tbeg + p.tend) / 2 }
  | none =>
    match n.filter (fun n => overlapsPrev r n) with
    | some n => { r with tdur := (n.tbeg + r.tend) / 2 - r.tbeg }
    | none => r

def elimLoop (p : Option (Row K)) : List (Row K) → List (Row K)
  | [] => []
  | r :: rest => elimRow p r rest.head? :: elimLoop (some r) rest

def elimOverlaps (rows : List (Row K)) : List (Row K) := elimLoop none rows

/-- rttm.py:476 for a table indexed by row number: the difference of two series with labels `i` (overlapping rows) and `i-1` (rows before them)
has a value only at the labels which are in both; the others, here those of rows which do not overlap the row before themselves, get NaN (`none`). -/
def elimDurByRow (p : Option (Row K)) (r : Row K) (n : Option (Row K)) : Option K :=
  match p.filter (fun p => overlapsPrev p r) with
  | some p => some (r.tend - (r.tbeg + p.tend) / 2)
  | none =>
    match n.filter (fun n => overlapsPrev r n) with
    | some _ => none
    | none => some r.tdur

end Hyp.Segments
