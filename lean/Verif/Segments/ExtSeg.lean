import Verif.NpLemmas
import Verif.TextLemmas
import Verif.PyDict

/-! Model of /repo/hyperion/utils/ext_segment_list.py: `merge_adjacent_segments`. -/

namespace Hyp.Segments
open Hyp.Text

/-- a row of `segments`; the times are carried along and are not in the model. -/
structure XSeg where
  id : Str
  file : String
  ext : Str
deriving DecidableEq

/-- rows of `ext_segments`: id and name (`none` = NaN); the score column, which the method drops (line 625-627), is not in the model. -/
abbrev XTable := List (Str × Option String)

/-- ext_segment_list.py:563: `pd.merge(segments, ext_segments, on='ext_segment_id', how='inner')`: pairs with equal id in the order of the segments. The constructor
sets `ext_segments.index` to the column `ext_segment_id`, so that this label names both an index level and a column: pandas before 0.24 takes the column (modelled), later
versions raise ValueError on every call. -/
def joinExt (segs : List XSeg) (exts : XTable) : List (XSeg × Option String) :=
  segs.flatMap (fun s => (exts.filter (fun e => decide (e.1 = s.ext))).map (fun e => (s, e.2)))

/-- lines 565-567: same file and same name as the row before (NaN is not equal to NaN). -/
def linked (p r : XSeg × Option String) : Bool := decide (r.1.file = p.1.file) && (r.2.isSome && decide (r.2 = p.2))

/-- `index.iloc[i]`, for `i ≥ 1`; `none`: IndexError. -/
def linkFlag (rows : List (XSeg × Option String)) (i : Nat) : Option Bool :=
  match rows[i - 1]?, rows[i]? with
  | some p, some r => some (linked p r)
  | _, _ => none

structure RState where
  ranges : List (Nat × Nat)
  first : Nat
  last : Nat
  count : Nat
deriving DecidableEq

/-- one iteration of the loop of line 575 (the updates of lines 579-592 at the end of a group do not influence the loop; the model makes them
afterwards, group by group, in `applyGroup`). -/
def rangeStep (n maxSeg : Nat) (rows : List (XSeg × Option String)) (st : RState) (i : Nat) : Option RState :=
  let close : RState := ⟨st.ranges ++ [(st.first, st.last)], st.last + 1, st.last + 1, 1⟩
  if i = n then some close
  else
    match linkFlag rows i with
    | none => none
    | some f => if !f || decide (st.count = maxSeg) then some close else some ⟨st.ranges, st.first, i, st.count + 1⟩

/-- `'@'.join(ids)`. -/
def joinAt : List Str → Str
  | [] => []
  | [a] => a
  | a :: l => a ++ '@' :: joinAt l

/-- lines 579-592 for the rows `first..last`. -/
def applyGroup (exts : XTable) (st : List XSeg × XTable) (r : Nat × Nat) : Option (List XSeg × XTable) :=
  let g := (st.1.drop r.1).take (r.2 + 1 - r.1)
  match g with
  | [] => none
  | s :: _ =>
    match dictGet exts s.ext with
    | none => none
    | some name =>
      let newId := joinAt (g.map XSeg.id)
      some (st.1.take r.1 ++ g.map (fun s => { s with ext := newId }) ++ st.1.drop (r.2 + 1), dictSet st.2 newId name)

/-- ext_segment_list.py:558-640 `merge_adjacent_segments`; the lookup of a name takes the first row with that id (with repeated ids pandas returns several). -/
def mergeExt (segs : List XSeg) (exts : XTable) (maxSegments : Nat) : Option (List XSeg × XTable) :=
  let maxSeg := if maxSegments = 0 then segs.length else maxSegments
  match (List.range' 1 segs.length).foldlM (rangeStep segs.length maxSeg (joinExt segs exts)) ⟨[], 0, 0, 1⟩ with
  | none => none
  | some st => st.ranges.foldlM (applyGroup exts) (segs, [])

/-- ext_segment_list.py:655-658 `get_ext_segment_index`. -/
def extSegmentIndex (segs : List XSeg) (exts : XTable) : Option (List Nat) :=
  segs.mapM (fun s => dictGet (enumDict (exts.map Prod.fst)) s.ext)

end Hyp.Segments
