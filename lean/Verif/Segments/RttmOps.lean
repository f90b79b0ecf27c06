import Verif.Segments.Rttm
import Verif.Segments.SegmentList

/-! Model of the table operations of /repo/hyperion/utils/rttm.py: construction, `filter`, item access, iteration, `merge`, the speaker counts and the
constructors of diarisations. `none` is an exception. Pandas ≥ 1.0: `.loc` with a missing label raises. `split` (reads the missing attribute `index`),
`filter(keep=False)` (calls `np.asrray`), `in` and `to_matrix` always raise and are not in the model. -/

namespace Hyp.Segments

variable {K : Type} [Field K] [LinearOrder K]

/-- an `RTTM` object: the table and the index mode. -/
structure Rttm (K : Type) where
  rows : List (Row K)
  byFile : Bool
deriving DecidableEq

/-- rttm.py:33-42 the constructor (its assertion is `validate`). -/
def mkRttm (rows : List (Row K)) (byFile : Bool) : Option (Rttm K) := if validate rows then some ⟨rows, byFile⟩ else none

/-- the rows of a file, in table order. -/
def fileRows (rows : List (Row K)) (f : String) : List (Row K) := rows.filter (fun r => decide (r.file = f))

/-- rttm.py:302-307 `filter(keys)`, table indexed by file: for every key in turn all its rows; KeyError for a missing one. -/
def rttmFilter (l : Rttm K) (keys : List String) : Option (Rttm K) :=
  ((keys.mapM (fun k : String => if fileRows l.rows k = [] then none else some (fileRows l.rows k))).map List.flatten).bind (fun rows => mkRttm rows l.byFile)

/-- rttm.py:302-307 `filter(keys)`, table indexed by row number. -/
def rttmFilterRows (l : Rttm K) (keys : List Nat) : Option (Rttm K) :=
  (keys.mapM (fun i : Nat => l.rows[i]?)).bind (fun rows => mkRttm rows l.byFile)

/-- rttm.py:242-262 `__getitem__`, table indexed by file. `.loc[key]` of a label that occurs once is a pandas Series, which has no rows: after its labels are
overwritten the constructor does not find the column `tbeg` and raises. -/
def rttmGet (l : Rttm K) (key : String) : Option (Rttm K) :=
  if (fileRows l.rows key).length ≤ 1 then none else mkRttm (fileRows l.rows key) false

/-- rttm.py:41 `unique_file_id`. -/
def rttmFiles (l : Rttm K) : List String := pdUnique (l.rows.map Row.file)

/-- rttm.py:203-227 `__iter__` and `__next__`, table indexed by file: what a complete `for` loop receives. -/
def rttmIter (l : Rttm K) : Option (List (Rttm K)) := (rttmFiles l).mapM (fun k : String => rttmGet l k)

/-- rttm.py:318-323 `merge`; `pd.concat([])` raises. -/
def rttmMerge (ls : List (Rttm K)) (byFile : Bool) : Option (Rttm K) :=
  if ls = [] then none else mkRttm (ls.map Rttm.rows).flatten byFile

/-- rttm.py:182-184 `total_num_spks`. -/
def totalNumSpks (l : Rttm K) : Nat := (pdUnique ((l.rows.filter (fun r => decide (r.stype = "SPEAKER"))).map Row.name)).length

/-- rttm.py:187-191 `num_spks_per_file`. -/
def numSpksPerFile (l : Rttm K) : List (String × Nat) :=
  (rttmFiles l).map (fun f => (f, (pdUnique ((l.rows.filter (fun r => decide (r.stype = "SPEAKER") && decide (r.file = f))).map Row.name)).length))

/-- rttm.py:119-123 `_make_spk_ids`; `zip` stops at the shorter list. -/
def makeSpkIds (spk files : List String) (prepend : Bool) : List String :=
  if prepend then (files.zip spk).map (fun p => p.1 ++ "_" ++ p.2) else spk

/-- rttm.py:82-88 `create_spkdiar`; columns of different lengths raise. -/
def createSpkdiar (files : List String) (tbeg tdur : List K) (spk : List String) (byFile prepend : Bool) : Option (Rttm K) :=
  let names := makeSpkIds spk files prepend
  if tbeg.length = files.length ∧ tdur.length = files.length ∧ names.length = files.length then
    mkRttm (((files.zip names).zip (tbeg.zip tdur)).map (fun p => ⟨"SPEAKER", p.1.1, p.1.2, p.2.1, p.2.2⟩)) byFile
  else none

/-- rttm.py:92-103 `create_spkdiar_from_segments`. -/
def createFromSegments (segs : List (Seg K)) (spk : List String) (byFile prepend : Bool) : Option (Rttm K) :=
  if segs.length = spk.length then
    createSpkdiar (segs.map Seg.file) (segs.map Seg.tbeg) (segs.map (fun s => s.tend - s.tbeg)) spk byFile prepend
  else none

end Hyp.Segments
