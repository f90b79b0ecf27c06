import Verif.Segments.SegmentList
import Verif.ListUtils.Model
import Mathlib.Data.List.Lex
import Mathlib.Data.Char

/-! Model of the list operations of /repo/hyperion/utils/segment_list.py (`filter`, `split`, `merge`, item access, iteration) and of the scripts
/repo/hyperion/bin/segments-to-bin-vad.py and /repo/hyperion/bin/rttm-to-bin-vad.py. `none` is an exception. Pandas ≥ 1.0: `.loc` with a missing label raises.
The columns other than segment_id, file_id, tbeg, tend do not exist in this class. -/

namespace Hyp.Segments
open Hyp.Text Hyp.ListUtils

variable {K : Type} [Field K] [LinearOrder K] [IsStrictOrderedRing K] [FloorRing K]

/-- a `SegmentList` object: the table and the index mode. -/
structure SegList (K : Type) where
  rows : List (Seg K)
  byFile : Bool
deriving DecidableEq

/-- segment_list.py:35-38 the label of a row in the index of the table. -/
def indexOf (byFile : Bool) (s : Seg K) : Str := if byFile then s.file.toList else s.id

/-- segment_list.py:32-41 the constructor (its assertion is `validate`). -/
def mkSegList (rows : List (Seg K)) (byFile : Bool) : Option (SegList K) := if segValidate rows then some ⟨rows, byFile⟩ else none

/-- segment_list.py:40 `uniq_file_id = np.unique(file_id)`. -/
def uniqFileId (l : SegList K) : List Str := npUnique (l.rows.map (fun s => s.file.toList))

/-- the rows with a label, in table order. -/
def rowsAt (l : SegList K) (k : Str) : List (Seg K) := l.rows.filter (fun s => decide (indexOf l.byFile s = k))

/-- `df.loc[[k1, k2, ...]]`: for every label in turn all its rows; KeyError for a missing label. -/
def locList (l : SegList K) (keys : List Str) : Option (List (Seg K)) :=
  (keys.mapM (fun k : Str => if rowsAt l k = [] then none else some (rowsAt l k))).map List.flatten

/-- segment_list.py:239-244 `filter`; line 241 is `np.setdiff1d(index, filter_key)`. -/
def segFilter (l : SegList K) (filterKey : List Str) (keep : Bool) : Option (SegList K) :=
  let keys := if keep then filterKey else (npUnique (l.rows.map (indexOf l.byFile))).filter (fun k => decide (k ∉ filterKey))
  (locList l keys).bind (fun rows => mkSegList rows l.byFile)

/-- segment_list.py:248-254 `split`. -/
def segSplit (l : SegList K) (idx numParts : Nat) : Option (SegList K) :=
  let ids := if l.byFile then uniqFileId l else l.rows.map Seg.id
  (splitList ids idx numParts).bind (fun k => (locList l k.1).bind (fun rows => mkSegList rows l.byFile))

/-- segment_list.py:258-264 `merge`; `pd.concat([])` raises. -/
def segMerge (ls : List (SegList K)) (byFile : Bool) : Option (SegList K) :=
  if ls = [] then none else mkSegList (ls.map SegList.rows).flatten byFile

/-- segment_list.py:151-169 `getitem_by_key`, index by file. `.loc[key]` of a label that occurs once is a pandas Series, whose index cannot be set to a string:
the constructor raises. -/
def getByFile (l : SegList K) (key : Str) : Option (SegList K) :=
  if (rowsAt l key).length ≤ 1 then none else mkSegList (rowsAt l key) false

/-- segment_list.py:172-190 `getitem_by_index`, index by file: line 186 uses the iteration counter, not the argument. -/
def getByFileIndex (l : SegList K) (iterIdx index : Nat) : Option (SegList K) :=
  if index < (uniqFileId l).length then (uniqFileId l)[iterIdx]?.bind (fun k => getByFile l k) else none

/-- segment_list.py:117-137 `__iter__` and `__next__`, index by file: what a complete `for` loop receives. -/
def iterFiles (l : SegList K) : Option (List (SegList K)) := (uniqFileId l).mapM (fun k : Str => getByFile l k)

/-- `int(utt2num_frames.loc[file]['num_frames'])`: KeyError for a missing file, TypeError for a repeated one. -/
def numFramesOf (table : List (String × Nat)) (file : String) : Option Nat :=
  match table.filter (fun p => decide (p.1 = file)) with
  | [p] => some p.2
  | _ => none

/-- segments-to-bin-vad.py:33-43, rttm-to-bin-vad.py:36-45 the record of one file. Without `--num-frames` the log message divides by `None` and raises. -/
def vadRecord (l : SegList K) (table : Option (List (String × Nat))) (shift : K) (file : Str) : Option (String × List Nat) :=
  table.bind (fun tb => (numFramesOf tb (String.ofList file)).bind (fun n =>
    (toBinVad l.rows (String.ofList file) shift (some n)).map (fun v => (String.ofList file, v))))

/-- segments-to-bin-vad.py:30-33, rttm-to-bin-vad.py:33-35: the part that is processed. -/
def vadPart (l : SegList K) (partIdx numParts : Nat) : Option (SegList K) :=
  if numParts > 1 then segSplit l partIdx numParts else some l

/-- segments-to-bin-vad.py:24-43 `segments_to_bin_vad`: the records written, in order. -/
def segmentsToBinVad (l : SegList K) (table : Option (List (String × Nat))) (shift : K) (partIdx numParts : Nat) : Option (List (String × List Nat)) :=
  (vadPart l partIdx numParts).bind (fun p => (uniqFileId p).mapM (fun f : Str => vadRecord p table shift f))

/-- rttm-to-bin-vad.py:47-53: all ones for the files of the listing that the whole diarisation does not have, for part 1 only; without `--num-frames` the
variable does not exist. -/
def noSpeechRecords (l : SegList K) (table : Option (List (String × Nat))) (partIdx : Nat) : Option (List (String × List Nat)) :=
  if partIdx = 1 then
    table.bind (fun tb => (tb.filter (fun p => decide (p.1.toList ∉ uniqFileId l))).mapM (fun p : String × Nat =>
      (numFramesOf tb p.1).map (fun n => (p.1, List.replicate n 1))))
  else some []

/-- rttm-to-bin-vad.py:25-53 `rttm_to_bin_vad`. -/
def rttmToBinVad (rows : List (Row K)) (table : Option (List (String × Nat))) (shift : K) (partIdx numParts : Nat) : Option (List (String × List Nat)) :=
  ((toSegmentList rows).bind (fun segs => mkSegList segs true)).bind (fun l =>
    (segmentsToBinVad l table shift partIdx numParts).bind (fun a => (noSpeechRecords l table partIdx).map (fun b => a ++ b)))

end Hyp.Segments
