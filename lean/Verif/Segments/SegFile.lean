import Verif.Segments.SegOps
import Verif.Segments.RttmOps

/-! Model of the text files of segment lists and diarisations: /repo/hyperion/utils/segment_list.py `save`, `load` and /repo/hyperion/utils/rttm.py `save`, `load`.
Pandas `to_csv` and `read_csv` are library code; modelled as: fields joined with a one-character separator, one line per row, no quoting (right for fields without separator,
quote and newline); blank lines skipped; a number is read exactly. `infer` is pandas' guess of the type of a column read: `some` of the texts when they stay texts, `none` when the column turns
into numbers, booleans or missing values (for instance when all its entries are numerals). Times are non-negative numbers; a column of integers, which is written without decimals, is not in
the model. `none` is an exception, a table whose names are not texts any more, or a line with another number of fields (pandas pads it or makes an index of it). -/

namespace Hyp.Segments
open Hyp.Text

variable {K : Type} [Field K] [LinearOrder K] [IsStrictOrderedRing K] [FloorRing K]

/-- a line without its end. -/
def joinFields (sep : Char) : List Str → Str
  | [] => []
  | [a] => a
  | a :: b :: l => a ++ sep :: joinFields sep (b :: l)

/-- `to_csv(sep=sep, index=False, header=False)`. -/
def tableText (sep : Char) (table : List (List Str)) : Str := table.flatMap (fun r => joinFields sep r ++ ['\n'])

/-- `read_csv(sep=sep, header=None, names=...)` with `n` names. -/
def readTable (sep : Char) (n : Nat) (content : Str) : Option (List (List Str)) :=
  let lines := ((fileLines content).map (fun l => l.takeWhile (fun c => decide (c ≠ '\n')))).filter (fun l => decide (l ≠ []))
  (lines.map (splitAll sep)).mapM (fun f => if f.length = n then some f else none)

/-- `'%.3f' % t` for a non-negative number. -/
def fmt3 (t : K) : Str :=
  let n := (roundEven (t * 1000)).toNat
  printNat (n / 1000) ++ ['.', digitChar (n / 100 % 10), digitChar (n / 10 % 10), digitChar (n % 10)]

/-- a non-negative decimal number. -/
def readDec (s : Str) : Option K :=
  match splitOnce '.' s with
  | none => (parseNat s).map (fun n => (n : K))
  | some p => (parseNat (p.1 ++ p.2)).map (fun n => (n : K) / 10 ^ p.2.length)

/-- segment_list.py:223-231 `save`: the contents of the file. -/
def segSave (sep : Char) (rows : List (Seg K)) : Str :=
  tableText sep (rows.map (fun s => [s.id, s.file.toList, fmt3 s.tbeg, fmt3 s.tend]))

/-- column `i` of a table. -/
def colAt (table : List (List Str)) (i : Nat) : List Str := table.map (fun f => f.getD i [])

/-- segment_list.py:235-248 `load`. -/
def segLoad (infer : List Str → Option (List Str)) (sep : Char) (content : Str) (byFile : Bool) : Option (SegList K) := do
  let table ← readTable sep 4 content
  let ids ← infer (colAt table 0)
  let files ← infer (colAt table 1)
  let tbeg ← (colAt table 2).mapM (readDec (K := K))
  let tend ← (colAt table 3).mapM (readDec (K := K))
  mkSegList (((ids.zip files).zip (tbeg.zip tend)).map (fun p => ⟨p.1.1, String.ofList p.1.2, p.2.1, p.2.2⟩)) byFile

/-- rttm.py:266-279 `save`, for a table made by `create_spkdiar` without confidences and channels (channel 1, '<NA>' in the columns ortho, stype, conf, slat). -/
def rttmSave (sep : Char) (rows : List (Row K)) : Str :=
  tableText sep (rows.map (fun r => [r.stype.toList, r.file.toList, ['1'], fmt3 r.tbeg, fmt3 r.tdur, "<NA>".toList, "<NA>".toList, r.name.toList, "<NA>".toList, "<NA>".toList]))

/-- rttm.py:283-298 `load`. -/
def rttmLoad (infer : List Str → Option (List Str)) (sep : Char) (content : Str) (byFile : Bool) : Option (Rttm K) := do
  let table ← readTable sep 10 content
  let stypes ← infer (colAt table 0)
  let files ← infer (colAt table 1)
  let tbeg ← (colAt table 3).mapM (readDec (K := K))
  let tdur ← (colAt table 4).mapM (readDec (K := K))
  let names ← infer (colAt table 7)
  mkRttm ((((stypes.zip files).zip names).zip (tbeg.zip tdur)).map
    (fun p => ⟨String.ofList p.1.1.1, String.ofList p.1.1.2, String.ofList p.1.2, p.2.1, p.2.2⟩)) byFile

end Hyp.Segments
