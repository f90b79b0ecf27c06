import Verif.NpLemmas
import Verif.ListUtils.Model
import Verif.Text
import Verif.PyDict

/-! Model of /repo/hyperion/utils/scp_list.py -/

namespace Hyp.Scp
open Hyp.ListUtils Hyp.Text

/-- scp_list.py:31-37: the columns and the look-up cache `key_to_index`. `range` holds
(first row, number of rows), 0 rows = to the end. Offsets and first rows are non-negative integers
(np.int64 overflow is not modelled). Keys and paths are arbitrary types; for `save`/`load` they are strings. -/
structure Scp (κ π : Type) where
  key : List κ
  path : List π
  offset : Option (List Nat)
  range : Option (List (Nat × Int))
  cache : Option (List (κ × Nat))
  deriving DecidableEq

variable {κ π : Type}

/-- scp_list.py:31-57 constructor + `validate`, arguments given as arrays. A list-typed `range_spec`
always raises in the code (line 55 replaces it by `np.array(self.offset)`) and is not represented. -/
def create (key : List κ) (path : List π) (offset : Option (List Nat)) (range : Option (List (Nat × Int))) :
    Option (Scp κ π) :=
  if key.length ≠ path.length then none
  else if (match offset with | none => false | some o => decide (key.length ≠ o.length)) then none
  else
    match range with
    | none => some ⟨key, path, offset, none, none⟩
    | some r =>
      if r.length = 0 then some ⟨key, path, offset, none, none⟩
      else if key.length ≠ r.length then none
      else some ⟨key, path, offset, some r, none⟩

/-- fancy indexing of an optional column. -/
def gatherOpt {α : Type} (c : Option (List α)) (idx : List Nat) : Option (Option (List α)) :=
  match c with
  | none => some none
  | some l => (gather l idx).map some

/-- The repeated code pattern `key[idx], file_path[idx], offset[idx], range_spec[idx]` followed by the
constructor (scp_list.py:261-269, 322-332, 354-364, 384-393). -/
def Scp.select (x : Scp κ π) (idx : List Nat) : Option (Scp κ π) := do
  let k ← gather x.key idx
  let p ← gather x.path idx
  let o ← gatherOpt x.offset idx
  let r ← gatherOpt x.range idx
  create k p o r

/-- scp_list.py:84-88 `get_index` (with 76-80 `_create_dict`): returns the position and the object with
the cache filled. -/
def Scp.getIndex [DecidableEq κ] (x : Scp κ π) (k : κ) : Option Nat × Scp κ π :=
  match x.cache with
  | some d => (dictGet d k, x)
  | none => (dictGet (enumDict x.key) k, { x with cache := some (enumDict x.key) })

/-- scp_list.py:92-96 `__contains__`. -/
def Scp.contains [DecidableEq κ] (x : Scp κ π) (k : κ) : Bool × Scp κ π :=
  match x.cache with
  | some d => ((dictGet d k).isSome, x)
  | none => ((dictGet (enumDict x.key) k).isSome, { x with cache := some (enumDict x.key) })

/-- element of an optional column: outer `none` = IndexError. -/
def optCol {α : Type} (c : Option (List α)) (i : Nat) : Option (Option α) :=
  match c with
  | none => some none
  | some l => l[i]?.map some

/-- scp_list.py:116-127 `__getitem__` with an integer. -/
def Scp.getByPos (x : Scp κ π) (i : Nat) : Option (κ × π × Option Nat × Option (Nat × Int)) := do
  let o ← optCol x.offset i
  let r ← optCol x.range i
  let k ← x.key[i]?
  let p ← x.path[i]?
  return (k, p, o, r)

/-- scp_list.py:116-127 `__getitem__` with a string. -/
def Scp.getByKey [DecidableEq κ] (x : Scp κ π) (k : κ) : Option (π × Option Nat × Option (Nat × Int)) × Scp κ π :=
  let (i, x') := x.getIndex k
  (do
    let i ← i
    let o ← optCol x'.offset i
    let r ← optCol x'.range i
    let p ← x'.path[i]?
    return (p, o, r), x')

/-- scp_list.py:130-132 `add_prefix_to_filepath` (string concatenation abstracted to `f`). -/
def Scp.mapPath (x : Scp κ π) (f : π → π) : Scp κ π := { x with path := x.path.map f }

/-- in-place permutation of all columns, clearing the cache: scp_list.py:136-144 `sort` (`perm` = result of
the unstable argsort in list_utils.sort) and 397-420 `shuffle` (`perm` = the shuffled index). -/
def Scp.permute (x : Scp κ π) (perm : List Nat) : Option (Scp κ π) := do
  let k ← gather x.key perm
  let p ← gather x.path perm
  let o ← gatherOpt x.offset perm
  let r ← gatherOpt x.range perm
  return ⟨k, p, o, r, none⟩

/-- scp_list.py:245-269 `split`. -/
def Scp.split [LinearOrder κ] (x : Scp κ π) (idx numParts : Nat) (groupByKey : Bool) : Option (Scp κ π) := do
  let (_, idx1) ← if groupByKey then splitListGroupByKey x.key idx numParts x.key
    else splitList x.key idx numParts
  x.select idx1

/-- `np.concatenate` of optional columns when the first one is present: raises if any is `None`. -/
def concatOpt {α : Type} (cs : List (Option (List α))) : Option (Option (List α)) :=
  match cs with
  | [] => none
  | none :: _ => some none
  | some c :: cs => ((some c :: cs).mapM id).map (fun ls => some ls.flatten)

/-- scp_list.py:273-301 `merge`. An empty argument list raises. -/
def merge (xs : List (Scp κ π)) : Option (Scp κ π) := do
  let o ← concatOpt (xs.map (·.offset))
  let r ← concatOpt (xs.map (·.range))
  create (xs.flatMap (·.key)) (xs.flatMap (·.path)) o r

/-- scp_list.py:305-332 `filter`. -/
def Scp.filter [LinearOrder κ] (x : Scp κ π) (filterKey : List κ) (keep : Bool) : Option (Scp κ π) :=
  let fk := if keep then filterKey else npSetdiff x.key filterKey
  let f := (ismember fk x.key).1
  if f.all id then x.select (nonzero (ismember x.key fk).1) else none

/-- scp_list.py:336-364 `filter_paths`. -/
def Scp.filterPaths [LinearOrder π] (x : Scp κ π) (filterKey : List π) (keep : Bool) : Option (Scp κ π) :=
  let fk := if keep then filterKey else npSetdiff x.path filterKey
  let f := (ismember fk x.path).1
  if f.all id then x.select (nonzero (ismember x.path fk).1) else none

/-- scp_list.py:368-393 `filter_index` (non-negative positions only). -/
def Scp.filterIndex (x : Scp κ π) (index : List Nat) (keep : Bool) : Option (Scp κ π) :=
  let idx := if keep then index else npSetdiff (List.range x.key.length) index
  x.select idx

/-- scp_list.py:424-445 `__eq__`. -/
def Scp.eq [DecidableEq κ] [DecidableEq π] (x y : Scp κ π) : Bool :=
  if x.key.length = 0 ∧ y.key.length = 0 then true
  else decide (x.key = y.key) && decide (x.path = y.path) && decide (x.offset = y.offset) &&
    decide (x.range = y.range)

/-- `'%d'` of an integer. -/
def printInt (z : Int) : Str := if z < 0 then '-' :: printNat z.natAbs else printNat z.natAbs

/-- scp_list.py:160-166: text of one range. -/
def rangeStr (r : Nat × Int) : Str :=
  if r.1 = 0 ∧ r.2 = 0 then []
  else if r.2 = 0 then '[' :: printNat r.1 ++ [':', ']']
  else '[' :: printNat r.1 ++ ':' :: printInt (r.1 + r.2) ++ [']']

/-- scp_list.py:156-166: the column of range texts. -/
def rangeTexts (key : List Str) : Option (List (Nat × Int)) → List Str
  | none => key.map (fun _ => [])
  | some r => r.map rangeStr

/-- scp_list.py:148-175 `save`: the content of the file. `sep`, `offset_sep`: one character. -/
def Scp.save (sep offSep : Char) (x : Scp Str Str) : Str :=
  let rs := rangeTexts x.key x.range
  match x.offset with
  | none => ((x.key.zip (x.path.zip rs)).flatMap (fun e => e.1 ++ sep :: e.2.1 ++ e.2.2 ++ ['\n']))
  | some os => ((x.key.zip (x.path.zip (os.zip rs))).flatMap
      (fun e => e.1 ++ sep :: e.2.1 ++ offSep :: printNat e.2.2.1 ++ e.2.2.2 ++ ['\n']))

/-- scp_list.py:209-216: one range `[a:b]` (text after the `[`), `none` = IndexError (no `:`). -/
def parseRange (s : Str) : Option (Nat × Int) := do
  let (a, b) ← splitOnce ':' (rstripChar ']' s)
  let a' := if isDecimal a then (parseNat a).getD 0 else 0
  if isDecimal b then return (a', ((parseNat b).getD 0 : Int) - a') else return (a', 0)

/-- `f.split(sep, maxsplit=1)`: first field and, if there is one, the second. -/
def fields2 (sep : Char) (f : Str) : Str × Option Str :=
  match splitOnce sep f with
  | none => (f, none)
  | some (a, b) => (a, some b)

/-- scp_list.py:197-200: the offset column; whether there is one is decided by the first line; a later line
without offset raises. -/
def parseOffsets (fileOffset : List (Str × Option Str)) : Option (Option (List Nat)) :=
  match fileOffset with
  | [] => none
  | first :: rest =>
    if first.2.isSome then
      ((first :: rest).mapM (fun f : Str × Option Str => f.2.bind parseNat)).map some
    else some none

/-- one entry of scp_list.py:209-216. -/
def parseRangeOpt (f : Str × Option Str) : Option (Nat × Int) :=
  match f.2 with
  | none => some (0, 0)
  | some s => parseRange s

/-- scp_list.py:202-217: the range column, present iff some line has a `[`. -/
def parseRanges (fileRange : List (Str × Option Str)) : Option (Option (List (Nat × Int))) :=
  if fileRange.any (fun f => f.2.isSome) then (fileRange.mapM parseRangeOpt).map some else some none

/-- scp_list.py:190-219 `parse_script`. -/
def parseScript (offSep : Char) (script : List Str) :
    Option (List Str × Option (List Nat) × Option (List (Nat × Int))) := do
  let fileRange := script.map (fields2 '[')
  let fileOffset := fileRange.map (fun f => fields2 offSep f.1)
  let offset ← parseOffsets fileOffset
  let range ← parseRanges fileRange
  return (fileOffset.map (·.1), offset, range)

/-- scp_list.py:223-241 `load` from the content of the file. -/
def load (sep offSep : Char) (content : Str) : Option (Scp Str Str) := do
  let fields ← (fileLines content).mapM (fun l => splitOnce sep (rstrip l))
  let (paths, offset, range) ← parseScript offSep (fields.map (·.2))
  create (fields.map (·.1)) paths offset range

end Hyp.Scp
