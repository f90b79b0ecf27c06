import Verif.ListUtils.Props
import Verif.PyDict
import Mathlib.Data.String.Basic

/-! Model of /repo/hyperion/utils/utt2info.py. The table is a pandas DataFrame (library): an index of row labels and rows; here a row is
the key and the list of info fields (columns 1, 2, …). pandas ≥ 1.0: `.loc` with a missing label raises. -/

namespace Hyp.U2I
open Hyp.ListUtils

/-- a row: key and info fields. -/
abbrev Row := String × List String

/-- the object: `utt_info.index`, the rows of `utt_info`, and the cached dictionary `key_to_index`. -/
structure Tab where
  index : List String
  rows : List Row
  k2i : Option (List (String × Nat))
deriving DecidableEq

/-- utt2info.py:32-44, the constructor: the index becomes the key column. The assertions (a key column and at least one more) always hold for
rows of this type with a non-empty info list. -/
def ofRows (rows : List Row) : Tab := ⟨rows.map Prod.fst, rows, none⟩

/-- `DataFrame.iloc[idx]` with positions: rows and labels together; out of range raises. -/
def iloc (t : Tab) (idx : List Nat) : Option (List String × List Row) := do
  let i ← gather t.index idx
  let r ← gather t.rows idx
  some (i, r)

/-- `DataFrame.loc[label]`: the rows with that label, in table order. -/
def locOne (t : Tab) (k : String) : List Row := ((t.index.zip t.rows).filter (fun p => p.1 = k)).map Prod.snd

/-- `DataFrame.loc[labels]`: for each label all its rows; a missing label raises. -/
def locMany (t : Tab) (ks : List String) : Option (List Row) :=
  (ks.mapM (fun k => if locOne t k = [] then none else some (locOne t k))).map List.flatten

/-- result of `t[key]` (utt2info.py:120-136). -/
inductive Item where
  | one (v : String)
  | many (v : List String)
  | rows (r : List Row)
  | row (r : Row)
deriving DecidableEq

/-- utt2info.py:120-126 `t[key]` for a string: `np.array(loc)[1:]` drops the key of a single row; with several rows it drops the first
row instead (and returns the remaining rows, key included). `none`: KeyError. -/
def get (t : Tab) (k : String) : Option Item :=
  match locOne t k with
  | [] => none
  | [r] => match r.2 with
    | [v] => some (.one v)
    | vs => some (.many vs)
  | _ :: rest => match rest with
    | [r] => some (.row r)
    | rs => some (.rows rs)

/-- utt2info.py:127-136 `t[i]` for an integer. -/
def getIdx (t : Tab) (i : Nat) : Option Row := t.rows[i]?

/-- utt2info.py:105-107 -/
def contains (t : Tab) (k : String) : Bool := t.index.contains k

/-- utt2info.py:90-103 `get_index`: fills and uses the cached dictionary. -/
def getIndex (t : Tab) (k : String) : Tab × Option Nat :=
  let d := match t.k2i with
    | some d => d
    | none => enumDict t.index
  ({ t with k2i := some d }, dictGet d k)

/-- utt2info.py:140-148 `sort`; `perm` is the permutation chosen by the sorting routine of the library (`sort_index`, `np.argsort`; neither
is stable): any one which sorts the labels (field 0) or the column. -/
def sort (t : Tab) (field : Nat) (perm : List Nat) : Option Tab := do
  let _ ← (if field = 0 then some () else if ∀ r ∈ t.rows, field ≤ r.2.length then some () else none)
  let (i, r) ← iloc t perm
  some ⟨i, r, none⟩

/-- the sort key of a row for `sort(field)`. -/
def sortKey (field : Nat) (r : Row) : String := if field = 0 then r.1 else r.2.getD (field - 1) ""

/-- utt2info.py:295-311 `shuffle`; `perm` is the shuffled index, which is returned. -/
def shuffle (t : Tab) (perm : List Nat) : Option (Tab × List Nat) := do
  let (i, r) ← iloc t perm
  some (⟨i, r, none⟩, perm)

/-- utt2info.py:182-202 `split`. -/
def split (t : Tab) (idx numParts field : Nat) : Option Tab := do
  let loc ← (if field = 0 then (splitList (t.rows.map Prod.fst) idx numParts).map Prod.snd
    else do
      let col ← t.rows.mapM (fun r => r.2[field - 1]?)
      (splitListGroupByKey col idx numParts col).map Prod.snd)
  let (_, r) ← iloc t loc
  some (ofRows r)

/-- utt2info.py:206-218 `merge`. -/
def merge (ts : List Tab) : Tab := ofRows (ts.map (fun t => t.rows)).flatten

/-- utt2info.py:222-236 `filter`. -/
def filter (t : Tab) (ks : List String) (keep : Bool) : Option Tab := do
  let ks := if keep then ks else npSetdiff (t.rows.map Prod.fst) ks
  let r ← locMany t ks
  some (ofRows r)

/-- utt2info.py:240-264 `filter_info`. -/
def filterInfo (t : Tab) (vs : List String) (field : Nat) (keep : Bool) : Option Tab := do
  let col ← t.rows.mapM (fun r => r.2[field - 1]?)
  let vs := if keep then vs else npSetdiff col vs
  if (ismember vs col).1.all id then do
    let (_, r) ← iloc t (nonzero (ismember col vs).1)
    some (ofRows r)
  else none

/-- utt2info.py:268-286 `filter_index` (positions). -/
def filterIndex (t : Tab) (idx : List Nat) (keep : Bool) : Option Tab := do
  let idx := if keep then idx else npSetdiff (List.range t.rows.length) idx
  let (_, r) ← iloc t idx
  some (ofRows r)

/-- utt2info.py:66-71, the property `info`: with more than one info column, `utt_info[1:]` is a slice of ROWS. -/
inductive Info where
  | column (v : List String)
  | slice (r : List Row)
deriving DecidableEq
def info (w : Nat) (t : Tab) : Info :=
  if 1 < w then .slice (t.rows.drop 1) else .column (t.rows.map (fun r => r.2.headD ""))

/-- the operations of a history. -/
inductive Op where
  | getIndex (k : String)
  | sort (field : Nat) (perm : List Nat)
  | shuffle (perm : List Nat)
  | split (idx numParts field : Nat)
  | merge (before after : List (List Row))
  | filter (ks : List String) (keep : Bool)
  | filterInfo (vs : List String) (field : Nat) (keep : Bool)
  | filterIndex (idx : List Nat) (keep : Bool)

/-- one operation; sorting and shuffling replace the table, the others make a new one. -/
def step (t : Tab) : Op → Option Tab
  | .getIndex k => some (getIndex t k).1
  | .sort f p => sort t f p
  | .shuffle p => (shuffle t p).map Prod.fst
  | .split i n f => split t i n f
  | .merge a b => some (merge (a.map ofRows ++ [t] ++ b.map ofRows))
  | .filter ks keep => filter t ks keep
  | .filterInfo vs f keep => filterInfo t vs f keep
  | .filterIndex i keep => filterIndex t i keep

/-- a history of operations, starting with a constructed table. -/
def run (t : Tab) (ops : List Op) : Option Tab := ops.foldlM step t

end Hyp.U2I
