import Verif.Folds.Model
import Verif.ListUtils.Model
import Verif.Scp.Model

/-!
Model of the objects of /repo/hyperion/utils/fold_list.py and /repo/hyperion/utils/train_val_eval_list.py: constructor, alignment with a key,
look-up of a part by name, text files.
-/

namespace Hyp.Folds
open Hyp.Text

/-- attributes of a list; `names` is `part_names` (fold lists have none) -/
structure PList (ν : Type) where
  key : List Str
  part : List Int
  names : Option (List ν)
  mask : Option (List Bool)
deriving DecidableEq

/-- train_val_eval_list.py:29-51, fold_list.py:31-52: constructor with `validate`; `none` is an exception. Numbers are integers
already. -/
def PList.make {ν : Type} (key : List Str) (part : List Int) (names : Option (List ν)) (mask : Option (List Bool)) : Option (PList ν) :=
  if key.length = part.length ∧ validate part = true ∧ (mask.map List.length).getD part.length = part.length then some ⟨key, part, names, mask⟩
  else none

/-- train_val_eval_list.py:76-80, fold_list.py:65-69: `num_parts()`, `num_folds`; `none` for an empty list -/
def numParts (part : List Int) : Option Int :=
  match part with
  | [] => none
  | p :: ps => some (ps.foldl max p + 1)

/-- train_val_eval_list.py:69-72: `len(l)` calls the method `num_parts` -/
def PList.len {ν : Type} (l : PList ν) : Option Int := numParts l.part

/-- fold_list.py:59-62: `len(l)` calls the value of the property `num_folds`, an integer: TypeError -/
def foldLen (_ : PList Unit) : Option Int := none

/-- `a[idx]` for positions that exist -/
def gatherD {α : Type} (a : List α) (idx : List Nat) : Option (List α) := idx.mapM (fun i => a[i]?)

/-- train_val_eval_list.py:84-102, fold_list.py:73-91: `align_with_key`; an incomplete match is an exception or leaves the object as it is.
The constructor is not called again. -/
def PList.align {ν : Type} (l : PList ν) (key : List Str) (raiseMissing : Bool) : Option (PList ν) :=
  let r := ListUtils.ismember key l.key
  if r.1.all id then do
    let idx ← r.2.mapM id
    let k ← gatherD l.key idx
    let p ← gatherD l.part idx
    let m ← (match l.mask with | none => some none | some m => (gatherD m idx).map some)
    some ⟨k, p, l.names, m⟩
  else if raiseMissing then none
  else some l

/-- train_val_eval_list.py:54-58, 115-117: the number of a part given by name; without names an AssertionError, for an unknown name a
KeyError. A later name overwrites an equal earlier one. -/
def partOfName (names : Option (List Str)) (name : Str) : Option Nat :=
  match names with
  | none => none
  | some ns => dictGet ((List.range ns.length).zip ns |>.foldl (fun d p => dictSet d p.2 p.1) []) name

/-- train_val_eval_list.py:105-122: `get_part_idx` with a name -/
def PList.partIdxByName (l : PList Str) (name : Str) : Option (List Bool) :=
  (partOfName l.names name).map (fun k => getPartIdx l.part l.mask (k : Int))

/-- `a[p]` with an integer, counted from the end if negative -/
def pyGet {α : Type} (a : List α) (p : Int) : Option α :=
  if 0 ≤ p then a[p.toNat]?
  else if 0 ≤ p + a.length then a[(p + a.length).toNat]?
  else none

/-- one line of a part list, train_val_eval_list.py:166-169: there is no separator between number and name -/
def partLine (sep : Char) (names : Option (List Str)) (k : Str) (p : Int) : Option Str :=
  match names with
  | none => some (k ++ [sep] ++ Scp.printInt p ++ ['\n'])
  | some ns => (pyGet ns p).map (fun n => k ++ [sep] ++ Scp.printInt p ++ n ++ ['\n'])

/-- `TrainValEvalList.save`, train_val_eval_list.py:156-169: the text in the file afterwards, and whether the call returned -/
def partSave (sep : Char) (names : Option (List Str)) : List (Str × Int) → Str × Bool
  | [] => ([], true)
  | (k, p) :: rest =>
    match partLine sep names k p with
    | none => ([], false)
    | some l => (l ++ (partSave sep names rest).1, (partSave sep names rest).2)

def PList.save (l : PList Str) (sep : Char) : Str × Bool := partSave sep l.names (l.key.zip l.part)

/-- `int(s)`: an optional sign and decimal digits (surrounding blanks and underscores, which Python accepts, are not modelled) -/
def parseInt (s : Str) : Option Int :=
  match s with
  | '-' :: t => (parseNat t).map (fun n => -(n : Int))
  | '+' :: t => (parseNat t).map (fun n => (n : Int))
  | _ => (parseNat s).map (fun n => (n : Int))

/-- `s.split(sep, maxsplit=n)` -/
def splitMax (sep : Char) : Nat → Str → List Str
  | 0, s => [s]
  | n + 1, s =>
    match splitOnce sep s with
    | none => [s]
    | some (a, b) => a :: splitMax sep n b

/-- the first position of each different number, in order of the numbers: `np.unique(part, return_index=True)[1]` -/
def firstOf (part : List Int) : List Nat := (npUnique part).map (fun p => part.idxOf p)

/-- `TrainValEvalList.load`, train_val_eval_list.py:173-197; names are converted to integers -/
def partLoad (content : Str) (sep : Char) : Option (PList Int) := do
  let fields := (fileLines content).map (fun l => splitMax sep 2 (rstrip l))
  let key ← fields.mapM (fun f : List Str => f[0]?)
  let part ← fields.mapM (fun f : List Str => (f[1]?).bind parseInt)
  let f0 ← fields[0]?
  let names ← (if f0.length = 2 then some none
    else do
      let ns ← fields.mapM (fun f : List Str => (f[2]?).bind parseInt)
      let sel ← gatherD ns (firstOf part)
      some (some sel) : Option (Option (List Int)))
  PList.make key part names none

/-- `FoldList.save`, fold_list.py:146-157: opening the file empties it; the loop variable hides the file, and integers have no `write`:
AttributeError in the first turn -/
def foldSave (l : PList Unit) : Str × Bool := ([], l.part.isEmpty)

/-- `FoldList.load`, fold_list.py:160-176 -/
def foldLoad (content : Str) (sep : Char) : Option (PList Unit) := do
  let fields := (fileLines content).map (fun l => splitMax sep 1 (rstrip l))
  let fold ← fields.mapM (fun f : List Str => (f[0]?).bind parseInt)
  let key ← fields.mapM (fun f : List Str => f[1]?)
  PList.make key fold none none

/-- `get_fold`, fold_list.py:110-122: keys for training and test -/
def PList.getFold (l : PList Unit) (fold : Int) : List Str × List Str :=
  let r := getFoldIdx l.part l.mask fold
  (((l.key.zip r.1).filter Prod.snd).map Prod.fst, ((l.key.zip r.2).filter Prod.snd).map Prod.fst)

/-- names of the parts when none are given, train_val_eval_list.py:222-226 -/
def defaultNames (names : Option (List Str)) (numParts : Nat) : Option (List Str) :=
  match names with
  | some ns => some ns
  | none =>
    if numParts = 3 then some ["train".toList, "val".toList, "eval".toList]
    else if numParts = 2 then some ["train".toList, "eval".toList]
    else none

end Hyp.Folds
