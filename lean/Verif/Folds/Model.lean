import Verif.NpLemmas
import Verif.Round
import Mathlib.Data.String.Basic

/-! Model of /repo/hyperion/utils/fold_list.py and /repo/hyperion/utils/train_val_eval_list.py (`create`, `validate`, the index look-ups). -/

namespace Hyp.Folds

/-- one element of the list: its group (`group_by_key`, by default its own key), its balance class (`balance_by_key`, by default the same for all) and its mask
(by default true). The arrays of the code have one entry per element; arrays of other lengths are not in the model. -/
structure Item where
  grp : String
  cls : String
  keep : Bool
deriving DecidableEq

/-- `rng.shuffle(np.arange(n))` (library): any state machine whose outcomes are permutations. -/
structure Shuf where
  σ : Type
  next : σ → Nat → List Nat × σ
  spec : ∀ s n, (next s n).1.Perm (List.range n)

/-- a concrete machine: reversal. -/
def revShuf : Shuf where
  σ := Unit
  next s n := ((List.range n).reverse, s)
  spec _ _ := List.reverse_perm _

/-- fold_list.py:203-209, train_val_eval_list.py:226-232: class numbers, -1 for masked elements. -/
def classIds (items : List Item) : List Int :=
  let u := npUnique (items.map Item.cls)
  items.map (fun it => if it.keep then (u.idxOf it.cls : Int) else -1)

/-- `np.max(balance_by_key) + 1`; `none`: empty array (ValueError). -/
def numClasses (cids : List Int) : Option Nat :=
  match cids with
  | [] => none
  | c :: cs => some ((cs.foldl max c) + 1).toNat

/-- fold_list.py:234-237: the update for one fold, `pairs`: positions of the class and their group numbers. -/
def partStep (pairs : List (Nat × Nat)) (k1 k2 : Int) (j : Nat) (folds : List Int) : List Int :=
  pairs.foldl (fun fs p => if k1 ≤ p.2 ∧ (p.2 : Int) < k2 then fs.set p.1 j else fs) folds

/-- fold_list.py:231-237: all folds of one class. `cut j` is the first group number of fold `j`. -/
def classStep (pairs : List (Nat × Nat)) (cut : Nat → Int) (p : Nat) (folds : List Int) : List Int :=
  (List.range p).foldl (fun fs j => partStep pairs (cut j) (cut (j + 1)) j fs) folds

/-- fold_list.py:214-237 / train_val_eval_list.py:236-256: the loop over classes. An empty class is an exception (`np.max` of an empty array). `cut` gives the group
numbers at which the folds start, from the number of groups. -/
def classLoop (R : Shuf) (shuffle : Bool) (items : List Item) (cids : List Int) (cut : Nat → Nat → Int) (p : Nat) : List Nat → List Int → R.σ → Option (List Int)
  | [], folds, _ => some folds
  | i :: is, folds, g =>
    let idx := nonzero (cids.map (fun c => decide (c = (i : Int))))
    let grps := idx.map (fun t => ((items[t]?).map Item.grp).getD "")
    let u := npUnique grps
    if idx = [] then none
    else
      let sh := if shuffle then R.next g u.length else (List.range u.length, g)
      let pairs := idx.zip (grps.map (fun x => (sh.1[u.idxOf x]?).getD 0))
      classLoop R shuffle items cids cut p is (classStep pairs (cut u.length) p folds) sh.2

/-- fold_list.py:37-48 `validate`: the fold numbers in use are 0..max without gaps. -/
def validate (folds : List Int) : Bool :=
  match folds with
  | [] => false
  | f :: fs => decide (((npUnique (folds.filter (fun x => decide (0 ≤ x)))).length : Int) = fs.foldl max f + 1)

/-- fold_list.py:175-243 `create` (and train_val_eval_list.py:183-262): the fold number of each element, `none`: an exception. -/
def create (R : Shuf) (shuffle : Bool) (items : List Item) (cut : Nat → Nat → Int) (p : Nat) (g : R.σ) : Option (List Int) :=
  let cids := classIds items
  match numClasses cids with
  | none => none
  | some nc =>
    match classLoop R shuffle items cids cut p (List.range nc) (List.replicate items.length (-1)) g with
    | none => none
    | some folds =>
      if (items.zip folds).all (fun x => !x.1.keep || decide (0 ≤ x.2)) && validate folds then some folds else none

/-- fold_list.py:222, 232-233: fold `j` starts at group `round(j * num_groups / num_folds)`. -/
def foldCut (numFolds : Nat) (groups j : Nat) : Int := roundEven ((j : ℚ) * ((groups : ℚ) / (numFolds : ℚ)))

/-- fold_list.py `FoldList.create`. -/
def foldCreate (R : Shuf) (shuffle : Bool) (items : List Item) (numFolds : Nat) (g : R.σ) : Option (List Int) :=
  create R shuffle items (foldCut numFolds) numFolds g

/-- train_val_eval_list.py:208: `hstack(([0], cumsum(proportions), [1]))`. -/
def cumProp (props : List ℚ) (j : Nat) : ℚ := if j ≤ props.length then (props.take j).sum else 1

/-- train_val_eval_list.py:251-252. -/
def partCut (props : List ℚ) (groups j : Nat) : Int := roundEven (cumProp props j * (groups : ℚ))

/-- train_val_eval_list.py `TrainValEvalList.create`. -/
def partCreate (R : Shuf) (shuffle : Bool) (items : List Item) (props : List ℚ) (g : R.σ) : Option (List Int) :=
  create R shuffle items (partCut props) (props.length + 1) g

/-- fold_list.py:90-107 `get_fold_idx`: train and test flags. -/
def getFoldIdx (folds : List Int) (mask : Option (List Bool)) (fold : Int) : List Bool × List Bool :=
  let test := folds.map (fun f => decide (f = fold))
  let train := test.map not
  match mask with
  | none => (train, test)
  | some m => (List.zipWith and train m, List.zipWith and test m)

/-- train_val_eval_list.py:101-119 `get_part_idx`, by number. -/
def getPartIdx (parts : List Int) (mask : Option (List Bool)) (part : Int) : List Bool :=
  let idx := parts.map (fun f => decide (f = part))
  match mask with
  | none => idx
  | some m => List.zipWith and idx m

/-- train_val_eval_list.py:123-135 `get_part`: unpacks the flags into two variables, an exception unless there are exactly two. -/
def getPart (parts : List Int) (mask : Option (List Bool)) (part : Int) : Option (Bool × Bool) :=
  match getPartIdx parts mask part with
  | [a, b] => some (a, b)
  | _ => none

end Hyp.Folds
