import Verif.Np

/-! Model of /repo/hyperion/utils/list_utils.py -/

namespace Hyp.ListUtils

/-- list_utils.py:39-42, the dictionary loop of `ismember`: `d[elt] = i` only when `elt` is not yet
in `d`. The dictionary is an association list. -/
def firstIndexDict {α : Type _} [DecidableEq α] : List α → Nat → List (α × Nat) → List (α × Nat)
  | [], _, d => d
  | x :: xs, i, d =>
    if (d.lookup x).isNone then firstIndexDict xs (i + 1) (d ++ [(x, i)])
    else firstIndexDict xs (i + 1) d

/-- list_utils.py:26-45 `ismember(a, b)`. The sentinel `bad_idx = iinfo(int32).min` is `none` here
(it is negative, so no list position equals it); int32 wrap-around of positions beyond 2^31 is not modelled. -/
def ismember {α : Type _} [DecidableEq α] (a b : List α) : List Bool × List (Option Nat) :=
  let d := firstIndexDict b 0 []
  let loc := a.map (fun x => d.lookup x)
  (loc.map Option.isSome, loc)

/-- list_utils.py:76-99 `intersect(a, b, return_index=True)`; `np.intersect1d` by contract
(`assume_unique=False`). -/
def intersect {α : Type _} [LinearOrder α] (a b : List α) :
    List α × List (Option Nat) × List (Option Nat) :=
  let c := npIntersect a b
  (c, (ismember c a).2, (ismember c b).2)

/-- list_utils.py:61-68 `sort(a, reverse, return_index=True)`; `perm` is the outcome of `np.argsort`
(unstable sort: a parameter constrained by `IsArgsort`). -/
def sortWith {α : Type _} (a : List α) (reverse : Bool) (perm : List Nat) :
    Option (List α × List Nat) :=
  let idx := if reverse then perm.reverse else perm
  (gather a idx).map (fun s => (s, idx))

/-- list_utils.py:117-118 `int(np.floor(k*n/num_parts))`. Exact rational floor; float64 rounding
does not change the floor while `k*n < 2^53`. -/
def cut (k n numParts : Nat) : Nat := k * n / numParts

/-- list_utils.py:103-120 `split_list(a, idx, num_parts)`, `idx` counted from 1 as documented.
`none` = exception (`num_parts = 0`: int(nan/inf); `idx > num_parts`: IndexError). -/
def splitList {α : Type _} (a : List α) (idx numParts : Nat) : Option (List α × List Nat) :=
  if numParts = 0 then none
  else
    let n := a.length
    let idx1 := cut (idx - 1) n numParts
    let idx2 := cut idx n numParts
    let loc := List.range' idx1 (idx2 - idx1)
    (gather a loc).map (fun r => (r, loc))

/-- list_utils.py:149 `(ids==i).nonzero()[0]`. -/
def idsEq (ids : List Nat) (i : Nat) : List Nat := nonzero (ids.map (fun j => decide (j = i)))

/-- list_utils.py:124-153 `split_list_group_by_key(a, idx, num_parts, key)`.
`ids.max()` of an empty list raises; the work buffer `loc` has `len(a)` entries, so writing more
than that raises. -/
def splitListGroupByKey {α κ : Type _} [LinearOrder κ] (a : List α) (idx numParts : Nat)
    (key : List κ) : Option (List α × List Nat) :=
  if numParts = 0 then none
  else
    let ids := npInverse key
    match ids.max? with
    | none => none
    | some m =>
      let n := m + 1
      let idx1 := cut (idx - 1) n numParts
      let idx2 := cut idx n numParts
      let loc := (List.range' idx1 (idx2 - idx1)).flatMap (idsEq ids)
      if loc.length > a.length then none
      else (gather a loc).map (fun r => (r, loc))

end Hyp.ListUtils
