import Mathlib.Data.List.Basic
import Mathlib.Data.Int.Basic

/-!
Model of /repo/hyperion/utils/tensors.py: vectors put into a three-dimensional array, one row of it per class or per sequence,
with zero/one sample weights. A vector is an element of any type with a zero vector `z`.
-/

namespace Hyp.Misc

variable {β : Type}

/-- row `i` of `x3d` and of `sample_weight` (`true` is weight 1), tensors.py:25-30 and 44-47: more vectors than `L` raise (the
shapes differ) -/
def padRow (z : β) (L : Nat) (xs : List β) : Option (List β × List Bool) :=
  if xs.length ≤ L then some (xs ++ List.replicate (L - xs.length) z, List.replicate xs.length true ++ List.replicate (L - xs.length) false) else none

/-- `np.maximum` over a loop, starting from 0, tensors.py:17-20 and 37-40 -/
def maxLen (ls : List Nat) : Nat := ls.foldl max 0

/-- `x[class_ids == i, :]`: the mask must have the length of `x` -/
def pickClass (x : List β) (ids : List Int) (i : Nat) : Option (List β) :=
  if ids.length = x.length then some (((x.zip ids).filter (fun p => decide (p.2 = (i : Int)))).map Prod.fst) else none

/-- `to3D_by_class`, tensors.py:13-30. `max_length = 0` means the size of the largest class; `np.max` of no ids raises. Negative
`max_length` left out. -/
def to3DByClass (z : β) (x : List β) (ids : List Int) (maxLength : Nat) : Option (List (List β × List Bool)) := do
  let m ← ids.max?
  let numClasses := (m + 1).toNat
  let L := if maxLength = 0 then maxLen ((List.range numClasses).map (fun i : Nat => ids.countP (fun k => decide (k = (i : Int))))) else maxLength
  (List.range numClasses).mapM (fun (i : Nat) => do
    let xs ← pickClass x ids i
    padRow z L xs)

/-- `to3D_by_seq`, tensors.py:33-49; `x[0]` of an empty list raises -/
def to3DBySeq (z : β) (x : List (List β)) (maxLength : Nat) : Option (List (List β × List Bool)) := do
  let _ ← x.head?
  let L := if maxLength = 0 then maxLen (x.map List.length) else maxLength
  x.mapM (padRow z L)

end Hyp.Misc
