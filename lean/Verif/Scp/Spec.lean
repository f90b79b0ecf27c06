import Verif.Scp.Model

/-! What the SCPList properties talk about: the list of entries of a script list. -/

namespace Hyp.Scp

variable {κ π : Type}

/-- an optional column seen as one optional value per row. -/
def col {α : Type} (c : Option (List α)) (n : Nat) : List (Option α) :=
  match c with
  | none => List.replicate n none
  | some l => l.map some

/-- The rows (key, path, offset, range) of a script list. -/
def Scp.entries (x : Scp κ π) : List (κ × π × Option Nat × Option (Nat × Int)) :=
  x.key.zip (x.path.zip ((col x.offset x.key.length).zip (col x.range x.key.length)))

/-- What the constructor guarantees: columns have the length of the key column; an empty range column is
stored as `None`. -/
structure Scp.WF (x : Scp κ π) : Prop where
  path : x.path.length = x.key.length
  offset : ∀ o, x.offset = some o → o.length = x.key.length
  range : ∀ r, x.range = some r → r.length = x.key.length ∧ r ≠ []

/-- the look-up cache, if filled, describes the current key column. -/
def Scp.CacheOK [DecidableEq κ] (x : Scp κ π) : Prop :=
  x.cache = none ∨ x.cache = some (enumDict x.key)

/-- Script lists that can be obtained from the lists in `src` by any sequence of operations
(including look-ups, which fill the cache). -/
inductive Reach [LinearOrder κ] [LinearOrder π] (src : List (Scp κ π)) : Scp κ π → Prop
  | source {x} : x ∈ src → Reach src x
  | lookup {x} (k : κ) : Reach src x → Reach src (x.getByKey k).2
  | contains {x} (k : κ) : Reach src x → Reach src (x.contains k).2
  | sort {x y perm} : Reach src x → IsArgsort x.key perm → x.permute perm = some y → Reach src y
  | shuffle {x y perm} : Reach src x → perm.Perm (List.range x.key.length) → x.permute perm = some y → Reach src y
  | filter {x y} (ks : List κ) (keep : Bool) : Reach src x → x.filter ks keep = some y → Reach src y
  | filterPaths {x y} (ps : List π) (keep : Bool) : Reach src x → x.filterPaths ps keep = some y → Reach src y
  | filterIndex {x y} (idx : List Nat) (keep : Bool) : Reach src x → x.filterIndex idx keep = some y → Reach src y
  | split {x y} (i n : Nat) (g : Bool) : Reach src x → x.split i n g = some y → Reach src y
  | merge {xs y} : (∀ x ∈ xs, Reach src x) → merge xs = some y → Reach src y

end Hyp.Scp
