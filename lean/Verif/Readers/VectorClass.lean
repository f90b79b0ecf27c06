import Verif.NpLemmas
import Verif.TextLemmas
import Mathlib.Data.String.Basic
import Mathlib.Order.Nat

/-! Model of /repo/hyperion/helpers/vector_class_reader.py: pruning and splitting of
classes. A table is the list of its rows (key, class); property C52 is about the table class itself. -/

namespace Hyp.Readers
open Hyp.Text

abbrev Rows := List (String × String)

/-- `rng.choice(l, size=k, replace=False)` of numpy (library): any state machine which picks `k` distinct positions of the list. -/
structure CRng where
  σ : Type
  choose : σ → List Nat → Nat → List Nat × σ
  spec : ∀ s l k, k ≤ l.length → l.Nodup → (choose s l k).1.length = k ∧ (choose s l k).1.Nodup ∧ ∀ x ∈ (choose s l k).1, x ∈ l

/-- a concrete machine: always the first ones. -/
def firstRng : CRng where
  σ := Unit
  choose s l k := (l.take k, s)
  spec := by
    intro s l k hk hn
    exact ⟨by simp; exact hk, hn.sublist (List.take_sublist k l), fun x hx => List.mem_of_mem_take hx⟩

/-- `spc_pruning_mode` (vector_class_reader.py:245-248) -/
inductive Prune where
  | random | first | last
deriving DecidableEq

/-- number of samples of a class (`np.unique(…, return_counts=True)`). -/
def spc (t : Rows) (c : String) : Nat := (t.map Prod.snd).count c

/-- positions of the samples of a class: `np.where(class_ids == i)[0]`. -/
def classIdx (t : Rows) (c : String) : List Nat := nonzero (t.map (fun p => decide (p.2 = c)))

/-- vector_class_reader.py:127-136: the positions rejected in a class of `n > max_spc` samples. -/
def rejects {R : CRng} (mode : Prune) (idx : List Nat) (maxSpc : Nat) (g : R.σ) : List Nat × R.σ :=
  let k := idx.length - maxSpc
  match mode with
  | .random => R.choose g idx k
  | .last => (idx.drop (idx.length - k), g)
  | .first => (idx.take k, g)

/-- vector_class_reader.py:124-136: the rejected positions of all the classes. -/
def rejectAll {R : CRng} (mode : Prune) (t : Rows) (maxSpc : Nat) : List String → R.σ → List Nat × R.σ
  | [], g => ([], g)
  | c :: cs, g =>
    if maxSpc < spc t c then
      let r := rejects mode (classIdx t c) maxSpc g
      let rest := rejectAll mode t maxSpc cs r.2
      (r.1 ++ rest.1, rest.2)
    else rejectAll mode t maxSpc cs g

/-- the rows which are not rejected: `u2c.key[f], u2c.info[f]`. -/
def dropIdx (t : Rows) (rej : List Nat) : Rows :=
  (t.zipIdx.filter (fun p => decide (p.2 ∉ rej))).map Prod.fst

/-- vector_class_reader.py:113-116 -/
def filterMin (t : Rows) (minSpc : Nat) : Rows :=
  if 1 < minSpc then t.filter (fun p => decide (minSpc ≤ spc t p.2)) else t

/-- vector_class_reader.py:106-142 `_filter_by_spc`. `minSpc = none`: None, which cannot be compared with 1 (TypeError). -/
def filterBySpc {R : CRng} (t : Rows) (minSpc maxSpc : Option Nat) (mode : Prune) (g : R.σ) : Option (Rows × R.σ) :=
  match minSpc with
  | none => none
  | some m =>
    let t1 := filterMin t m
    match maxSpc with
    | none => some (t1, g)
    | some M =>
      if (npUnique (t1.map Prod.snd)).all (fun c => decide (spc t1 c ≤ M)) then some (t1, g)
      else
        let r := rejectAll mode t1 M (npUnique (t1.map Prod.snd)) g
        some (dropIdx t1 r.1, r.2)

/-- `csplit_mode` (vector_class_reader.py:147-149, 262-264; the command line offers 'random_1subclass', which the code does not know:
it then takes neither branch of lines 167, 181 and the samples of large classes are lost). -/
inductive CSplit where
  | sequential | random | random1part | random1subclass
deriving DecidableEq

/-- the work buffer of lines 159-160 with the write position `j` and the current sub-class number. -/
structure Buf where
  acc : List (Nat × Nat)
  j : Nat
  sub : Nat
deriving DecidableEq

/-- `new_indx[j:j+n] = vals; new_class_ids[j:j+n] = new_i; j += n; new_i += 1`. A slice beyond the end of the buffer is shorter than `vals`:
numpy raises, except when `vals` has one element, which is broadcast into the empty slice (nothing is written). -/
def Buf.write (size : Nat) (b : Buf) (vals : List Nat) : Option Buf :=
  if b.j + vals.length ≤ size then some ⟨b.acc ++ vals.map (fun v => (v, b.sub)), b.j + vals.length, b.sub + 1⟩
  else if vals.length = 1 then some ⟨b.acc, b.j + 1, b.sub + 1⟩
  else none

/-- number of sub-classes, line 166 (exact ceiling of the quotient). -/
def numSub (n maxSpc shift : Nat) : Nat := (n - maxSpc + shift - 1) / shift + 1

/-- lines 167-179: consecutive, possibly overlapping, chunks of the positions of a class. -/
def seqChunks (idx : List Nat) (maxSpc shift : Nat) : List (List Nat) :=
  let k := numSub idx.length maxSpc shift
  (List.range (k - 1)).map (fun i => (idx.drop (i * shift)).take maxSpc) ++
    [(idx.drop ((k - 1) * shift)).take (idx.length - (k - 1) * shift)]

/-- lines 181-188: random chunks. -/
def randChunks {R : CRng} (idx : List Nat) (maxSpc : Nat) : Nat → R.σ → List (List Nat) × R.σ
  | 0, g => ([], g)
  | k + 1, g =>
    let r := R.choose g idx maxSpc
    let rest := randChunks idx maxSpc k r.2
    (r.1 :: rest.1, rest.2)

/-- lines 164-193: the chunks of one class. -/
def chunksOf {R : CRng} (t : Rows) (mode : CSplit) (maxSpc shift : Nat) (c : String) (g : R.σ) : List (List Nat) × R.σ :=
  let idx := classIdx t c
  if maxSpc < spc t c then
    match mode with
    | .sequential => (seqChunks idx maxSpc shift, g)
    | .random => randChunks idx maxSpc (numSub idx.length maxSpc shift) g
    | _ => ([], g)
  else ([idx], g)

/-- the loop over classes, lines 162-193. -/
def splitLoop {R : CRng} (t : Rows) (mode : CSplit) (maxSpc shift size : Nat) : List String → Buf → R.σ → Option (Buf × R.σ)
  | [], b, g => some (b, g)
  | c :: cs, b, g =>
    let ch := chunksOf t mode maxSpc shift c g
    match ch.1.foldlM (fun b v => b.write size v) b with
    | none => none
    | some b' => splitLoop t mode maxSpc shift size cs b' ch.2

/-- buffer size, line 159: `max_spc*int(np.max(num_spc)*num_classes/shift+1)`. -/
def bufSize (t : Rows) (maxSpc shift : Nat) : Nat :=
  let cs := npUnique (t.map Prod.snd)
  maxSpc * ((cs.map (spc t)).foldl max 0 * cs.length / shift + 1)

/-- name of a new class, line 196. -/
def className (n : Nat) : String := String.ofList (printNat n)

/-- vector_class_reader.py:146-200 `_split_classes` for an integer overlap. An overlap of at least `max_spc` makes the shift zero or negative
(division by zero, or a negative buffer): an exception. Not in the model: a float overlap, which the command line produces and which raises in
sequential mode (slices need integers). -/
def splitClasses {R : CRng} (t : Rows) (minSpc maxSpc : Option Nat) (mode : CSplit) (overlap : Nat) (g : R.σ) : Option (Rows × R.σ) :=
  match maxSpc with
  | none => some (t, g)
  | some M =>
    if mode = .random1part then filterBySpc t minSpc (some M) .random g
    else if (npUnique (t.map Prod.snd)).all (fun c => decide (spc t c ≤ M)) then filterBySpc t minSpc none .last g
    else if M ≤ overlap then none
    else
      match splitLoop t mode M (M - overlap) (bufSize t M (M - overlap)) (npUnique (t.map Prod.snd)) ⟨[], 0, 0⟩ g with
      | none => none
      | some (b, g) =>
        match b.acc.mapM (fun p => (t[p.1]?).map (fun r => (r.1, className p.2))) with
        | none => none
        | some t' => filterBySpc t' minSpc none .last g

end Hyp.Readers
