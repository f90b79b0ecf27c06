import Verif.SeqReader.Model
import Verif.PyDict
import Verif.Text

/-!
Model of /repo/hyperion/helpers/sequence_post_reader.py, sequence_class_reader.py and sequence_post_class_reader.py:
readers that return, beside the features of each sub-sequence, the rows of its posteriors and the class of its sequence.
Conventions as in `SeqReader/Model.lean`; of the posteriors too only the numbers of the rows are kept (the numbers in them
are the subject of `SeqReader/Sparse.lean`). `plen` gives the number of rows of the posteriors of a sequence.
-/

namespace Hyp.SeqReader
open Hyp.Text

variable {κ : Type}

/-- a sub-sequence: path, rows of the features and rows of the posteriors -/
structure PItem (κ : Type) where
  key : κ
  rows : List Nat
  post : List Nat
deriving DecidableEq

/-- `read_f`, sequence_post_reader.py:158-164, 201-207, with `read_random_slice` (hyp_data_reader.py:81-91) returning the
position, and `_read_post_slice`, sequence_post_reader.py:149-153. In the modes `random_samples` and `random_samples_1seq`
`read_f` is not assigned and its use raises. -/
def pReadRandom (cfg : Cfg) (rng : Rng) (call L Lp num : Nat) : Option (List Nat × List Nat) :=
  if cfg.mode = .randomSlice ∨ cfg.mode = .slice1 then
    if L + 1 ≤ num then none
    else some (sliceRows L (rng.slice call (L - num + 1)) num, sliceRows Lp (rng.slice call (L - num + 1)) num)
  else none

/-- one iteration of the loop of `_read_subseqs_sequential`, sequence_post_reader.py:125-144 -/
def pStepSequential (plen : κ → Nat) (cfg : Cfg) (m : Nat) (st : St κ) : Option (St κ × List (PItem κ)) := do
  let s ← st.seqs[st.cur]?
  if (st.cnt st.cur : Int) < numSubs cfg s.2 then
    some ({ st with cur := (st.cur + 1) % st.seqs.length, cnt := Function.update st.cnt st.cur (st.cnt st.cur + 1),
                    frame := Function.update st.frame st.cur (st.frame st.cur + (m - cfg.overlap)) },
      [⟨s.1, sliceRows s.2 (st.frame st.cur) (min (s.2 - st.frame st.cur) m),
        sliceRows (plen s.1) (st.frame st.cur) (min (s.2 - st.frame st.cur) m)⟩])
  else some ({ st with cur := (st.cur + 1) % st.seqs.length }, [])

/-- one iteration of the loop of `_read_subseqs_random`, sequence_post_reader.py:216-232 -/
def pStepRandom (plen : κ → Nat) (cfg : Cfg) (rng : Rng) (m : Nat) (st : St κ) : Option (St κ × List (PItem κ)) := do
  let s ← st.seqs[st.cur]?
  if (st.cnt st.cur : Int) < numSubs cfg s.2 then
    (pReadRandom cfg rng st.calls s.2 (plen s.1) (if numSubs cfg s.2 = 1 then min m s.2 else m)).map (fun rows =>
      ({ st with cur := (st.cur + 1) % st.seqs.length, cnt := Function.update st.cnt st.cur (st.cnt st.cur + 1), calls := st.calls + 1 },
        [⟨s.1, rows.1, rows.2⟩]))
  else some ({ st with cur := (st.cur + 1) % st.seqs.length }, [])

/-- the loop with `break` when the batch is full, sequence_post_reader.py:124-144, 215-234 -/
def pLoop (B : Nat) (step : St κ → Option (St κ × List (PItem κ))) : Nat → St κ → List (PItem κ) → Option (St κ × List (PItem κ))
  | 0, st, acc => some (st, acc)
  | n + 1, st, acc => do
    let r ← step st
    if (acc ++ r.2).length = B then some (r.1, acc ++ r.2) else pLoop B step n r.1 (acc ++ r.2)

/-- `assert(len(x) == self.batch_size)`, sequence_post_reader.py:108, 145, 189, 235 -/
def pCheckBatch (B : Nat) (r : St κ × List (PItem κ)) : Option (St κ × List (PItem κ)) := if r.2.length = B then some r else none

/-- `read_full_seqs`, sequence_post_reader.py:92-115 -/
def pReadFull (plen : κ → Nat) (cfg : Cfg) (st : St κ) : Option (St κ × List (PItem κ)) :=
  if cfg.minLen = 0 then some ({ st with cur := st.cur + cfg.batch },
    ((st.seqs.drop st.cur).take cfg.batch).map (fun s => ⟨s.1, List.range s.2, List.range (plen s.1)⟩))
  else
    let r := linLoop cfg.batch (fun s => decide (cfg.minLen < s.2)) (st.seqs.drop st.cur) st.cur []
    pCheckBatch cfg.batch ({ st with cur := r.1 }, r.2.map (fun s => ⟨s.1, List.range s.2, List.range (plen s.1)⟩))

/-- `_read_subseqs_random_1seq`, sequence_post_reader.py:157-190 -/
def pRead1 (plen : κ → Nat) (cfg : Cfg) (rng : Rng) (m : Nat) (st : St κ) : Option (St κ × List (PItem κ)) := do
  let r := linLoop cfg.batch (fun s => decide (0 < numSubs cfg s.2)) (st.seqs.drop st.cur) st.cur []
  let items ← r.2.zipIdx.mapM (fun (p : (κ × Nat) × Nat) =>
    (pReadRandom cfg rng (st.calls + p.2) p.1.2 (plen p.1.1) (min m p.1.2)).map (fun rows => (⟨p.1.1, rows.1, rows.2⟩ : PItem κ)))
  pCheckBatch cfg.batch ({ st with cur := r.1, calls := st.calls + r.2.length }, items)

/-- the body of `read`, sequence_post_reader.py:61-69 -/
def pReadBody (plen : κ → Nat) (cfg : Cfg) (rng : Rng) (st : St κ) : Option (St κ × List (PItem κ)) :=
  match cfg.maxLen with
  | none => pReadFull plen cfg st
  | some m =>
    match cfg.mode with
    | .sequential => (pLoop cfg.batch (pStepSequential plen cfg m) (total cfg st.seqs).toNat st []).bind (pCheckBatch cfg.batch)
    | .randomSlice => (pLoop cfg.batch (pStepRandom plen cfg rng m) (total cfg st.seqs).toNat st []).bind (pCheckBatch cfg.batch)
    | .randomSamples => (pLoop cfg.batch (pStepRandom plen cfg rng m) (total cfg st.seqs).toNat st []).bind (pCheckBatch cfg.batch)
    | .slice1 => pRead1 plen cfg rng m st
    | .samples1 => pRead1 plen cfg rng m st

/-- `SequencePostReader.read`, sequence_post_reader.py:55-79 (the lists `x`, `r` and `keys`) -/
def pRead (plen : κ → Nat) (cfg : Cfg) (rng : Rng) (shuf : List (κ × Nat) → List (κ × Nat)) (st : St κ) :
    Option (St κ × List (PItem κ)) := do
  let r ← pReadBody plen cfg rng (if needsReset cfg st then reset shuf st else st)
  some ({ r.1 with batch := r.1.batch + 1 }, r.2)

/-- a number of consecutive reads -/
def pReads (plen : κ → Nat) (cfg : Cfg) (rng : Rng) (shuf : List (κ × Nat) → List (κ × Nat)) :
    Nat → St κ → Option (St κ × List (List (PItem κ)))
  | 0, st => some (st, [])
  | n + 1, st => do
    let r ← pRead plen cfg rng shuf st
    let rs ← pReads plen cfg rng shuf n r.1
    some (rs.1, r.2 :: rs.2)

/-! ### classes -/

/-- sequence_class_reader.py:35, sequence_post_class_reader.py:35: the first word of every line with the number of the
line; a line without words raises -/
def classDict (lines : List Str) : Option (List (Str × Nat)) := do
  let names ← lines.mapM (fun l => (splitWs l).head?)
  return enumDict names

/-- sequence_class_reader.py:36-37: `num_classes` and the class of every path -/
def classTable (lines : List Str) (scp : List (Str × κ)) [DecidableEq κ] : Option (Nat × List (κ × Nat)) := do
  let d ← classDict lines
  let cs ← scp.mapM (fun e => (dictGet d e.1).map (fun c => (e.2, c)))
  return (d.length, cs.foldl (fun t e => dictSet t e.1 e.2) [])

/-- one row of `y`, sequence_class_reader.py:49-51: zeros with a one in the column of the class; a path that is not in the
table or a class out of range raises -/
def oneHot [DecidableEq κ] (t : Nat × List (κ × Nat)) (k : κ) : Option (List Nat) :=
  match dictGet t.2 k with
  | none => none
  | some c => if c < t.1 then some ((List.replicate t.1 0).set c 1) else none

/-- the labels returned by `read`, sequence_class_reader.py:47-54, sequence_post_class_reader.py:47-54 -/
def labels [DecidableEq κ] (t : Nat × List (κ × Nat)) (keys : List κ) : Option (List (List Nat)) := keys.mapM (oneHot t)

end Hyp.SeqReader
