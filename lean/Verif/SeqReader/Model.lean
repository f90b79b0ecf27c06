import Mathlib.Order.Nat
import Mathlib.Data.List.Sort
import Mathlib.Algebra.Order.Ring.Int

/-!
Model of /repo/hyperion/helpers/sequence_reader.py (with the readers of /repo/hyperion/io/hyp_data_reader.py): the reader of mini-batches of sub-sequences as a
state machine. A sequence is its path and its number of rows; what is read from a sequence is the list of the numbers of the rows. `none` is an exception. The
random number generator is an arbitrary stream of values (`Rng`), the shuffling of the list an arbitrary function given to every read. Lengths, overlap and
batch size are integers.
-/

namespace Hyp.SeqReader

/-- `seq_split_mode`, sequence_reader.py:32, 159-167 -/
inductive Mode where
  | sequential
  | randomSlice
  | randomSamples
  | slice1
  | samples1
deriving DecidableEq

/-- options of `SequenceReader`, sequence_reader.py:26-36 -/
structure Cfg where
  batch : Nat
  minLen : Nat
  maxLen : Option Nat
  mode : Mode
  overlap : Nat
deriving DecidableEq

/-- what the generator returns at each of its calls: `randint(0, h)` and `choice(np.arange(L), size=n)` -/
structure Rng where
  slice : Nat → Nat → Nat
  choice : Nat → Nat → Nat → List Nat

/-- a sub-sequence read: path of the sequence and numbers of its rows -/
structure Item (κ : Type) where
  key : κ
  rows : List Nat
deriving DecidableEq

/-- state, sequence_reader.py:37-66: list of sequences with their lengths, `cur_seq`, `cur_subseq`, `cur_frame`, `cur_batch` and the number of calls of the generator -/
structure St (κ : Type) where
  seqs : List (κ × Nat)
  cur : Nat
  cnt : Nat → Nat
  frame : Nat → Nat
  batch : Int
  calls : Nat

variable {κ : Type}

/-- `SequenceReader.__init__`, sequence_reader.py:26-67 -/
def init (seqs : List (κ × Nat)) : St κ := ⟨seqs, 0, fun _ => 0, fun _ => 0, -1, 0⟩

/-- `num_subseqs` of one sequence, sequence_reader.py:91-105 -/
def numSubs (cfg : Cfg) (L : Nat) : Int :=
  match cfg.maxLen with
  | none => if cfg.minLen ≤ L then 1 else 0
  | some m =>
    if cfg.mode = .slice1 ∨ cfg.mode = .samples1 then (if cfg.minLen ≤ L then 1 else 0)
    else ((L : Int) - cfg.overlap) / ((m : Int) - cfg.overlap)
      + (if (cfg.minLen : Int) ≤ (L : Int) - ((L : Int) - cfg.overlap) / ((m : Int) - cfg.overlap) * ((m : Int) - cfg.overlap) then 1 else 0)

/-- `np.sum(self.num_subseqs)`, sequence_reader.py:108-109 -/
def total (cfg : Cfg) (seqs : List (κ × Nat)) : Int := (seqs.map (fun s => numSubs cfg s.2)).sum

/-- `num_batches`, sequence_reader.py:122-126 -/
def numBatches (cfg : Cfg) (seqs : List (κ × Nat)) : Int := total cfg seqs / (cfg.batch : Int)

/-- `reset`, sequence_reader.py:130-149; `shuf` is the identity without `shuffle_seqs` -/
def reset (shuf : List (κ × Nat) → List (κ × Nat)) (st : St κ) : St κ :=
  { st with seqs := shuf st.seqs, cur := 0, batch := 0, cnt := fun _ => 0, frame := fun _ => 0 }

/-- `X = self.f[dataset][index:index+num_samples]`, hyp_data_reader.py:77, 90 -/
def sliceRows (L index num : Nat) : List Nat := ((List.range L).drop index).take num

/-- `read_random_slice`, hyp_data_reader.py:81-91: `randint` raises when the upper limit is not positive -/
def readRandomSlice (rng : Rng) (call L num : Nat) : Option (List Nat) :=
  if L + 1 ≤ num then none else some (sliceRows L (rng.slice call (L - num + 1)) num)

/-- `read_random_samples`, hyp_data_reader.py:94-104: no samples raise (`index[0]`) -/
def readRandomSamples (rng : Rng) (call L num : Nat) : Option (List Nat) := do
  let idx := (rng.choice call L num).mergeSort (· ≤ ·)
  let mn ← idx.head?
  let mx ← idx.getLast?
  (idx.map (fun i => i - mn)).mapM (fun i => (sliceRows L mn (mx + 1 - mn))[i]?)

/-- `read_f`, sequence_reader.py:236-241, 265-270 -/
def readRandom (cfg : Cfg) (rng : Rng) (call L num : Nat) : Option (List Nat) :=
  if cfg.mode = .randomSlice ∨ cfg.mode = .slice1 then readRandomSlice rng call L num else readRandomSamples rng call L num

/-- one iteration of the loop of `_read_subseqs_sequential`, sequence_reader.py:214-227 -/
def stepSequential (cfg : Cfg) (m : Nat) (st : St κ) : Option (St κ × List (Item κ)) := do
  let s ← st.seqs[st.cur]?
  if (st.cnt st.cur : Int) < numSubs cfg s.2 then
    some ({ st with cur := (st.cur + 1) % st.seqs.length, cnt := Function.update st.cnt st.cur (st.cnt st.cur + 1),
                    frame := Function.update st.frame st.cur (st.frame st.cur + (m - cfg.overlap)) },
      [⟨s.1, sliceRows s.2 (st.frame st.cur) (min (s.2 - st.frame st.cur) m)⟩])
  else some ({ st with cur := (st.cur + 1) % st.seqs.length }, [])

/-- one iteration of the loop of `_read_subseqs_random`, sequence_reader.py:277-289 -/
def stepRandom (cfg : Cfg) (rng : Rng) (m : Nat) (st : St κ) : Option (St κ × List (Item κ)) := do
  let s ← st.seqs[st.cur]?
  if (st.cnt st.cur : Int) < numSubs cfg s.2 then
    (readRandom cfg rng st.calls s.2 (if numSubs cfg s.2 = 1 then min m s.2 else m)).map (fun rows =>
      ({ st with cur := (st.cur + 1) % st.seqs.length, cnt := Function.update st.cnt st.cur (st.cnt st.cur + 1), calls := st.calls + 1 }, [⟨s.1, rows⟩]))
  else some ({ st with cur := (st.cur + 1) % st.seqs.length }, [])

/-- the loop with `break` when the batch is full, sequence_reader.py:213-229, 277-291; the number of iterations is at most the total number of sub-sequences -/
def loop (B : Nat) (step : St κ → Option (St κ × List (Item κ))) : Nat → St κ → List (Item κ) → Option (St κ × List (Item κ))
  | 0, st, acc => some (st, acc)
  | n + 1, st, acc => do
    let r ← step st
    if (acc ++ r.2).length = B then some (r.1, acc ++ r.2) else loop B step n r.1 (acc ++ r.2)

/-- loops over the rest of the list, sequence_reader.py:194-200, 248-257: position after the loop and the sequences taken -/
def linLoop (B : Nat) (elig : κ × Nat → Bool) : List (κ × Nat) → Nat → List (κ × Nat) → Nat × List (κ × Nat)
  | [], cur, acc => (cur, acc)
  | s :: rest, cur, acc =>
    if (if elig s then acc ++ [s] else acc).length = B then (cur + 1, if elig s then acc ++ [s] else acc)
    else linLoop B elig rest (cur + 1) (if elig s then acc ++ [s] else acc)

/-- `assert(len(x) == self.batch_size)`, sequence_reader.py:201, 230, 259, 292 -/
def checkBatch (B : Nat) (r : St κ × List (Item κ)) : Option (St κ × List (Item κ)) := if r.2.length = B then some r else none

/-- `read_full_seqs`, sequence_reader.py:186-203 -/
def readFull (cfg : Cfg) (st : St κ) : Option (St κ × List (Item κ)) :=
  if cfg.minLen = 0 then some ({ st with cur := st.cur + cfg.batch }, ((st.seqs.drop st.cur).take cfg.batch).map (fun s => ⟨s.1, List.range s.2⟩))
  else
    let r := linLoop cfg.batch (fun s => decide (cfg.minLen < s.2)) (st.seqs.drop st.cur) st.cur []
    checkBatch cfg.batch ({ st with cur := r.1 }, r.2.map (fun s => ⟨s.1, List.range s.2⟩))

/-- `_read_subseqs_random_1seq`, sequence_reader.py:235-260 -/
def read1 (cfg : Cfg) (rng : Rng) (m : Nat) (st : St κ) : Option (St κ × List (Item κ)) := do
  let r := linLoop cfg.batch (fun s => decide (0 < numSubs cfg s.2)) (st.seqs.drop st.cur) st.cur []
  let items ← r.2.zipIdx.mapM (fun (p : (κ × Nat) × Nat) => (readRandom cfg rng (st.calls + p.2) p.1.2 (min m p.1.2)).map (fun rows => (⟨p.1.1, rows⟩ : Item κ)))
  checkBatch cfg.batch ({ st with cur := r.1, calls := st.calls + r.2.length }, items)

/-- the body of `read`, sequence_reader.py:159-167 -/
def readBody (cfg : Cfg) (rng : Rng) (st : St κ) : Option (St κ × List (Item κ)) :=
  match cfg.maxLen with
  | none => readFull cfg st
  | some m =>
    match cfg.mode with
    | .sequential => (loop cfg.batch (stepSequential cfg m) (total cfg st.seqs).toNat st []).bind (checkBatch cfg.batch)
    | .randomSlice => (loop cfg.batch (stepRandom cfg rng m) (total cfg st.seqs).toNat st []).bind (checkBatch cfg.batch)
    | .randomSamples => (loop cfg.batch (stepRandom cfg rng m) (total cfg st.seqs).toNat st []).bind (checkBatch cfg.batch)
    | .slice1 => read1 cfg rng m st
    | .samples1 => read1 cfg rng m st

/-- whether `read` starts a new epoch, sequence_reader.py:157 -/
def needsReset (cfg : Cfg) (st : St κ) : Bool := decide (st.batch = numBatches cfg st.seqs ∨ st.batch = -1)

/-- `read`, sequence_reader.py:153-175 (the list `x`; `keys` are the keys of the items) -/
def read (cfg : Cfg) (rng : Rng) (shuf : List (κ × Nat) → List (κ × Nat)) (st : St κ) : Option (St κ × List (Item κ)) := do
  let r ← readBody cfg rng (if needsReset cfg st then reset shuf st else st)
  some ({ r.1 with batch := r.1.batch + 1 }, r.2)

/-- a number of consecutive reads -/
def reads (cfg : Cfg) (rng : Rng) (shuf : List (κ × Nat) → List (κ × Nat)) : Nat → St κ → Option (St κ × List (List (Item κ)))
  | 0, st => some (st, [])
  | n + 1, st => do
    let r ← read cfg rng shuf st
    let rs ← reads cfg rng shuf n r.1
    some (rs.1, r.2 :: rs.2)

end Hyp.SeqReader
