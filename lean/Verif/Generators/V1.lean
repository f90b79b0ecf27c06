import Verif.Generators.Rng
import Verif.PyDict
import Mathlib.Order.Nat
import Mathlib.Order.Lattice
import Mathlib.Data.String.Basic

/-! Model of /repo/hyperion/generators/sequence_batch_generator_v1.py. -/

namespace Hyp.Gen

/-- `--gen-method` (sequence_batch_generator_v1.py:399-402) -/
inductive GenMethod where
  | fullSeqs | random | sequential
deriving DecidableEq

/-- why a call does not return a value: a Python exception, or a `while` loop which has not ended within the given number of
iterations. -/
inductive GErr where
  | exc | fuel
deriving DecidableEq

/-- arguments of the constructor (sequence_batch_generator_v1.py:29-46). `num_parts` > 1 always raises (line 51 passes an
unknown keyword) and is not in the model; neither are the transform and the data reader itself (see `rows`).
`iters = none`: 'auto'; `balance = some imb`: class_weight = 'balanced' with max_class_imbalance `imb` (a natural number here). -/
structure V1Cfg where
  batchSize : Nat
  iters : Option Nat
  method : GenMethod
  minLen : Option Int
  maxLen : Option Int
  overlap : Int
  prune : Int
  balance : Option Nat
  seqBalanced : Bool
  shuffle : Bool
  initEpoch : Int
  seed : Int
  resetRng : Bool

/-- a requested sub-sequence: utterance, first frame, number of frames. -/
structure SubSeq where
  key : String
  first : Int
  len : Int
deriving DecidableEq, Repr

/-- attributes of the generator. Rows of the utterance table are (key, class). `_init_seq_lengths` and `_seq_lengths` are caches
(None = `none`). -/
structure V1St (R : Rng) where
  initTab : List (String × String)
  tab : List (String × String)
  initLens : Option (List Int)
  lens : Option (List Int)
  initNsub : Option (List Int)
  nsub : Option (List Int)
  frame : List Int
  sub : List Int
  curSeq : Nat
  curStep : Nat
  epoch : Int
  rng : R.σ

/-- sequence_batch_generator_v1.py:103-107, the property `seq_lengths`: reads the lengths of the current table and fills both
caches when the second one is empty. `rows k` is the number of frames stored under `k` (`self.r.read_num_rows`). -/
def V1St.force {R : Rng} (rows : String → Int) (s : V1St R) : V1St R :=
  match s.lens with
  | some _ => s
  | none => { s with initLens := some (s.tab.map (fun p => rows p.1)), lens := some (s.tab.map (fun p => rows p.1)) }

/-- value of the property `seq_lengths`. -/
def V1St.lensVal {R : Rng} (rows : String → Int) (s : V1St R) : List Int :=
  (s.lens).getD (s.tab.map (fun p => rows p.1))

/-- sequence_batch_generator_v1.py:117-129, `min_seq_length`/`max_seq_length`; np.min/np.max of an empty array raise. The code caches the
values; afterwards the table of lengths is only permuted, so the model recomputes them. -/
def minSeq (c : V1Cfg) (lens : List Int) : Except GErr Int :=
  match c.minLen with
  | some m => .ok m
  | none => match lens.min? with
    | some m => .ok m
    | none => .error .exc
def maxSeq (c : V1Cfg) (lens : List Int) : Except GErr Int :=
  match c.maxLen with
  | some m => .ok m
  | none => match lens.max? with
    | some m => .ok m
    | none => .error .exc

/-- ceiling of a quotient (exact; the code divides floats). -/
def ceilDiv (a b : Int) : Int := -((-a) / b)

/-- sequence_batch_generator_v1.py:177-193 `_balance_class_weight_helper`: repeat the samples of small classes. A zero
imbalance divides by zero (numpy: infinity, then an overflow error in `int`). -/
def balanceIdx (ids : List Nat) (imb : Nat) : Except GErr (List Nat) :=
  match ids.max? with
  | none => .error .exc
  | some top =>
    let counts := (List.range (top + 1)).map (fun i => ids.count i)
    let maxSamples := (counts.foldl max 0 + imb - 1) / imb
    let part := fun i : Nat =>
      let idx := (List.range ids.length).filter (fun j => ids[j]? = some i)
      let n := ids.count i
      if n < maxSamples then (List.replicate ((maxSamples + n - 1) / n) idx).flatten.take maxSamples else idx
    let out := ((List.range (top + 1)).map part).flatten
    if 0 < imb ∧ out.length ≥ counts.length * maxSamples then .ok out else .error .exc

/-- pick rows, `IndexError` when out of range. -/
def pick {α : Type} (l : List α) (idx : List Nat) : Except GErr (List α) :=
  match gather l idx with
  | some r => .ok r
  | none => .error .exc

/-- sequence_batch_generator_v1.py:56-60, 79-81: the state before pruning. -/
def V1St.empty {R : Rng} (c : V1Cfg) (tab : List (String × String)) : V1St R :=
  { initTab := tab, tab := tab, initLens := none, lens := none, initNsub := none, nsub := none, frame := [], sub := [],
    curSeq := 0, curStep := 0, epoch := c.initEpoch, rng := R.seeded 0 }

/-- sequence_batch_generator_v1.py:65-66, 157-160 `_prune_min_length`: note that `_init_seq_lengths` keeps the lengths of the table
before pruning. -/
def V1St.pruneMin {R : Rng} (c : V1Cfg) (rows : String → Int) (s : V1St R) : V1St R :=
  if c.prune > 0 then
    let s' := s.force rows
    { s' with tab := s'.tab.filter (fun p => rows p.1 ≥ c.prune), lens := none }
  else s

/-- sequence_batch_generator_v1.py:73-74, 197-209 `_balance_class_weight`; line 207 assigns a misspelt attribute, so
`_init_seq_lengths` is left as it was. -/
def V1St.balanceClasses {R : Rng} (c : V1Cfg) (s : V1St R) : Except GErr (V1St R) :=
  match c.balance with
  | none => .ok s
  | some imb => do
    let idx ← balanceIdx (npInverse (s.tab.map Prod.snd)) imb
    let tab ← pick s.tab idx
    match s.initLens with
    | none => .ok { s with tab := tab }
    | some il => do
      let l ← pick il idx
      .ok { s with tab := tab, lens := some l }

/-- sequence_batch_generator_v1.py:80: `self.init_u2c = self.u2c`. -/
def V1St.fixTab {R : Rng} (s : V1St R) : V1St R := { s with initTab := s.tab }

/-- sequence_batch_generator_v1.py:226-253 `_prepare_subseqs`. A zero shift makes numpy produce infinities; the model raises. -/
def V1St.prepare {R : Rng} (c : V1Cfg) (rows : String → Int) (s : V1St R) : Except GErr (V1St R) :=
  match c.method with
  | .sequential => do
    let s' := s.force rows
    let lens := s.lensVal rows
    let lo ← minSeq c lens
    let hi ← maxSeq c lens
    let shift := (hi + lo).tdiv 2 - c.overlap
    if shift = 0 then .error .exc
    else
      let n := lens.map (fun l => ceilDiv l shift)
      .ok { s' with initNsub := some n, nsub := some n, frame := s.tab.map (fun _ => 0), sub := s.tab.map (fun _ => 0) }
  | _ => .ok s

/-- sequence_batch_generator_v1.py:93-96, 213-221 `_compute_iters_auto`: only the random method looks at the lengths. -/
def V1St.autoIters {R : Rng} (c : V1Cfg) (rows : String → Int) (s : V1St R) : Except GErr (V1St R) :=
  match c.iters, c.method with
  | none, .random => do
    let s' := s.force rows
    let lens := s.lensVal rows
    let lo ← minSeq c lens
    let hi ← maxSeq c lens
    if (hi + lo).tdiv 2 = 0 ∨ lens = [] then .error .exc else .ok s'
  | _, _ => .ok s

/-- the value of `iters_per_epoch`; for the random method with 'auto', the ceiling of mean length over average sub-sequence length
(exact; the code uses floats). -/
def V1St.itersVal {R : Rng} (c : V1Cfg) (rows : String → Int) (s : V1St R) : Except GErr Int :=
  match c.iters, c.method with
  | some n, _ => .ok n
  | none, .random => do
    let lens := s.lensVal rows
    let lo ← minSeq c lens
    let hi ← maxSeq c lens
    .ok (ceilDiv lens.sum (lens.length * (hi + lo).tdiv 2))
  | none, _ => .ok 1

/-- sequence_batch_generator_v1.py:257-281 `reset`. -/
def V1St.reset {R : Rng} (c : V1Cfg) (rows : String → Int) (s : V1St R) : Except GErr (V1St R) := do
  let rng0 := R.seeded (if c.resetRng then c.seed else c.seed + s.epoch)
  let s1 : V1St R := { s with curSeq := 0, curStep := 0, rng := rng0 }
  let s2 ← (if c.shuffle then do
      let s1' := if s1.initLens.isNone then s1.force rows else s1
      let idx := (R.shuffle rng0 s1'.initTab.length).1
      let tab ← pick s1'.initTab idx
      let lens ← pick (s1'.initLens.getD []) idx
      let nsub ← (match s1'.initNsub with
        | none => .ok s1'.nsub
        | some n => (pick n idx).map some)
      .ok { s1' with tab := tab, lens := some lens, nsub := nsub, rng := (R.shuffle rng0 s1'.initTab.length).2 }
    else .ok s1 : Except GErr (V1St R))
  .ok (match c.method with
    | .sequential => { s2 with sub := s2.sub.map (fun _ => 0), frame := s2.frame.map (fun _ => 0) }
    | _ => s2)

/-- sequence_batch_generator_v1.py:29-98, the constructor. -/
def v1New {R : Rng} (c : V1Cfg) (rows : String → Int) (tab : List (String × String)) : Except GErr (V1St R) := do
  let s ← ((V1St.empty c tab).pruneMin c rows).balanceClasses c
  let s ← s.fixTab.prepare c rows
  let s ← s.autoIters c rows
  s.reset c rows

/-- sequence_batch_generator_v1.py:133-147 `steps_per_epoch` (the code caches it; afterwards the tables are only permuted). -/
def V1St.steps {R : Rng} (c : V1Cfg) (rows : String → Int) (s : V1St R) : Except GErr Int := do
  let it ← s.itersVal c rows
  let n ← (match c.method with
    | .sequential =>
      if c.seqBalanced then
        (match (s.nsub.getD []).max? with
         | some m => .ok (s.tab.length * m)
         | none => .error .exc)
      else .ok (s.nsub.getD []).sum
    | _ => .ok (s.tab.length : Int) : Except GErr Int)
  .ok (it * n / c.batchSize)

/-- sequence_batch_generator_v1.py:323-333 `_read_full_seqs`, the keys. When the slice is short, line 329 adds a numpy array to a list, which
numpy takes as an element-wise sum: it raises (shapes differ) or gives an array whose length is not the batch size, so the assertion of
line 331 fails. -/
def readFull {R : Rng} (c : V1Cfg) (s : V1St R) : Except GErr (List SubSeq × V1St R) :=
  let ks := (s.tab.drop s.curSeq).take c.batchSize
  if ks.length < c.batchSize then .error .exc
  else .ok (ks.map (fun p => ⟨p.1, 0, 0⟩), { s with curSeq := s.curSeq + c.batchSize })

/-- one draw of `rng.randint`. -/
def draw {R : Rng} (s : R.σ) (lo hi : Int) : Except GErr (Int × R.σ) :=
  match R.randint s lo hi with
  | some r => .ok r
  | none => .error .exc

/-- list access, `IndexError` when out of range. -/
def getE {α : Type} (l : List α) (i : Nat) : Except GErr α :=
  match l[i]? with
  | some r => .ok r
  | none => .error .exc

/-- sequence_batch_generator_v1.py:343-357, one turn of the loop of `_read_random_subseqs`. -/
def randomOne {R : Rng} (lo hi : Int) (lens : List Int) (s : V1St R) : Except GErr (SubSeq × V1St R) := do
  let p ← getE s.tab s.curSeq
  let full ← getE lens s.curSeq
  let (len, g) ← draw s.rng (min full lo) (min full hi + 1)
  let (first, g) ← draw g 0 (full - len + 1)
  .ok (⟨p.1, first, len⟩, { s with rng := g, curSeq := (s.curSeq + 1) % s.tab.length })

/-- `n` items, one after the other. -/
def repeatE {S A : Type} (f : S → Except GErr (A × S)) : Nat → S → Except GErr (List A × S)
  | 0, s => .ok ([], s)
  | n + 1, s => do
    let (a, s) ← f s
    let (l, s) ← repeatE f n s
    .ok (a :: l, s)

/-- sequence_batch_generator_v1.py:337-360 `_read_random_subseqs`: the requested sub-sequences. -/
def readRandom {R : Rng} (c : V1Cfg) (rows : String → Int) (s : V1St R) : Except GErr (List SubSeq × V1St R) := do
  let lens := s.lensVal rows
  let lo ← minSeq c lens
  let hi ← maxSeq c lens
  repeatE (randomOne lo hi lens) c.batchSize (s.force rows)

/-- sequence_batch_generator_v1.py:378-407, the part of the loop which takes a sub-sequence of the utterance at `cur_seq`. -/
def seqTake {R : Rng} (c : V1Cfg) (lo hi : Int) (lens nsub : List Int) (s : V1St R) : Except GErr (SubSeq × V1St R) := do
  let p ← getE s.tab s.curSeq
  let first ← getE s.frame s.curSeq
  let full ← getE lens s.curSeq
  let k ← getE s.sub s.curSeq
  let n ← getE nsub s.curSeq
  let rem := full - first
  let (len, fr, g) ← (if k = n - 1 then .ok (min rem hi, 0, s.rng)
    else do
      let (len, g) ← draw s.rng (min rem lo) (min (max lo (rem - lo)) hi + 1)
      .ok (len, min (full - lo) (first + len - c.overlap), g) : Except GErr (Int × Int × R.σ))
  let k' := if c.seqBalanced then (k + 1).fmod n else k + 1
  .ok (⟨p.1, first, len⟩,
    { s with rng := g, frame := s.frame.set s.curSeq fr, sub := s.sub.set s.curSeq k', curSeq := (s.curSeq + 1) % s.tab.length })

/-- sequence_batch_generator_v1.py:370-411, the `while` loop of `_read_sequential_subseqs`, with a bound on the number of iterations. -/
def seqLoop {R : Rng} (c : V1Cfg) (lo hi : Int) (lens nsub : List Int) :
    Nat → Nat → V1St R → Except GErr (List SubSeq × V1St R)
  | _, 0, s => .ok ([], s)
  | 0, _ + 1, _ => .error .fuel
  | f + 1, k + 1, s => do
    let j ← getE s.sub s.curSeq
    let n ← getE nsub s.curSeq
    if j = n then seqLoop c lo hi lens nsub f (k + 1) { s with curSeq := (s.curSeq + 1) % s.tab.length }
    else do
      let (a, s) ← seqTake c lo hi lens nsub s
      let (l, s) ← seqLoop c lo hi lens nsub f k s
      .ok (a :: l, s)

/-- sequence_batch_generator_v1.py:364-414 `_read_sequential_subseqs`: the requested sub-sequences. -/
def readSeq {R : Rng} (c : V1Cfg) (rows : String → Int) (fuel : Nat) (s : V1St R) : Except GErr (List SubSeq × V1St R) := do
  let lens := s.lensVal rows
  let lo ← minSeq c lens
  let hi ← maxSeq c lens
  seqLoop c lo hi lens (s.nsub.getD []) fuel c.batchSize (s.force rows)

/-- sequence_batch_generator_v1.py:289-294: the dispatch on `gen_method`. -/
def v1Body {R : Rng} (c : V1Cfg) (rows : String → Int) (fuel : Nat) (s : V1St R) : Except GErr (List SubSeq × V1St R) :=
  match c.method with
  | .fullSeqs => readFull c s
  | .random => readRandom c rows s
  | .sequential => readSeq c rows fuel s

/-- sequence_batch_generator_v1.py:296-299: the counters after a batch; `% 0` raises. -/
def v1Tick {R : Rng} (c : V1Cfg) (rows : String → Int) (s : V1St R) : Except GErr (V1St R) := do
  let st ← s.steps c rows
  if st = 0 then .error .exc
  else
    let k := ((s.curStep : Int) + 1) % st
    if k = 0 then do
      let s' ← ({ s with curStep := 0 } : V1St R).reset c rows
      .ok { s' with epoch := s'.epoch + 1 }
    else .ok { s with curStep := k.toNat }

/-- sequence_batch_generator_v1.py:286-299 `read`, up to the assembly of the arrays. -/
def v1Read {R : Rng} (c : V1Cfg) (rows : String → Int) (fuel : Nat) (s : V1St R) : Except GErr (List SubSeq × V1St R) := do
  let (b, s) ← v1Body c rows fuel s
  let s ← v1Tick c rows s
  .ok (b, s)

/-- successive calls of `read`. -/
def v1Run {R : Rng} (c : V1Cfg) (rows : String → Int) (fuel : Nat) : Nat → V1St R → Except GErr (List (List SubSeq) × V1St R) :=
  repeatE (v1Read c rows fuel)

/-- sequence_batch_generator_v1.py:164-173 `_prepare_class_info`: class numbers (position in the sorted list of classes, or in the class
list file) and the dictionary from utterance to class number. -/
def classDict (classes : List String) : List (String × Nat) := enumDict classes
def key2class (classes : List String) (tab : List (String × String)) : Except GErr (List (String × Nat)) :=
  tab.foldlM (fun d p => match dictGet (classDict classes) p.2 with
    | some i => .ok (dictSet d p.1 i)
    | none => .error .exc) []

end Hyp.Gen
