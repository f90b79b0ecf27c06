import Verif.Generators.V1Lemmas

/-! Model of /repo/hyperion/generators/sequence_batch_generator_v2.py. -/

namespace Hyp.Gen

/-- arguments of the constructor (sequence_batch_generator_v2.py:29-46) which matter to the choice of the sub-sequences. `classList`: the
first column of the class list file. Not in the model: the data reader (see `rows`), transforms, `num_parts` (property C03 covers the
splitting), `return_utt1hot` (always raises: `self.num_utts` does not exist, line 249). `class_weight` and `shuffle_seqs` are stored
and never read by the code. -/
structure V2Cfg where
  batchSize : Nat
  iters : Option Nat
  egsPerClass : Nat
  egsPerUtt : Nat
  minLen : Option Int
  maxLen : Option Int
  prune : Int
  classList : Option (List String)
  initEpoch : Int
  seed : Int
  resetRng : Bool

/-- what the constructor computes once: the (pruned) table of (key, class name), the class number of each row, the number of classes and
the resolved length limits (cached properties). -/
structure V2Info where
  tab : List (String × String)
  ids : List Nat
  numClasses : Nat
  iters : Int

/-- the attributes which change: step and epoch counters and the random generator. -/
structure V2St (R : Rng) where
  curStep : Nat
  epoch : Int
  rng : R.σ

/-- one item of a batch: the sub-sequence, its class number and the row of its utterance in the table. -/
structure V2Item where
  sub : SubSeq
  cls : Nat
  row : Nat
deriving DecidableEq, Repr

/-- sequence_batch_generator_v2.py:103-107, `seq_lengths`: always the lengths of the pruned table. -/
def V2Info.lens (rows : String → Int) (i : V2Info) : List Int := i.tab.map (fun p => rows p.1)

/-- sequence_batch_generator_v2.py:119-130, `min_seq_length`, `max_seq_length`. -/
def minSeq2 (c : V2Cfg) (lens : List Int) : Except GErr Int :=
  match c.minLen with
  | some m => .ok m
  | none => match lens.min? with
    | some m => .ok m
    | none => .error .exc
def maxSeq2 (c : V2Cfg) (lens : List Int) : Except GErr Int :=
  match c.maxLen with
  | some m => .ok m
  | none => match lens.max? with
    | some m => .ok m
    | none => .error .exc

/-- sequence_batch_generator_v2.py:164-171: class numbers, from the sorted class names or from the class list file. -/
def v2Classes (c : V2Cfg) (tab : List (String × String)) : Except GErr (List Nat × Nat) :=
  match c.classList with
  | none => .ok (npInverse (tab.map Prod.snd), (npUnique (tab.map Prod.snd)).length)
  | some names =>
    let d := enumDict names
    match tab.mapM (fun p => dictGet d p.2) with
    | some ids => .ok (ids, d.length)
    | none => .error .exc

/-- sequence_batch_generator_v2.py:29-90, 154-158, 201-208: pruning, class numbers, number of passes ('auto': ceiling of mean length over
the mean of the limits; exact arithmetic instead of floats, a zero divisor raises here and, in the code, when the result is converted to an
integer). -/
def v2New (c : V2Cfg) (rows : String → Int) (tab0 : List (String × String)) : Except GErr V2Info := do
  let tab := if c.prune > 0 then tab0.filter (fun p => rows p.1 ≥ c.prune) else tab0
  let (ids, n) ← v2Classes c tab
  match c.iters with
  | some k => .ok ⟨tab, ids, n, k⟩
  | none => do
    let lens := tab.map (fun p => rows p.1)
    let lo ← minSeq2 c lens
    let hi ← maxSeq2 c lens
    let avg := (hi + lo).tdiv 2
    if avg = 0 ∨ lens = [] then .error .exc
    else .ok ⟨tab, ids, n, ceilDiv lens.sum (lens.length * avg)⟩

/-- sequence_batch_generator_v2.py:212-222 `reset`. -/
def V2St.reset {R : Rng} (c : V2Cfg) (s : V2St R) : V2St R :=
  { s with curStep := 0, rng := R.seeded (if c.resetRng then c.seed else c.seed + s.epoch) }

/-- the state after the constructor (lines 54, 81-82, 93). -/
def v2Init {R : Rng} (c : V2Cfg) : V2St R := V2St.reset c ⟨0, c.initEpoch, R.seeded 0⟩

/-- sequence_batch_generator_v2.py:139-145 `steps_per_epoch`; division by a zero batch size raises. -/
def v2Steps (c : V2Cfg) (i : V2Info) : Except GErr Int :=
  if c.batchSize = 0 then .error .exc else .ok (ceilDiv (i.iters * i.tab.length) c.batchSize)

/-- sequence_batch_generator_v2.py:176-180 `class2utt_idx[k]`. -/
def classRows (i : V2Info) (k : Nat) : List Nat := (List.range i.ids.length).filter (fun j => i.ids[j]? = some k)

/-- sequence_batch_generator_v2.py:269-274: draw classes until `k` non-empty ones have been found, with a bound on the number of draws. -/
def drawClasses {R : Rng} (i : V2Info) : Nat → Nat → R.σ → Except GErr (List Nat × R.σ)
  | _, 0, g => .ok ([], g)
  | 0, _ + 1, _ => .error .fuel
  | f + 1, k + 1, g => do
    let (v, g) ← draw g 0 i.numClasses
    if 0 < (classRows i v.toNat).length then do
      let (l, g) ← drawClasses i f k g
      .ok (v.toNat :: l, g)
    else drawClasses i f (k + 1) g

/-- one draw of a class when every class has an utterance (line 266; a batch of draws is taken as successive draws). -/
def drawClass {R : Rng} (i : V2Info) (g : R.σ) : Except GErr (Nat × R.σ) := do
  let (v, g) ← draw g 0 i.numClasses
  .ok (v.toNat, g)

/-- `np.repeat(l, n)`. -/
def npRepeat {α : Type} (n : Nat) (l : List α) : List α := (l.map (List.replicate n)).flatten

/-- sequence_batch_generator_v2.py:277: an utterance of class `k`. -/
def drawUtt {R : Rng} (i : V2Info) (k : Nat) (g : R.σ) : Except GErr (Nat × R.σ) := do
  let (v, g) ← draw g 0 (classRows i k).length
  let u ← getE (classRows i k) v.toNat
  .ok (u, g)

/-- a comprehension over a list with draws. -/
def mapE {R : Rng} {A B : Type} (f : A → R.σ → Except GErr (B × R.σ)) : List A → R.σ → Except GErr (List B × R.σ)
  | [], g => .ok ([], g)
  | a :: l, g => do
    let (b, g) ← f a g
    let (r, g) ← mapE f l g
    .ok (b :: r, g)

/-- sequence_batch_generator_v2.py:282-291: the sub-sequence of one utterance. -/
def v2Sub {R : Rng} (rows : String → Int) (i : V2Info) (lo hi : Int) (uc : Nat × Nat) (g : R.σ) : Except GErr (V2Item × R.σ) := do
  let p ← getE i.tab uc.1
  let full ← getE (i.lens rows) uc.1
  let (len, g) ← draw g (min full lo) (min full hi + 1)
  let (first, g) ← draw g 0 (full - len + 1)
  .ok (⟨⟨p.1, first, len⟩, uc.2, uc.1⟩, g)

/-- sequence_batch_generator_v2.py:265: number of classes of a batch (exact; the code divides floats). -/
def v2NumClasses (c : V2Cfg) : Nat := (c.batchSize + c.egsPerClass * c.egsPerUtt - 1) / (c.egsPerClass * c.egsPerUtt)

/-- sequence_batch_generator_v2.py:266-274: the classes of a batch. -/
def v2DrawClasses {R : Rng} (c : V2Cfg) (i : V2Info) (fuel : Nat) (g : R.σ) : Except GErr (List Nat × R.σ) :=
  if (List.range i.numClasses).all (fun k => decide (0 < (classRows i k).length)) then
    repeatE (drawClass i) (v2NumClasses c) g
  else drawClasses i fuel (v2NumClasses c) g

/-- sequence_batch_generator_v2.py:276-279: the (utterance row, class) pairs of a batch. -/
def v2Pairs {R : Rng} (c : V2Cfg) (i : V2Info) (fuel : Nat) (g : R.σ) : Except GErr (List (Nat × Nat) × R.σ) := do
  let (cl, g) ← v2DrawClasses c i fuel g
  let (us, g) ← mapE (drawUtt i) (npRepeat c.egsPerClass cl) g
  .ok ((npRepeat c.egsPerUtt us).zip (npRepeat c.egsPerUtt (npRepeat c.egsPerClass cl)), g)

/-- sequence_batch_generator_v2.py:258-300 `_read_random_subseqs`. A zero number of examples per class or utterance divides by zero; a list
shorter than the batch makes `utt_idx[i]` raise. -/
def v2Batch {R : Rng} (c : V2Cfg) (rows : String → Int) (i : V2Info) (fuel : Nat) (g : R.σ) : Except GErr (List V2Item × R.σ) :=
  if c.egsPerClass = 0 ∨ c.egsPerUtt = 0 then .error .exc
  else do
    let (ps, g) ← v2Pairs c i fuel g
    let lo ← minSeq2 c (i.lens rows)
    let hi ← maxSeq2 c (i.lens rows)
    if ps.length < c.batchSize then .error .exc
    else mapE (v2Sub rows i lo hi) (ps.take c.batchSize) g

/-- sequence_batch_generator_v2.py:228-231: the counters after a batch. -/
def v2Tick {R : Rng} (c : V2Cfg) (i : V2Info) (s : V2St R) : Except GErr (V2St R) := do
  let st ← v2Steps c i
  if st = 0 then .error .exc
  else
    let k := ((s.curStep : Int) + 1) % st
    if k = 0 then .ok { ({ s with curStep := 0 } : V2St R).reset c with epoch := s.epoch + 1 }
    else .ok { s with curStep := k.toNat }

/-- sequence_batch_generator_v2.py:224-231 `read`, up to the assembly of the arrays. -/
def v2Read {R : Rng} (c : V2Cfg) (rows : String → Int) (i : V2Info) (fuel : Nat) (s : V2St R) : Except GErr (List V2Item × V2St R) := do
  let (b, g) ← v2Batch c rows i fuel s.rng
  let s ← v2Tick c i { s with rng := g }
  .ok (b, s)

/-- successive calls of `read`. -/
def v2Run {R : Rng} (c : V2Cfg) (rows : String → Int) (i : V2Info) (fuel : Nat) : Nat → V2St R → Except GErr (List (List V2Item) × V2St R) :=
  repeatE (v2Read c rows i fuel)

end Hyp.Gen
