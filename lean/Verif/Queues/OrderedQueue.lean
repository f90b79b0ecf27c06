import Mathlib.Data.List.Basic
import Mathlib.Logic.Function.Basic

/-!
Model of `OrderedQueue` of /repo/hyperion/utils/queues.py:84-176 (io/queues.py is the same text): a thread that submits the indices of a sequence
to a pool of workers and puts the pending results into a bounded queue, and a generator that takes the results out. Each thread is a program of
atomic steps; a schedule is any list of events.

The module uses three names that it neither defines nor imports: `ThreadPool` (121), `get_index` (138) and `random` (133). `names` says
whether they are defined: `false` is the code as it is.
-/

namespace Hyp.OQ

/-- what `get_index(sequence, i)` gives: an item, `None`, or an exception -/
inductive Res (V : Type)
  | item (v : V)
  | skip
  | fail
deriving DecidableEq

structure Cfg (V : Type) where
  /-- `len(self.sequence)` -/
  n : Nat
  /-- `sequence[i]` -/
  f : Nat → Res V
  /-- `max_queue_size`; 0 is no bound -/
  cap : Nat
  names : Bool
  /-- `use_multiprocessing` -/
  procs : Bool
  /-- `scheduling is 'sequential'` -/
  sequential : Bool
  /-- the order of the indices after the shuffling of each round (trusted: `random.shuffle`) -/
  shuf : Nat → Nat → Nat

/-- the index of task `t`: position `t % n` of round `t / n`, 130-135 -/
def Cfg.index {V : Type} (c : Cfg V) (t : Nat) : Nat := if c.sequential then t % c.n else c.shuf (t / c.n) (t % c.n)

/-- where the submitting thread is: about to look at the stop signal; about to put task `t`; ended -/
inductive Prod
  | check
  | put (t : Nat)
  | dead
deriving DecidableEq

/-- where the generator is: about to look whether the queue runs; about to take a task; waiting for the result of task `t`; exhausted;
ended by the exception of task `t` -/
inductive Cons
  | check
  | take
  | wait (t : Nat)
  | done
  | failed (t : Nat)
deriving DecidableEq

structure St (V : Type) where
  prod : Prod
  /-- number of tasks submitted so far -/
  k : Nat
  finished : Nat → Bool
  queue : List Nat
  cons : Cons
  out : List V
  stopped : Bool
  closed : Bool

/-- one step of: the submitting thread, a worker that completes task `t`, the generator; or a step of `stop()` (169-173) called by another
thread: set the signal, clear the queue, close the pool -/
inductive Ev
  | produce
  | finish (t : Nat)
  | consume
  | signal
  | clear
  | close
deriving DecidableEq

/-- `start`, 110-126; `none`: NameError -/
def start {V : Type} (c : Cfg V) : Option (St V) :=
  if c.procs || c.names then some { prod := .check, k := 0, finished := fun _ => false, queue := [], cons := .check, out := [], stopped := false, closed := false }
  else none

/-- `_run`, 128-139: without indices the loop never looks at the signal; `put` waits while the queue is full -/
def produce {V : Type} (c : Cfg V) (s : St V) : St V :=
  match s.prod with
  | .dead => s
  | .check =>
    if c.sequential = false ∧ c.names = false then { s with prod := .dead }
    else if c.n = 0 then s
    else if s.stopped then { s with prod := .dead }
    else if c.names = false ∨ s.closed then { s with prod := .dead }
    else { s with prod := .put s.k, k := s.k + 1 }
  | .put t => if c.cap = 0 ∨ s.queue.length < c.cap then { s with prod := .check, queue := s.queue ++ [t] } else s

/-- `get`, 141-157; an exception of the task stops the queue and ends the generator (the calls of `stop` are one step here) -/
def consume {V : Type} (c : Cfg V) (s : St V) : St V :=
  match s.cons with
  | .check => if s.stopped then { s with cons := .done } else { s with cons := .take }
  | .take =>
    match s.queue with
    | [] => s
    | t :: q => { s with queue := q, cons := .wait t }
  | .wait t =>
    if s.finished t then
      match c.f (c.index t) with
      | .item v => { s with cons := .check, out := s.out ++ [v] }
      | .skip => { s with cons := .check }
      | .fail => { s with cons := .failed t, stopped := true, queue := [], closed := true }
    else s
  | .done => s
  | .failed _ => s

/-- workers complete submitted tasks, in any order (the number of workers and the order in which they begin are left open) -/
def step {V : Type} (c : Cfg V) (s : St V) : Ev → St V
  | .produce => produce c s
  | .finish t => if t < s.k then { s with finished := Function.update s.finished t true } else s
  | .consume => consume c s
  | .signal => { s with stopped := true }
  | .clear => { s with queue := [] }
  | .close => { s with closed := true }

def run {V : Type} (c : Cfg V) (s : St V) (es : List Ev) : St V := es.foldl (step c) s

end Hyp.OQ
