import Mathlib.Data.List.Basic
import Mathlib.Logic.Function.Basic

/-!
Model of `ThreadSafeIter`, /repo/hyperion/utils/multithreading.py:11-41: several threads take items from one iterator.

The wrapped iterator is a state and a function from the state to a result (an item or an exception, `StopIteration`
included) and a new state. A call of it is not atomic: it reads the state when it begins and stores the new state when it ends;
other threads may run in between. The interpreter runs one thread at a time and may switch between any two of the
steps below.
-/

namespace Hyp.Misc

/-- `next(it)` (`__next__`, multithreading.py:23-25) and `it.next()` (multithreading.py:27-29) -/
inductive Call
  | dunder
  | legacy
deriving DecidableEq

/-- where a thread is: outside of the iterator; before the lock; after taking the lock; inside the wrapped iterator, having
read its state -/
inductive Pc (σ : Type)
  | idle
  | want (c : Call)
  | hold (c : Call)
  | inside (s : σ)

/-- a completed call: thread, method, what it returned or raised -/
structure Done (ε α : Type) where
  thread : Nat
  call : Call
  result : Except ε α

/-- shared state of the wrapped iterator, owner of the lock, threads, completed calls in order of completion -/
structure World (σ ε α : Type) where
  st : σ
  lock : Option Nat
  pc : Nat → Pc σ
  out : List (Done ε α)

/-- what the scheduler may let happen: a thread begins a call, or a thread goes one step further -/
inductive Ev
  | call (t : Nat) (c : Call)
  | run (t : Nat)

variable {σ ε α : Type}

/-- One step. `nxt` is `__next__` of the wrapped iterator. The `with` block takes the lock when it is free (a thread that finds it
taken waits: nothing happens) and releases it whether the call returns or raises. Generators and other iterators of
Python 3 have no method `next`: that raises `attr`. With `useLock = false` the lock is ignored: the wrapped iterator used without
`ThreadSafeIter`, for comparison. -/
def step (useLock : Bool) (nxt : σ → Except ε α × σ) (attr : ε) (w : World σ ε α) : Ev → World σ ε α
  | .call t c =>
    match w.pc t with
    | .idle => { w with pc := Function.update w.pc t (.want c) }
    | _ => w
  | .run t =>
    match w.pc t with
    | .idle => w
    | .want c => if w.lock = none ∨ useLock = false then { w with lock := some t, pc := Function.update w.pc t (.hold c) } else w
    | .hold .legacy => { w with lock := none, pc := Function.update w.pc t .idle, out := w.out ++ [⟨t, .legacy, .error attr⟩] }
    | .hold .dunder => { w with pc := Function.update w.pc t (.inside w.st) }
    | .inside s => { st := (nxt s).2, lock := none, pc := Function.update w.pc t .idle, out := w.out ++ [⟨t, .dunder, (nxt s).1⟩] }

/-- a new `ThreadSafeIter` around an iterator in state `s`, multithreading.py:16-18 -/
def start (s : σ) : World σ ε α := { st := s, lock := none, pc := fun _ => .idle, out := [] }

/-- a whole schedule -/
def runEvs (useLock : Bool) (nxt : σ → Except ε α × σ) (attr : ε) (s : σ) (es : List Ev) : World σ ε α :=
  es.foldl (step useLock nxt attr) (start s)

end Hyp.Misc
