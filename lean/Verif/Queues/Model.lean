import Mathlib.Logic.Relation
import Mathlib.Data.List.Perm.Basic

/-!
Model of `GeneratorQueue` with threads (use_multiprocessing=False), /repo/hyperion/utils/queues.py:177-291 (the file
/repo/hyperion/io/queues.py is the same).

Small steps: one step is one atomic action of one thread: reading or setting the stop event, reading the size of the queue,
`next` of the generator, `put`, `empty`, `get` (the operations of `queue.Queue` and `threading.Event` hold a lock). Any
interleaving is allowed. Sleeping is not modelled: a waiting thread just tries again. The generator is a function from the
number of the item to the item; `gen n = none`: `next` raises (StopIteration or any other exception), an item `none` is
Python's `None`. `next` is atomic: with more than one worker this needs a thread-safe generator (a plain Python generator
raises ValueError when two threads are in it).
-/

namespace Hyp.Queues

/-- program counter of a worker, queues.py:211-221 -/
inductive WPc (α : Type) where
  /-- line 212: about to test the stop event -/
  | loop
  /-- line 214: about to test the size of the queue -/
  | size
  /-- line 215: about to call `next` -/
  | next
  /-- line 216: about to put the item -/
  | put (x : Option α)
  /-- the thread has ended -/
  | done

/-- program counter of the consumer, queues.py:285-291 -/
inductive CPc where
  /-- line 285: about to test `is_running` -/
  | loop
  /-- line 286: about to test if the queue is empty -/
  | empty
  /-- line 287: about to get an item -/
  | get
  /-- the generator returned by `get` has ended -/
  | done
  deriving DecidableEq

/-- the shared state: number of items the generator gave, the queue, the stop event, the threads, and what the consumer
took from the queue so far (in order, with the `None` items it does not deliver). -/
structure QSt (α : Type) where
  pos : Nat
  q : List (Option α)
  stop : Bool
  workers : List (WPc α)
  cons : CPc
  taken : List (Option α)

/-- what the user of `get` received: `None` is skipped (line 288). -/
def QSt.delivered {α : Type} (s : QSt α) : List α := s.taken.filterMap id

/-- queues.py:223-243 `start`: `w` threads, an unbounded queue. -/
def QSt.init (α : Type) (w : Nat) : QSt α := ⟨0, [], false, List.replicate w .loop, .loop, []⟩

/-- one atomic action. -/
inductive Step {α : Type} (gen : Nat → Option (Option α)) (maxQ : Nat) : QSt α → QSt α → Prop where
  /-- line 212 -/
  | wStop (s : QSt α) (l1 l2 : List (WPc α)) : s.workers = l1 ++ .loop :: l2 → s.stop = true →
      Step gen maxQ s { s with workers := l1 ++ .done :: l2 }
  | wGo (s : QSt α) (l1 l2 : List (WPc α)) : s.workers = l1 ++ .loop :: l2 → s.stop = false →
      Step gen maxQ s { s with workers := l1 ++ .size :: l2 }
  /-- line 214 -/
  | wRoom (s : QSt α) (l1 l2 : List (WPc α)) : s.workers = l1 ++ .size :: l2 → s.q.length < maxQ →
      Step gen maxQ s { s with workers := l1 ++ .next :: l2 }
  /-- line 218 -/
  | wFull (s : QSt α) (l1 l2 : List (WPc α)) : s.workers = l1 ++ .size :: l2 → ¬ s.q.length < maxQ →
      Step gen maxQ s { s with workers := l1 ++ .loop :: l2 }
  /-- line 215 -/
  | wNext (s : QSt α) (l1 l2 : List (WPc α)) (x : Option α) : s.workers = l1 ++ .next :: l2 → gen s.pos = some x →
      Step gen maxQ s { s with pos := s.pos + 1, workers := l1 ++ .put x :: l2 }
  /-- lines 219-221: the exception of `next` sets the stop event and ends the thread -/
  | wRaise (s : QSt α) (l1 l2 : List (WPc α)) : s.workers = l1 ++ .next :: l2 → gen s.pos = none →
      Step gen maxQ s { s with stop := true, workers := l1 ++ .done :: l2 }
  /-- line 216 -/
  | wPut (s : QSt α) (l1 l2 : List (WPc α)) (x : Option α) : s.workers = l1 ++ .put x :: l2 →
      Step gen maxQ s { s with q := s.q ++ [x], workers := l1 ++ .loop :: l2 }
  /-- line 285 -/
  | cStop (s : QSt α) : s.cons = .loop → s.stop = true → Step gen maxQ s { s with cons := .done }
  | cGo (s : QSt α) : s.cons = .loop → s.stop = false → Step gen maxQ s { s with cons := .empty }
  /-- line 286 -/
  | cSome (s : QSt α) : s.cons = .empty → s.q ≠ [] → Step gen maxQ s { s with cons := .get }
  /-- line 291 -/
  | cWait (s : QSt α) : s.cons = .empty → s.q = [] → Step gen maxQ s { s with cons := .loop }
  /-- lines 287-289 -/
  | cGet (s : QSt α) (x : Option α) (q : List (Option α)) : s.cons = .get → s.q = x :: q →
      Step gen maxQ s { s with q := q, cons := .loop, taken := s.taken ++ [x] }
  /-- lines 259-260: the owner calls `stop` -/
  | stop (s : QSt α) : Step gen maxQ s { s with stop := true }

/-- the states that `w` workers and one consumer can reach. -/
def Reach {α : Type} (gen : Nat → Option (Option α)) (maxQ w : Nat) (s : QSt α) : Prop :=
  Relation.ReflTransGen (Step gen maxQ) (QSt.init α w) s

end Hyp.Queues
