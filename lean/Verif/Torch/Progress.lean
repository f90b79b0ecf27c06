import Mathlib.Algebra.Order.Floor.Ring
import Mathlib.Algebra.Order.Field.Basic
import Verif.Text

/-!
Model of /repo/hyperion/torch/loggers/prog_logger.py (`ProgLogger`) and
/repo/hyperion/torch/loggers/loggers.py (`LoggerList`, `Logger`), and of the calls
/repo/hyperion/torch/torch_trainer.py makes to them.

Simplifications: the clock gives numbers of an ordered field, divisions are exact (the code: doubles); counters
are natural numbers; `'%.6f'` is the parameter `fmt`; `time.gmtime` does not overflow.  An exception is `none`.
-/

namespace Hyp.Torch
open Hyp.Text

/-- Day of the month (1-31) of the day `d` days after 1 January 1970 in the Gregorian calendar
(`tm_mday` of `time.gmtime`, called at prog_logger.py:131): the usual calculation with years starting in March. -/
def gmMday (d : Int) : Int :=
  let z := d + 719468
  let doe := z % 146097
  let yoe := (doe - doe / 1460 + doe / 36524 - doe / 146096) / 365
  let doy := doe - (365 * yoe + yoe / 4 - yoe / 100)
  let mp := (5 * doy + 2) / 153
  doy - (153 * mp + 2) / 5 + 1

/-- prog_logger.py:130-141 `sec2str` for a time of `s` whole seconds (`gmtime` drops the fraction downwards). -/
def sec2strI (s : Int) : Str :=
  let mday := gmMday (s / 86400)
  let r := s % 86400
  let h := r / 3600
  let m := r % 3600 / 60
  let sec := r % 60
  if 1 < mday then
    printNat (mday - 1).toNat ++ ':' :: (printNat h.toNat ++ ':' :: (printNat m.toNat ++ ':' :: printNat sec.toNat))
  else if 0 < h then printNat h.toNat ++ ':' :: (printNat m.toNat ++ ':' :: printNat sec.toNat)
  else if 0 < m then printNat m.toNat ++ ':' :: printNat sec.toNat
  else printNat sec.toNat ++ ['s']

section
variable {K : Type} [Field K] [LinearOrder K] [IsStrictOrderedRing K] [FloorRing K]

/-- prog_logger.py:130-141 `sec2str`. -/
def sec2str (t : K) : Str := sec2strI ⌊t⌋

/-- The attributes of a `ProgLogger` (prog_logger.py:24-36). -/
structure Prog (K : Type) where
  metrics : Option (List Str)
  interval : Nat
  epochs : Nat
  batches : Nat
  samples : Nat
  curEpoch : Nat
  curBatch : Nat
  curSample : Nat
  t0 : K

/-- prog_logger.py:24-36 `__init__`. -/
def Prog.new (metrics : Option (List Str)) (interval : Nat) : Prog K :=
  ⟨metrics, interval, 0, 0, 0, 0, 0, 0, 0⟩

/-- A call of a logger: the method with its arguments, and the clock at that time where the method reads it.
`logs = none` is `None`; an optional number is a keyword argument that may be absent. -/
inductive Ev (K : Type) where
  | trainBegin (epochs : Option Nat)
  | epochBegin (epoch : Nat) (samples batches : Option Nat) (now : K)
  | batchBegin (batch : Nat)
  | batchEnd (logs : Option (List (Str × K))) (batchSize : Option Nat) (now : K)
  | epochEnd (logs : Option (List (Str × K)))
  | trainEnd

/-- prog_logger.py:113-118: the estimated total time of the epoch; `none`: division by zero. -/
def totalTime (s : Prog K) (et : K) : Option K :=
  if 0 < s.batches then
    if s.curBatch = 0 then none else some (et / s.curBatch * s.batches)
  else if 0 < s.samples then
    if s.curSample = 0 then none else some (et / s.curSample * s.samples)
  else some (-1)

/-- prog_logger.py:110-126 `estimate_epoch_time`. -/
def estimate (s : Prog K) (now : K) : Option (Str × Option Str) :=
  (totalTime s (now - s.t0)).map fun total =>
    (sec2str (now - s.t0), if total = -1 then none else some (sec2str (total - (now - s.t0))))

/-- prog_logger.py:93-95, 102-104: the metrics of `logs` that are to be shown. -/
def metricsText (fmt : K → Str) (metrics : Option (List Str)) : List (Str × K) → Str
  | [] => []
  | (k, v) :: rest =>
    (if (metrics.map fun l => decide (k ∈ l)).getD true then ' ' :: (k ++ ": ".toList ++ fmt v) else []) ++
      metricsText fmt metrics rest

/-- prog_logger.py:73, 101: the beginning of a line. -/
def epochText (s : Prog K) : Str :=
  "epoch: ".toList ++ printNat (s.curEpoch + 1) ++ '/' :: (printNat s.epochs ++ [' '])

/-- `a/b(p%)` with `p = int(100*a/b)` (prog_logger.py:81-82, 88-89). -/
def ratioText (a b : Nat) : Str :=
  printNat a ++ '/' :: (printNat b ++ '(' :: (printNat ⌊(100 * a : K) / b⌋.toNat ++ "%)".toList))

/-- prog_logger.py:80-84: the part about batches. -/
def batchesText (s : Prog K) : Str :=
  if 0 < s.batches then " batches: ".toList ++ ratioText (K := K) s.curBatch s.batches
  else " batches: ".toList ++ printNat s.curBatch

/-- prog_logger.py:86-91: the part about samples. -/
def samplesText (s : Prog K) : Str :=
  if 0 < s.curSample then
    if 0 < s.samples then " samples: ".toList ++ ratioText (K := K) s.curSample s.samples
    else " samples: ".toList ++ printNat s.curSample
  else []

/-- prog_logger.py:74-78: the part about times. -/
def timeText (et : Str) (eta : Option Str) : Str :=
  " et: ".toList ++ et ++ (eta.map fun x => " eta: ".toList ++ x).getD []

/-- prog_logger.py:73-97: the line printed at the end of a batch. -/
def batchLine (fmt : K → Str) (s : Prog K) (now : K) (logs : Option (List (Str × K))) : Option Str :=
  (estimate s now).bind fun e => logs.map fun l =>
    epochText s ++ timeText e.1 e.2 ++ batchesText s ++ samplesText s ++ metricsText fmt s.metrics l

/-- prog_logger.py:66-97 `on_batch_end` (`cur_batch % interval` raises for interval 0). -/
def batchEnd (fmt : K → Str) (s : Prog K) (logs : Option (List (Str × K))) (bs : Option Nat) (now : K) :
    Option (Prog K × List Str) :=
  let s' := { s with curSample := s.curSample + bs.getD 0 }
  if s.interval = 0 then none
  else if s'.curBatch % s'.interval = 0 then (batchLine fmt s' now logs).map fun line => (s', [line])
  else some (s', [])

/-- prog_logger.py:43-58: `on_epoch_begin`. -/
def epochBegin (s : Prog K) (epoch : Nat) (samples batches : Option Nat) (now : K) : Prog K × List Str :=
  ({ s with curEpoch := epoch, samples := samples.getD 0, batches := batches.getD 0,
            curBatch := 0, curSample := 0, t0 := now },
   ["epoch: ".toList ++ printNat (epoch + 1) ++ '/' :: (printNat s.epochs ++ " starts".toList)])

/-- prog_logger.py:39-106: one call of a `ProgLogger`: the new attributes and the lines printed; `none`: exception. -/
def progStep (fmt : K → Str) (s : Prog K) : Ev K → Option (Prog K × List Str)
  | .trainBegin epochs => epochs.map fun e => ({ s with epochs := e }, [])
  | .epochBegin e samples batches now => some (epochBegin s e samples batches now)
  | .batchBegin b => some ({ s with curBatch := b }, [])
  | .batchEnd logs bs now => batchEnd fmt s logs bs now
  | .epochEnd logs => logs.map fun l => (s, [epochText s ++ metricsText fmt s.metrics l])
  | .trainEnd => some (s, [])

/-- A sequence of calls of one logger (its state with its reaction to a call): the final state and what it
produced, call by call. -/
def runCalls {σ ω : Type} (step : σ → Ev K → Option (σ × ω)) (s : σ) : List (Ev K) → Option (σ × List ω)
  | [] => some (s, [])
  | e :: es => (step s e).bind fun r => (runCalls step r.1 es).map fun q => (q.1, r.2 :: q.2)

/-- loggers.py:27, 38, …: `logs = logs or {}` before the call is passed on. -/
def listed : Ev K → Ev K
  | .batchEnd logs bs now => .batchEnd (some (logs.getD [])) bs now
  | .epochEnd logs => .epochEnd (some (logs.getD []))
  | e => e

/-- loggers.py:24-101: a `LoggerList` passes one call to its loggers, in their order; a logger is its state with
its reaction to a call; an exception stops the loop. -/
def listStep {σ ω : Type} (step : σ → Ev K → Option (σ × ω)) (e : Ev K) : List σ → Option (List (σ × ω))
  | [] => some []
  | l :: ls => (step l (listed e)).bind fun r => (listStep step e ls).map fun q => r :: q

/-- A sequence of calls to a `LoggerList`: the states of the loggers, and for every call what each of the
loggers produced. -/
def listRun {σ ω : Type} (step : σ → Ev K → Option (σ × ω)) (ls : List σ) :
    List (Ev K) → Option (List σ × List (List ω))
  | [] => some (ls, [])
  | e :: es => (listStep step e ls).bind fun r =>
      (listRun step (r.map Prod.fst) es).map fun q => (q.1, r.map Prod.snd :: q.2)

end

/-- What a training epoch gives its loggers for one batch: the size of the batch, the metrics accumulated so
far, and the clock at the end of the batch. -/
structure Batch (K : Type) where
  size : Nat
  logs : List (Str × K)
  now : K

/-- torch_trainer.py:85-107: the calls of `train_epoch`, batches numbered from `b`. -/
def batchCalls {K : Type} (b : Nat) : List (Batch K) → List (Ev K)
  | [] => []
  | x :: xs => .batchBegin b :: .batchEnd (some x.logs) (some x.size) x.now :: batchCalls (b + 1) xs

/-- An epoch of training: number of samples of the data set, clock at its start, batches, metrics at its end. -/
structure EpochRun (K : Type) where
  samples : Nat
  start : K
  batches : List (Batch K)
  logs : List (Str × K)

/-- torch_trainer.py:58-69: the calls of one epoch. -/
def epochCalls {K : Type} (epoch : Nat) (r : EpochRun K) : List (Ev K) :=
  .epochBegin epoch (some r.samples) none r.start :: (batchCalls 0 r.batches ++ [.epochEnd (some r.logs)])

/-- torch_trainer.py:56-69: the calls of the epochs from number `e` on. -/
def epochsCalls {K : Type} (e : Nat) : List (EpochRun K) → List (Ev K)
  | [] => []
  | r :: rs => epochCalls e r ++ epochsCalls (e + 1) rs

/-- torch_trainer.py:55-69 `fit`: the calls of a training that starts with epoch number `first`, with `epochs`
epochs announced. -/
def fitCalls {K : Type} (epochs first : Nat) (rs : List (EpochRun K)) : List (Ev K) :=
  .trainBegin (some epochs) :: epochsCalls first rs

end Hyp.Torch
