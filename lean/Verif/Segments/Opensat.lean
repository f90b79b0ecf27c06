import Verif.Text
import Mathlib.Tactic.Ring

/-! Model of `bin2intervals` and `write_opensat` (/repo/hyperion/bin/arkvad2nist.py, the same code in /repo/hyperion/bin/h5vad2nist.py). -/

namespace Hyp.Opensat
open Hyp.Text

/-- arkvad2nist.py:25-26: the positions where the difference of neighbours is not zero. -/
def changePoints (vad : List Int) : List Nat :=
  (List.range (vad.length - 1)).filter (fun p => decide ((vad.getD (p + 1) 0 - vad.getD p 0).natAbs > 0))

/-- one interval: first and last frame (before the scaling by 0.01) and state. -/
structure Interval where
  start : Nat
  stop : Nat
  speech : Bool
deriving DecidableEq, Repr

/-- arkvad2nist.py:38-45 the body of the loop over the change points. -/
def intervalStep (st : List Interval × Nat × Bool) (p : Nat) : List Interval × Nat × Bool :=
  (st.1 ++ [⟨st.2.1, p, st.2.2⟩], p, !st.2.2)

/-- arkvad2nist.py:24-53 `bin2intervals`; `none`: `vad[0]` of an empty array raises. The times are `0.01` times the frame numbers given here; the confidences
are all 1. -/
def bin2intervals (vad : List Int) : Option (List Interval) :=
  match vad with
  | [] => none
  | v :: _ =>
    let st := (changePoints vad).foldl intervalStep ([], 0, decide (v = 1))
    some (st.1 ++ [⟨st.2.1, vad.length, st.2.2⟩])

/-- `'%.2f' % (0.01 * k)` (exact hundredths). -/
def printHundredths (k : Nat) : Str := printNat (k / 100) ++ ['.', digitChar (k % 100 / 10), digitChar (k % 10)]

/-- arkvad2nist.py:63 one line, without the line break. -/
def opensatLine (key : Str) (i : Interval) : Str :=
  "X\tX\tX\tSAD\t".toList ++ key ++ '\t' :: (printHundredths i.start ++ '\t' :: (printHundredths i.stop ++ '\t' ::
    ((if i.speech then "speech".toList else "non-speech".toList) ++ '\t' :: "1.00".toList)))

/-- arkvad2nist.py:56-63 `write_opensat`: the content of the file. -/
def writeOpensat (key : Str) (vad : List Int) : Option Str := (bin2intervals vad).map (fun l => l.flatMap (fun i => opensatLine key i ++ ['\n']))

end Hyp.Opensat
