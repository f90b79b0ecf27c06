import Verif.Segments.Rttm
import Verif.Round
import Verif.TextLemmas

/-! Model of /repo/hyperion/utils/segment_list.py: `to_bin_vad`, and of `RTTM.to_segment_list`. Times are elements of an ordered field with floor. -/

namespace Hyp.Segments
open Hyp.Text

/-- a row of a segment list. -/
structure Seg (K : Type) where
  id : Str
  file : String
  tbeg : K
  tend : K
deriving DecidableEq

variable {K : Type} [Field K] [LinearOrder K] [IsStrictOrderedRing K] [FloorRing K]

/-- segment_list.py:53-65 `validate`. -/
def segValidate (segs : List (Seg K)) : Bool := segs.all (fun s => decide (s.tend - s.tbeg ≥ 0))

/-- a Python slice bound on a sequence of length `n`. -/
def sliceBound (n : Nat) (i : Int) : Nat := if i < 0 then (i + n).toNat else min i.toNat n

/-- `v[a:b] = 1`. -/
def setOnes (v : List Nat) (a b : Int) : List Nat :=
  v.zipIdx.map (fun p => if sliceBound v.length a ≤ p.2 ∧ p.2 < sliceBound v.length b then 1 else p.1)

/-- `np.round(t * 1000 / frame_shift).astype(int)`. -/
def toFrame (shift t : K) : ℤ := roundEven (t * 1000 / shift)

/-- segment_list.py:267-301 `to_bin_vad`, index by file. `none`: no row for the key (KeyError) or a negative length. With no `num_frames` the length is the
last frame of the last row of the file (line 287). `none` instead of a list is an exception. -/
def toBinVad (segs : List (Seg K)) (key : String) (shift : K) (numFrames : Option Nat) : Option (List Nat) :=
  let rows := segs.filter (fun s => decide (s.file = key))
  match rows.getLast? with
  | none => none
  | some last =>
    let n : Int := match numFrames with
      | some n => n
      | none => toFrame shift last.tend
    if n < 0 then none
    else some (rows.foldl (fun v s => setOnes v (toFrame shift s.tbeg) (min (n - 1) (toFrame shift s.tend) + 1)) (List.replicate n.toNat 0))

/-- segment_list.py:267-301 for a list indexed by segment and no `num_frames`: line 291 reads `self.frame_shift`, which does not exist. -/
def toBinVadBySegment (segs : List (Seg K)) (key : Str) (shift : K) (numFrames : Option Nat) : Option (List Nat) :=
  let rows := segs.filter (fun s => decide (s.id = key))
  match rows, numFrames with
  | [], _ => none
  | _, none => none
  | rows, some n => some (rows.foldl (fun v s => setOnes v (toFrame shift s.tbeg) (min ((n : Int) - 1) (toFrame shift s.tend) + 1)) (List.replicate n 0))

/-- `'%07d' % t` for `t ≥ 0` (a float is truncated). -/
def fmt07 (t : K) : Str := List.replicate (7 - (printNat ⌊t⌋₊).length) '0' ++ printNat ⌊t⌋₊

/-- rttm.py:525-529: `'%s-%07d-%07d' % (file_id, tbeg, tend)`. -/
def segId (file : String) (tbeg tend : K) : Str := file.toList ++ '-' :: (fmt07 tbeg ++ '-' :: fmt07 tend)

/-- rttm.py:520-535 `to_segment_list`: `none` when the segment list does not validate (assertion). Non-negative times only (a negative time prints a sign). -/
def toSegmentList (rows : List (Row K)) : Option (List (Seg K)) :=
  let segs := rows.map (fun r => { id := segId r.file r.tbeg r.tend, file := r.file, tbeg := r.tbeg, tend := r.tend })
  if segValidate segs then some segs else none

end Hyp.Segments
