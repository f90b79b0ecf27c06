import Verif.Kaldi.TextArk
import Verif.H5.Model

/-!
Model of `KaldiDataReader` (/repo/hyperion/io/kaldi_data_reader.py) and of the conversion script
/repo/hyperion/bin/ark2hyp.py. Files are byte strings (a compressed file `.gz` is given by its contents), `none` is an
exception.
-/

namespace Hyp.Kaldi
open Hyp.Text

/-- `f.read(1); struct.unpack('<i', f.read(4))[0]`, kaldi_data_reader.py:118-119, 122-123: the size byte is not looked at.
Negative sizes are not modelled (`none`). -/
def oldInt (s : Bytes) : Option (Nat × Bytes) := do
  let v ← unpackI32 ((s.drop 1).take 4)
  let n ← natOf v
  return (n, s.drop 5)

/-- `_read_bin_matrix`, kaldi_data_reader.py:103-132: three bytes of type, of which the third is not looked at -/
def oldBin (s : Bytes) : Option Nd := do
  let st ← decodeAscii (s.take 3)
  let (dt, isVec) ← parseTok st
  match isVec with
  | true =>
    let (cols, s) ← oldInt (s.drop 3)
    let v ← frombuffer dt.size (s.take (cols * dt.size))
    return .vec dt v
  | false =>
    let (rows, s) ← oldInt (s.drop 3)
    let (cols, s) ← oldInt s
    let v ← frombuffer dt.size (s.take (rows * cols * dt.size))
    let m ← reshape rows cols v
    return .mat dt cols m

/-- `np.vstack(rows)`: always two axes -/
def vstack (rows : List (List Bytes)) : Option Nd :=
  match rows with
  | [] => none
  | r :: rs => if rs.all (fun x => decide (x.length = r.length)) then some (.mat .f32 r.length (r :: rs)) else none

/-- `_read_ascii_matrix`, kaldi_data_reader.py:136-149: one line after the other; at the end of the file it raises. Bytes
outside ASCII raise (they are not numbers). -/
def oldAscii (D : Decoder) : List (List Bytes) → List Bytes → Option Nd
  | _, [] => none
  | rows, l :: ls =>
    match decodeAscii l with
    | none => none
    | some t =>
      match splitWs t with
      | [] => oldAscii D rows ls
      | w :: ws =>
        if (w :: ws).getLast? = some [']'] then
          match (w :: ws).dropLast.mapM (fun w : Str => D.num w) with
          | none => none
          | some r => vstack (rows ++ [r])
        else
          match (w :: ws).mapM (fun w : Str => D.num w) with
          | none => none
          | some r => oldAscii D (rows ++ [r]) ls

/-- `_read_matrix`, kaldi_data_reader.py:84-100, on the bytes from the position of the open file -/
def oldMatrix (D : Decoder) (s : Bytes) : Option Nd :=
  if s.take 2 = [0, 66] then oldBin (s.drop 2)
  else if s.take 2 = [32, 91] then oldAscii D [] (linesB (s.drop 2))
  else none

/-- `re.search(':[0-9]+$', path)` with `rsplit(':', 1)`, kaldi_data_reader.py:70-71: path and position. (`$` before a final
newline is not modelled: paths come from lines of a file.) -/
def oldSplit (path : Str) : Str × Nat :=
  let d := (path.reverse.takeWhile (fun c => decide ('0' ≤ c ∧ c ≤ '9'))).reverse
  match (path.reverse.drop d.length), parseNat d with
  | ':' :: p, some n => (p.reverse, n)
  | _, _ => (path, 0)

/-- `_open` and `_read_matrix`, kaldi_data_reader.py:66-100 -/
def oldRead (D : Decoder) (fs : Files) (path : Str) : Option Nd :=
  (fs (oldSplit path).1).bind (fun b => oldMatrix D (b.drop (oldSplit path).2))

/-- `np.squeeze(m)` of an array that keeps at least one axis; an array of one element loses all of them, which is not
modelled (`none`) -/
def squeezeNd : Nd → Option Nd
  | .vec dt els => if els.length = 1 then none else some (.vec dt els)
  | .mat dt cols rows =>
    if rows.length = 1 then (if cols = 1 then none else some (.vec dt rows.flatten))
    else if cols = 1 then some (.vec dt rows.flatten) else some (.mat dt cols rows)

/-- attributes of `KaldiDataReader`: the dictionary and `cur_record` -/
structure OldReader where
  scp : List (Str × Str)
  cur : Nat
deriving DecidableEq

/-- `KaldiDataReader.__init__`, kaldi_data_reader.py:21-33: of the script only keys and paths are kept - neither the
positions in the files nor the ranges of rows; a repeated key keeps its last path -/
def OldReader.open (sep : Char) (inputDir : Option Str) (content : Str) : Option OldReader := do
  let scp ← Scp.load sep ':' content
  let pre := match inputDir with | none => [] | some d => d ++ ['/']
  return ⟨(scp.key.zip scp.path).foldl (fun t e => dictSet t e.1 (pre ++ e.2)) [], 0⟩

/-- the loop of `read`, kaldi_data_reader.py:50-57: the arrays of some keys -/
def OldReader.arrays (D : Decoder) (fs : Files) (r : OldReader) (squeeze : Bool) (keys : List Str) : Option (List Nd) :=
  keys.mapM (fun k => (dictGet r.scp k).bind (fun p => (oldRead D fs p).bind (fun m => if squeeze then squeezeNd m else some m)))

/-- `read(num_records, first_record, squeeze)` with `keys=None`, kaldi_data_reader.py:36-59: arrays, keys and the reader
afterwards. Without `num_records` the position becomes the number of records read, kaldi_data_reader.py:43. -/
def OldReader.read (D : Decoder) (fs : Files) (r : OldReader) (num first : Option Nat) (squeeze : Bool) :
    Option ((List Nd × List Str) × OldReader) := do
  let cur := first.getD r.cur
  let keys := r.scp.map Prod.fst
  let sel := match num with
    | none => keys.drop cur
    | some n => (keys.take (min (cur + n) keys.length)).drop cur
  let nxt := match num with
    | none => (keys.drop cur).length
    | some n => min (cur + n) keys.length
  let x ← r.arrays D fs squeeze sel
  return ((x, sel), ⟨r.scp, nxt⟩)

/-- `eof`, kaldi_data_reader.py:64-65 -/
def OldReader.eof (r : OldReader) : Bool := decide (r.cur = r.scp.length)

/-- `reset`, kaldi_data_reader.py:61-62 -/
def OldReader.reset (r : OldReader) : OldReader := { r with cur := 0 }

/-- the loop of `ark2hyp`, ark2hyp.py:33-35, at most `n` times: the file and the reader afterwards; `tr` is
`astype(float_save())`, hyp_data_writer.py:36 -/
def ark2hypLoop (D : Decoder) (fs : Files) (tr : Nd → Nd) (field : Str) (chunk : Option Nat) (squeeze : Bool) :
    Nat → OldReader → H5.File → Option (H5.File × OldReader)
  | 0, r, f => some (f, r)
  | n + 1, r, f =>
    if r.eof then some (f, r)
    else
      (r.read D fs chunk none squeeze).bind (fun x =>
        (H5.hypWrite f field (x.1.2.zip (x.1.1.map tr))).bind (fun f => ark2hypLoop D fs tr field chunk squeeze n x.2 f))

end Hyp.Kaldi
