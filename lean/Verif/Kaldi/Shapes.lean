import Verif.Kaldi.Ark

/-!
Model of the shape queries of /repo/hyperion/io/ark_data_reader.py: `read_shapes`, `read_num_rows` and `read_dims` of
the sequential readers of archives and of script files and of the random access reader.

A query can fail after the file pointer was moved (the check of the dimensions comes last): the queries of the
sequential readers return the answer (`none`: exception of the check) and the reader afterwards; `none` instead of the
pair: an exception while reading.
-/

namespace Hyp.Kaldi
open Hyp.Text

/-- `KaldiMatrix.read_shape(f, binary, ..)` after `init_kaldi_input_stream`, ark_data_reader.py:187-189, 339-341,
558-560, and kaldi_matrix.py:206-234 (in text mode the whole array is read). -/
def shapeRecord (pk : Peek) (D : Decoder) (seqMode : Bool) (s : Bytes) : Option (List Int × Bytes) :=
  if (initInput pk s).1 then (readShape pk seqMode (initInput pk s).2).map (fun p => (p.1.map Int.ofNat, p.2))
  else (readText D 0 0 s).map (fun p => (p.1.shape.map Int.ofNat, p.2))

/-- `dims = np.array([s[-1] for s in shapes]); assert np.all(dims == dims[0])`: `dims[0]` of an empty array raises. -/
def dimsAgree : List (List Int) → Bool
  | [] => false
  | s :: ss => s.getLast?.isSome && ss.all (fun t => decide (t.getLast? = s.getLast?))

/-- ark_data_reader.py:178-194: the loop of `SequentialArkFileDataReader.read_shapes` (fuel as in `arkLoop`). -/
def arkShapeLoop (pk : Peek) (D : Decoder) :
    Nat → Option Nat → Bool → Bytes → Option (List (Str × List Int) × Bytes × Bool)
  | 0, _, _, _ => none
  | fuel + 1, limit, binary, s =>
    if limit = some 0 then some ([], s, false)
    else
      match readToken pk binary s with
      | none => none
      | some (t, s) =>
        if t = [] then some ([], s, true)
        else
          match shapeRecord pk D true s with
          | none => none
          | some (h, s') =>
            match arkShapeLoop pk D fuel (limit.map (· - 1)) (initInput pk s).1 s' with
            | none => none
            | some (rs, s, e) => some ((t, h) :: rs, s, e)

/-- ark_data_reader.py:196-198: the check at the end of `SequentialArkFileDataReader.read_shapes`. -/
def arkCheck (same : Bool) (l : List (Str × List Int)) : Option (List (Str × List Int)) :=
  if same && decide (0 < l.length) && !dimsAgree (l.map (·.2)) then none else some l

/-- ark_data_reader.py:164-200 `SequentialArkFileDataReader.read_shapes(num_records, assert_same_dim)`. -/
def ArkReader.readShapes (pk : Peek) (D : Decoder) (r : ArkReader) (numRecords : Nat) (same : Bool) :
    Option (Option (List (Str × List Int)) × ArkReader) :=
  match arkShapeLoop pk D (r.rest.length + 1) (if numRecords = 0 then none else some numRecords) false r.rest with
  | none => none
  | some (rs, s, e) => some (arkCheck same rs, ⟨r.content, s, r.eof || e⟩)

/-- ark_data_reader.py:333-348: one iteration of `SequentialArkScriptDataReader.read_shapes`. -/
def ScpReader.shapeOne (pk : Peek) (D : Decoder) (fs : Files) (r : ScpReader) : Option ((Str × List Int) × ScpReader) := do
  let (key, path, offset, range) ← r.scp.getByPos r.cur
  let (o, k) ← combineRanges range 0 0
  let (c, s) ← openArchive fs r.opened path offset
  let (h, s) ← shapeRecord pk D true s
  let h ← applyRangeToShape h o k
  return ((key, h), ⟨r.scp, r.cur + 1, some (path, c, s)⟩)

/-- ark_data_reader.py:330-348: the loop. -/
def scpShapeLoop (pk : Peek) (D : Decoder) (fs : Files) : Nat → ScpReader → Option (List (Str × List Int) × ScpReader)
  | 0, r => some ([], r)
  | k + 1, r =>
    if r.cur = r.scp.key.length then some ([], r)
    else
      match r.shapeOne pk D fs with
      | none => none
      | some (x, r) =>
        match scpShapeLoop pk D fs k r with
        | none => none
        | some (xs, r) => some (x :: xs, r)

/-- ark_data_reader.py:350-352: the check at the end of `SequentialArkScriptDataReader.read_shapes`, without the test
of the length. -/
def scpCheck (same : Bool) (l : List (Str × List Int)) : Option (List (Str × List Int)) :=
  if same && !dimsAgree (l.map (·.2)) then none else some l

/-- ark_data_reader.py:313-354 `SequentialArkScriptDataReader.read_shapes(num_records, assert_same_dim)`. -/
def ScpReader.readShapes (pk : Peek) (D : Decoder) (fs : Files) (r : ScpReader) (numRecords : Nat) (same : Bool) :
    Option (Option (List (Str × List Int)) × ScpReader) :=
  (scpShapeLoop pk D fs (if numRecords = 0 then r.scp.key.length - r.cur else numRecords) r).map
    (fun p => (scpCheck same p.1, p.2))

/-- `s[0] if len(s)==2 else 1`. -/
def rowsOfShape (s : List Int) : Int := if s.length = 2 then s.headI else 1

/-- ark_data_reader.py:81-97 `read_num_rows(num_records, assert_same_dim)`, the same for both sequential readers;
`shapes` is their `read_shapes`. -/
def seqNumRows {R : Type} (shapes : R → Nat → Bool → Option (Option (List (Str × List Int)) × R)) (r : R)
    (numRecords : Nat) (same : Bool) : Option (Option (List (Str × Int)) × R) :=
  (shapes r numRecords same).map (fun p => (p.1.map (fun l => l.map (fun x => (x.1, rowsOfShape x.2))), p.2))

/-- ark_data_reader.py:115-118: the columns and the check. -/
def seqDimsOf (same : Bool) (l : List (Str × List Int)) : Option (List (Str × Int)) :=
  if same && decide (0 < l.length) && !dimsAgree (l.map (·.2)) then none
  else l.mapM (fun x : Str × List Int => x.2.getLast?.map (fun d => (x.1, d)))

/-- ark_data_reader.py:101-118 `read_dims(num_records, assert_same_dim)`. -/
def seqDims {R : Type} (shapes : R → Nat → Bool → Option (Option (List (Str × List Int)) × R)) (r : R)
    (numRecords : Nat) (same : Bool) : Option (Option (List (Str × Int)) × R) :=
  (shapes r numRecords false).map (fun p => (p.1.bind (seqDimsOf same), p.2))

/-- ark_data_reader.py:543-566: one key of `RandomAccessArkDataReader.read_shapes`. -/
def randomShapeOne (pk : Peek) (D : Decoder) (fs : Files) (x : Scp.Scp Str Str) (permissive : Bool) (key : Str) :
    Option (List Int) :=
  if (x.contains key).1 then do
    let i ← (x.getIndex key).1
    let (_, path, offset, range) ← x.getByPos i
    let (o, k) ← combineRanges range 0 0
    let c ← fs path
    let p ← offset
    let (h, _) ← shapeRecord pk D false (c.drop p)
    applyRangeToShape h o k
  else if permissive then some [0] else none

/-- ark_data_reader.py:527-572 `RandomAccessArkDataReader.read_shapes(keys, assert_same_dim)`. -/
def randomShapes (pk : Peek) (D : Decoder) (fs : Files) (x : Scp.Scp Str Str) (permissive : Bool) (keys : List Str)
    (same : Bool) : Option (List (List Int)) := do
  let l ← keys.mapM (fun k : Str => randomShapeOne pk D fs x permissive k)
  if same && !dimsAgree l then none else some l

/-- ark_data_reader.py:488-503 `RandomAccessArkDataReader.read_num_rows(keys, assert_same_dim)`. -/
def randomNumRows (pk : Peek) (D : Decoder) (fs : Files) (x : Scp.Scp Str Str) (permissive : Bool) (keys : List Str)
    (same : Bool) : Option (List Int) :=
  (randomShapes pk D fs x permissive keys same).map (fun l => l.map rowsOfShape)

/-- ark_data_reader.py:507-523 `RandomAccessArkDataReader.read_dims(keys, assert_same_dim)`. -/
def randomDims (pk : Peek) (D : Decoder) (fs : Files) (x : Scp.Scp Str Str) (permissive : Bool) (keys : List Str)
    (same : Bool) : Option (List Int) := do
  let l ← randomShapes pk D fs x permissive keys false
  let ds ← l.mapM (fun s : List Int => s.getLast?)
  if same && !dimsAgree l then none else some ds

/-! ### histories of calls -/

/-- the calls on a sequential reader. -/
inductive Call
  | read (numRecords : Nat)
  | shapes (numRecords : Nat) (same : Bool)
  | numRows (numRecords : Nat) (same : Bool)
  | dims (numRecords : Nat) (same : Bool)
  | eof
  | reset
  deriving DecidableEq

/-- what a call returns; `raised`: the check of the dimensions failed. -/
inductive Ans
  | data (l : List (Str × Nd))
  | shapes (l : List (Str × List Int))
  | nums (l : List (Str × Int))
  | bool (b : Bool)
  | unit
  | raised
  deriving DecidableEq

/-- the answer of a query whose check may fail. -/
def ansOf {α : Type} (mk : α → Ans) : Option α → Ans
  | none => .raised
  | some a => mk a

/-- one call on a reader of an archive (a caught exception of a check leaves the reader where the query left it). -/
def ArkReader.call (pk : Peek) (D : Decoder) (r : ArkReader) : Call → Option (Ans × ArkReader)
  | .read k => (r.read pk D id k 0 0).map (fun p => (.data p.1, p.2))
  | .shapes k same => (r.readShapes pk D k same).map (fun p => (ansOf .shapes p.1, p.2))
  | .numRows k same => (seqNumRows (ArkReader.readShapes pk D) r k same).map (fun p => (ansOf .nums p.1, p.2))
  | .dims k same => (seqDims (ArkReader.readShapes pk D) r k same).map (fun p => (ansOf .nums p.1, p.2))
  | .eof => some (.bool r.eof, r)
  | .reset => some (.unit, r.reset)

/-- one call on a reader of a script file. -/
def ScpReader.call (pk : Peek) (D : Decoder) (fs : Files) (r : ScpReader) : Call → Option (Ans × ScpReader)
  | .read k => (r.read pk D id fs k 0 0).map (fun p => (.data p.1, p.2))
  | .shapes k same => (r.readShapes pk D fs k same).map (fun p => (ansOf .shapes p.1, p.2))
  | .numRows k same => (seqNumRows (ScpReader.readShapes pk D fs) r k same).map (fun p => (ansOf .nums p.1, p.2))
  | .dims k same => (seqDims (ScpReader.readShapes pk D fs) r k same).map (fun p => (ansOf .nums p.1, p.2))
  | .eof => some (.bool r.eof, r)
  | .reset => some (.unit, r.reset)

/-- a sequence of calls and their answers. -/
def calls {R : Type} (step : R → Call → Option (Ans × R)) : R → List Call → Option (List Ans)
  | _, [] => some []
  | r, c :: cs =>
    match step r c with
    | none => none
    | some (a, r) => (calls step r cs).map (a :: ·)

end Hyp.Kaldi
