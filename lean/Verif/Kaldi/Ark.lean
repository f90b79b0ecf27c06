import Verif.Kaldi.Model
import Verif.Scp.Model

/-!
Model of /repo/hyperion/io/ark_data_writer.py and /repo/hyperion/io/ark_data_reader.py (archives), of
/repo/hyperion/io/data_reader.py:100-161 (row ranges) and of the copy loop of /repo/hyperion/io/copy_feats.py.
-/

namespace Hyp.Kaldi
open Hyp.Text

/-- what `_convert_data` (ark_data_writer.py:84-106) returns: an uncompressed or a compressed matrix. The
conversion itself (`astype`, `compress`) is not part of the container model (compression: Kaldi/Quant.lean). -/
inductive KMat
  | plain (m : Nd)
  | comp (d : Option Bytes)

/-- `data_i.write(self.f, True)`, ark_data_writer.py:131. -/
def KMat.write : KMat → Option Bytes
  | .plain m => writeMat m
  | .comp d => cmWrite d

/-- an ark writer: bytes of the archive so far and text of the script file so far. -/
structure ArkWriter where
  ark : Bytes
  script : Str
  deriving DecidableEq

/-- ark_data_writer.py:135-136: the line added to the script file. -/
def scriptLine (sep : Char) (path key : Str) (pos : Nat) : Str :=
  key ++ sep :: path ++ ':' :: printNat pos ++ ['\n']

/-- ark_data_writer.py:123-136: one record. `none` = the assertion on the key or the encoding raises. -/
def ArkWriter.writeOne (sep : Char) (path : Str) (w : ArkWriter) (r : Str × KMat) : Option ArkWriter :=
  if isToken r.1 then do
    let t ← writeToken r.1
    let m ← r.2.write
    return ⟨w.ark ++ t ++ binMarker ++ m, w.script ++ scriptLine sep path r.1 (w.ark ++ t).length⟩
  else none

/-- ark_data_writer.py:110-139 `write(keys, data)`, keys and data given as equally long lists. -/
def ArkWriter.write (sep : Char) (path : Str) (w : ArkWriter) (rs : List (Str × KMat)) : Option ArkWriter :=
  rs.foldlM (ArkWriter.writeOne sep path) w

/-- `data_i.shape[0]`. -/
def Nd.dim0 : Nd → Nat
  | .vec _ els => els.length
  | .mat _ _ rows => rows.length

/-- ark_data_reader.py:241-248: one matrix after its key: marker, matrix, check of the number of rows,
transform (`tr`, the identity when there is none). Without the marker the array is in text mode. -/
def readRecord (pk : Peek) (D : Decoder) (tr : Nd → Nd) (off n : Nat) (seqMode : Bool) (s : Bytes) : Option (Nd × Bytes) := do
  let b := initInput pk s
  if b.1 then
    let (m, s) ← readMat pk D off n seqMode b.2
    if n = 0 ∨ m.dim0 = n then return (tr m, s) else none
  else
    let (m, s) ← readText D off n s
    if n = 0 ∨ m.dim0 = n then return (tr m, s) else none

/-- ark_data_reader.py:230-252: the loop of `SequentialArkFileDataReader.read`. `limit = none` for
`num_records == 0`. Returns the records read, the remaining bytes and whether the end was met. The fuel bounds
the number of iterations: each consumes at least one byte (the key is not empty), so the length of the file plus
one is enough. -/
def arkLoop (pk : Peek) (D : Decoder) (tr : Nd → Nd) (off n : Nat) :
    Nat → Option Nat → Bool → Bytes → Option (List (Str × Nd) × Bytes × Bool)
  | 0, _, _, _ => none
  | fuel + 1, limit, binary, s =>
    if limit = some 0 then some ([], s, false)
    else
      match readToken pk binary s with
      | none => none
      | some (t, s) =>
        if t = [] then some ([], s, true)
        else
          match readRecord pk D tr off n true s with
          | none => none
          | some (m, s') =>
            match arkLoop pk D tr off n fuel (limit.map (· - 1)) (initInput pk s).1 s' with
            | none => none
            | some (rs, s, e) => some ((t, m) :: rs, s, e)

/-- a sequential reader of one archive: content of the file, bytes after the file pointer, `_eof`. -/
structure ArkReader where
  content : Bytes
  rest : Bytes
  eof : Bool

/-- ark_data_reader.py:138-145: open the archive. -/
def ArkReader.open (content : Bytes) : ArkReader := ⟨content, content, false⟩

/-- ark_data_reader.py:150-154 `reset`. -/
def ArkReader.reset (r : ArkReader) : ArkReader := ⟨r.content, r.content, false⟩

/-- ark_data_reader.py:204-257 `read(num_records, squeeze=False, row_offset, num_rows)` (integer offsets; a list
of offsets raises `NameError`). -/
def ArkReader.read (pk : Peek) (D : Decoder) (tr : Nd → Nd) (r : ArkReader) (numRecords off n : Nat) :
    Option (List (Str × Nd) × ArkReader) :=
  match arkLoop pk D tr off n (r.rest.length + 1) (if numRecords = 0 then none else some numRecords) false r.rest with
  | none => none
  | some (rs, s, e) => some (rs, ⟨r.content, s, r.eof || e⟩)

/-- data_reader.py:204-213 `__next__`: `some (none, _)` = StopIteration. -/
def ArkReader.next (pk : Peek) (D : Decoder) (tr : Nd → Nd) (r : ArkReader) : Option (Option (Str × Nd) × ArkReader) :=
  (r.read pk D tr 1 0 0).map (fun p => (p.1.head?, p.2))

/-- `for key, data in reader` stopped after `n` rounds: what was seen, and whether the reader said `StopIteration`. -/
def ArkReader.iter (pk : Peek) (D : Decoder) (tr : Nd → Nd) : Nat → ArkReader → Option (List (Str × Nd) × Bool)
  | 0, _ => some ([], false)
  | n + 1, r => do
    let (x, r) ← r.next pk D tr
    match x with
    | none => return ([], true)
    | some x =>
      let (xs, b) ← ArkReader.iter pk D tr n r
      return (x :: xs, b)

/-- copy_feats.py:77-82: `while not reader.eof(): read(chunk_size); if len(key) == 0: break; write` on one input;
the chunks passed to the writer, in order. The fuel bounds the number of chunks. -/
def copyLoop (pk : Peek) (D : Decoder) (tr : Nd → Nd) (chunk : Nat) : Nat → ArkReader → Option (List (List (Str × Nd)))
  | 0, _ => none
  | fuel + 1, r =>
    if r.eof then some []
    else
      match r.read pk D tr chunk 0 0 with
      | none => none
      | some ([], _) => some []
      | some (c :: cs, r') => (copyLoop pk D tr chunk fuel r').map ((c :: cs) :: ·)

/-- data_reader.py:100-135 `_combine_ranges`; `none` = failed assertion. -/
def combineRanges (range : Option (Nat × Int)) (off n : Nat) : Option (Nat × Int) :=
  match range with
  | none => some (off, n)
  | some (a, cnt) =>
    if n = 0 then some (off + a, cnt)
    else if cnt > 0 then (if cnt ≥ n then some (off + a, n) else none)
    else some (off + a, n)

/-- data_reader.py:140-161 `_apply_range_to_shape`; `none` = failed assertion (or the vector shape `()`). -/
def applyRangeToShape (shape : List Int) (off : Nat) (n : Int) : Option (List Int) :=
  if 0 < off ∨ 0 < n then
    match shape with
    | [] => none
    | d :: ds => if 0 < n then (if d - off ≥ n then some (n :: ds) else none) else some ((d - off) :: ds)
  else some shape

/-- the files on disk. -/
abbrev Files := Str → Option Bytes

/-- sequential reader of a script file: ark_data_reader.py:263-295. `opened`: path, content and bytes after the
file pointer of the open archive. -/
structure ScpReader where
  scp : Scp.Scp Str Str
  cur : Nat
  opened : Option (Str × Bytes × Bytes)

/-- ark_data_reader.py:50-77 `_open_archive` with `_seek`: the file is opened if another one (or none) is open;
the pointer is moved only when the offset is positive. Returns content and bytes after the pointer. An entry
without offset (`None > 0`) raises. -/
def openArchive (fs : Files) (opened : Option (Str × Bytes × Bytes)) (path : Str) (offset : Option Nat) :
    Option (Bytes × Bytes) := do
  let cr ← match opened with
    | none => (fs path).map (fun c => (c, c))
    | some (p, c, r) => if p = path then some (c, r) else (fs path).map (fun c => (c, c))
  let o ← offset
  return (cr.1, if 0 < o then cr.1.drop o else cr.2)

/-- ark_data_reader.py:390-410: one iteration of `SequentialArkScriptDataReader.read`. A negative number of
rows (a range `[b:a]` with b > a) raises. -/
def ScpReader.readOne (pk : Peek) (D : Decoder) (tr : Nd → Nd) (fs : Files) (r : ScpReader) (off n : Nat) :
    Option ((Str × Nd) × ScpReader) := do
  let (key, path, offset, range) ← r.scp.getByPos r.cur
  let (o, k) ← combineRanges range off n
  let (c, s) ← openArchive fs r.opened path offset
  let k ← natOf k
  let (m, s) ← readRecord pk D tr o k true s
  return ((key, m), ⟨r.scp, r.cur + 1, some (path, c, s)⟩)

/-- ark_data_reader.py:387-410: the loop. -/
def scpLoop (pk : Peek) (D : Decoder) (tr : Nd → Nd) (fs : Files) (off n : Nat) :
    Nat → ScpReader → Option (List (Str × Nd) × ScpReader)
  | 0, r => some ([], r)
  | k + 1, r =>
    if r.cur = r.scp.key.length then some ([], r)
    else
      match r.readOne pk D tr fs off n with
      | none => none
      | some (x, r) =>
        match scpLoop pk D tr fs off n k r with
        | none => none
        | some (xs, r) => some (x :: xs, r)

/-- ark_data_reader.py:359-415 `SequentialArkScriptDataReader.read` (integer offsets). -/
def ScpReader.read (pk : Peek) (D : Decoder) (tr : Nd → Nd) (fs : Files) (r : ScpReader) (numRecords off n : Nat) :
    Option (List (Str × Nd) × ScpReader) :=
  scpLoop pk D tr fs off n (if numRecords = 0 then r.scp.key.length - r.cur else numRecords) r

/-- ark_data_reader.py:299-309 `reset`, `eof`. -/
def ScpReader.reset (r : ScpReader) : ScpReader := ⟨r.scp, 0, none⟩
def ScpReader.eof (r : ScpReader) : Bool := decide (r.cur = r.scp.key.length)

/-- ark_data_reader.py:610-634: one key of `RandomAccessArkDataReader.read` (with 464-484 `_open_archive`, an
absolute seek in the file of the entry). `none` = exception; a missing key gives an empty array in permissive
mode. -/
def randomReadOne (pk : Peek) (D : Decoder) (tr : Nd → Nd) (fs : Files) (x : Scp.Scp Str Str) (permissive : Bool)
    (off n : Nat) (key : Str) : Option Nd :=
  if (x.contains key).1 then do
    let i ← (x.getIndex key).1
    let (_, path, offset, range) ← x.getByPos i
    let (o, k) ← combineRanges range off n
    let c ← fs path
    let p ← offset
    let k ← natOf k
    let (m, _) ← readRecord pk D tr o k false (c.drop p)
    return m
  else if permissive then some (.vec .f32 []) else none

/-- ark_data_reader.py:576-640 `RandomAccessArkDataReader.read(keys)` (integer offsets). -/
def randomRead (pk : Peek) (D : Decoder) (tr : Nd → Nd) (fs : Files) (x : Scp.Scp Str Str) (permissive : Bool)
    (off n : Nat) (keys : List Str) : Option (List Nd) :=
  keys.mapM (randomReadOne pk D tr fs x permissive off n)

end Hyp.Kaldi
