import Verif.Text

/-!
Model of /repo/hyperion/utils/kaldi_io_funcs.py and of the binary paths of
/repo/hyperion/utils/kaldi_matrix.py (KaldiMatrix and KaldiCompressedMatrix containers).

A binary file open for reading is the list of the bytes that follow the file pointer: `f.read(n)` is
`take`/`drop`, a forward relative seek is `drop` (seeking past the end is allowed, later reads give nothing).
A reader returns the value and the remaining bytes; `none` = an exception.
-/

namespace Hyp.Kaldi
open Hyp.Text

abbrev Bytes := List UInt8

/-- `f.peek(n)` of `io.BufferedReader`: returns whatever is buffered - some prefix of the remaining bytes,
possibly shorter or longer than asked, but not empty unless the file is at its end. Every such behaviour
is allowed: the model takes the behaviour as a parameter. -/
structure Peek where
  fn : Bytes → Bytes
  isPrefix : ∀ s, fn s <+: s
  nonempty : ∀ s, s ≠ [] → fn s ≠ []

/-- kaldi_io_funcs.py:79-92 `peek(f, True, num_bytes)`: peek, and when too few bytes come, read them, peek
again and seek back. The file pointer does not move. -/
def peek (pk : Peek) (n : Nat) (s : Bytes) : Bytes :=
  let p := (pk.fn s).take n
  if p.length < n then p ++ (pk.fn (s.drop p.length)).take (n - p.length) else p

/-- `str.encode('ascii')`. -/
def encodeAscii (t : Str) : Option Bytes :=
  if t.all (fun c => decide (c.toNat < 128)) then some (t.map (fun c => UInt8.ofNat c.toNat)) else none

/-- `bytes.decode('ascii')`. -/
def decodeAscii (b : Bytes) : Option Str :=
  if b.all (fun c => decide (c.toNat < 128)) then some (b.map (fun c => Char.ofNat c.toNat)) else none

/-- kaldi_io_funcs.py:15-19 `init_kaldi_output_stream(f, True)`. -/
def binMarker : Bytes := [0, 66]

/-- kaldi_io_funcs.py:22-28 `init_kaldi_input_stream`. -/
def initInput (pk : Peek) (s : Bytes) : Bool × Bytes :=
  if peek pk 2 s = binMarker then (true, s.drop 2) else (false, s)

/-- kaldi_io_funcs.py:37-46 `is_token`. `isprintable` is modelled on ASCII; a key with other characters is
refused later by `encode('ascii')` when writing a binary archive, so it is refused here. -/
def isToken (t : Str) : Bool :=
  !t.isEmpty && t.all (fun c => decide (32 ≤ c.toNat ∧ c.toNat ≤ 126)) && !(t.contains ' ')

/-- kaldi_io_funcs.py:68-75 `write_token(f, True, token)` (with 31-34 `check_token`). -/
def writeToken (t : Str) : Option Bytes :=
  if t.contains ' ' then none else (encodeAscii t).map (· ++ [32])

/-- kaldi_io_funcs.py:58-62: the loop of `read_token`. -/
def tokenLoop : Bytes → Bytes × Bytes
  | [] => ([], [])
  | c :: s => if c = 32 then ([], s) else let r := tokenLoop s; (c :: r.1, r.2)

/-- kaldi_io_funcs.py:53-54: `while f.peek(1) == b' ': f.read(1)` (the comparison is with everything that
`f.peek` returned). -/
def skipBlanks (pk : Peek) : Bytes → Bytes
  | [] => []
  | c :: s => if pk.fn (c :: s) = [32] then skipBlanks pk s else c :: s

/-- kaldi_io_funcs.py:49-64 `read_token`. -/
def readToken (pk : Peek) (binary : Bool) (s : Bytes) : Option (Str × Bytes) :=
  let r := tokenLoop (if binary then s else skipBlanks pk s)
  (decodeAscii r.1).map (fun t => (t, r.2))

/-- `struct.pack('<i', v)`; `none` = `struct.error`. -/
def packI32 (v : Int) : Option Bytes :=
  if -2147483648 ≤ v ∧ v < 2147483648 then
    let n := (v % 4294967296).toNat
    some [UInt8.ofNat n, UInt8.ofNat (n / 256), UInt8.ofNat (n / 65536), UInt8.ofNat (n / 16777216)]
  else none

/-- `struct.unpack('<i', b)[0]`; `none` = not four bytes. -/
def unpackI32 : Bytes → Option Int
  | [a, b, c, d] =>
    let n := a.toNat + 256 * b.toNat + 65536 * c.toNat + 16777216 * d.toNat
    some (if n < 2147483648 then (n : Int) else (n : Int) - 4294967296)
  | _ => none

/-- kaldi_io_funcs.py:116-121 `write_int32(f, True, val)`. -/
def writeInt32 (v : Int) : Option Bytes := (packI32 v).map (4 :: ·)

/-- kaldi_io_funcs.py:96-103 `read_int32(f, True)`. -/
def readInt32 (s : Bytes) : Option (Int × Bytes) :=
  if s.take 1 = [4] then (unpackI32 ((s.drop 1).take 4)).map (fun v => (v, s.drop 5)) else none

/-- array element types. `other w` is any other numpy type with `w`-byte elements. -/
inductive Dt
  | f32 | f64 | other (w : Nat)
  deriving DecidableEq

/-- `np.dtype(..).itemsize`. -/
def Dt.size : Dt → Nat
  | .f32 => 4
  | .f64 => 8
  | .other w => w

/-- a 1-D or 2-D numpy array; an element is the list of its raw bytes. -/
inductive Nd
  | vec (dt : Dt) (els : List Bytes)
  | mat (dt : Dt) (cols : Nat) (rows : List (List Bytes))
  deriving DecidableEq

/-- shape of the array. -/
def Nd.shape : Nd → List Nat
  | .vec _ els => [els.length]
  | .mat _ cols rows => [rows.length, cols]

/-- every row has `cols` elements and every element has the number of bytes of its type. -/
def Nd.WF : Nd → Prop
  | .vec dt els => ∀ e ∈ els, e.length = dt.size
  | .mat dt cols rows => ∀ r ∈ rows, r.length = cols ∧ ∀ e ∈ r, e.length = dt.size

/-- `ndarray.tobytes()` (C order). -/
def Nd.toBytes : Nd → Bytes
  | .vec _ els => els.flatten
  | .mat _ _ rows => rows.flatten.flatten

/-- kaldi_matrix.py:166: first letter of the token. -/
def Dt.letter : Dt → Char
  | .f32 => 'F'
  | _ => 'D'

/-- kaldi_matrix.py:158-173 `KaldiMatrix.write(f, True)`. -/
def writeMat (m : Nd) : Option Bytes :=
  match m with
  | .vec dt els => do
    let t ← writeToken [dt.letter, 'V']
    let c ← writeInt32 els.length
    return t ++ c ++ m.toBytes
  | .mat dt cols rows => do
    let t ← writeToken [dt.letter, 'M']
    let r ← writeInt32 rows.length
    let c ← writeInt32 cols
    return t ++ r ++ c ++ m.toBytes

/-- consecutive pieces of `w` elements: `n` of them. -/
def chunks {α : Type} (w n : Nat) (s : List α) : List (List α) :=
  (List.range n).map (fun i => (s.drop (i * w)).take w)

/-- `np.frombuffer(data, dtype)`; raises when the buffer is not a whole number of elements. -/
def frombuffer (w : Nat) (b : Bytes) : Option (List Bytes) :=
  if b.length % w = 0 then some (chunks w (b.length / w) b) else none

/-- `np.reshape(vec, (r, c))`; raises when the number of elements is different. -/
def reshape {α : Type} (r c : Nat) (l : List α) : Option (List (List α)) :=
  if l.length = r * c then some (chunks c r l) else none

/-- kaldi_matrix.py:77-84: element type and number of dimensions given by the token; a wrong letter does not
raise there (the `ValueError` is built but not raised) but makes a later line raise, a short token raises. -/
def parseTok (t : Str) : Option (Dt × Bool) := do
  let a ← t[0]?
  let b ← t[1]?
  let dt ← (if a = 'F' then some Dt.f32 else if a = 'D' then some Dt.f64 else none)
  let v ← (if b = 'V' then some true else if b = 'M' then some false else none)
  return (dt, v)

/-- non-negative integer read from the file. A negative number of rows or columns always ends in an
exception (failed assertion, negative `f.read` length, or `reshape` with negative sizes). -/
def natOf (v : Int) : Option Nat := if 0 ≤ v then some v.toNat else none

/-- kaldi_matrix.py:86-99: (rows to read, rows left) from the stored number of rows. -/
def rowPlan (total rowOffset numRows : Nat) : Option (Nat × Nat) :=
  if rowOffset ≤ total then
    if numRows = 0 then some (total - rowOffset, 0)
    else if numRows ≤ total - rowOffset then some (numRows, total - rowOffset - numRows)
    else none
  else none

/-- kaldi_matrix.py:103-114, `ndim == 2`: column count, seek, read, seek, frombuffer, reshape. -/
def readBody2 (dt : Dt) (rowOffset nr left : Nat) (seqMode : Bool) (s : Bytes) : Option (Nd × Bytes) := do
  let (c, s) ← readInt32 s
  let cols ← natOf c
  let s := s.drop (rowOffset * cols * dt.size)
  let data := s.take (nr * cols * dt.size)
  let s := s.drop (nr * cols * dt.size)
  let s := if seqMode then s.drop (left * cols * dt.size) else s
  let v ← frombuffer dt.size data
  let rows ← reshape nr cols v
  return (.mat dt cols rows, s)

/-- kaldi_matrix.py:101-115, `ndim == 1`: one row; the row offset moves the pointer by whole vectors. -/
def readBody1 (dt : Dt) (rowOffset : Nat) (s : Bytes) : Option (Nd × Bytes) := do
  let (c, s) ← readInt32 s
  let cols ← natOf c
  let s := s.drop (rowOffset * cols * dt.size)
  let data := s.take (cols * dt.size)
  let s := s.drop (cols * dt.size)
  let v ← frombuffer dt.size data
  return (.vec dt v, s)

/-- kaldi_matrix.py:76-115: the uncompressed branch of `KaldiMatrix.read(f, True, ...)`. -/
def readPlain (pk : Peek) (rowOffset numRows : Nat) (seqMode : Bool) (s : Bytes) : Option (Nd × Bytes) := do
  let (t, s) ← readToken pk true s
  let (dt, isVec) ← parseTok t
  match isVec with
  | true => readBody1 dt rowOffset s
  | false =>
    let (r, s) ← readInt32 s
    let total ← natOf r
    let (nr, left) ← rowPlan total rowOffset numRows
    readBody2 dt rowOffset nr left seqMode s

/-- kaldi_matrix.py:210-231: the uncompressed branch of `KaldiMatrix.read_shape(f, True, ...)`. Negative sizes
are not modelled (`none`). -/
def shapePlain (pk : Peek) (seqMode : Bool) (s : Bytes) : Option (List Nat × Bytes) := do
  let (t, s) ← readToken pk true s
  let (dt, isVec) ← parseTok t
  match isVec with
  | true =>
    let (c, s) ← readInt32 s
    let cols ← natOf c
    return ([cols], if seqMode then s.drop (cols * dt.size) else s)
  | false =>
    let (r, s) ← readInt32 s
    let total ← natOf r
    let (c, s) ← readInt32 s
    let cols ← natOf c
    return ([total, cols], if seqMode then s.drop (total * cols * dt.size) else s)

/-! ### compressed matrices -/

/-- the 20-byte header `'<iffii'` of a compressed matrix. The two float32 numbers are kept as raw bytes:
unpacking to a Python float and packing again gives the same bytes (all values but signalling NaNs). -/
structure CmHead where
  fmt : Int
  mn : Bytes
  rg : Bytes
  rows : Nat
  cols : Nat
  deriving DecidableEq

/-- kaldi_matrix.py:339-346 `_unpack_header` (`struct.unpack('<iffii', h)`); negative sizes are not modelled. -/
def unpackHead (h : Bytes) : Option CmHead := do
  let f ← unpackI32 (h.take 4)
  let r ← unpackI32 ((h.drop 12).take 4)
  let c ← unpackI32 ((h.drop 16).take 4)
  let r ← natOf r
  let c ← natOf c
  if h.length = 20 then return ⟨f, (h.drop 4).take 4, (h.drop 8).take 4, r, c⟩ else none

/-- kaldi_matrix.py:349-354 `_pack_header` (`struct.pack('<iffii', ..)`). -/
def packHead (h : CmHead) : Option Bytes := do
  let f ← packI32 h.fmt
  let r ← packI32 h.rows
  let c ← packI32 h.cols
  return f ++ h.mn ++ h.rg ++ r ++ c

/-- kaldi_matrix.py:755-760: token of the format (no token at all for another number). -/
def cmToken (fmt : Int) : Option Bytes :=
  if fmt = 1 then writeToken ['C', 'M']
  else if fmt = 2 then writeToken ['C', 'M', '2']
  else if fmt = 3 then writeToken ['C', 'M', '3']
  else some []

/-- kaldi_matrix.py:745-765 `KaldiCompressedMatrix.write(f, True)`; the object is its `data` bytes
(`None` = empty matrix). -/
def cmWrite (data : Option Bytes) : Option Bytes :=
  match data with
  | none => (writeToken ['C', 'M']).map (· ++ List.replicate 16 0)
  | some d => do
    let h ← unpackHead (d.take 20)
    let t ← cmToken h.fmt
    return t ++ d.drop 4

/-- kaldi_matrix.py:699-706: format number of a token. -/
def cmFormat (t : Str) : Option Int :=
  if t = ['C', 'M'] then some 1
  else if t = ['C', 'M', '2'] then some 2
  else if t = ['C', 'M', '3'] then some 3
  else none

/-- bytes per code: kaldi_matrix.py:432-444. -/
def cmW (fmt : Int) : Nat := if fmt = 2 then 2 else 1

/-- bytes of the per-column percentile headers: kaldi_matrix.py:431-433. -/
def cmColHead (fmt : Int) (cols : Nat) : Nat := if fmt = 1 then cols * 8 else 0

/-- kaldi_matrix.py:416, 446-449: header of the sliced matrix. -/
def cmNewHead (h : CmHead) (header : Bytes) (rowOffset numRows nr : Nat) : Option Bytes :=
  if rowOffset ≠ 0 ∨ numRows ≠ 0 then packHead { h with rows := nr } else some header

/-- kaldi_matrix.py:717-723: read `n` columns, skipping `off` bytes before and `left` bytes after the `len`
bytes of each. -/
def readCols (off len left : Nat) : Nat → Bytes → Bytes × Bytes
  | 0, s => ([], s)
  | n + 1, s =>
    let s := s.drop off
    let r := readCols off len left n ((s.drop len).drop left)
    (s.take len ++ r.1, r.2)

/-- kaldi_matrix.py:712-731: the bytes after the fixed header. -/
def cmBody (fmt : Int) (cols off len left : Nat) (s : Bytes) : Bytes × Bytes :=
  if off = 0 ∧ left = 0 then
    (s.take (cmColHead fmt cols + cols * len), s.drop (cmColHead fmt cols + cols * len))
  else if fmt = 1 then
    let r := readCols off len left cols (s.drop (cmColHead fmt cols))
    (s.take (cmColHead fmt cols) ++ r.1, r.2)
  else
    let s := s.drop (off * cols)
    (s.take (len * cols), (s.drop (len * cols)).drop (left * cols))

/-- kaldi_matrix.py:695-733: the compressed branch of `KaldiCompressedMatrix.read(f, True, ...)` (with 412-451
`_get_read_info`); the result is the `data` attribute. -/
def cmRead (pk : Peek) (rowOffset numRows : Nat) (s : Bytes) : Option (Bytes × Bytes) := do
  let (t, s) ← readToken pk true s
  let fmt ← cmFormat t
  let f ← packI32 fmt
  let header := f ++ s.take 16
  let s := s.drop 16
  let h ← unpackHead header
  let (nr, left) ← rowPlan h.rows rowOffset numRows
  let nh ← cmNewHead h header rowOffset numRows nr
  let b := cmBody h.fmt h.cols (cmW h.fmt * rowOffset) (cmW h.fmt * nr) (cmW h.fmt * left) s
  return (nh ++ b.1, b.2)

/-- kaldi_matrix.py:455-468 `_data_size` minus the header length. -/
def cmDataSize (h : CmHead) : Nat :=
  if h.fmt = 1 then h.cols * (8 + h.rows) else if h.fmt = 2 then 2 * h.rows * h.cols else h.rows * h.cols

/-- kaldi_matrix.py:786-805 `KaldiCompressedMatrix.read_shape(f, True, ..)`, compressed branch. -/
def cmShape (pk : Peek) (seqMode : Bool) (s : Bytes) : Option (List Nat × Bytes) := do
  let (t, s) ← readToken pk true s
  let fmt ← cmFormat t
  let f ← packI32 fmt
  let h ← unpackHead (f ++ s.take 16)
  let s := s.drop 16
  return ([h.rows, h.cols], if seqMode then s.drop (cmDataSize h) else s)

/-- the decoding arithmetic, element by element: kaldi_matrix.py:520-528 (`_uint16_to_float`,
`_uint8_to_float`) and 586-598, 628-638 (`_uncompress_column`, `_char_to_float`, given the column header),
as functions of the raw header numbers and codes; results are float32 numbers (raw bytes). The arithmetic
itself is modelled in Kaldi/Quant.lean. `num` is `np.float32` of a numeral of a text archive (`none`: not a numeral). -/
structure Decoder where
  u16 : Bytes → Bytes → Bytes → Bytes
  u8 : Bytes → Bytes → Bytes → Bytes
  chr : Bytes → Bytes → Bytes → Bytes → Bytes
  num : Str → Option Bytes

/-- transpose of a list of `cols` columns with `rows` elements each. -/
def transposeL {α : Type} (rows : Nat) (cs : List (List α)) : List (List α) :=
  (List.range rows).map (fun i => cs.filterMap (fun c => c[i]?))

/-- kaldi_matrix.py:642-667 `to_ndarray`. Assigning a column of a wrong length raises (numpy would broadcast
a one-element column of a truncated object; not modelled). -/
def cmToNd (D : Decoder) (data : Bytes) : Option Nd := do
  let h ← unpackHead (data.take 20)
  if h.fmt = 1 then
    let heads := chunks 8 h.cols (data.drop 20)
    let cols := chunks h.rows h.cols ((data.drop 20).drop (h.cols * 8))
    let cs ← (heads.zip cols).mapM (fun p =>
      if p.1.length = 8 ∧ p.2.length = h.rows then
        some (p.2.map (fun b => D.chr h.mn h.rg p.1 [b])) else none)
    return .mat .f32 h.cols (transposeL h.rows cs)
  else if h.fmt = 2 then
    let v ← frombuffer 2 (data.drop 20)
    let rows ← reshape h.rows h.cols (v.map (D.u16 h.mn h.rg))
    return .mat .f32 h.cols rows
  else
    let v ← frombuffer 1 (data.drop 20)
    let rows ← reshape h.rows h.cols (v.map (D.u8 h.mn h.rg))
    return .mat .f32 h.cols rows

/-- coded values and attributes: kaldi_matrix.py:283-307. -/
structure CmAttrs where
  fmt : Int
  mn : Bytes
  rg : Bytes
  perc : Option (List Bytes)
  cols : Nat
  codes : List (List Bytes)
  deriving DecidableEq

/-- kaldi_matrix.py:283-307 `get_data_attrs`. -/
def cmGetAttrs (data : Bytes) : Option CmAttrs := do
  let h ← unpackHead (data.take 20)
  if h.fmt = 1 then
    let p ← frombuffer 2 ((data.take (20 + h.cols * 8)).drop 20)
    let v ← frombuffer 1 (data.drop (20 + h.cols * 8))
    let cs ← reshape h.cols h.rows v
    return ⟨h.fmt, h.mn, h.rg, some p, h.cols, transposeL h.rows cs⟩
  else if h.fmt = 2 then
    let v ← frombuffer 2 (data.drop 20)
    let rows ← reshape h.rows h.cols v
    return ⟨h.fmt, h.mn, h.rg, none, h.cols, rows⟩
  else
    let v ← frombuffer 1 (data.drop 20)
    let rows ← reshape h.rows h.cols v
    return ⟨h.fmt, h.mn, h.rg, none, h.cols, rows⟩

/-- kaldi_matrix.py:311-335 `build_from_data_attrs`: the `data` of the new object. Format 1 without
percentiles raises (`KeyError`). -/
def cmBuild (a : CmAttrs) : Option Bytes := do
  let h ← packHead ⟨a.fmt, a.mn, a.rg, a.codes.length, a.cols⟩
  if a.fmt = 1 then
    let p ← a.perc
    return h ++ p.flatten ++ (transposeL a.cols a.codes).flatten.flatten
  else return h ++ a.codes.flatten.flatten

/-! ### text mode -/

/-- the lines of a binary file, with their newlines: `for line in f`. -/
def linesB : Bytes → List Bytes
  | [] => []
  | c :: s =>
    if c = 10 then [c] :: linesB s
    else
      match linesB s with
      | [] => [[c]]
      | l :: ls => (c :: l) :: ls

/-- kaldi_matrix.py:148-151: the rows stacked; `none`: they have different lengths. -/
def stackRows (isVec : Bool) (rows : List (List Bytes)) : Option Nd :=
  match rows with
  | [] => none
  | r :: rs =>
    if rs.all (fun x => decide (x.length = r.length)) then
      some (if isVec ∧ rs = [] then .vec .f32 r else .mat .f32 r.length (r :: rs))
    else none

/-- kaldi_matrix.py:143-152: the words of one line: either more rows follow or the array is complete. -/
def textArr (D : Decoder) (isVec : Bool) (rows : List (List Bytes)) (arr : List Str) : Option (List (List Bytes) ⊕ Nd) :=
  if arr.getLast? = some [']'] then
    (arr.dropLast.mapM (fun w : Str => D.num w)).bind (fun r => (stackRows isVec (rows ++ [r])).map Sum.inr)
  else (arr.mapM (fun w : Str => D.num w)).map (fun r => Sum.inl (rows ++ [r]))

/-- kaldi_matrix.py:124-154: the lines after the first one. At the end of the file an empty vector comes out. -/
def textRows (D : Decoder) (isVec : Bool) : List (List Bytes) → List Bytes → Option (Nd × List Bytes)
  | _, [] => some (.vec .f32 [], [])
  | rows, l :: ls =>
    match decodeAscii l with
    | none => none
    | some t =>
      match splitWs t with
      | [] => textRows D isVec rows ls
      | w :: ws =>
        match textArr D isVec rows (w :: ws) with
        | none => none
        | some (.inr m) => some (m, ls)
        | some (.inl rows') => textRows D isVec rows' ls

/-- kaldi_matrix.py:121-154: the whole array (`arr == '[]'` compares a list with a string: never true). -/
def textFirst (D : Decoder) : List Bytes → Option (Nd × List Bytes)
  | [] => some (.vec .f32 [], [])
  | l :: ls =>
    match decodeAscii l with
    | none => none
    | some t =>
      match splitWs t with
      | [] => textFirst D ls
      | w :: ws =>
        if w = ['['] then
          if ws = [] then textRows D false [] ls
          else
            match textArr D true [] ws with
            | none => none
            | some (.inr m) => some (m, ls)
            | some (.inl rows) => textRows D true rows ls
        else none

/-- kaldi_matrix.py:117-154 `KaldiMatrix.read(f, False, ..)`: slices raise. -/
def readText (D : Decoder) (rowOffset numRows : Nat) (s : Bytes) : Option (Nd × Bytes) :=
  if 0 < rowOffset ∨ 0 < numRows then none else (textFirst D (linesB s)).map (fun p => (p.1, p.2.flatten))

/-! ### dispatch -/

/-- kaldi_matrix.py:70-115 `KaldiMatrix.read(f, True, ..)`. -/
def readMat (pk : Peek) (D : Decoder) (rowOffset numRows : Nat) (seqMode : Bool) (s : Bytes) : Option (Nd × Bytes) :=
  if peek pk 1 s = [67] then do
    let (d, s) ← cmRead pk rowOffset numRows s
    let m ← cmToNd D d
    return (m, s)
  else readPlain pk rowOffset numRows seqMode s

/-- kaldi_matrix.py:206-231 `KaldiMatrix.read_shape(f, True, ..)`. -/
def readShape (pk : Peek) (seqMode : Bool) (s : Bytes) : Option (List Nat × Bytes) :=
  if peek pk 1 s = [67] then cmShape pk seqMode s else shapePlain pk seqMode s

end Hyp.Kaldi
