import Verif.Kaldi.Ark
import Verif.ListUtils.Model
import Mathlib.Data.List.Lex
import Mathlib.Data.Char

/-!
Model of /repo/hyperion/io/h5_data_writer.py, h5_data_reader.py, h5_merger.py, hyp_data_reader.py,
hyp_data_writer.py and of `_squeeze` of data_reader.py.

An HDF5 file is the list of its datasets, in the order in which they were created, each under a path of
components: `create_dataset('a/b', ..)` makes a group `a` with a dataset `b`. h5py itself is trusted for what is
written in `File` below. `none` = an exception.
-/

namespace Hyp.H5
open Hyp.Text Hyp.Kaldi Hyp.ListUtils

/-- a dataset: an array, or the codes of a compressed matrix with the attributes `data_format`, `min_value`,
`data_range`, `perc` (h5_data_writer.py:120-124). -/
inductive DSet
  | plain (m : Nd)
  | coded (a : CmAttrs)
  deriving DecidableEq

/-- `dset.shape`: of the stored numbers. -/
def DSet.shape : DSet → List Nat
  | .plain m => m.shape
  | .coded a => [a.codes.length, a.cols]

/-- an HDF5 file. -/
structure File where
  sets : List (List Str × DSet)
  deriving DecidableEq

/-- the components of a key: `str.split('/')`. -/
def components : Str → List Str
  | [] => [[]]
  | c :: cs =>
    if c = '/' then [] :: components cs
    else match components cs with
      | [] => [[c]]
      | x :: xs => (c :: x) :: xs

/-- the path named by a key: the empty components are ignored. -/
def h5path (key : Str) : List Str := (components key).filter (fun c => decide (c ≠ []))

/-- keys whose HDF5 name is not modelled: those with a component `.` (the current group) and those that end
with `/`; writing them is refused by the model. -/
def oddKey (key : Str) : Bool := (components key).contains ['.'] || (components key).getLast? == some []

/-- `f.create_dataset(name, data)`: raises when a dataset or a group of this name exists, or when a prefix of
the path is a dataset; missing groups are made. -/
def File.create (f : File) (key : Str) (d : DSet) : Option File :=
  let p := h5path key
  if oddKey key || p == [] || f.sets.any (fun e => e.1.isPrefixOf p || p.isPrefixOf e.1) then none
  else some ⟨f.sets ++ [(p, d)]⟩

/-- `f[name]`, when it is a dataset; a group has neither a shape nor rows, and using it raises. -/
def File.get (f : File) (key : Str) : Option DSet := f.sets.lookup (h5path key)

/-- `name in f`: datasets and groups. -/
def File.has (f : File) (key : Str) : Bool :=
  h5path key == [] || f.sets.any (fun e => (h5path key).isPrefixOf e.1)

/-- `list(f.keys())`: the names of the links of the root group, in increasing order of name. -/
def File.keys (f : File) : List Str := npUnique (f.sets.filterMap (fun e => e.1.head?))

/-! ### writer -/

/-- h5_data_writer.py:80-100 `_convert_data`: an array (already converted to float32) is stored as it is, a
compressed matrix as its codes and attributes. -/
def convert : KMat → Option DSet
  | .plain m => some (.plain m)
  | .comp none => none
  | .comp (some d) => (cmGetAttrs d).map .coded

/-- h5_data_writer.py:37-46: the open file and the text of the script file (`hasScript = false`: none). -/
structure Writer where
  file : File
  script : Str
  hasScript : Bool
  deriving DecidableEq

/-- h5_data_writer.py:127: one line of the script file. -/
def scriptLine (sep : Char) (path key : Str) : Str := key ++ sep :: path ++ ['\n']

/-- h5_data_writer.py:118-131: one record. `is_token` is modelled on ASCII (Kaldi/Model.lean). -/
def Writer.writeOne (sep : Char) (path : Str) (w : Writer) (r : Str × KMat) : Option Writer :=
  if isToken r.1 then do
    let d ← convert r.2
    let f ← w.file.create r.1 d
    return ⟨f, if w.hasScript then w.script ++ scriptLine sep path r.1 else w.script, w.hasScript⟩
  else none

/-- h5_data_writer.py:104-131 `write(keys, data)`. -/
def Writer.write (sep : Char) (path : Str) (w : Writer) (rs : List (Str × KMat)) : Option Writer :=
  rs.foldlM (Writer.writeOne sep path) w

/-- h5_data_writer.py:37-46: a new writer. -/
def Writer.new (hasScript : Bool) : Writer := ⟨⟨[]⟩, [], hasScript⟩

/-! ### one dataset -/

/-- h5_data_reader.py:41-49: rows (or elements of a vector) `off..off+n`, as Python slices. -/
def sliceRows {α : Type} (off n : Nat) (l : List α) : List α :=
  if 0 < off then (if n = 0 then l.drop off else (l.drop off).take n)
  else if 0 < n then l.take n
  else l

/-- h5_data_reader.py:41-49 for an array. -/
def sliceNd (off n : Nat) : Nd → Nd
  | .vec dt els => .vec dt (sliceRows off n els)
  | .mat dt cols rows => .mat dt cols (sliceRows off n rows)

/-- h5_data_reader.py:41-55: slice, then uncompress. -/
def decodeSlice (D : Decoder) (off n : Nat) : DSet → Option Nd
  | .plain m => some (sliceNd off n m)
  | .coded a => (cmBuild { a with codes := sliceRows off n a.codes }).bind (cmToNd D)

/-- h5_data_reader.py:26-62 `_read_h5_data`; `tr` is the conversion to the float type followed by the transform. -/
def readSet (D : Decoder) (tr : Nd → Nd) (off n : Nat) (d : DSet) : Option Nd := do
  let m ← decodeSlice D off n d
  if n = 0 ∨ m.dim0 = n then some (tr m) else none

/-- `row_offset` and `num_rows`: an integer, or a list indexed by the position in the call. -/
inductive Arg
  | int (n : Nat)
  | list (l : List Nat)
  deriving DecidableEq

/-- h5_data_reader.py:258-259. -/
def Arg.at : Arg → Nat → Option Nat
  | .int n, _ => some n
  | .list l, i => l[i]?

/-- h5_data_reader.py:575-578: the assertion of the random access readers. -/
def Arg.fits (numKeys : Nat) : Arg → Bool
  | .int _ => true
  | .list l => decide (l.length = numKeys)

/-- h5_data_reader.py:219-220 and others: all the last dimensions are equal. `dims[0]` of an empty list raises. -/
def sameDim (shapes : List (List Int)) : Bool :=
  match shapes.map List.getLast? with
  | [] => false
  | d :: ds => ds.all (fun e => e == d)

abbrev Files := Str → Option File

/-- `dset.shape` as Python integers. -/
def DSet.ishape (d : DSet) : List Int := d.shape.map Int.ofNat

/-! ### SequentialH5FileDataReader -/

/-- h5_data_reader.py:165-175: the open file (`none` after `close`), the keys of this part, the position. -/
structure SeqFile where
  f : Option File
  keys : List Str
  cur : Nat
  deriving DecidableEq

/-- h5_data_reader.py:170-175: the keys of one part. -/
def partKeys (keys : List Str) (part parts : Nat) (byKey : Bool) : Option (List Str) :=
  if 1 < parts then
    if byKey then (splitListGroupByKey keys part parts keys).map (·.1)
    else (splitList keys part parts).map (·.1)
  else some keys

/-- h5_data_reader.py:165-175: the constructor. -/
def SeqFile.open (fs : Files) (path : Str) (part parts : Nat) (byKey : Bool) : Option SeqFile := do
  let f ← fs path
  let ks ← partKeys f.keys part parts byKey
  return ⟨some f, ks, 0⟩

/-- h5_data_reader.py:90-94 `close`. -/
def SeqFile.close (r : SeqFile) : SeqFile := { r with f := none }

/-- h5_data_reader.py:179-182 `reset`: does nothing when the file is closed. -/
def SeqFile.reset (r : SeqFile) : SeqFile := if r.f.isSome then { r with cur := 0 } else r

/-- h5_data_reader.py:186-188 `eof`. -/
def SeqFile.eof (r : SeqFile) : Bool := decide (r.cur = r.keys.length)

/-- h5_data_reader.py:256-266: one record; the `i`-th of the call. -/
def SeqFile.readOne (D : Decoder) (tr : Nd → Nd) (offs ns : Arg) (i : Nat) (r : SeqFile) : Option ((Str × Nd) × SeqFile) := do
  let key ← r.keys[r.cur]?
  let o ← offs.at i
  let n ← ns.at i
  let f ← r.f
  let d ← f.get key
  let m ← readSet D tr o n d
  return ((key, m), { r with cur := r.cur + 1 })

/-- h5_data_reader.py:253-266: the loop, `k` records left, the next is the `i`-th. -/
def SeqFile.loop (D : Decoder) (tr : Nd → Nd) (offs ns : Arg) : Nat → Nat → SeqFile → Option (List (Str × Nd) × SeqFile)
  | 0, _, r => some ([], r)
  | k + 1, i, r =>
    if r.eof then some ([], r)
    else do
      let (x, r) ← r.readOne D tr offs ns i
      let (xs, r) ← SeqFile.loop D tr offs ns k (i + 1) r
      return (x :: xs, r)

/-- h5_data_reader.py:226-271 `read(num_records, squeeze=False, row_offset, num_rows)`. -/
def SeqFile.read (D : Decoder) (tr : Nd → Nd) (r : SeqFile) (numRecords : Nat) (offs ns : Arg) :
    Option (List (Str × Nd) × SeqFile) :=
  SeqFile.loop D tr offs ns (if numRecords = 0 then r.keys.length - r.cur else numRecords) 0 r

/-- data_reader.py:204-213 `__next__` (`none` inside = `StopIteration`). -/
def SeqFile.next (D : Decoder) (tr : Nd → Nd) (r : SeqFile) : Option (Option (Str × Nd) × SeqFile) :=
  (r.read D tr 1 (.int 0) (.int 0)).map (fun p => (p.1.head?, p.2))

/-- `for key, data in reader` stopped after `n` rounds: what was seen, and whether the reader said `StopIteration`. -/
def SeqFile.iter (D : Decoder) (tr : Nd → Nd) : Nat → SeqFile → Option (List (Str × Nd) × Bool)
  | 0, _ => some ([], false)
  | n + 1, r => do
    let (x, r) ← r.next D tr
    match x with
    | none => return ([], true)
    | some x =>
      let (xs, b) ← SeqFile.iter D tr n r
      return (x :: xs, b)

/-- h5_data_reader.py:213-216: one shape. -/
def SeqFile.shapeOne (r : SeqFile) : Option ((Str × List Int) × SeqFile) := do
  let key ← r.keys[r.cur]?
  let f ← r.f
  let d ← f.get key
  return ((key, d.ishape), { r with cur := r.cur + 1 })

/-- h5_data_reader.py:210-216. -/
def SeqFile.shapeLoop : Nat → SeqFile → Option (List (Str × List Int) × SeqFile)
  | 0, r => some ([], r)
  | k + 1, r =>
    if r.eof then some ([], r)
    else do
      let (x, r) ← r.shapeOne
      let (xs, r) ← SeqFile.shapeLoop k r
      return (x :: xs, r)

/-- h5_data_reader.py:192-222 `read_shapes(num_records, assert_same_dim)`. -/
def SeqFile.readShapes (r : SeqFile) (numRecords : Nat) (same : Bool) : Option (List (Str × List Int) × SeqFile) := do
  let p ← SeqFile.shapeLoop (if numRecords = 0 then r.keys.length - r.cur else numRecords) r
  if same && !p.1.isEmpty && !sameDim (p.1.map (·.2)) then none else some p

/-! ### SequentialH5ScriptDataReader -/

/-- h5_data_reader.py:296-305: the list, the position, the file that is open (path and contents). -/
structure SeqScript where
  scp : Scp.Scp Str Str
  cur : Nat
  opened : Option (Str × File)

/-- h5_data_reader.py:296-305: the constructor, on the loaded list. -/
def SeqScript.open (scp : Scp.Scp Str Str) (part parts : Nat) (byKey : Bool) (pref : Option Str) : Option SeqScript := do
  let s ← if 1 < parts then scp.split part parts byKey else some scp
  return ⟨match pref with | none => s | some p => s.mapPath (p ++ ·), 0, none⟩

/-- h5_data_reader.py:98-106 `_open_archive`: the open file is kept when it is the one asked for. -/
def openArchive (fs : Files) (opened : Option (Str × File)) (path : Str) : Option File :=
  match opened with
  | none => fs path
  | some (p, f) => if path ≠ p then fs path else some f

/-- h5_data_reader.py:309-313 `reset`. -/
def SeqScript.reset (r : SeqScript) : SeqScript := ⟨r.scp, 0, none⟩

/-- h5_data_reader.py:90-94 `close`. -/
def SeqScript.close (r : SeqScript) : SeqScript := ⟨r.scp, r.cur, none⟩

/-- h5_data_reader.py:317-319 `eof`. -/
def SeqScript.eof (r : SeqScript) : Bool := decide (r.cur = r.scp.key.length)

/-- h5_data_reader.py:399-413: one record. A negative combined number of rows raises (the assertion of
`_read_h5_data`). -/
def SeqScript.readOne (D : Decoder) (tr : Nd → Nd) (fs : Files) (offs ns : Arg) (i : Nat) (r : SeqScript) :
    Option ((Str × Nd) × SeqScript) := do
  let (key, path, _, range) ← r.scp.getByPos r.cur
  let o ← offs.at i
  let n ← ns.at i
  let (o, k) ← combineRanges range o n
  let f ← openArchive fs r.opened path
  let d ← f.get key
  let k ← natOf k
  let m ← readSet D tr o k d
  return ((key, m), ⟨r.scp, r.cur + 1, some (path, f)⟩)

/-- h5_data_reader.py:396-413: the loop. -/
def SeqScript.loop (D : Decoder) (tr : Nd → Nd) (fs : Files) (offs ns : Arg) :
    Nat → Nat → SeqScript → Option (List (Str × Nd) × SeqScript)
  | 0, _, r => some ([], r)
  | k + 1, i, r =>
    if r.eof then some ([], r)
    else do
      let (x, r) ← r.readOne D tr fs offs ns i
      let (xs, r) ← SeqScript.loop D tr fs offs ns k (i + 1) r
      return (x :: xs, r)

/-- h5_data_reader.py:368-418 `read`. -/
def SeqScript.read (D : Decoder) (tr : Nd → Nd) (fs : Files) (r : SeqScript) (numRecords : Nat) (offs ns : Arg) :
    Option (List (Str × Nd) × SeqScript) :=
  SeqScript.loop D tr fs offs ns (if numRecords = 0 then r.scp.key.length - r.cur else numRecords) 0 r

/-- h5_data_reader.py:345-357: one shape. -/
def SeqScript.shapeOne (fs : Files) (r : SeqScript) : Option ((Str × List Int) × SeqScript) := do
  let (key, path, _, range) ← r.scp.getByPos r.cur
  let (o, k) ← combineRanges range 0 0
  let f ← openArchive fs r.opened path
  let d ← f.get key
  let s ← applyRangeToShape d.ishape o k
  return ((key, s), ⟨r.scp, r.cur + 1, some (path, f)⟩)

/-- h5_data_reader.py:341-357. -/
def SeqScript.shapeLoop (fs : Files) : Nat → SeqScript → Option (List (Str × List Int) × SeqScript)
  | 0, r => some ([], r)
  | k + 1, r =>
    if r.eof then some ([], r)
    else do
      let (x, r) ← r.shapeOne fs
      let (xs, r) ← SeqScript.shapeLoop fs k r
      return (x :: xs, r)

/-- h5_data_reader.py:323-363 `read_shapes`. -/
def SeqScript.readShapes (fs : Files) (r : SeqScript) (numRecords : Nat) (same : Bool) :
    Option (List (Str × List Int) × SeqScript) := do
  let p ← SeqScript.shapeLoop fs (if numRecords = 0 then r.scp.key.length - r.cur else numRecords) r
  if same && !sameDim (p.1.map (·.2)) then none else some p

/-! ### random access -/

/-- `np.array([])`: what permissive readers return for a missing key. -/
def emptyNd : Nd := .vec .f32 []

/-- h5_data_reader.py:583-595: one key of `RandomAccessH5FileDataReader.read`. -/
def randFileOne (D : Decoder) (tr : Nd → Nd) (f : File) (permissive : Bool) (offs ns : Arg) (i : Nat) (key : Str) : Option Nd :=
  if f.has key then do
    let o ← offs.at i
    let n ← ns.at i
    let d ← f.get key
    readSet D tr o n d
  else if permissive then some emptyNd else none

/-- h5_data_reader.py:550-600 `RandomAccessH5FileDataReader.read(keys, squeeze=False, ..)`; `f = none`: closed. -/
def randFileRead (D : Decoder) (tr : Nd → Nd) (f : Option File) (permissive : Bool) (keys : List Str) (offs ns : Arg) :
    Option (List Nd) :=
  if offs.fits keys.length && ns.fits keys.length then
    keys.zipIdx.mapM (fun p => f.bind (fun f => randFileOne D tr f permissive offs ns p.2 p.1))
  else none

/-- h5_data_reader.py:530-540: the shape for one key. -/
def randFileShapeOne (f : File) (permissive : Bool) (key : Str) : Option (List Int) :=
  if f.has key then (f.get key).map DSet.ishape else if permissive then some [0] else none

/-- h5_data_reader.py:514-546 `read_shapes(keys, assert_same_dim)`. -/
def randFileShapes (f : Option File) (permissive : Bool) (keys : List Str) (same : Bool) : Option (List (List Int)) := do
  let s ← keys.mapM (fun k => f.bind (fun f => randFileShapeOne f permissive k))
  if same && !sameDim s then none else some s

/-- h5_data_reader.py:623-635: the list, the distinct file paths, the index of the path of each entry and the
handles. The look-up table of the list is not a part of the state: it is built from the keys (C05). -/
structure RandScript where
  scp : Scp.Scp Str Str
  archives : List Str
  archiveIdx : List Nat
  handles : List (Option File)

/-- h5_data_reader.py:623-635: the constructor. -/
def RandScript.open (scp : Scp.Scp Str Str) (pref : Option Str) : RandScript :=
  let s := match pref with | none => scp | some p => scp.mapPath (p ++ ·)
  ⟨s, npUnique s.path, npInverse s.path, (npUnique s.path).map (fun _ => none)⟩

/-- h5_data_reader.py:639-644 `close`. -/
def RandScript.close (r : RandScript) : RandScript := { r with handles := r.handles.map (fun _ => none) }

/-- h5_data_reader.py:648-662 `_open_archive`: the file of entry `i` and the handles afterwards. -/
def RandScript.openArchive (fs : Files) (r : RandScript) (i : Nat) : Option (File × RandScript) := do
  let a ← r.archiveIdx[i]?
  let h ← r.handles[a]?
  match h with
  | some f => some (f, r)
  | none =>
    let p ← r.archives[a]?
    let f ← fs p
    return (f, { r with handles := r.handles.set a (some f) })

/-- h5_data_reader.py:752-777: one key of `RandomAccessH5ScriptDataReader.read`. -/
def RandScript.readOne (D : Decoder) (tr : Nd → Nd) (fs : Files) (permissive : Bool) (offs ns : Arg) (i : Nat)
    (r : RandScript) (key : Str) : Option (Nd × RandScript) :=
  if (r.scp.contains key).1 then do
    let j ← (r.scp.getIndex key).1
    let (_, _, _, range) ← r.scp.getByPos j
    let o ← offs.at i
    let n ← ns.at i
    let (o, k) ← combineRanges range o n
    let (f, r) ← r.openArchive fs j
    if f.has key then
      let d ← f.get key
      let k ← natOf k
      let m ← readSet D tr o k d
      return (m, r)
    else if permissive then some (emptyNd, r) else none
  else if permissive then some (emptyNd, r) else none

/-- h5_data_reader.py:749-777: the loop over the keys. -/
def RandScript.loop (D : Decoder) (tr : Nd → Nd) (fs : Files) (permissive : Bool) (offs ns : Arg) :
    Nat → List Str → RandScript → Option (List Nd × RandScript)
  | _, [], r => some ([], r)
  | i, key :: keys, r => do
    let (x, r) ← r.readOne D tr fs permissive offs ns i key
    let (xs, r) ← RandScript.loop D tr fs permissive offs ns (i + 1) keys r
    return (x :: xs, r)

/-- h5_data_reader.py:719-782 `RandomAccessH5ScriptDataReader.read(keys, squeeze=False, ..)`. -/
def RandScript.read (D : Decoder) (tr : Nd → Nd) (fs : Files) (permissive : Bool) (r : RandScript) (keys : List Str)
    (offs ns : Arg) : Option (List Nd × RandScript) :=
  if offs.fits keys.length && ns.fits keys.length then RandScript.loop D tr fs permissive offs ns 0 keys r else none

/-! ### `_squeeze` -/

/-- the result of `_squeeze`: an array with one more axis, given as its blocks, or - when every array has no
rows and `permissive` is false - the concatenation of the arrays as they are, which has no rows. -/
inductive Squeezed
  | stack (blocks : List Nd)
  | flat (m : Nd)
  deriving DecidableEq

/-- `np.zeros(shape)` with the shape of `m`, of float numbers (all the bytes are zero). -/
def Nd.zerosLike : Nd → Nd
  | .vec dt els => .vec dt (els.map (fun _ => List.replicate dt.size 0))
  | .mat dt cols rows => .mat dt cols (rows.map (fun _ => List.replicate cols (List.replicate dt.size 0)))

/-- data_reader.py:86-93: what becomes of one array. `some (some b)`: a block of the new array; `some none`: an
array without rows left as it was; `none`: an assertion. -/
def squeezeOne (permissive : Bool) (first m : Nd) : Option (Option Nd) :=
  if m.dim0 = 0 then (if permissive then some (some (Nd.zerosLike first)) else some none)
  else if m.shape.length = first.shape.length ∧ m.shape.getLast? = first.shape.getLast? then some (some m)
  else none

/-- data_reader.py:69-95 `_squeeze`. `np.concatenate` needs blocks of one shape, and does not mix arrays with a
different number of axes. -/
def squeeze (permissive : Bool) (data : List Nd) : Option Squeezed := do
  let first ← data.head?
  let bs ← data.mapM (squeezeOne permissive first)
  if bs.all Option.isSome then
    if (bs.filterMap id).all (fun b => (bs.filterMap id).all (fun c => decide (b.shape = c.shape))) then
      some (.stack (bs.filterMap id))
    else none
  else if bs.all Option.isNone then
    if data.all (fun m => decide (m.shape = first.shape)) then some (.flat first) else none
  else none

/-! ### HypDataReader, HypDataWriter, H5Merger -/

/-- the codes of a compressed matrix seen as an array of integers, as a reader that ignores the attributes
gets it: each code as a float number is a function `num` of its bytes. -/
def rawNd (num : Bytes → Bytes) : DSet → Nd
  | .plain m => m
  | .coded a => .mat .f32 a.cols (a.codes.map (List.map num))

/-- hyp_data_reader.py:34-56 `read(keys, field)` with `return_tensor=False`: the attributes are not looked at. -/
def hypRead (num : Bytes → Bytes) (f : File) (field : Str) (keys : List Str) : Option (List Nd) :=
  keys.mapM (fun k => if f.has (k ++ field) then (f.get (k ++ field)).map (rawNd num) else none)

/-- hyp_data_writer.py:28-36 `write(keys, field, x)`; the arrays are already float32. -/
def hypWrite (f : File) (field : Str) (rs : List (Str × Nd)) : Option File :=
  rs.foldlM (fun f r => f.create (r.1 ++ field) (.plain r.2)) f

/-- h5_merger.py:40-44: `for first in range(0, len(datasets), chunk)` from position `first`. `chunk = 0` raises
(`range` with a zero step). -/
def mergeLoop (num : Bytes → Bytes) (hr : File) (datasets : List Str) (chunk : Nat) : Nat → Nat → File → Option File
  | 0, _, hw => some hw
  | fuel + 1, first, hw =>
    if datasets.length ≤ first then some hw
    else do
      let keys := (datasets.take (min (first + chunk) datasets.length)).drop first
      let x ← hypRead num hr [] keys
      let hw ← hypWrite hw [] (keys.zip x)
      mergeLoop num hr datasets chunk fuel (first + chunk) hw

/-- h5_merger.py:35-38. -/
def chunkOf (chunkSize : Option Nat) (numKeys : Nat) : Nat :=
  match chunkSize with
  | none => numKeys
  | some c => c

/-- h5_merger.py:32-44 `_merge_file`. -/
def mergeFile (num : Bytes → Bytes) (chunkSize : Option Nat) (hw hr : File) : Option File :=
  let datasets := hr.keys
  let chunk := chunkOf chunkSize datasets.length
  if chunk = 0 then none
  else mergeLoop num hr datasets chunk (datasets.length + 1) 0 hw

/-- h5_merger.py:26-29 `merge`, starting with a new output file. -/
def mergeFiles (num : Bytes → Bytes) (chunkSize : Option Nat) (inputs : List File) : Option File :=
  inputs.foldlM (mergeFile num chunkSize) ⟨[]⟩

/-- hyp_data_reader.py:75-79 `read_slice`. -/
def readSlice (f : File) (key : Str) (index num : Nat) : Option Nd :=
  if f.has key then (f.get key).bind (fun d => match d with
    | .plain (.vec dt els) => some (.vec dt ((els.take (index + num)).drop index))
    | .plain (.mat dt cols rows) => some (.mat dt cols ((rows.take (index + num)).drop index))
    | .coded _ => none)
  else none

end Hyp.H5
