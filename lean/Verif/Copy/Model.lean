import Verif.Kaldi.Ark
import Verif.H5.Model
import Verif.Spec.Model

/-!
Model of /repo/hyperion/io/data_rw_factory.py (factories of readers and writers), of the directory checks of
/repo/hyperion/io/data_writer.py and of /repo/hyperion/io/copy_feats.py, on top of the models of the specifiers
(Spec/Model.lean), of the ark files (Kaldi/Ark.lean), of the HDF5 files (H5/Model.lean) and of script files
(Scp/Model.lean).
-/

namespace Hyp.Copy
open Hyp.Text Hyp.Kaldi Hyp.Spec

/-- content of a file: bytes of an ark archive, datasets of an HDF5 file, text. Opening a file as another kind
is an exception in the model (in the code it is one for HDF5; an ark reader on another file reads garbage). -/
inductive Content
  | bin (b : Bytes)
  | hdf (f : H5.File)
  | txt (s : Str)

/-- the files on disk. -/
abbrev Disk := Str → Option Content

/-- `open(path, 'rb')`. -/
def Disk.bin (d : Disk) (p : Str) : Option Bytes :=
  match d p with
  | some (.bin b) => some b
  | _ => none

/-- `h5py.File(path, 'r')`. -/
def Disk.hdf (d : Disk) (p : Str) : Option H5.File :=
  match d p with
  | some (.hdf f) => some f
  | _ => none

/-- `open(path, 'r')`. -/
def Disk.txt (d : Disk) (p : Str) : Option Str :=
  match d p with
  | some (.txt s) => some s
  | _ => none

/-- `f.readline()` on a file just opened, rw_specifiers.py:341-342. -/
def Disk.firstLine (d : Disk) (p : Str) : Option Str := (d.txt p).map (fun s => (fileLines s).headD [])

/-- the environment that the readers depend on: what `f.peek` returns, the decoding of compressed matrices. -/
structure Env where
  pk : Peek
  D : Decoder

/-- the four sequential readers. -/
inductive Rd
  | arkFile (r : ArkReader)
  | arkScp (r : ScpReader)
  | h5File (r : H5.SeqFile)
  | h5Scp (r : H5.SeqScript)

/-- keyword arguments of `SequentialDataReaderFactory.create`, data_rw_factory.py:92. -/
structure ROpts where
  pref : Option Str
  sep : Char
  part : Nat
  parts : Nat

/-- ark_data_reader.py:288-289, 444-445, h5_data_reader.py:303-304: `add_prefix_to_filepath`. -/
def prefixed (pref : Option Str) (x : Scp.Scp Str Str) : Scp.Scp Str Str :=
  match pref with
  | none => x
  | some p => x.mapPath (p ++ ·)

/-- ark_data_reader.py:284-286: the part of the list (`split_by_key` has its default `False`). -/
def partScp (scp : Scp.Scp Str Str) (o : ROpts) : Option (Scp.Scp Str Str) :=
  if 1 < o.parts then scp.split o.part o.parts false else some scp

/-- ark_data_reader.py:280-295: constructor of `SequentialArkScriptDataReader`, on the loaded list. -/
def openArkScp (scp : Scp.Scp Str Str) (o : ROpts) : Option ScpReader :=
  (partScp scp o).map (fun s => ⟨prefixed o.pref s, 0, none⟩)

/-- data_rw_factory.py:92-110 `SequentialDataReaderFactory.create`, for a parsed specifier, with the constructors
of the readers (138-145 and 280-295 of ark_data_reader.py, 165-175 and 296-305 of h5_data_reader.py): a single ark
file cannot be split; `none` = exception. -/
def openSeq (d : Disk) (o : ROpts) (s : RSpecifier) : Option Rd :=
  match s.specType, s.archiveType with
  | .archive, .h5 => (H5.SeqFile.open d.hdf s.archive o.part o.parts false).map .h5File
  | .archive, .ark => if 1 < o.parts then none else (d.bin s.archive).map (fun b => .arkFile (ArkReader.open b))
  | .script, .h5 =>
    ((d.txt s.archive).bind (Scp.load o.sep ':')).bind (fun x => (H5.SeqScript.open x o.part o.parts false o.pref).map .h5Scp)
  | .script, .ark => ((d.txt s.archive).bind (Scp.load o.sep ':')).bind (fun x => (openArkScp x o).map .arkScp)

/-- the same from the text of the specifier, data_rw_factory.py:94-95. -/
def openSeqStr (d : Disk) (o : ROpts) (s : Str) : Option Rd := (rCreate d.firstLine s).bind (openSeq d o)

/-- `reader.eof()`: ark_data_reader.py:160-162, 307-309, h5_data_reader.py:186-188, 317-319. -/
def Rd.eof : Rd → Bool
  | .arkFile r => r.eof
  | .arkScp r => r.eof
  | .h5File r => r.eof
  | .h5Scp r => r.eof

/-- `reader.read(num_records)`, without transform (copy_feats.py:78 gives none). -/
def Rd.read (e : Env) (d : Disk) (k : Nat) : Rd → Option (List (Str × Nd) × Rd)
  | .arkFile r => (r.read e.pk e.D id k 0 0).map (fun p => (p.1, .arkFile p.2))
  | .arkScp r => (r.read e.pk e.D id d.bin k 0 0).map (fun p => (p.1, .arkScp p.2))
  | .h5File r => (r.read e.D id k (.int 0) (.int 0)).map (fun p => (p.1, .h5File p.2))
  | .h5Scp r => (r.read e.D id d.hdf k (.int 0) (.int 0)).map (fun p => (p.1, .h5Scp p.2))

/-- the two writers. -/
inductive Wr
  | ark (w : ArkWriter)
  | h5 (w : H5.Writer)

/-- arguments of the writer: separator of the script, and the conversion `_convert_data` of an array
(ark_data_writer.py:84-106, h5_data_writer.py:80-100: `astype(float_save())`, compression if asked). -/
structure WOpts where
  sep : Char
  conv : Nd → Option KMat

/-- data_writer.py:41-48: `os.makedirs(os.path.dirname(path))` when that directory does not exist: for a path
without directory the name is `''`, which does not exist and cannot be created. Other directories are created
(not modelled). -/
def dirOk (p : Str) : Bool := p.contains '/'

/-- one file of the disk replaced (`none`: it cannot be opened). -/
def Disk.set (d : Disk) (p : Str) (c : Option Content) : Disk := fun q => if q = p then c else d q

/-- the script file of a specifier, if any, replaced. -/
def Disk.setScript (d : Disk) (sc : Option Str) (t : Str) : Disk :=
  match sc with
  | none => d
  | some p => d.set p (some (.txt t))

/-- the script path is usable. -/
def scriptOk (sc : Option Str) : Bool :=
  match sc with
  | none => true
  | some p => dirOk p

/-- data_rw_factory.py:38-57 `DataWriterFactory.create` for a specifier with an archive, entered with `with`
(copy_feats.py:68): the output files are created empty. An HDF5 file open for writing cannot be opened for
reading (`none` on the disk). Text archives (`t`) are not modelled (`none`). What the writer has written is
visible to readers when it is closed only (the buffers of the operating system are not modelled). -/
def openArchiveWriter (d : Disk) (s : WSpecifier) (a : Str) : Option (Wr × Disk) :=
  if dirOk a && scriptOk s.script then
    match s.archiveType with
    | some .h5 => some (.h5 (H5.Writer.new s.script.isSome), (d.set a none).setScript s.script [])
    | _ => if s.binary then some (.ark ⟨[], []⟩, (d.set a (some (.bin []))).setScript s.script []) else none
  else none

/-- data_rw_factory.py:38-57: a script-only specifier gives no writer (`None`), and `with None` raises. -/
def openWriter (d : Disk) (s : WSpecifier) : Option (Wr × Disk) :=
  match s.specType, s.archive with
  | .script, _ => none
  | _, none => none
  | _, some a => openArchiveWriter d s a

/-- one record given to the writer: ark_data_writer.py:123-139, h5_data_writer.py:118-131. -/
def Wr.writeOne (o : WOpts) (path : Str) (w : Wr) (r : Str × Nd) : Option Wr :=
  (o.conv r.2).bind (fun m =>
    match w with
    | .ark w => (w.writeOne o.sep path (r.1, m)).map .ark
    | .h5 w => (w.writeOne o.sep path (r.1, m)).map .h5)

/-- `writer.write(key, data)`. -/
def Wr.write (o : WOpts) (path : Str) (w : Wr) (rs : List (Str × Nd)) : Option Wr := rs.foldlM (Wr.writeOne o path) w

/-- `writer.close()`: the disk afterwards. -/
def Wr.close (d : Disk) (a : Str) (sc : Option Str) : Wr → Disk
  | .ark w => (d.set a (some (.bin w.ark))).setScript sc w.script
  | .h5 w => (d.set a (some (.hdf w.file))).setScript sc w.script

/-- copy_feats.py:79-84: `while not reader.eof(): read(chunk_size); if len(key) == 0: break; write`. -/
def copyLoop (e : Env) (d : Disk) (o : WOpts) (path : Str) (chunk : Nat) : Nat → Rd → Wr → Option Wr
  | 0, _, _ => none
  | fuel + 1, r, w =>
    if r.eof then some w
    else
      match r.read e d chunk with
      | none => none
      | some ([], _) => some w
      | some (x :: xs, r') => (w.write o path (x :: xs)).bind (copyLoop e d o path chunk fuel r')

/-- a bound on the number of iterations of the loop: bytes of the ark file, entries of the list. -/
def Rd.fuel : Rd → Nat
  | .arkFile r => r.content.length + 2
  | .arkScp r => r.scp.key.length + 2
  | .h5File r => r.keys.length + 2
  | .h5Scp r => r.scp.key.length + 2

/-- copy_feats.py:75-84: one input. -/
def copyInput (e : Env) (d : Disk) (ro : ROpts) (o : WOpts) (path : Str) (chunk : Nat) (w : Wr) (input : Str) : Option Wr :=
  (openSeqStr d ro input).bind (fun r => copyLoop e d o path chunk r.fuel r w)

/-- copy_feats.py:63-84 `CopyFeats(input_spec, output_spec, ...)`: the disk afterwards; `none` = exception. -/
def copyFeats (e : Env) (d : Disk) (ro : ROpts) (o : WOpts) (inputs : List Str) (output : Str) (chunk : Nat) : Option Disk :=
  if 1 < ro.parts && 1 < inputs.length then none
  else
    (wCreate output).bind (fun s => (openWriter d s).bind (fun p =>
      (inputs.foldlM (copyInput e p.2 ro o (s.archive.getD []) chunk) p.1).map (Wr.close p.2 (s.archive.getD []) s.script)))

/-! ### random access -/

/-- the readers that `RandomAccessDataReaderFactory.create` builds: which class, on which file, permissive or not. -/
inductive RandRd
  | h5File (path : Str) (f : H5.File) (permissive : Bool)
  | h5Scp (r : H5.RandScript) (permissive : Bool)
  | ark (scp : Scp.Scp Str Str) (permissive : Bool)

/-- data_rw_factory.py:151-180 `RandomAccessDataReaderFactory.create` for a parsed specifier (`RSpecifier.script`
is the same path as `archive`, rw_specifiers.py:292-294). -/
def openRand (d : Disk) (pref : Option Str) (sep : Char) (s : RSpecifier) : Option RandRd :=
  match s.specType, s.archiveType with
  | .archive, .h5 => (d.hdf s.archive).map (fun f => .h5File s.archive f s.permissive)
  | .archive, .ark => none
  | .script, .h5 => ((d.txt s.archive).bind (Scp.load sep ':')).map (fun x => .h5Scp (H5.RandScript.open x pref) s.permissive)
  | .script, .ark => ((d.txt s.archive).bind (Scp.load sep ':')).map (fun x => .ark (prefixed pref x) s.permissive)

/-- `reader.read(keys)`. -/
def RandRd.read (e : Env) (d : Disk) (keys : List Str) : RandRd → Option (List Nd)
  | .h5File _ f p => H5.randFileRead e.D id (some f) p keys (.int 0) (.int 0)
  | .h5Scp r p => (r.read e.D id d.hdf p keys (.int 0) (.int 0)).map (·.1)
  | .ark x p => Kaldi.randomRead e.pk e.D id d.bin x p 0 0 keys

end Hyp.Copy
