import Verif.Scp.Model
import Verif.Segments.SegOps
import Verif.Kaldi.Model
import Verif.Round

/-!
Model of /repo/hyperion/io/audio_reader.py and /repo/hyperion/io/audio_writer.py. Signals are lists of samples (one channel)
over an ordered field: the rounding of floating point is not modelled. libsndfile and the shell are given by what they return.
`none` is an exception.
-/

namespace Hyp.Audio
open Hyp.Text Hyp.Segments

variable {K : Type} [Field K] [LinearOrder K] [IsStrictOrderedRing K] [FloorRing K]

/-- a signal and its sampling frequency. -/
structure Wave (K : Type) where
  samples : List K
  fs : Nat
deriving DecidableEq

/-- what the reader gets from outside: `sf.read(path)`, and for a shell command its return code and `sf.read` of its output. -/
structure World (K : Type) where
  file : Str → Option (Wave K)
  pipe : Str → Int × Option (Wave K)

/-- audio_reader.py:23 `valid_ext` (the entry `w64` has no dot). -/
def validExt : List Str :=
  [['.', 'w', 'a', 'v'], ['.', 'f', 'l', 'a', 'c'], ['.', 'o', 'g', 'g'], ['.', 'a', 'u'], ['.', 'a', 'v', 'r'], ['.', 'c', 'a', 'f'],
   ['.', 'h', 't', 'k'], ['.', 'i', 'f', 'f'], ['.', 'm', 'a', 't'], ['.', 'm', 'p', 'c'], ['.', 'o', 'g', 'a'], ['.', 'p', 'v', 'f'],
   ['.', 'r', 'f', '6', '4'], ['.', 's', 'd', '2'], ['.', 's', 'd', 's'], ['.', 's', 'f'], ['.', 'v', 'o', 'c'], ['w', '6', '4'],
   ['.', 'w', 'v', 'e'], ['.', 'x', 'i']]

/-- `s.strip()`. -/
def strip (s : Str) : Str := lstrip (rstrip s)

/-- the last component of a path. -/
def baseName (p : Str) : Str := p.rtakeWhile (· != '/')

/-- `os.path.splitext(p)[1]` (posix): from the last dot of the last component, if something other than dots precedes it. -/
def splitExt (p : Str) : Str :=
  if (baseName p).contains '.' && !(((baseName p).rdropWhile (· != '.')).all (· == '.')) then '.' :: (baseName p).rtakeWhile (· != '.') else []

/-- audio_reader.py:93, 113: `x *= scale`. -/
def scaled (scale : K) (x : Wave K) : Wave K := ⟨x.samples.map (· * scale), x.fs⟩

/-- audio_reader.py:101-114 `read_pipe`. -/
def readPipe (w : World K) (scale : K) (cmd : Str) : Option (Wave K) :=
  if (w.pipe cmd).1 = 0 then (w.pipe cmd).2.map (scaled scale) else none

/-- audio_reader.py:76-97 `read_wavspecifier`. -/
def readSpec (w : World K) (scale : K) (spec : Str) : Option (Wave K) :=
  match (strip spec).getLast? with
  | none => none
  | some c =>
    if c = '|' then readPipe w scale (strip spec).dropLast
    else if splitExt (strip spec) ∈ validExt then (w.file (strip spec)).map (scaled scale) else none

/-- Python's `int(t)` of a float: rounds towards zero. -/
def toInt (t : K) : ℤ := if 0 ≤ t then ⌊t⌋ else ⌈t⌉

/-- `x[a:b]`. -/
def pySlice {α : Type} (x : List α) (a b : ℤ) : List α := (x.take (sliceBound x.length b)).drop (sliceBound x.length a)

/-- audio_reader.py:130-141: the samples of a segment. -/
def cutSegment (x : Wave K) (tbeg tend : K) : Option (Wave K) :=
  let n : ℤ := x.samples.length
  let sBeg := toInt (tbeg * (x.fs : K))
  let sEnd := toInt (tend * (x.fs : K))
  if sBeg ≥ n then none else some ⟨pySlice x.samples sBeg (if sEnd > n ∨ tend < 0 then n else sEnd), x.fs⟩

/-- audio_reader.py:117-141 `_read_segment`. -/
def readSegment (w : World K) (scale : K) (scp : Scp.Scp Str Str) (s : Seg K) : Option (Wave K) :=
  (scp.getByKey s.file.toList).1.bind (fun e => (readSpec w scale e.1).bind (fun x => cutSegment x s.tbeg s.tend))

/-- a reader: `scp`, `segments`, `scale` and, for the sequential reader, `cur_item`. -/
structure Reader (K : Type) where
  scp : Scp.Scp Str Str
  segs : Option (SegList K)
  scale : K
  cur : Nat

/-- audio_reader.py:34-52 the constructor, from the contents of the files: `segments` are the rows of the segments file
(`SegmentList.load(.., index_by_file=False)`; the parsing by pandas is not modelled). -/
def openBase (scpText : Str) (segs : Option (List (Seg K))) (scale : K) : Option (Reader K) :=
  (Scp.load ' ' ':' scpText).bind (fun x =>
    match segs with
    | none => some ⟨x, none, scale, 0⟩
    | some rows => (mkSegList rows false).map (fun l => ⟨x, some l, scale, 0⟩))

/-- audio_reader.py:156-160: the part of the segments or of the recordings (`group_by_key` has its default `True`). -/
def takePart (r : Reader K) (part parts : Nat) : Option (Reader K) :=
  if parts > 1 then
    match r.segs with
    | some l => (segSplit l part parts).map (fun l' => { r with segs := some l' })
    | none => (r.scp.split part parts true).map (fun x => { r with scp := x })
  else some r

/-- audio_reader.py:151-160 `SequentialAudioReader(...)`. -/
def openSeq (scpText : Str) (segs : Option (List (Seg K))) (scale : K) (part parts : Nat) : Option (Reader K) :=
  (openBase scpText segs scale).bind (fun r => takePart r part parts)

/-- audio_reader.py:193-197 `reset`. -/
def Reader.reset (r : Reader K) : Reader K := { r with cur := 0 }

/-- audio_reader.py:201-209 `eof`. -/
def Reader.eof (r : Reader K) : Bool :=
  match r.segs with
  | some l => decide (r.cur = l.rows.length)
  | none => decide (r.cur = r.scp.key.length)

/-- audio_reader.py:232-243: one record. -/
def Reader.readOne (w : World K) (r : Reader K) : Option ((Str × Wave K) × Reader K) :=
  match r.segs with
  | some l => l.rows[r.cur]?.bind (fun s => (readSegment w r.scale r.scp s).map (fun x => ((s.id, x), { r with cur := r.cur + 1 })))
  | none => (r.scp.getByPos r.cur).bind (fun e => (readSpec w r.scale e.2.1).map (fun x => ((e.1, x), { r with cur := r.cur + 1 })))

/-- audio_reader.py:228-243: the loop. -/
def Reader.loop (w : World K) : Nat → Reader K → Option (List (Str × Wave K) × Reader K)
  | 0, r => some ([], r)
  | k + 1, r =>
    if r.eof then some ([], r)
    else (r.readOne w).bind (fun p => (Reader.loop w k p.2).map (fun q => (p.1 :: q.1, q.2)))

/-- audio_reader.py:222-223: the number of records; with 0 it is counted on the recordings, also when there are segments
(a negative number of turns is none). -/
def Reader.turns (r : Reader K) (numRecords : Nat) : Nat :=
  if numRecords = 0 then r.scp.key.length - r.cur else numRecords

/-- audio_reader.py:212-245 `read`. -/
def Reader.read (w : World K) (numRecords : Nat) (r : Reader K) : Option (List (Str × Wave K) × Reader K) :=
  r.loop w (r.turns numRecords)

/-- audio_reader.py:164-184: a `for` loop over the reader: `read(1)` until it gives nothing. -/
def Reader.iter (w : World K) : Nat → Reader K → Option (List (Str × Wave K) × Reader K)
  | 0, _ => none
  | fuel + 1, r =>
    match r.read w 1 with
    | none => none
    | some ([], r') => some ([], r')
    | some (x :: _, r') => (Reader.iter w fuel r').map (fun q => (x :: q.1, q.2))

/-- a bound on the number of turns of that loop. -/
def Reader.fuel (r : Reader K) : Nat :=
  match r.segs with
  | some l => l.rows.length + 1
  | none => r.scp.key.length + 1

/-- audio_reader.py:299-310: one key of the random access reader. `key in self.segments` looks in the index of the table, which is
the segment id here; `.loc` of a repeated id gives a table, and `scp[table]` raises. -/
def Reader.readKey (w : World K) (r : Reader K) (key : Str) : Option (Wave K) :=
  match r.segs with
  | some l =>
    match rowsAt l key with
    | [s] => readSegment w r.scale r.scp s
    | _ => none
  | none => (r.scp.getByKey key).1.bind (fun e => readSpec w r.scale e.1)

/-- audio_reader.py:284-315 `RandomAccessAudioReader.read`. -/
def Reader.readKeys (w : World K) (r : Reader K) (keys : List Str) : Option (List (Wave K)) :=
  keys.mapM (fun k : Str => r.readKey w k)

/-! ### writer -/

/-- audio_writer.py:22-27: the sample type of a subtype. -/
def npDtype : List (Str × Str) :=
  [("PCM_32".toList, "int32".toList), ("ALAW".toList, "int16".toList), ("IMA_ADPCM".toList, "int16".toList), ("FLOAT".toList, "float32".toList),
   ("PCM_16".toList, "int16".toList), ("DOUBLE".toList, "float64".toList), ("MS_ADPCM".toList, "int16".toList), ("ULAW".toList, "int16".toList),
   ("PCM_U8".toList, "uint8".toList), ("PCM_S8".toList, "int8".toList), ("VORBIS".toList, "float32".toList), ("GSM610".toList, "int16".toList),
   ("G721_32".toList, "int16".toList), ("PCM_24".toList, "int24".toList)]

/-- what the writer gets from outside: `sf.default_subtype`, `sf.check_format`, and what a later `sf.read` gives for the samples written with a
format, a subtype, a numpy type and a sampling frequency (`none`: `astype` or `sf.write` raises). -/
structure Codec (K : Type) where
  defaultSubtype : Str → Option Str
  check : Str → Str → Bool
  store : Str → Str → Str → Wave K → Option (Wave K)

/-- arguments of the writer. -/
structure WCfg where
  out : Str
  script : Bool
  format : Str
  subtype : Str
  sep : Str
deriving DecidableEq

/-- audio_writer.py:39-59 the constructor (the creation of the directory is not modelled). -/
def openWriter (c : Codec K) (out : Str) (script : Bool) (format : Str) (subtype : Option Str) (sep : Str) : Option WCfg :=
  if ('.' :: format) ∈ validExt then
    match subtype with
    | none => (c.defaultSubtype format).map (fun s => ⟨out, script, format, s, sep⟩)
    | some s => if c.check format s then some ⟨out, script, format, s, sep⟩ else none
  else none

/-- audio_writer.py:107-108: the file of a key. -/
def outFile (g : WCfg) (key : Str) : Str :=
  g.out ++ '/' :: (key.map (fun ch => if ch = '/' then '-' else ch) ++ '.' :: g.format)

/-- the files on disk and the text of the script file. -/
structure WState (K : Type) where
  disk : Str → Option (Wave K)
  script : Str

/-- audio_writer.py:105-116: one record; the second component tells whether it went through (an exception leaves the state). -/
def writeOne (c : Codec K) (g : WCfg) (dtype : Str) (st : WState K) (r : Str × Option (Wave K)) : WState K × Bool :=
  if Kaldi.isToken r.1 then
    match r.2.bind (c.store g.format g.subtype dtype) with
    | none => (st, false)
    | some y => (⟨fun p => if p = outFile g r.1 then some y else st.disk p,
        if g.script then st.script ++ (r.1 ++ g.sep ++ outFile g r.1 ++ ['\n']) else st.script⟩, true)
  else (st, false)

/-- the loop of audio_writer.py:105-116: it stops at the first exception. -/
def writeAll (c : Codec K) (g : WCfg) (dtype : Str) : WState K → List (Str × Option (Wave K)) → WState K × Bool
  | st, [] => (st, true)
  | st, r :: rs =>
    if (writeOne c g dtype st r).2 then writeAll c g dtype (writeOne c g dtype st r).1 rs else ((writeOne c g dtype st r).1, false)

/-- the sampling frequency argument of `write`. -/
inductive Fs
  | one (f : Nat)
  | list (l : List Nat)

/-- audio_writer.py:109. -/
def Fs.get (f : Fs) (i : Nat) : Option Nat :=
  match f with
  | .one a => some a
  | .list l => l[i]?

/-- audio_writer.py:105-110: the records of one call; a missing signal or frequency is an IndexError at that record. -/
def records (keys : List Str) (data : List (List K)) (fs : Fs) : List (Str × Option (Wave K)) :=
  keys.zipIdx.map (fun p => (p.1, (fs.get p.2).bind (fun f => data[p.2]?.map (fun x => ⟨x, f⟩))))

/-- audio_writer.py:88-116 `write`, keys in a list. -/
def write (c : Codec K) (g : WCfg) (st : WState K) (keys : List Str) (data : List (List K)) (fs : Fs) : WState K × Bool :=
  match npDtype.lookup g.subtype with
  | none => (st, false)
  | some dtype => writeAll c g dtype st (records keys data fs)

end Hyp.Audio
