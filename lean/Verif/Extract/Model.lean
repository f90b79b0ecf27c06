import Verif.Copy.Model
import Verif.Kaldi.Shapes

/-!
Model of the scripts that run a network on every sequence of a list and store one vector per sequence:
/repo/hyperion/bin/keras-extract-seq-embed.py, keras-eval-seq-embed.py, keras-extract-seq-q-embed.py,
keras-eval-seq-q-embed.py (and the copies keras-extract-seq-embed5.py). The network (with the transform of
`--preproc-file`, that the reader applies to each array) is a function of the array; the readers and the writer are
those of Copy/Model.lean.
-/

namespace Hyp.Extract
open Hyp.Text Hyp.Kaldi Hyp.Spec Hyp.Copy

/-- what is left of a query of an ark reader when its check passed. -/
def passed {R : Type} : Option (List (Str × Int)) × R → Option (List (Str × Int) × R)
  | (none, _) => none
  | (some l, r) => some (l, r)

/-- h5_data_reader.py:110-125: `read_num_rows` of the HDF5 readers, from their `read_shapes`. -/
def h5Rows {R : Type} (p : List (Str × List Int) × R) : List (Str × Int) × R := (p.1.map (fun x => (x.1, rowsOfShape x.2)), p.2)

/-- `sr.read_num_rows()` (`num_records=0, assert_same_dim=True`), ark_data_reader.py:81-97, h5_data_reader.py:110-125:
the keys and the numbers of rows; `none` = exception. -/
def numRows (e : Env) (d : Disk) : Rd → Option (List (Str × Int) × Rd)
  | .arkFile r => ((seqNumRows (ArkReader.readShapes e.pk e.D) r 0 true).bind passed).map (fun p => (p.1, .arkFile p.2))
  | .arkScp r => ((seqNumRows (ScpReader.readShapes e.pk e.D d.bin) r 0 true).bind passed).map (fun p => (p.1, .arkScp p.2))
  | .h5File r => ((r.readShapes 0 true).map h5Rows).map (fun p => (p.1, .h5File p.2))
  | .h5Scp r => ((r.readShapes d.hdf 0 true).map h5Rows).map (fun p => (p.1, .h5Scp p.2))

/-- `sr.reset()`. -/
def reset : Rd → Rd
  | .arkFile r => .arkFile r.reset
  | .arkScp r => .arkScp r.reset
  | .h5File r => .h5File r.reset
  | .h5Scp r => .h5Scp r.reset

/-- keras-extract-seq-embed.py:62-72: `key, data = sr.read(1)` and `y[i] = predict(data[0])`; `key[0]` of an empty
answer raises. -/
def oneRow (e : Env) (d : Disk) (f : Nd → Option Nd) (r : Rd) : Option ((Str × Nd) × Rd) :=
  (r.read e d 1).bind (fun p => p.1.head?.bind (fun x => (f x.2).map (fun y => ((x.1, y), p.2))))

/-- keras-extract-seq-embed.py:62-76: `for i in xrange(num_seqs)`. -/
def rowsLoop (e : Env) (d : Disk) (f : Nd → Option Nd) : Nat → Rd → Option (List (Str × Nd))
  | 0, _ => some []
  | n + 1, r => (oneRow e d f r).bind (fun p => (rowsLoop e d f n p.2).map (fun l => p.1 :: l))

/-- keras-extract-seq-embed.py:46-76: the keys and the rows of the matrix `y`. -/
def rows (e : Env) (d : Disk) (ro : ROpts) (f : Nd → Option Nd) (input : Str) : Option (List (Str × Nd)) :=
  (openSeqStr d ro input).bind (fun r => (numRows e d r).bind (fun p => rowsLoop e d f p.1.length (reset p.2)))

/-- how a job ends: with an exception before the outputs are created, with an exception later (the outputs are not
described), or normally, with the files that the disk then has. -/
inductive Outcome
  | untouched
  | broken
  | done (d : Disk)

/-- keras-extract-seq-embed.py:80-81: `hw = DWF.create(output_path); hw.write(keys, y)`; the files are closed when the
process ends. -/
def store (d : Disk) (o : WOpts) (output : Str) (l : List (Str × Nd)) : Outcome :=
  match wCreate output with
  | none => .untouched
  | some s =>
    match (openWriter d s).bind (fun p => (p.1.write o (s.archive.getD []) l).map (Wr.close p.2 (s.archive.getD []) s.script)) with
    | none => .broken
    | some d' => .done d'

/-- the script: keras-extract-seq-embed.py:35-81 with `f = predict_embed`, keras-eval-seq-embed.py:36-82 with
`f = predict_eval`, keras-eval-seq-q-embed.py:36-82. -/
def job (e : Env) (d : Disk) (ro : ROpts) (o : WOpts) (f : Nd → Option Nd) (input output : Str) : Outcome :=
  match rows e d ro f input with
  | none => .untouched
  | some l => store d o output l

/-- the choices of `--write-format`, keras-extract-seq-q-embed.py:114-116. -/
inductive Form
  | p1
  | p2
  | both
  deriving DecidableEq

/-- keras-extract-seq-q-embed.py:82-87: the row of `y` for the two rows of `p1_y` and `p2_y`; `np.hstack`. -/
def qRow (w : Form) (p : List Bytes × List Bytes) : List Bytes :=
  match w with
  | .p1 => p.1
  | .both => p.1 ++ p.2
  | .p2 => p.2

/-- keras-extract-seq-q-embed.py:36-90: `p1_y[i], p2_y[i] = model.predict_embed(data[0])`. -/
def qJob (e : Env) (d : Disk) (ro : ROpts) (o : WOpts) (w : Form) (g : Nd → Option (List Bytes × List Bytes))
    (input output : Str) : Outcome :=
  job e d ro o (fun v => (g v).map (fun p => .vec .f32 (qRow w p))) input output

end Hyp.Extract
