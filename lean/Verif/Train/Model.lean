import Verif.Persist.ListProps

/-!
Model of the training scripts of the transforms: /repo/hyperion/bin/train-cw.py, train-pca.py, train-gaussianizer.py, train-mvn.py, train-lda.py,
train-nda.py, on the model of saved transforms (Verif/Persist). What `fit` and `predict` of a class compute is arbitrary here (Verif/Transforms); what
the vector readers return without pre-processing is given (Verif/Readers). `none` = an exception.
-/

namespace Hyp.Train
open Hyp.Text Hyp.H5 Hyp.Persist

/-- the model files on disk. -/
abbrev Disk := Str → Option Persist.File

/-- what the classes do: precision of the files, `predict`. -/
structure Env (X : Type) where
  rd : ℚ → ℚ
  pr : Cls → (P → Option Arr) → X → Option X

/-- the scripts, which differ in how they get the model to train: train-cw.py with and without `--no-lnorm`, train-pca.py, train-gaussianizer.py,
and the ones without `--input-path` (train-mvn.py, train-lda.py, train-nda.py). -/
inductive Script
  | cwLnorm | cw | pca | gauss | other
  deriving DecidableEq

/-- one call of a script. `fresh`: the model that its constructor gives from the options; `name`: `--name`; `fit`: the fit of the class on the data that
was read (with the class labels, for train-lda.py and train-nda.py). -/
structure Job (X : Type) where
  script : Script
  data : X
  preproc : Option Str
  input : Option Str
  name : Option Str
  fresh : Obj
  fit : Obj → X → Option Obj
  saveTlist : Bool
  appendTlist : Bool
  out : Str

/-- `cls.load(path)` on any model file, hyp_model.py:103-108: the document of a list has a name but no options. -/
def loadAs (k : Cls) (f : Persist.File) : Option Obj :=
  match Persist.get f configKey with
  | some (.cfg c) => loadParams k f c
  | some (.lcfg c) => loadParams k f ⟨k, c.name, []⟩
  | _ => none

/-- train-cw.py:40-44, train-pca.py:36-40: the first transform of the list with the name; `None`, on which `fit` raises, if there is none. -/
def fromList (f : Persist.File) (name : Option Str) : Option Obj := (lload f).bind (fun l => l.ts.find? (fun t => decide (t.name = name)))

/-- train-cw.py:28-44, train-pca.py:27-40, train-gaussianizer.py:28-40 `load_model`: `try: cls.load except: the list`. `CentWhiten(input_path)` is the
constructor (the path becomes the mean, which `fit` replaces, and the other arguments keep their defaults); `name` is not defined in
train-gaussianizer.py. -/
def loadModel (d : Disk) {X : Type} (j : Job X) : Option Obj :=
  match j.input with
  | none => some j.fresh
  | some path =>
    match j.script with
    | .cw => ctor .CentWhiten none (fun _ => none) []
    | .cwLnorm => (d path).bind (fun f => (loadAs .LNorm f).or (fromList f j.name))
    | .pca => (d path).bind (fun f => (loadAs .PCA f).or (fromList f j.name))
    | .gauss => (d path).bind (fun f => loadAs .Gaussianizer f)
    | .other => some j.fresh

/-- train-cw.py:50-53: the pre-processing. -/
def loadPre (d : Disk) (preproc : Option Str) : Option (Option TList) :=
  match preproc with
  | none => some none
  | some p => ((d p).bind lload).map some

/-- vector_reader.py:35-39: the data after the pre-processing. -/
def preprocess {X : Type} (E : Env X) (pre : Option TList) (x : X) : Option X :=
  match pre with
  | none => some x
  | some l => l.predict E.pr x

/-- train-cw.py:74-82: the file that is written. -/
def output {X : Type} (E : Env X) (j : Job X) (pre : Option TList) (m : Obj) : Option Persist.File :=
  if j.saveTlist then
    match (if j.appendTlist then pre else none) with
    | some l => (l.append m).bind (lsave E.rd j.out)
    | none => (TList.mk' none [m]).bind (lsave E.rd j.out)
  else save E.rd j.out m

/-- one run of a script: train-cw.py:47-82 and the same lines of the others. -/
def run {X : Type} (E : Env X) (d : Disk) (j : Job X) : Option Disk :=
  (loadPre d j.preproc).bind (fun pre =>
  (preprocess E pre j.data).bind (fun x =>
  (loadModel d j).bind (fun m0 =>
  (j.fit m0 x).bind (fun m =>
  (output E j pre m).map (fun f => fun p => if p = j.out then some f else d p)))))

/-- scripts run one after the other. -/
def runAll {X : Type} (E : Env X) (d : Disk) (js : List (Job X)) : Option Disk := js.foldlM (run E) d

end Hyp.Train
