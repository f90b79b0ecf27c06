import Verif.H5.Model
import Mathlib.Data.Rat.Defs

/-!
Model of the saving and loading of models: /repo/hyperion/hyp_model.py:57-157, the `get_config`, `save_params`,
`load_params` and constructors of the model classes, and transforms/transform_list.py (pipeline/pipeline.py:18-72
is the same code).

A model object is its class, its name, its array parameters and its options. The text of the JSON document is
trusted to come back as it was written, except for what JSON changes: the integer keys of a dictionary become
strings. h5py is trusted for what is written in `File` (as in Verif/H5/Model.lean). `none` = an exception.
-/

namespace Hyp.Persist
open Hyp.Text Hyp.H5

/-- a numpy array of numbers. -/
structure Arr where
  shape : List Nat
  data : List ℚ
  deriving DecidableEq

/-- hyp_model.py:87, 128 `astype('float32')` then `np.asarray(.., dtype=float_cpu())`: the elements are rounded, the
shape stays. -/
def Arr.round (rd : ℚ → ℚ) (a : Arr) : Arr := ⟨a.shape, a.data.map rd⟩

/-- the value of an option. `weights`: a dictionary class label -> weight; `sweights`: the same with the labels as
strings. -/
inductive Opt
  | null
  | bool (b : Bool)
  | num (q : ℚ)
  | str (s : Str)
  | weights (l : List (Nat × ℚ))
  | sweights (l : List (Str × ℚ))
  deriving DecidableEq

/-- hyp_model.py:140-157 `json.loads(json.dumps(v))`. -/
def Opt.json : Opt → Opt
  | .weights l => .sweights (l.map (fun e => (printNat e.1, e.2)))
  | v => v

/-- the names of the array parameters. -/
inductive P
  | mu | T | s | U | r | B | W | V | D | beta | nu | N | A | b | pi | Lambda | mu1 | mu2 | sigma2 | Sb | Sw | numClasses
  deriving DecidableEq

/-- the name as it is spelled in the code. -/
def P.key : P → Str
  | .mu => ['m', 'u'] | .T => ['T'] | .s => ['s'] | .U => ['U'] | .r => ['r'] | .B => ['B'] | .W => ['W']
  | .V => ['V'] | .D => ['D'] | .beta => ['b', 'e', 't', 'a'] | .nu => ['n', 'u'] | .N => ['N'] | .A => ['A']
  | .b => ['b'] | .pi => ['p', 'i'] | .Lambda => ['L', 'a', 'm', 'b', 'd', 'a'] | .mu1 => ['m', 'u', '1']
  | .mu2 => ['m', 'u', '2'] | .sigma2 => ['s', 'i', 'g', 'm', 'a', '2'] | .Sb => ['S', 'b'] | .Sw => ['S', 'w']
  | .numClasses => ['n', 'u', 'm', '_', 'c', 'l', 'a', 's', 's', 'e', 's']

/-- the names of the options: attributes and constructor arguments; the `K`-suffixed ones are keys of the JSON
document that differ from the attribute (`update_t`, `update_lambda`, `min_n`). -/
inductive Nm
  | updateMu | updateT | updateTK | ldaDim | pcaDim | maxVectors | updateW | updateB | updateV | updateU | updateD
  | fullcovW | floorID | xDim | yDim | zDim | numClasses | balance | priorBeta | priorNu | postBeta | postNu
  | prior | priorN | postN | useBias | biasScaling | priors | lambdaReg | varFloor | minN | minNK | updatePi
  | updateLambda | updateLambdaK | K | alpha | sigma2
  deriving DecidableEq

/-- the model classes. -/
inductive Cls
  | CentWhiten | CentWhitenUP | LNorm | LNormUP | PCA | LDA | NDA | NAP | MVN | Gaussianizer | SbSw | NSbSw
  | FRPLDA | SPLDA | PLDA | LinearGBE | LinearGBEUP | QScoringHomoGBE | LogisticRegression
  | BinaryLogisticRegression | LinearSVMC | Normal | NormalDiagCov | GMM | GMMDiagCov | GMMTiedDiagCov
  | GaussCalibration
  deriving DecidableEq

/-- what the methods of a class say about saving and loading. -/
structure Desc where
  /-- keys of the dictionary of `save_params`. -/
  pars : List P
  /-- `get_config`: key of the document, attribute it is taken from (after `class_name` and `name`). -/
  cfg : List (Nm × Nm)
  /-- `get_config` raises. -/
  cfgRaises : Bool := false
  /-- `param_list` of `load_params`. -/
  loadPars : List P
  /-- `load_params` (or `load`) refers to an undefined name. -/
  loadRaises : Bool := false
  /-- `cls(**config, **params)`: every key of the document is a keyword argument. -/
  kwargs : Bool := false
  /-- otherwise: keyword argument, key of the document. -/
  passed : List (Nm × Nm) := []
  /-- options that the constructor takes from the shape of a parameter, when it is given: option, parameter, axis. -/
  dims : List (Nm × P × Nat) := []
  /-- options with their default value in the constructor. -/
  dflt : List (Nm × Opt) := []

/-- transforms/cent_whiten.py:21-26, 73-92 (also CentWhitenUP, LNorm, LNormUP, which inherit these methods;
cent_whiten_up.py:22-24). -/
def centWhiten : Desc where
  pars := [.mu, .T]
  cfg := [(.updateMu, .updateMu), (.updateTK, .updateT)]
  loadPars := [.mu, .T]
  dflt := [(.updateMu, .bool true), (.updateT, .bool true)]

/-- transforms/pca.py:22-28, 68-88. -/
def pca : Desc where
  pars := [.mu, .T]
  cfg := [(.updateMu, .updateMu), (.updateTK, .updateT), (.pcaDim, .pcaDim)]
  loadPars := [.mu, .T]
  passed := [(.pcaDim, .pcaDim)]
  dflt := [(.updateMu, .bool true), (.updateT, .bool true), (.pcaDim, .null)]

/-- transforms/lda.py:21-30, 71-89. -/
def lda : Desc where
  pars := [.mu, .T]
  cfg := [(.ldaDim, .ldaDim), (.updateMu, .updateMu), (.updateTK, .updateT)]
  loadPars := [.mu, .T]
  dims := [(.ldaDim, .T, 1)]
  dflt := [(.updateMu, .bool true), (.updateT, .bool true), (.ldaDim, .null)]

/-- transforms/nda.py:22-25, 53-63. -/
def nda : Desc where
  pars := [.mu, .T]
  cfg := []
  loadPars := [.mu, .T]

/-- transforms/nap.py:20-22, 44-53. -/
def nap : Desc where
  pars := [.U]
  cfg := []
  loadPars := [.U]

/-- transforms/mvn.py:20-23, 38-48. -/
def mvn : Desc where
  pars := [.mu, .s]
  cfg := []
  loadPars := [.mu, .s]

/-- transforms/gaussianizer.py:25-28, 61-79. -/
def gaussianizer : Desc where
  pars := [.r]
  cfg := [(.maxVectors, .maxVectors)]
  loadPars := [.r]
  passed := [(.maxVectors, .maxVectors)]
  dflt := [(.maxVectors, .null)]

/-- transforms/sb_sw.py:22-27, 75-91: `load` is a classmethod that says `self` (line 87). -/
def sbSw : Desc where
  pars := [.mu, .Sb, .Sw, .numClasses]
  cfg := []
  loadPars := [.mu, .Sb, .Sw, .numClasses]
  loadRaises := true
  kwargs := true

/-- transforms/sb_sw.py:98-101, 158-162. -/
def nSbSw : Desc where
  pars := [.mu, .Sb, .Sw, .numClasses]
  cfg := [(.K, .K), (.alpha, .alpha)]
  loadPars := [.mu, .Sb, .Sw, .numClasses]
  loadRaises := true
  kwargs := true
  dflt := [(.K, .num 10), (.alpha, .num 1)]

/-- pdfs/plda/frplda.py:21-30, 240-262; plda_base.py:21-27, 332-336; core/pdf.py:18-26. -/
def frplda : Desc where
  pars := [.mu, .B, .W]
  cfg := [(.xDim, .xDim), (.yDim, .yDim), (.updateMu, .updateMu), (.updateW, .updateW), (.updateB, .updateB),
    (.fullcovW, .fullcovW)]
  loadPars := [.mu, .B, .W]
  kwargs := true
  dims := [(.xDim, .mu, 0), (.yDim, .mu, 0)]
  dflt := [(.xDim, .num 1), (.yDim, .null), (.updateMu, .bool true), (.updateW, .bool true), (.updateB, .bool true),
    (.fullcovW, .bool true)]

/-- pdfs/plda/splda.py:21-30, 249-269; plda_base.py:21-27, 332-336; core/pdf.py:18-26. -/
def splda : Desc where
  pars := [.mu, .V, .W]
  cfg := [(.xDim, .xDim), (.yDim, .yDim), (.updateMu, .updateMu), (.updateW, .updateW), (.updateV, .updateV),
    (.fullcovW, .fullcovW)]
  loadPars := [.mu, .V, .W]
  kwargs := true
  dims := [(.xDim, .mu, 0), (.yDim, .V, 0)]
  dflt := [(.xDim, .num 1), (.yDim, .null), (.updateMu, .bool true), (.updateW, .bool true), (.updateV, .bool true),
    (.fullcovW, .bool true)]

/-- pdfs/plda/plda.py:20-34, 375-399; plda_base.py:21-27, 332-336; core/pdf.py:18-26. -/
def plda : Desc where
  pars := [.mu, .V, .U, .D]
  cfg := [(.xDim, .xDim), (.yDim, .yDim), (.updateMu, .updateMu), (.updateD, .updateD), (.updateU, .updateU),
    (.updateV, .updateV), (.floorID, .floorID)]
  loadPars := [.mu, .V, .U, .D]
  kwargs := true
  dims := [(.xDim, .mu, 0), (.yDim, .V, 0), (.zDim, .U, 0)]
  dflt := [(.xDim, .num 1), (.yDim, .null), (.zDim, .null), (.updateMu, .bool true), (.updateD, .bool true),
    (.updateU, .bool true), (.updateV, .bool true), (.floorID, .num (1 / 100000))]

/-- classifiers/linear_gbe.py:23-53, 57-69, 235-249 (also LinearGBEUP: linear_gbe_up.py:23-39). `prior` is the model
used as prior for MAP adaptation, modelled as an option. -/
def linearGBE : Desc where
  pars := [.mu, .W, .beta, .nu]
  cfg := [(.updateMu, .updateMu), (.updateW, .updateW), (.xDim, .xDim), (.numClasses, .numClasses),
    (.balance, .balance), (.priorBeta, .priorBeta), (.priorNu, .priorNu), (.postBeta, .postBeta), (.postNu, .postNu)]
  loadPars := [.mu, .W, .beta, .nu]
  kwargs := true
  dims := [(.numClasses, .mu, 0), (.xDim, .mu, 1)]
  dflt := [(.updateMu, .bool true), (.updateW, .bool true), (.xDim, .num 1), (.numClasses, .null),
    (.balance, .bool true), (.priorBeta, .null), (.priorNu, .null), (.postBeta, .null), (.postNu, .null),
    (.prior, .null)]

/-- classifiers/q_scoring_homo_gbe.py:23-37, 53-58, 160-174. -/
def qScoring : Desc where
  pars := [.mu, .W, .N]
  cfg := [(.balance, .balance), (.priorN, .priorN)]
  loadPars := [.mu, .W, .N]
  kwargs := true
  dflt := [(.balance, .bool true), (.prior, .null), (.priorN, .null), (.postN, .null)]

/-- classifiers/logistic_regression.py:22-26, 76-102, 114-119, 169-180. The attributes `A`, `b` are those of the
scikit-learn object (transposed, divided by `bias_scaling` and multiplied again, 98-111); of the options that only
the training uses, `lambda_reg` stands for all of them (penalty, solver, ..); `bias_scaling=None` (79-83) is replaced
before it is an attribute and is not in a document. -/
def logReg : Desc where
  pars := [.A, .b]
  cfg := [(.useBias, .useBias), (.biasScaling, .biasScaling), (.priors, .priors)]
  loadPars := [.A, .b]
  kwargs := true
  dflt := [(.useBias, .bool true), (.biasScaling, .num 1), (.priors, .null), (.lambdaReg, .num (1 / 100000))]

/-- classifiers/binary_logistic_regression.py:16-42; `lambda_reg` does not reach the base class (line 24:
`labmda_reg`), so that the attribute is always the default of the base class. -/
def binLogReg : Desc where
  pars := [.A, .b]
  cfg := [(.useBias, .useBias), (.biasScaling, .biasScaling), (.prior, .prior)]
  loadPars := [.A, .b]
  kwargs := true
  dflt := [(.useBias, .bool true), (.biasScaling, .num 1), (.prior, .num (1 / 2)), (.lambdaReg, .num (1 / 100000))]

/-- classifiers/linear_svmc.py:22-54, 66-71, 95-106. -/
def linearSVMC : Desc where
  pars := [.A, .b]
  cfg := [(.useBias, .useBias), (.biasScaling, .biasScaling), (.balance, .balance)]
  loadPars := [.A, .b]
  kwargs := true
  dflt := [(.useBias, .bool true), (.biasScaling, .num 1), (.balance, .bool true)]

/-- pdfs/core/normal.py:24-31, 188-216 and normal_diag_cov.py:25-32, 156-181: `load_params` is a classmethod that says
`self`. (`save_params` also asserts that the parameters are set.) -/
def normal : Desc where
  pars := [.mu, .Lambda]
  cfg := [(.xDim, .xDim), (.varFloor, .varFloor), (.updateMu, .updateMu), (.updateLambdaK, .updateLambda)]
  loadPars := [.mu, .Lambda]
  loadRaises := true
  passed := [(.xDim, .xDim), (.varFloor, .varFloor), (.updateMu, .updateMu), (.updateLambda, .updateLambdaK)]
  dflt := [(.xDim, .num 1), (.varFloor, .num (1 / 100000)), (.updateMu, .bool true), (.updateLambda, .bool true)]

/-- pdfs/mixtures/gmm_diag_cov.py:27-35, 232-259 (also gmm_tied_diag_cov.py, which inherits): `load_params` is a
classmethod that says `self`. -/
def gmmDiag : Desc where
  pars := [.pi, .mu, .Lambda]
  cfg := [(.xDim, .xDim), (.minNK, .minN), (.updatePi, .updatePi), (.varFloor, .varFloor), (.updateMu, .updateMu),
    (.updateLambdaK, .updateLambda)]
  loadPars := [.pi, .mu, .Lambda]
  loadRaises := true
  passed := [(.xDim, .xDim), (.varFloor, .varFloor), (.minN, .minNK), (.updatePi, .updatePi), (.updateMu, .updateMu),
    (.updateLambda, .updateLambdaK)]
  dflt := [(.xDim, .num 1), (.minN, .num 0), (.updatePi, .bool true), (.varFloor, .num (1 / 1000)),
    (.updateMu, .bool true), (.updateLambda, .bool true)]

/-- pdfs/mixtures/gmm.py:27-35, 249-276: `get_config` says `super(DiagGMM, self)`, and there is no `DiagGMM`. -/
def gmm : Desc where
  pars := [.pi, .mu, .Lambda]
  cfg := [(.xDim, .xDim), (.minNK, .minN), (.updatePi, .updatePi), (.varFloor, .varFloor), (.updateMu, .updateMu),
    (.updateLambdaK, .updateLambda)]
  cfgRaises := true
  loadPars := [.pi, .mu, .Lambda]
  passed := [(.xDim, .xDim), (.varFloor, .varFloor), (.minN, .minNK), (.updatePi, .updatePi), (.updateMu, .updateMu),
    (.updateLambda, .updateLambdaK)]
  dflt := [(.xDim, .num 1), (.minN, .num 0), (.updatePi, .bool true), (.varFloor, .num (1 / 1000)),
    (.updateMu, .bool true), (.updateLambda, .bool true)]

/-- calibration/gauss_calibration.py:18-27, 66-78: `sigma2=config['sigma2']`. -/
def gaussCalibration : Desc where
  pars := [.mu1, .mu2, .sigma2]
  cfg := []
  loadPars := [.mu1, .mu2, .sigma2]
  passed := [(.sigma2, .sigma2)]
  dflt := [(.prior, .num (1 / 2))]

/-- the classes. -/
def desc : Cls → Desc
  | .CentWhiten => centWhiten | .CentWhitenUP => centWhiten | .LNorm => centWhiten | .LNormUP => centWhiten
  | .PCA => pca | .LDA => lda | .NDA => nda | .NAP => nap | .MVN => mvn | .Gaussianizer => gaussianizer
  | .SbSw => sbSw | .NSbSw => nSbSw | .FRPLDA => frplda | .SPLDA => splda | .PLDA => plda
  | .LinearGBE => linearGBE | .LinearGBEUP => linearGBE | .QScoringHomoGBE => qScoring
  | .LogisticRegression => logReg | .BinaryLogisticRegression => binLogReg | .LinearSVMC => linearSVMC
  | .Normal => normal | .NormalDiagCov => normal | .GMM => gmm | .GMMDiagCov => gmmDiag | .GMMTiedDiagCov => gmmDiag
  | .GaussCalibration => gaussCalibration

/-- a model object. -/
structure Obj where
  cls : Cls
  name : Option Str
  par : P → Option Arr
  opt : Nm → Opt

/-- the JSON document of one model. -/
structure Cfg where
  cls : Cls
  name : Option Str
  opts : List (Nm × Opt)
  deriving DecidableEq

/-- the JSON document of a list of transforms. -/
structure LCfg where
  name : Option Str
  ts : List (Str × Cfg)
  deriving DecidableEq

/-- a dataset. -/
inductive DS
  | cfg (c : Cfg)
  | lcfg (c : LCfg)
  | arr (a : Arr)
  deriving DecidableEq

/-- an HDF5 file: the datasets in the order in which they were created. -/
abbrev File := List (List Str × DS)

/-- `f.create_dataset(name, data)` (as `File.create` in Verif/H5/Model.lean; names with a component `.` or that end
with `/` are not modelled). -/
def create (f : File) (e : Str × DS) : Option File :=
  if oddKey e.1 || h5path e.1 == [] || f.any (fun x => x.1.isPrefixOf (h5path e.1) || (h5path e.1).isPrefixOf x.1) then none
  else some (f ++ [(h5path e.1, e.2)])

/-- `f[name]`. -/
def get (f : File) (key : Str) : Option DS := f.lookup (h5path key)

/-- the dataset is an array of numbers. -/
def DS.arr? : DS → Option Arr
  | .arr a => some a
  | _ => none

/-- the dataset is the document of a model. -/
def DS.cfg? : DS → Option Cfg
  | .cfg c => some c
  | _ => none

/-- the dataset is the document of a list of transforms. -/
def DS.lcfg? : DS → Option LCfg
  | .lcfg c => some c
  | _ => none

/-- hyp_model.py:77-80, 119-122: the prefix of the names of the parameters. -/
def prefixOf : Option Str → Str
  | none => []
  | some n => n ++ ['/']

/-- hyp_model.py:73-88: the datasets of the parameters that are set. -/
def parSets (rd : ℚ → ℚ) (o : Obj) : List (Str × DS) :=
  (desc o.cls).pars.filterMap (fun p => (o.par p).map (fun a => (prefixOf o.name ++ p.key, DS.arr (a.round rd))))

/-- `save_params`. -/
def saveParams (rd : ℚ → ℚ) (f : File) (o : Obj) : Option File := (parSets rd o).foldlM create f

/-- hyp_model.py:132-136 and the `get_config` of the class, as it comes back from JSON. -/
def config (o : Obj) : Option Cfg :=
  if (desc o.cls).cfgRaises then none
  else some ⟨o.cls, o.name, (desc o.cls).cfg.map (fun e => (e.1, (o.opt e.2).json))⟩

/-- the name of the dataset of the document. -/
def configKey : Str := ['c', 'o', 'n', 'f', 'i', 'g']

/-- hyp_model.py:57-66 `save(file_path)`: `os.makedirs('')` raises when the path has no directory. That the directory
can be made and the file written is assumed. -/
def save (rd : ℚ → ℚ) (path : Str) (o : Obj) : Option File :=
  if '/' ∈ path then do
    let c ← config o
    let f ← create [] (configKey, .cfg c)
    saveParams rd f o
  else none

/-- the value of an option after the constructor: taken from the shape of a parameter (when it is given), else the
argument, else the default. `none`: the array has no such axis. -/
def ctorOpt (d : Desc) (par : P → Option Arr) (args : List (Nm × Opt)) (n : Nm) : Option Opt :=
  match (d.dims.lookup n).bind (fun e => (par e.1).map (fun a => (a, e.2))) with
  | some (a, ax) => (a.shape[ax]?).map (fun k => .num k)
  | none => some ((args.lookup n).getD ((d.dflt.lookup n).getD .null))

/-- the constructor of the class. -/
def ctor (c : Cls) (name : Option Str) (par : P → Option Arr) (args : List (Nm × Opt)) : Option Obj :=
  if (desc c).dims.all (fun e => (ctorOpt (desc c) par args e.1).isSome) then
    some ⟨c, name, par, fun n => (ctorOpt (desc c) par args n).getD .null⟩
  else none

/-- hyp_model.py:117-131: one parameter. -/
def loadPar (f : File) (name : Option Str) (p : P) : Option (P × Arr) := do
  let d ← get f (prefixOf name ++ p.key)
  let a ← d.arr?
  return (p, a)

/-- the keyword arguments that `load_params` takes from the document. -/
def loadArgs (d : Desc) (c : Cfg) : Option (List (Nm × Opt)) :=
  if d.kwargs then some c.opts
  else d.passed.mapM (fun e => (c.opts.lookup e.2).map (fun v => (e.1, v)))

/-- `cls.load_params(f, config)`. -/
def loadParams (k : Cls) (f : File) (c : Cfg) : Option Obj :=
  if (desc k).loadRaises then none
  else do
    let ps ← (desc k).loadPars.mapM (loadPar f c.name)
    let args ← loadArgs (desc k) c
    ctor k c.name (fun p => ps.lookup p) args

/-- hyp_model.py:103-108 `cls.load(file_path)`: the `class_name` of the document is not looked at. -/
def load (k : Cls) (f : File) : Option Obj := do
  let d ← get f configKey
  let c ← d.cfg?
  loadParams k f c

/-! ### lists of transforms -/

/-- transform_list.py:30-41: a list of (distinct) transforms; a transform that is itself a list is not modelled. -/
structure TList where
  name : Option Str
  ts : List Obj

/-- transform_list.py:55-58 for one transform: `self.name + '/' + t.name`; `None` cannot be added to a string. -/
def rename (n : Str) (t : Obj) : Option Obj := t.name.map (fun m => { t with name := some (n ++ '/' :: m) })

/-- transform_list.py:34-41 the constructor. -/
def TList.mk' (name : Option Str) (ts : List Obj) : Option TList :=
  match name with
  | none => some ⟨none, ts⟩
  | some n => (ts.mapM (rename n)).map (fun ts => ⟨some n, ts⟩)

/-- transform_list.py:43-46. -/
def TList.append (l : TList) (t : Obj) : Option TList :=
  match l.name with
  | none => some ⟨none, l.ts ++ [t]⟩
  | some n => (rename n t).map (fun t => ⟨some n, l.ts ++ [t]⟩)

/-- transform_list.py:49-52: `predict`; `pr` is what the classes do with their parameters (Verif/Transforms). -/
def TList.predict {X : Type} (pr : Cls → (P → Option Arr) → X → Option X) (l : TList) (x : X) : Option X :=
  l.ts.foldlM (fun x t => pr t.cls t.par x) x

/-- transform_list.py:61-67, as it comes back from JSON: the keys are strings. -/
def lconfig (l : TList) : Option LCfg := do
  let cs ← l.ts.mapM config
  return ⟨l.name, cs.zipIdx.map (fun e => (printNat e.2, e.1))⟩

/-- hyp_model.py:57-66 with transform_list.py:70-72. -/
def lsave (rd : ℚ → ℚ) (path : Str) (l : TList) : Option File :=
  if '/' ∈ path then do
    let c ← lconfig l
    let f ← create [] (configKey, .lcfg c)
    l.ts.foldlM (saveParams rd) f
  else none

/-- transform_list.py:17-26: the classes in the `globals()` of the module. -/
def imported : Cls → Bool
  | .CentWhiten | .CentWhitenUP | .LNorm | .LNormUP | .PCA | .LDA | .NDA | .NAP | .MVN | .Gaussianizer => true
  | _ => false

/-- transform_list.py:79-83: one transform. -/
def loadOne (f : File) (c : LCfg) (i : Nat) : Option Obj := do
  let t ← c.ts.lookup (printNat i)
  if imported t.cls then loadParams t.cls f t else none

/-- transform_list.py:75-85. -/
def lload (f : File) : Option TList := do
  let d ← get f configKey
  let c ← d.lcfg?
  let ts ← (List.range c.ts.length).mapM (loadOne f c)
  TList.mk' c.name ts

end Hyp.Persist
