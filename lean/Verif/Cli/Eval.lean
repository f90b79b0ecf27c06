import Verif.Cli.Props

/-!
Command lines of the scripts that evaluate models and of the scripts that train transformations.
-/

namespace Hyp.Cli

/-- what a script does with its command line: the parameters of its function, the attributes of the reader and of the model -/
structure Run where
  own : List (String × Val)
  reader : List (String × Val)
  model : List (String × Val)
deriving DecidableEq

/-- `filter_args` with the names `valid`, then a constructor with the parameters and defaults `ctor` -/
def construct (valid : List String) (ctor : List (String × Val)) (kw : List (String × Val)) : List (String × Val) :=
  ctor.map (fun q => (q.1, kwarg (pick valid kw) q.1 q.2))

/-- the end of each script: parser; `config_logger(args.verbose)` (AttributeError without that option) and `del args.verbose`; an assertion; the call
of the function with all arguments by name, which takes its own parameters out of `**kwargs` (TypeError if one is missing) -/
def run (opts : List Opt) (own : List String) (check : List (String × Val) → Bool) (valid : List String) (ctor : List (String × Val)) (mvalid : List String)
    (mctor : List (String × Val)) (conv : Ty → String → Option Val) (us : List Use) : Option Run :=
  (build opts).bind (fun p => (parse conv p us).bind (fun ns => (dictGet ns "verbose").bind (fun _ =>
    let a := ns.filter (fun q => decide (q.1 ≠ "verbose"))
    if check a then
      (own.mapM (fun k : String => (dictGet a k).map (fun v : Val => (k, v)))).map (fun o =>
        let kw := a.filter (fun q => !own.contains q.1)
        ⟨o, construct valid ctor kw, construct mvalid mctor kw⟩)
    else none)))

/-- the option of all scripts, e.g. bin/eval-cos-1vs1.py:72 -/
def verbOpt : Opt := ⟨["-v", "--verbose"], "verbose", .store .int (some [.int 0, .int 1, .int 2, .int 3]), .int 1, false⟩

/-- helpers/trial_data_reader.py:81-107 -/
def tdrOpts : List Opt :=
  [⟨["--tlist-sep"], "tlist_sep", .store .str none, .str " ", false⟩,
   ⟨["--model-part-idx"], "model_idx", .store .int none, .int 1, false⟩,
   ⟨["--num-model-parts"], "num_model_parts", .store .int none, .int 1, false⟩,
   ⟨["--seg-part-idx"], "seg_idx", .store .int none, .int 1, false⟩,
   ⟨["--num-seg-parts"], "num_seg_parts", .store .int none, .int 1, false⟩,
   ⟨["--eval-set"], "eval_set", .store .lower (some [.str "enroll-test", .str "enroll-coh", .str "coh-test", .str "coh-coh"]), .str "enroll-test", false⟩]

/-- helpers/trial_data_reader.py:72-75 -/
def tdrValid : List String := ["tlist_sep", "model_idx", "num_model_parts", "seg_idx", "num_seg_parts", "eval_set"]

/-- helpers/trial_data_reader.py:28-31 -/
def tdrCtor : List (String × Val) :=
  [("tlist_sep", .str " "), ("model_idx", .int 1), ("num_model_parts", .int 1), ("seg_idx", .int 1), ("num_seg_parts", .int 1), ("eval_set", .str "enroll-test")]

/-- helpers/classif_trial_data_reader.py:70-84 -/
def ctdrOpts : List Opt :=
  [⟨["--v-field"], "v_field", .store .str none, .str "", false⟩,
   ⟨["--seg-part-idx"], "seg_idx", .store .int none, .int 1, false⟩,
   ⟨["--num-seg-parts"], "num_seg_parts", .store .int none, .int 1, false⟩]

/-- helpers/classif_trial_data_reader.py:64 -/
def ctdrValid : List String := ["v_field", "seg_idx", "num_seg_parts"]

/-- helpers/classif_trial_data_reader.py:28-29 -/
def ctdrCtor : List (String × Val) := [("v_field", .str ""), ("seg_idx", .int 1), ("num_seg_parts", .int 1)]

/-- bin/eval-cos-1vs1.py:64-72 and bin/eval-plda-1vs1.py:65-75: the options, around those of the model -/
def trialOpts (model : List Opt) : List Opt :=
  [⟨["--iv-file"], "iv_file", .store .str none, .null, true⟩,
   ⟨["--ndx-file"], "ndx_file", .store .str none, .null, false⟩,
   ⟨["--enroll-file"], "enroll_file", .store .str none, .null, true⟩,
   ⟨["--test-file"], "test_file", .store .str none, .null, false⟩,
   ⟨["--preproc-file"], "preproc_file", .store .str none, .null, false⟩] ++ tdrOpts ++ model ++
  [⟨["--score-file"], "score_file", .store .str none, .null, true⟩, verbOpt]

/-- `assert args.test_file is not None or args.ndx_file is not None`, bin/eval-cos-1vs1.py:78, bin/eval-plda-1vs1.py:82 -/
def someList (a : List (String × Val)) : Bool := decide (dictGet a "test_file" ≠ some .null) || decide (dictGet a "ndx_file" ≠ some .null)

/-- bin/eval-cos-1vs1.py -/
def evalCos (conv : Ty → String → Option Val) (us : List Use) : Option Run :=
  run (trialOpts []) ["iv_file", "ndx_file", "enroll_file", "test_file", "preproc_file", "score_file"] someList tdrValid tdrCtor [] [] conv us

/-- helpers/plda_factory.py:154-167 -/
def pldaEvalOpts : List Opt :=
  [⟨["--plda-type"], "plda_type", .store .str (some [.str "frplda", .str "splda", .str "plda"]), .str "splda", false⟩,
   ⟨["--model-file"], "model_file", .store .str none, .null, true⟩]

/-- bin/eval-plda-1vs1.py -/
def evalPlda (conv : Ty → String → Option Val) (us : List Use) : Option Run :=
  run (trialOpts pldaEvalOpts) ["iv_file", "ndx_file", "enroll_file", "test_file", "preproc_file", "model_file", "score_file", "plda_type"] someList
    tdrValid tdrCtor [] [] conv us

/-- bin/eval-linear-gbe.py:70-79 and the same lines of the scripts for Q-scoring, logistic regression and SVM: the options, around those of the model -/
def classifOpts (model : List Opt) : List Opt :=
  [⟨["--iv-file"], "iv_file", .store .str none, .null, true⟩,
   ⟨["--class2int-file"], "class2int_file", .store .str none, .null, true⟩,
   ⟨["--test-file"], "test_file", .store .str none, .null, true⟩,
   ⟨["--preproc-file"], "preproc_file", .store .str none, .null, false⟩] ++ ctdrOpts ++ model ++
  [⟨["--score-file"], "score_file", .store .str none, .null, true⟩,
   ⟨["--vector-score-file"], "vector_score_file", .store .str none, .null, false⟩, verbOpt]

/-- parameters of the four functions before those of the model, bin/eval-linear-gbe.py:31-34 -/
def classifOwn : List String := ["iv_file", "class2int_file", "test_file", "preproc_file", "model_file", "score_file", "vector_score_file"]

/-- classifiers/linear_gbe.py:336-352 -/
def gbeEvalOpts : List Opt :=
  [⟨["--model-file"], "model_file", .store .str none, .null, true⟩,
   ⟨["--normalize"], "normalize", .const true, .bool false, false⟩,
   ⟨["--eval-method"], "eval_method", .store .str (some [.str "linear", .str "llk", .str "predictive"]), .str "linear", false⟩]

/-- bin/eval-linear-gbe.py -/
def evalGbe (conv : Ty → String → Option Val) (us : List Use) : Option Run :=
  run (classifOpts gbeEvalOpts) (classifOwn ++ ["normalize", "eval_method"]) (fun _ => true) ctdrValid ctdrCtor [] [] conv us

/-- classifiers/q_scoring_homo_gbe.py:268-280 -/
def qsEvalOpts : List Opt :=
  [⟨["--model-file"], "model_file", .store .str none, .null, true⟩,
   ⟨["--normalize"], "normalize", .const true, .bool false, false⟩]

/-- bin/eval-q-scoring-homo-gbe.py -/
def evalQs (conv : Ty → String → Option Val) (us : List Use) : Option Run :=
  run (classifOpts qsEvalOpts) (classifOwn ++ ["normalize"]) (fun _ => true) ctdrValid ctdrCtor [] [] conv us

/-- classifiers/logistic_regression.py:278-290 and classifiers/linear_svmc.py:194-206, with the list of choices -/
def typeEvalOpts (choices : List Val) : List Opt :=
  [⟨["--model-file"], "model_file", .store .str none, .null, true⟩,
   ⟨["--eval-type"], "eval_type", .store .str (some choices), .str "logit", false⟩]

/-- bin/eval-logistic-regression.py, classifiers/logistic_regression.py:289 -/
def evalLr (conv : Ty → String → Option Val) (us : List Use) : Option Run :=
  run (classifOpts (typeEvalOpts [.str "logit", .str "log-post", .str "post"])) (classifOwn ++ ["eval_type"]) (fun _ => true) ctdrValid ctdrCtor [] [] conv us

/-- bin/eval-linear-svmc.py, classifiers/linear_svmc.py:205 -/
def evalSvm (conv : Ty → String → Option Val) (us : List Use) : Option Run :=
  run (classifOpts (typeEvalOpts [.str "logit", .str "bin-logpost", .str "bin-post", .str "cat-logpost", .str "cat-post"])) (classifOwn ++ ["eval_type"])
    (fun _ => true) ctdrValid ctdrCtor [] [] conv us

/-- bin/eval-elbo-ubm.py:79-88 with helpers/sequence_reader.py:384-399 -/
def elboOpts : List Opt :=
  [⟨["--seq-file"], "seq_file", .store .str none, .null, true⟩,
   ⟨["--file-list"], "file_list", .store .str none, .null, true⟩,
   ⟨["--preproc-file"], "preproc_file", .store .str none, .null, false⟩,
   ⟨["--model-file"], "model_file", .store .str none, .null, true⟩,
   ⟨["--output-file"], "output_file", .store .str none, .null, true⟩,
   ⟨["--ubm-type"], "ubm_type", .store .str (some [.str "diag-gmm", .str "kaldi-diag-gmm"]), .str "diag-gmm", false⟩,
   ⟨["--scp-sep"], "scp_sep", .store .str none, .str "=", false⟩,
   ⟨["--seq-field"], "seq_field", .store .str none, .str "", false⟩,
   ⟨["--part-idx"], "part_idx", .store .int none, .int 1, false⟩,
   ⟨["--num-parts"], "num_parts", .store .int none, .int 1, false⟩, verbOpt]

/-- bin/eval-elbo-ubm.py; helpers/sequence_reader.py:26-34, 377 -/
def evalElbo (conv : Ty → String → Option Val) (us : List Use) : Option Run :=
  run elboOpts ["seq_file", "file_list", "model_file", "preproc_file", "output_file", "ubm_type"] (fun _ => true)
    ["scp_sep", "seq_field", "part_idx", "num_parts"] [("scp_sep", .str "="), ("seq_field", .str ""), ("part_idx", .int 1), ("num_parts", .int 1)]
    [] [] conv us

/-- bin/train-mvn.py:65-76, bin/train-cw.py:95-111, bin/train-pca.py:80-94, bin/train-gaussianizer.py:102-116: the options; `mid` those of the model and
`--input-path`, `last` those after `--output-path` -/
def transformOpts (mid last : List Opt) : List Opt :=
  [⟨["--iv-file"], "iv_file", .store .str none, .null, true⟩,
   ⟨["--train-list"], "train_list", .store .str none, .null, true⟩,
   ⟨["--preproc-file"], "preproc_file", .store .str none, .null, false⟩,
   ⟨["--vlist-sep"], "vlist_sep", .store .str none, .str " ", false⟩] ++ mid ++
  [⟨["--output-path"], "output_path", .store .str none, .null, true⟩] ++ last ++
  [⟨["--no-save-tlist"], "save_tlist", .const false, .bool true, false⟩,
   ⟨["--no-append-tlist"], "append_tlist", .const false, .bool true, false⟩]

/-- helpers/vector_reader.py:48: `('vlist_sep')` is a string, the loop runs over its letters -/
def vrValid : List String := "vlist_sep".toList.map (fun c => String.ofList [c])

/-- helpers/vector_reader.py:26 -/
def vrCtor : List (String × Val) := [("vlist_sep", .str " ")]

/-- bin/train-mvn.py -/
def trainMvn (conv : Ty → String → Option Val) (us : List Use) : Option Run :=
  run (transformOpts [] [] ++ [⟨["--name"], "name", .store .str none, .str "mvn", false⟩, verbOpt])
    ["iv_file", "train_list", "preproc_file", "name", "save_tlist", "append_tlist", "output_path"] (fun _ => true) vrValid vrCtor [] [] conv us

/-- transforms/cent_whiten.py:126-142 -/
def cwOpts : List Opt :=
  [⟨["--update-mu"], "update_mu", .store .truth none, .bool true, false⟩,
   ⟨["--update-t"], "update_T", .store .truth none, .bool true, false⟩,
   ⟨["--name"], "name", .store .str none, .str "lnorm", false⟩]

/-- `--input-path`, bin/train-cw.py:102 and the other scripts -/
def inputOpt : Opt := ⟨["--input-path"], "input_path", .store .str none, .null, false⟩

/-- bin/train-cw.py with transforms/cent_whiten.py:21, 119; the model is new (without `--input-path`) -/
def trainCw (conv : Ty → String → Option Val) (us : List Use) : Option Run :=
  run (transformOpts (cwOpts ++ [inputOpt]) [⟨["--no-lnorm"], "with_lnorm", .const false, .bool true, false⟩] ++ [verbOpt])
    ["iv_file", "train_list", "preproc_file", "with_lnorm", "save_tlist", "append_tlist", "input_path", "output_path"] (fun _ => true) vrValid vrCtor
    ["update_mu", "update_T", "name"] [("update_mu", .bool true), ("update_T", .bool true), ("name", .null)] conv us

/-- transforms/pca.py:121-139 -/
def pcaOpts : List Opt :=
  [⟨["--update-mu"], "update_mu", .store .truth none, .bool true, false⟩,
   ⟨["--update-t"], "update_T", .store .truth none, .bool true, false⟩,
   ⟨["--pca-dim"], "pca_dim", .store .int none, .null, false⟩,
   ⟨["--name"], "name", .store .str none, .str "pca", false⟩]

/-- bin/train-pca.py with transforms/pca.py:22, 115 -/
def trainPca (conv : Ty → String → Option Val) (us : List Use) : Option Run :=
  run (transformOpts (pcaOpts ++ [inputOpt]) [] ++ [verbOpt])
    ["iv_file", "train_list", "preproc_file", "save_tlist", "append_tlist", "input_path", "output_path"] (fun _ => true) vrValid vrCtor
    ["update_mu", "update_T", "name", "pca_dim"] [("update_mu", .bool true), ("update_T", .bool true), ("pca_dim", .null), ("name", .null)] conv us

/-- transforms/gaussianizer.py:111-123 -/
def gaussOpts : List Opt :=
  [⟨["--max-vectors"], "max_vectors", .store .int none, .null, false⟩,
   ⟨["--name"], "name", .store .str none, .str "gauss", false⟩]

/-- bin/train-gaussianizer.py with transforms/gaussianizer.py:25, 104 -/
def trainGauss (conv : Ty → String → Option Val) (us : List Use) : Option Run :=
  run (transformOpts (gaussOpts ++ [inputOpt]) [] ++ [verbOpt])
    ["iv_file", "train_list", "preproc_file", "save_tlist", "append_tlist", "input_path", "output_path"] (fun _ => true) vrValid vrCtor
    ["max_vectors", "name"] [("max_vectors", .null), ("name", .null)] conv us

/-- helpers/vector_class_reader.py:28-32: parameters of the constructor -/
def vcrCtor : List (String × Val) :=
  [("vlist_sep", .str " "), ("class2int_file", .null), ("min_spc", .int 1), ("max_spc", .null), ("spc_pruning_mode", .str "random"), ("csplit_min_spc", .int 1),
   ("csplit_max_spc", .null), ("csplit_mode", .str "random"), ("csplit_overlap", .int 0), ("csplit_once", .bool true), ("vcr_seed", .int 1024)]

/-- helpers/vector_class_reader.py:213-217 -/
def vcrValid : List String :=
  ["vlist_sep", "class2int_file", "min_spc", "max_spc", "spc_pruning_mode", "csplit_min_spc", "csplit_max_spc", "csplit_mode", "csplit_overlap", "csplit_once", "vcr_seed"]

/-- bin/train-nda.py:76-96 and bin/train-lda.py:72-85: the options; `mid` those after `--output-path`, `last` those after `--name` -/
def discrOpts (mid : List Opt) (name : String) (last : List Opt) : List Opt :=
  [⟨["--iv-file"], "iv_file", .store .str none, .null, true⟩,
   ⟨["--train-list"], "train_list", .store .str none, .null, true⟩,
   ⟨["--preproc-file"], "preproc_file", .store .str none, .null, false⟩] ++ vcrOpts ++
  [⟨["--output-path"], "output_path", .store .str none, .null, true⟩] ++ mid ++
  [⟨["--no-save-tlist"], "save_tlist", .const false, .bool true, false⟩,
   ⟨["--no-append-tlist"], "append_tlist", .const false, .bool true, false⟩,
   ⟨["--name"], "name", .store .str none, .str name, false⟩] ++ last

/-- transforms/__init__.py:6-19: the classes of `hyperion.transforms` (its submodules left out) -/
def transformsNames : List String :=
  ["absolute_import", "CentWhiten", "LNorm", "SbSw", "PCA", "LDA", "NDA", "NAP", "MVN", "Gaussianizer", "TransformList", "CentWhitenUP", "LNormUP"]

/-- bin/train-nda.py, when `hyperion.transforms` has the names `names`; line 24 raises ImportError when one of the three is missing -/
def trainNda (names : List String) (conv : Ty → String → Option Val) (us : List Use) : Option Run :=
  if ["TransformList", "NDA", "NSbSw"].all (fun n => names.contains n) = false then none else
  run (discrOpts
      [⟨["--nda-dim"], "nda_dim", .store .int none, .null, false⟩, ⟨["--k"], "K", .store .int none, .int 10, false⟩,
       ⟨["--alpha"], "alpha", .store .float none, .int 1, false⟩] "nda"
      [⟨["--vector-score-file"], "vector_score_file", .store .str none, .null, false⟩, verbOpt])
    ["iv_file", "train_list", "preproc_file", "nda_dim", "K", "alpha", "name", "save_tlist", "append_tlist", "output_path"] (fun _ => true) vcrValid vcrCtor
    [] [] conv us

/-- bin/train-lda.py: `config_logger(args.verbose)` without an option `--verbose` -/
def trainLda (conv : Ty → String → Option Val) (us : List Use) : Option Run :=
  run (discrOpts [⟨["--lda-dim"], "lda_dim", .store .int none, .null, false⟩] "lda" [])
    ["iv_file", "train_list", "preproc_file", "lda_dim", "name", "save_tlist", "append_tlist", "output_path"] (fun _ => true) vcrValid vcrCtor
    [] [] conv us

end Hyp.Cli
