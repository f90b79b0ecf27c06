import Verif.PyDict
import Verif.Text

/-!
Command lines of the training scripts for classifiers and PLDA: the options that the classes add to a parser, `filter_train_args`, and the
constructors' keyword arguments.
-/

namespace Hyp.Cli

/-- values of options -/
inductive Val where
  | null
  | bool (b : Bool)
  | str (s : String)
  | int (z : Int)
  | dec (num : Int) (exp : Nat)
  | ints (l : List Int)
  | strs (l : List String)
deriving DecidableEq

/-- `type=` of an option; `lower` is `str.lower`, `many` is `type=int, nargs='+'`, `bool` is `str2bool`, `truth` is Python's `bool`,
`words` is `nargs='+'`, `autoInt` is `lambda x: x if x=='auto' else int(x)` -/
inductive Ty where
  | str | int | float | lower | many | bool | truth | words | autoInt
deriving DecidableEq

/-- actions -/
inductive Act where
  | store (ty : Ty) (choices : Option (List Val))
  | const (b : Bool)
deriving DecidableEq

/-- one call of `add_argument` -/
structure Opt where
  flags : List String
  dest : String
  act : Act
  dflt : Val
  required : Bool
deriving DecidableEq

/-- `add_argument`: a conflicting option string raises ArgumentError -/
def addOpt (p : List Opt) (o : Opt) : Option (List Opt) :=
  if o.flags.any (fun f => p.any (fun q => q.flags.contains f)) then none else some (p ++ [o])

/-- the calls of `add_argument` one after the other -/
def build (os : List Opt) : Option (List Opt) := os.foldlM addOpt []

/-- one option on the command line, written out in full, with its argument if it has one. Abbreviations, `--x=y` and `@file` of argparse are not
modelled. -/
structure Use where
  flag : String
  arg : Option String
deriving DecidableEq

/-- the value an option takes from one use; `conv` converts text (an oracle: Python's `int`, `float`, …) -/
def useVal (conv : Ty → String → Option Val) (o : Opt) (u : Use) : Option Val :=
  match o.act, u.arg with
  | .const b, none => some (.bool b)
  | .store ty ch, some s => (conv ty s).bind (fun v => if ch.all (fun l => l.contains v) then some v else none)
  | _, _ => none

/-- one step of `parse_args` -/
def useStep (conv : Ty → String → Option Val) (p : List Opt) (ns : List (String × Val)) (u : Use) : Option (List (String × Val)) :=
  match p.find? (fun o => o.flags.contains u.flag) with
  | none => none
  | some o => (useVal conv o u).map (fun v => dictSet ns o.dest v)

/-- the defaults: the first option with a destination sets it -/
def defaults (p : List Opt) : List (String × Val) :=
  p.foldl (fun ns o => if (dictGet ns o.dest).isSome then ns else dictSet ns o.dest o.dflt) []

/-- `vars(parser.parse_args())`; `none`: the program exits with an error -/
def parse (conv : Ty → String → Option Val) (p : List Opt) (us : List Use) : Option (List (String × Val)) :=
  (us.foldlM (useStep conv p) (defaults p)).bind (fun ns =>
    if p.all (fun o => !o.required || us.any (fun u => o.flags.contains u.flag)) then some ns else none)

/-- the dict of the arguments with a valid name -/
def pick (valid : List String) (kw : List (String × Val)) : List (String × Val) :=
  valid.filterMap (fun k => (dictGet kw k).map (fun v => (k, v)))

/-- `if 'no_x' in d: d['x'] = not d['no_x']` -/
def negate (neg pos : String) (d : List (String × Val)) : List (String × Val) :=
  match dictGet d neg with
  | some (.bool b) => dictSet d pos (.bool !b)
  | _ => d

/-- keyword argument of a constructor with its default; arguments that the constructor does not name go to `**kwargs` and are ignored by
`HypModel.__init__` (hyp_model.py:24-26) -/
def kwarg (d : List (String × Val)) (k : String) (dflt : Val) : Val := (dictGet d k).getD dflt

/-- helpers/vector_class_reader.py:222-263 -/
def vcrOpts : List Opt :=
  [⟨["--vlist-sep"], "vlist_sep", .store .str none, .str " ", false⟩,
   ⟨["--class2int-file"], "class2int_file", .store .str none, .null, false⟩,
   ⟨["--min-spc"], "min_spc", .store .int none, .int 1, false⟩,
   ⟨["--max-spc"], "max_spc", .store .int none, .null, false⟩,
   ⟨["--spc-pruning-mode"], "spc_pruning_mode", .store .str (some [.str "random", .str "first", .str "last"]), .str "random", false⟩,
   ⟨["--csplit-min-spc"], "csplit_min_spc", .store .int none, .null, false⟩,
   ⟨["--csplit-max-spc"], "csplit_max_spc", .store .int none, .null, false⟩,
   ⟨["--csplit-mode"], "csplit_mode", .store .lower (some [.str "sequential", .str "random", .str "random_1subclass"]), .str "random", false⟩,
   ⟨["--csplit-overlap"], "csplit_overlap", .store .float none, .int 0, false⟩,
   ⟨["--no-csplit-once"], "csplit_once", .const false, .bool true, false⟩,
   ⟨["--vcr-seed"], "vcr_seed", .store .int none, .int 1024, false⟩]

/-- helpers/vector_class_reader.py:207-218 -/
def vcrFilter (kw : List (String × Val)) : List (String × Val) :=
  pick ["vlist_sep", "class2int_file", "min_spc", "max_spc", "spc_pruning_mode", "csplit_min_spc", "csplit_max_spc", "csplit_mode", "csplit_overlap",
    "csplit_once", "vcr_seed"] kw

/-- bin/train-linear-gbe.py:59-61, 66-67 and the same lines of the other scripts, around the options of reader and model -/
def scriptOpts (model : List Opt) : List Opt :=
  [⟨["--iv-file"], "iv_file", .store .str none, .null, true⟩,
   ⟨["--train-list"], "train_list", .store .str none, .null, true⟩,
   ⟨["--preproc-file"], "preproc_file", .store .str none, .null, false⟩] ++ vcrOpts ++ model ++
  [⟨["--output-path"], "output_path", .store .str none, .null, true⟩,
   ⟨["-v", "--verbose"], "verbose", .store .int (some [.int 0, .int 1, .int 2, .int 3]), .int 1, false⟩]

/-- classifiers/linear_gbe.py:284-319 -/
def gbeOpts : List Opt :=
  [⟨["--no-update-mu"], "no_update_mu", .const true, .bool false, false⟩,
   ⟨["--no-update-W"], "no_update_W", .const true, .bool false, false⟩,
   ⟨["--balance-class-weight"], "balance_class_weight", .const true, .bool false, false⟩,
   ⟨["--prior"], "prior", .store .str none, .null, false⟩,
   ⟨["--prior-beta"], "prior_beta", .store .float none, .int 16, false⟩,
   ⟨["--prior-nu"], "prior_nu", .store .float none, .int 16, false⟩,
   ⟨["--post-beta"], "post_beta", .store .float none, .null, false⟩,
   ⟨["--post-nu"], "post_nu", .store .float none, .null, false⟩,
   ⟨["--name"], "name", .store .str none, .str "lgbe", false⟩]

/-- classifiers/linear_gbe.py:261-280 -/
def gbeFilter (kw : List (String × Val)) : List (String × Val) :=
  negate "no_update_W" "update_W" (negate "no_update_mu" "update_mu"
    (pick ["update_mu", "update_W", "no_update_mu", "no_update_W", "balance_class_weight", "prior", "prior_beta", "prior_nu", "post_beta", "post_nu", "name"] kw))

/-- classifiers/linear_gbe.py:23-51: attributes set from the keyword arguments -/
def gbeAttrs (d : List (String × Val)) : List (String × Val) :=
  [("update_mu", kwarg d "update_mu" (.bool true)), ("update_W", kwarg d "update_W" (.bool true)),
   ("balance_class_weight", kwarg d "balance_class_weight" (.bool true)), ("prior", kwarg d "prior" .null),
   ("prior_beta", kwarg d "prior_beta" .null), ("prior_nu", kwarg d "prior_nu" .null), ("post_beta", kwarg d "post_beta" .null),
   ("post_nu", kwarg d "post_nu" .null), ("name", kwarg d "name" .null)]

/-- classifiers/q_scoring_homo_gbe.py:209-251 -/
def qsOpts : List Opt :=
  [⟨["--balance-class-weight"], "balance_class_weight", .const true, .bool false, false⟩,
   ⟨["--prior"], "prior", .store .str none, .null, false⟩,
   ⟨["--prior-n"], "prior_N", .store .float none, .null, false⟩,
   ⟨["--post-n"], "post_N", .store .float none, .null, false⟩,
   ⟨["--name"], "name", .store .str none, .str "q_scoring", false⟩]

/-- classifiers/q_scoring_homo_gbe.py:182-205 -/
def qsFilter (kw : List (String × Val)) : List (String × Val) := pick ["balance_class_weight", "prior", "prior_N", "post_N", "name"] kw

/-- classifiers/q_scoring_homo_gbe.py:23-37 -/
def qsAttrs (d : List (String × Val)) : List (String × Val) :=
  [("balance_class_weight", kwarg d "balance_class_weight" (.bool true)), ("prior", kwarg d "prior" .null), ("prior_N", kwarg d "prior_N" .null),
   ("post_N", kwarg d "post_N" .null), ("name", kwarg d "name" .null)]

/-- classifiers/logistic_regression.py:209-261 -/
def lrOpts : List Opt :=
  [⟨["--penalty"], "penalty", .store .str (some [.str "l2", .str "l1"]), .str "l2", false⟩,
   ⟨["--lambda-reg"], "lambda_reg", .store .float none, .dec 1 5, false⟩,
   ⟨["--no-use-bias"], "no_use_bias", .const true, .bool false, false⟩,
   ⟨["--bias-scaling"], "bias_scaling", .store .float none, .int 1, false⟩,
   ⟨["--lr-seed"], "lr_seed", .store .int none, .int 1024, false⟩,
   ⟨["--solver"], "solver", .store .str (some [.str "newton-cg", .str "lbfgs", .str "liblinear", .str "sag", .str "saga"]), .str "lbfgs", false⟩,
   ⟨["--max-iter"], "max_iter", .store .int none, .int 100, false⟩,
   ⟨["--dual"], "dual", .const true, .bool false, false⟩,
   ⟨["--tol"], "tol", .store .float none, .dec 1 4, false⟩,
   ⟨["--multi-class"], "multi_class", .store .str (some [.str "ovr", .str "multinomial"]), .str "ovr", false⟩,
   ⟨["--verbose"], "verbose", .store .int none, .int 0, false⟩,
   ⟨["--num-jobs"], "num_jobs", .store .int none, .int 1, false⟩,
   ⟨["--no-warm-start"], "no_warm_start", .const true, .bool false, false⟩,
   ⟨["--name"], "name", .store .str none, .str "lr", false⟩]

/-- classifiers/logistic_regression.py:185-204 -/
def lrFilter (kw : List (String × Val)) : List (String × Val) :=
  negate "no_warm_start" "warm_start" (negate "no_use_bias" "use_bias"
    (pick ["penalty", "lambda_reg", "use_bias", "bias_scaling", "no_use_bias", "priors", "lr_seed", "solver", "max_iter", "dual", "tol", "multi_class",
      "verbose", "warm_start", "no_warm_start", "num_jobs", "name"] kw))

/-- classifiers/logistic_regression.py:22-27, 73-97: attributes and parameters of the scikit-learn object (`lambda_reg` is passed on as
`C = 1/lambda_reg`) -/
def lrAttrs (d : List (String × Val)) : List (String × Val) :=
  [("penalty", kwarg d "penalty" (.str "l2")), ("lambda_reg", kwarg d "lambda_reg" (.dec 1 5)), ("use_bias", kwarg d "use_bias" (.bool true)),
   ("bias_scaling", kwarg d "bias_scaling" (.int 1)), ("lr_seed", kwarg d "lr_seed" (.int 1024)), ("solver", kwarg d "solver" (.str "lbfgs")),
   ("max_iter", kwarg d "max_iter" (.int 100)), ("dual", kwarg d "dual" (.bool false)), ("tol", kwarg d "tol" (.dec 1 4)),
   ("multi_class", kwarg d "multi_class" (.str "multinomial")), ("verbose", kwarg d "verbose" (.int 0)),
   ("warm_start", kwarg d "warm_start" (.bool true)), ("num_jobs", kwarg d "num_jobs" (.int 1)), ("name", kwarg d "name" .null)]

/-- classifiers/linear_svmc.py:128-177 -/
def svmOpts : List Opt :=
  [⟨["--penalty"], "penalty", .store .str (some [.str "l2", .str "l1"]), .str "l2", false⟩,
   ⟨["--c"], "C", .store .float none, .int 1, false⟩,
   ⟨["--loss"], "loss", .store .str (some [.str "hinge", .str "squared_hinge"]), .str "squared_hinge", false⟩,
   ⟨["--no-use-bias"], "use_bias", .const false, .bool true, false⟩,
   ⟨["--bias-scaling"], "bias_scaling", .store .float none, .int 1, false⟩,
   ⟨["--lr-seed"], "lr_seed", .store .int none, .int 1024, false⟩,
   ⟨["--max-iter"], "max_iter", .store .int none, .int 100, false⟩,
   ⟨["--no-dual"], "dual", .const false, .bool true, false⟩,
   ⟨["--tol"], "tol", .store .float none, .dec 1 4, false⟩,
   ⟨["--multi-class"], "multi_class", .store .str (some [.str "ovr", .str "crammer_singer"]), .str "ovr", false⟩,
   ⟨["--verbose"], "verbose", .store .int none, .int 0, false⟩,
   ⟨["--balance-class-weight"], "balance_class_weight", .const true, .bool false, false⟩,
   ⟨["--name"], "name", .store .str none, .str "svc", false⟩]

/-- classifiers/linear_svmc.py:111-123 -/
def svmFilter (kw : List (String × Val)) : List (String × Val) :=
  pick ["penalty", "C", "loss", "use_bias", "bias_scaling", "class_weight", "lr_seed", "max_iter", "dual", "tol", "multi_class", "verbose",
    "balance_class_weight", "name"] kw

/-- classifiers/linear_svmc.py:32-33 -/
def classWeight (given balance : Val) : Val := if given = .null ∧ balance = .bool true then .str "balanced" else given

/-- classifiers/linear_svmc.py:22-47: attributes and parameters of the scikit-learn object -/
def svmAttrs (d : List (String × Val)) : List (String × Val) :=
  [("penalty", kwarg d "penalty" (.str "l2")), ("C", kwarg d "C" (.int 1)), ("loss", kwarg d "loss" (.str "squared_hinge")),
   ("use_bias", kwarg d "use_bias" (.bool true)), ("bias_scaling", kwarg d "bias_scaling" (.int 1)), ("lr_seed", kwarg d "lr_seed" (.int 1024)),
   ("max_iter", kwarg d "max_iter" (.int 100)), ("dual", kwarg d "dual" (.bool true)), ("tol", kwarg d "tol" (.dec 1 4)),
   ("multi_class", kwarg d "multi_class" (.str "ovr")), ("verbose", kwarg d "verbose" (.int 0)),
   ("class_weight", classWeight (kwarg d "class_weight" .null) (kwarg d "balance_class_weight" (.bool true))), ("name", kwarg d "name" .null)]

/-- helpers/plda_factory.py:68-130; `--md-epochs` has no prefix -/
def pldaOpts : List Opt :=
  [⟨["--plda-type"], "plda_type", .store .str (some [.str "frplda", .str "splda", .str "plda"]), .str "splda", false⟩,
   ⟨["--y-dim"], "y_dim", .store .int none, .int 150, false⟩,
   ⟨["--z-dim"], "z_dim", .store .int none, .int 400, false⟩,
   ⟨["--diag-W"], "diag_W", .const false, .bool false, false⟩,
   ⟨["--no-update-mu"], "no_update_mu", .const true, .bool false, false⟩,
   ⟨["--no-update-V"], "no_update_V", .const true, .bool false, false⟩,
   ⟨["--no-update-U"], "no_update_U", .const true, .bool false, false⟩,
   ⟨["--no-update-B"], "no_update_B", .const true, .bool false, false⟩,
   ⟨["--no-update-w"], "no_update_W", .const true, .bool false, false⟩,
   ⟨["--no-update-d"], "no_update_D", .const true, .bool false, false⟩,
   ⟨["--floor-id"], "floor_iD", .store .float none, .dec 1 5, false⟩,
   ⟨["--epochs"], "epochs", .store .int none, .int 40, false⟩,
   ⟨["--ml-md"], "ml_md", .store .str (some [.str "ml+md", .str "ml", .str "md"]), .str "ml+md", false⟩,
   ⟨["--md-epochs"], "md_epochs", .store .many none, .null, false⟩,
   ⟨["--name"], "name", .store .str none, .str "plda", false⟩]

/-- `d[b] = not d[a]; del d[a]` (KeyError without `a`) -/
def swapNeg (d : List (String × Val)) (ab : String × String) : Option (List (String × Val)) :=
  match dictGet d ab.1 with
  | some (.bool x) => some ((dictSet d ab.2 (.bool !x)).filter (fun p => decide (p.1 ≠ ab.1)))
  | _ => none

/-- helpers/plda_factory.py:55-75; `ne_args1` is the value of this name, which is not defined in the code (`none`: NameError) -/
def pldaFilter (ne_args1 : Option (List String)) (kw : List (String × Val)) : Option (List (String × Val)) :=
  let d := pick ["plda_type", "y_dim", "z_dim", "diag_W", "no_update_mu", "no_update_V", "no_update_U", "no_update_B", "no_update_W", "no_update_D",
    "floor_iD", "epochs", "ml_md", "md_epochs", "name"] kw
  ne_args1.bind (fun neg1 => (neg1.zip ["fullcov_W", "update_mu", "update_V", "update_U", "update_B", "update_W", "update_D"]).foldlM swapNeg d)

/-- bin/train-plda.py:75-80: the options; `--val-list` stands between the lists -/
def pldaScriptOpts : List Opt :=
  [⟨["--iv-file"], "iv_file", .store .str none, .null, true⟩,
   ⟨["--train-list"], "train_list", .store .str none, .null, true⟩,
   ⟨["--val-list"], "val_list", .store .str none, .null, false⟩,
   ⟨["--preproc-file"], "preproc_file", .store .str none, .null, false⟩] ++ vcrOpts ++ pldaOpts ++
  [⟨["--output-path"], "output_path", .store .str none, .null, true⟩,
   ⟨["-v", "--verbose"], "verbose", .store .int (some [.int 0, .int 1, .int 2, .int 3]), .int 1, false⟩]

/-- what a training script does with its command line: the arguments of the reader, the attributes of the model, the files -/
structure Plan where
  reader : List (String × Val)
  attrs : List (String × Val)
  ivFile : Val
  trainList : Val
  preproc : Val
  out : Val
deriving DecidableEq

/-- the scripts: parser, `del args.verbose`, call of the training function with all other arguments by name, which takes its own parameters
out of `**kwargs` -/
def script (opts : List Opt) (own : List String) (model : List (String × Val) → Option (List (String × Val))) (conv : Ty → String → Option Val) (us : List Use) :
    Option Plan :=
  (build opts).bind (fun p => (parse conv p us).bind (fun ns =>
    let kw := ns.filter (fun q => decide (q.1 ≠ "verbose") && !own.contains q.1)
    (model kw).map (fun a => ⟨vcrFilter kw, a, kwarg ns "iv_file" .null, kwarg ns "train_list" .null, kwarg ns "preproc_file" .null, kwarg ns "output_path" .null⟩)))

/-- parameters of the training functions -/
def ownArgs : List String := ["iv_file", "train_list", "preproc_file", "output_path"]

/-- bin/train-linear-gbe.py -/
def trainGbe (conv : Ty → String → Option Val) (us : List Use) : Option Plan := script (scriptOpts gbeOpts) ownArgs (fun kw => some (gbeAttrs (gbeFilter kw))) conv us

/-- bin/train-q-scoring-homo-gbe.py -/
def trainQs (conv : Ty → String → Option Val) (us : List Use) : Option Plan := script (scriptOpts qsOpts) ownArgs (fun kw => some (qsAttrs (qsFilter kw))) conv us

/-- bin/train-logistic-regression.py -/
def trainLr (conv : Ty → String → Option Val) (us : List Use) : Option Plan := script (scriptOpts lrOpts) ownArgs (fun kw => some (lrAttrs (lrFilter kw))) conv us

/-- bin/train-linear-svmc.py -/
def trainSvm (conv : Ty → String → Option Val) (us : List Use) : Option Plan := script (scriptOpts svmOpts) ownArgs (fun kw => some (svmAttrs (svmFilter kw))) conv us

/-- bin/train-plda.py up to the creation of the model -/
def trainPlda (ne_args1 : Option (List String)) (conv : Ty → String → Option Val) (us : List Use) : Option Plan :=
  script pldaScriptOpts (ownArgs ++ ["val_list", "epochs", "ml_md", "md_epochs"]) (pldaFilter ne_args1) conv us

/-- a parser with the options of a class only, `vars(parse_args())`, `filter_train_args`, constructor -/
def classAttrs (opts : List Opt) (model : List (String × Val) → List (String × Val)) (conv : Ty → String → Option Val) (us : List Use) : Option (List (String × Val)) :=
  (build opts).bind (fun p => (parse conv p us).map model)

end Hyp.Cli
