import Verif.Cli.CallbacksProps
import Verif.Cli.EvalProps

/-!
Command lines of the scripts that convert files and of the scripts that train and apply Keras embeddings with batch generators.
-/

namespace Hyp.Cli

/-- the end of a script `f(**vars(args))`, where `f` has the parameters `sig` and no `**kwargs`; `verb`: before it, `config_logger(args.verbose)` and
`del args.verbose` -/
def direct (opts : List Opt) (verb : Bool) (sig : List (String × Option Val)) (conv : Ty → String → Option Val) (us : List Use) : Option (List (String × Val)) :=
  (build opts).bind (fun p => (parse conv p us).bind (fun ns =>
    if verb then (dictGet ns "verbose").bind (fun _ => bindKw sig (ns.filter (fun q => decide (q.1 ≠ "verbose")))) else bindKw sig ns))

/-- a text option -/
def txt (flag dest : String) (req : Bool) : Opt := ⟨[flag], dest, .store .str none, .null, req⟩

/-- bin/copy-feats.py:30-42 with io/copy_feats.py:21-23, 124-135 -/
def copyFeats (conv : Ty → String → Option Val) (us : List Use) : Option (List (String × Val)) :=
  direct ([⟨["--input"], "input_spec", .store .words none, .null, true⟩, txt "--output" "output_spec" true, verbOpt] ++ drfOpts.map (addPre none) ++
    [⟨["--compress"], "compress", .const true, .bool false, false⟩,
     ⟨["--compression-method"], "compression_method", .store .str (some methods), .str "auto", false⟩]) true
    [("input_spec", none), ("output_spec", none), ("path_prefix", some .null), ("compress", some (.bool false)), ("compression_method", some (.str "auto")),
     ("scp_sep", some (.str " ")), ("part_idx", some (.int 1)), ("num_parts", some (.int 1)), ("chunk_size", some (.int 1))] conv us

/-- bin/merge-h5-files.py:21, 34-42 -/
def mergeH5 (conv : Ty → String → Option Val) (us : List Use) : Option (List (String × Val)) :=
  direct [⟨["--input-files"], "input_files", .store .words none, .null, true⟩, txt "--output-path" "output_path" true,
    ⟨["--chunk-size"], "chunk_size", .store .int none, .null, false⟩] false
    [("input_files", none), ("output_path", none), ("chunk_size", none)] conv us

/-- bin/scores2lre_format.py:24, 70-82 -/
def lreFormat (conv : Ty → String → Option Val) (us : List Use) : Option (List (String × Val)) :=
  direct [txt "--input-file" "input_file" true, txt "--output-file" "output_file" true, txt "--test-list" "test_list" false,
    txt "--class-file" "class_file" false, ⟨["--add-ext"], "add_ext", .const true, .bool false, false⟩, verbOpt] true
    [("input_file", none), ("output_file", none), ("test_list", none), ("class_file", none), ("add_ext", none)] conv us

/-- bin/vectors2scores.py:22, 41-47 -/
def vecScores (conv : Ty → String → Option Val) (us : List Use) : Option (List (String × Val)) :=
  direct [txt "--input-file" "input_file" true, txt "--output-file" "output_file" true, txt "--class-file" "class_file" false] false
    [("input_file", none), ("output_file", none), ("class_file", none)] conv us

/-- bin/eval-2class-performance.py:27, 52-62 -/
def eval2class (conv : Ty → String → Option Val) (us : List Use) : Option (List (String × Val)) :=
  direct [txt "--score-file" "score_file" true, txt "--key-file" "key_file" true, txt "--output-path" "output_path" true, verbOpt] true
    [("score_file", none), ("key_file", none), ("output_path", none)] conv us

/-- bin/ark2hyp.py:23, 44-56 -/
def ark2hyp (conv : Ty → String → Option Val) (us : List Use) : Option (List (String × Val)) :=
  direct [txt "--input-file" "input_file" true, txt "--input-dir" "input_dir" false, txt "--output-file" "output_file" true,
    ⟨["--field"], "field", .store .str none, .str "", false⟩, ⟨["--chunk-size"], "chunk_size", .store .int none, .null, false⟩,
    ⟨["--squeeze"], "squeeze", .const true, .bool false, false⟩, verbOpt] true
    [("input_file", none), ("input_dir", none), ("output_file", none), ("field", none), ("chunk_size", none), ("squeeze", none)] conv us

/-- bin/arkvad2nist.py:9-22, 26, 51, 67: the names at the top level of the script -/
def arkvadNames : List String :=
  ["absolute_import", "print_function", "xrange", "sys", "os", "argparse", "time", "logging", "np", "KaldiDataReader", "bin2intervals", "write_opensat", "arkvad2nist"]

/-- bin/arkvad2nist.py:67, 86-95, when the script has the top-level names `names`; `config_logger(args.verbose)` (line 92) raises NameError when the
name is missing -/
def arkvad (names : List String) (conv : Ty → String → Option Val) (us : List Use) : Option (List (String × Val)) :=
  if "config_logger" ∈ names then
    direct [txt "--input-file" "input_file" true, txt "--input-dir" "input_dir" false, txt "--output-dir" "output_dir" true, verbOpt] true
      [("input_file", none), ("input_dir", none), ("output_dir", none)] conv us
  else none

/-- bin/h5vad2nist.py:67, 85-94 -/
def h5vad (conv : Ty → String → Option Val) (us : List Use) : Option (List (String × Val)) :=
  direct [txt "--input-file" "input_file" true, txt "--output-dir" "output_dir" true, verbOpt] true [("input_file", none), ("output_dir", none)] conv us

/-- bin/rttm-to-bin-vad.py:63-75 and bin/segments-to-bin-vad.py:54-66, with the first option -/
def vadOpts (flag dest : String) : List Opt :=
  [txt flag dest true, txt "--num-frames" "num_frames_file" false, ⟨["--frame-shift"], "frame_shift", .store .float none, .int 10, false⟩,
   txt "--output-path" "output_path" true, ⟨["--part-idx"], "part_idx", .store .int none, .int 1, false⟩,
   ⟨["--num-parts"], "num_parts", .store .int none, .int 1, false⟩, verbOpt]

/-- bin/rttm-to-bin-vad.py:25, bin/segments-to-bin-vad.py:24 -/
def vadSig (first : String) : List (String × Option Val) :=
  [(first, none), ("num_frames_file", none), ("frame_shift", none), ("output_path", none), ("part_idx", none), ("num_parts", none)]

/-- bin/rttm-to-bin-vad.py -/
def rttmVad (conv : Ty → String → Option Val) (us : List Use) : Option (List (String × Val)) := direct (vadOpts "--rttm" "rttm_file") true (vadSig "rttm_file") conv us

/-- bin/segments-to-bin-vad.py -/
def segVad (conv : Ty → String → Option Val) (us : List Use) : Option (List (String × Val)) :=
  direct (vadOpts "--segments" "segments_file") true (vadSig "segments_file") conv us

/-- bin/keras-extract-seq-embed.py:91-98 and bin/keras-eval-seq-embed.py:91-97; `mid` is `--layer-names` of the first -/
def applyOpts (mid : List Opt) : List Opt :=
  [txt "--seq-file" "seq_file" true, txt "--preproc-file" "preproc_file" false, txt "--model-file" "model_file" true, txt "--output-path" "output_path" true] ++ mid ++
  [⟨["--max-seq-length"], "max_seq_length", .store .int none, .null, false⟩] ++ drfOpts.map (addPre none) ++ [verbOpt]

/-- io/data_rw_factory.py:119 -/
def drfValid : List String := ["scp_sep", "path_prefix", "part_idx", "num_parts"]

/-- io/data_rw_factory.py:88, readers: `path_prefix=None, scp_sep=' '`, `part_idx=1, num_parts=1` -/
def drfCtor : List (String × Val) := [("scp_sep", .str " "), ("path_prefix", .null), ("part_idx", .int 1), ("num_parts", .int 1)]

/-- bin/keras-extract-seq-embed.py -/
def kerasExtract (conv : Ty → String → Option Val) (us : List Use) : Option Run :=
  run (applyOpts [⟨["--layer-names"], "layer_names", .store .words none, .null, true⟩])
    ["seq_file", "model_file", "preproc_file", "output_path", "layer_names", "max_seq_length"] (fun _ => true) drfValid drfCtor [] [] conv us

/-- bin/keras-eval-seq-embed.py -/
def kerasEval (conv : Ty → String → Option Val) (us : List Use) : Option Run :=
  run (applyOpts []) ["seq_file", "model_file", "preproc_file", "output_path", "max_seq_length"] (fun _ => true) drfValid drfCtor [] [] conv us

/-- keras/embed/seq_embed.py:363-365 -/
def poolOpts : List Opt :=
  [⟨["pooling"], "pooling", .store .str (some [.str "mean+std", .str "mean+logvar", .str "mean"]), .str "mean+std", false⟩]

/-- keras/embed/seq_embed_lde.py:388-393 -/
def ldeOpts : List Opt :=
  [⟨["pooling"], "pooling", .store .str (some [.str "mean+std", .str "mean+logvar", .str "mean", .str "lde"]), .str "lde", false⟩,
   ⟨["lde-num-comp"], "num_comp", .store .int none, .int 64, false⟩,
   ⟨["lde-order"], "lde_order", .store .int none, .int 2, false⟩]

/-- keras/embed/seq_embed.py:366-372, keras/embed/seq_embed_lde.py:394-401 -/
def ctxOpts : List Opt :=
  [⟨["left-context"], "left_context", .store .int none, .int 0, false⟩,
   ⟨["right-context"], "right_context", .store .int none, .int 0, false⟩,
   ⟨["begin-context"], "begin_context", .store .int none, .null, false⟩,
   ⟨["end-context"], "end_context", .store .int none, .null, false⟩]

/-- keras/embed/seq_embed.py:347-348, keras/embed/seq_embed_lde.py:372-373; `pool`: the names before the contexts -/
def embValid (pool : List String) : List String := pool ++ ["left_context", "right_context", "begin_context", "end_context"]

/-- keras/embed/seq_embed.py:29-53, keras/embed/seq_embed_lde.py:30-60: attributes after the constructor, for keyword arguments of the script; `pool`: the
parameters of the constructor for the pooling, with defaults -/
def embAttrs (pool : List (String × Val)) (loss : Val) (d : List (String × Val)) : List (String × Val) :=
  let l := kwarg d "left_context" (.int 0)
  let r := kwarg d "right_context" (.int 0)
  let b := kwarg d "begin_context" .null
  let e := kwarg d "end_context" .null
  pool.map (fun q => (q.1, kwarg d q.1 q.2)) ++ [("loss", loss), ("left_context", l), ("right_context", r),
   ("begin_context", if b = .null then l else b), ("end_context", if e = .null then r else e)]

/-- the first options of both generators, generators/sequence_batch_generator_v1.py, sequence_batch_generator_v2.py -/
def genOpts1 : List Opt :=
  [⟨["scp-sep"], "scp_sep", .store .str none, .str " ", false⟩,
   ⟨["path-prefix"], "path_prefix", .store .str none, .str "", false⟩,
   ⟨["batch-size"], "batch_size", .store .int none, .int 128, false⟩,
   ⟨["class-list"], "class_list", .store .str none, .null, false⟩,
   ⟨["iters-per-epoch"], "iters_per_epoch", .store .autoInt none, .str "auto", false⟩]

/-- the last options of both generators -/
def genOpts2 : List Opt :=
  [⟨["init-epoch"], "init_epoch", .store .int none, .int 0, false⟩,
   ⟨["sg-seed"], "sg_seed", .store .int none, .int 1024, false⟩,
   ⟨["part-idx"], "part_idx", .store .int none, .int 1, false⟩,
   ⟨["num-parts"], "num_parts", .store .int none, .int 1, false⟩]

/-- `--class-weight` of both generators -/
def weightOpt : Opt := ⟨["class-weight"], "class_weight", .store .lower (some [.str "balanced", .str "unbalanced"]), .null, false⟩

/-- generators/sequence_batch_generator_v1.py `add_argparse_args` -/
def genOptsV1 : List Opt := genOpts1 ++
  [⟨["gen-method"], "gen_method", .store .lower (some [.str "full_seqs", .str "sequential", .str "random"]), .str "random", false⟩,
   ⟨["min-seq-length"], "min_seq_length", .store .int none, .null, false⟩,
   ⟨["max-seq-length"], "max_seq_length", .store .int none, .null, false⟩,
   ⟨["seq-overlap"], "seq_overlap", .store .int none, .int 0, false⟩,
   ⟨["prune-min-length"], "prune_min_length", .store .int none, .int 0, false⟩, weightOpt,
   ⟨["seq-weight"], "seq_weight", .store .lower (some [.str "balanced", .str "unbalanced"]), .str "balanced", false⟩] ++ genOpts2

/-- generators/sequence_batch_generator_v2.py `add_argparse_args` -/
def genOptsV2 : List Opt := genOpts1 ++
  [⟨["num-egs-per-class"], "num_egs_per_class", .store .int none, .int 1, false⟩,
   ⟨["num-egs-per-utt"], "num_egs_per_utt", .store .int none, .int 1, false⟩,
   ⟨["min-seq-length"], "min_seq_length", .store .int none, .null, false⟩,
   ⟨["max-seq-length"], "max_seq_length", .store .int none, .null, false⟩,
   ⟨["prune-min-length"], "prune_min_length", .store .int none, .int 0, false⟩, weightOpt] ++ genOpts2

/-- generators/sequence_batch_generator_v1.py `filter_args` -/
def genValidV1 : List String :=
  ["scp_sep", "path_prefix", "batch_size", "iters_per_epoch", "gen_method", "class_list", "shuffle_seqs", "min_seq_length", "max_seq_length", "seq_overlap",
   "prune_min_length", "class_weight", "seq_weight", "init_epoch", "sg_seed", "part_idx", "num_parts"]

/-- generators/sequence_batch_generator_v2.py `filter_args` -/
def genValidV2 : List String :=
  ["scp_sep", "path_prefix", "batch_size", "iters_per_epoch", "num_egs_per_class", "num_egs_per_utt", "class_list", "shuffle_seqs", "min_seq_length", "max_seq_length",
   "seq_overlap", "prune_min_length", "class_weight", "init_epoch", "sg_seed", "part_idx", "num_parts"]

/-- generators/sequence_batch_generator_v1.py:29-47: parameters other than those the script passes itself (files, `shuffle_seqs`, `reset_rng`, `transform`) -/
def genSigV1 : List (String × Option Val) :=
  [("class_list", some .null), ("path_prefix", some .null), ("batch_size", some (.int 1)), ("iters_per_epoch", some (.str "auto")), ("gen_method", some (.str "random")),
   ("min_seq_length", some .null), ("max_seq_length", some .null), ("seq_overlap", some (.int 0)), ("prune_min_length", some (.int 0)), ("return_class", some (.bool true)),
   ("class_weight", some .null), ("max_class_imbalance", some (.int 2)), ("seq_weight", some (.str "balanced")), ("init_epoch", some (.int 0)), ("sg_seed", some (.int 1024)),
   ("scp_sep", some (.str " ")), ("part_idx", some (.int 1)), ("num_parts", some (.int 1))]

/-- generators/sequence_batch_generator_v2.py:29-46 -/
def genSigV2 : List (String × Option Val) :=
  [("class_list", some .null), ("path_prefix", some .null), ("batch_size", some (.int 1)), ("iters_per_epoch", some (.str "auto")), ("num_egs_per_class", some (.int 1)),
   ("num_egs_per_utt", some (.int 1)), ("min_seq_length", some .null), ("max_seq_length", some .null), ("prune_min_length", some (.int 0)), ("return_class", some (.bool true)),
   ("return_utt1hot", some (.bool false)), ("class_weight", some .null), ("init_epoch", some (.int 0)), ("sg_seed", some (.int 1024)), ("scp_sep", some (.str " ")),
   ("part_idx", some (.int 1)), ("num_parts", some (.int 1))]

/-- what differs between bin/keras-train-cat-seq-embed-gen-v1.py, bin/keras-train-cat-seq-embed-lde-gen-v1.py and bin/keras-train-cat-seq-embed-gen-v2.py: the
names of the two networks, the options of the pooling (and their names in the filter and the constructor), the generator, what is
added to the epoch of a checkpoint, and whether the model has the method that `--freeze-prepool` or `--freeze-enc` calls (the other two methods are missing in
both: keras/embed/seq_embed.py:147-159 has `freeze_enc_net`, `freeze_enc_net_layers`, `freeze_pt_net_layers`) -/
structure Kind2 where
  enc : String
  pt : String
  pool : List Opt
  names : List String
  ctor : List (String × Val)
  opts : List Opt
  valid : List String
  sig : List (String × Option Val)
  step : Int
  canFreeze : Bool

/-- bin/keras-train-cat-seq-embed-gen-v1.py -/
def v1 : Kind2 := ⟨"prepool", "postpool", poolOpts, ["pooling"], [("pooling", .str "mean+std")], genOptsV1, genValidV1, genSigV1, 0, false⟩

/-- bin/keras-train-cat-seq-embed-gen-v2.py:61 -/
def v2 : Kind2 := ⟨"enc", "pt", poolOpts, ["pooling"], [("pooling", .str "mean+std")], genOptsV2, genValidV2, genSigV2, 1, true⟩

/-- bin/keras-train-cat-seq-embed-lde-gen-v1.py: as the first, with SeqEmbedLDE (keras/embed/seq_embed_lde.py:30-42, 372-373), which lacks the methods too -/
def lde : Kind2 :=
  ⟨"prepool", "postpool", ldeOpts, ["pooling", "num_comp", "lde_order"], [("pooling", .str "mean+std"), ("num_comp", .int 64), ("lde_order", .int 2)],
   genOptsV1, genValidV1, genSigV1, 0, false⟩

/-- bin/keras-train-cat-seq-embed-gen-v1.py:132-158 -/
def trainOpts (s : Kind2) : List Opt :=
  [txt "--data-path" "data_path" true, txt "--train-list" "train_list" true, txt "--val-list" "val_list" false,
   txt ("--" ++ s.enc ++ "-net") (s.enc ++ "_net_path") true, txt ("--" ++ s.pt ++ "-net") (s.pt ++ "_net_path") true,
   txt "--init-path" "init_path" false, txt "--preproc-file" "preproc_file" false, txt "--output-path" "output_path" true] ++
  s.pool.map (addPre none) ++ ctxOpts.map (addPre none) ++ s.opts.map (addPre none) ++ kofOpts.map (addPre none) ++ cbOpts.map (addPre none) ++
  [⟨["--loss"], "loss", .store .str (some [.str "categorical_crossentropy", .str "categorical_hinge", .str "categorical_mbr"]), .str "categorical_crossentropy", false⟩,
   ⟨["--freeze-" ++ s.enc], "freeze_" ++ s.enc, .const true, .bool false, false⟩,
   ⟨["--freeze-" ++ s.enc ++ "-layers"], "freeze_" ++ s.enc ++ "_layers", .store .words none, .null, false⟩,
   ⟨["--freeze-" ++ s.pt ++ "-layers"], "freeze_" ++ s.pt ++ "_layers", .store .words none, .null, false⟩,
   ⟨["--epochs"], "epochs", .store .int none, .int 1000, false⟩, verbOpt]

/-- bin/keras-train-cat-seq-embed-gen-v1.py:42-47: parameters of the function -/
def trainOwn (s : Kind2) : List String :=
  ["data_path", "train_list", "val_list", s.enc ++ "_net_path", s.pt ++ "_net_path", "loss", "init_path", "epochs", "preproc_file", "output_path",
   "freeze_" ++ s.enc, "freeze_" ++ s.enc ++ "_layers", "freeze_" ++ s.pt ++ "_layers"]

/-- a training: arguments of the function, attributes of a new model (`none`: the model was loaded), arguments of both generators, optimiser and callbacks -/
structure Job where
  own : List (String × Val)
  model : Option (List (String × Val))
  gen : List (String × Val)
  opt : Made
  cbs : List Made

/-- bin/keras-train-cat-seq-embed-gen-v1.py:42-122 up to the training: `ck` is the epoch of the checkpoint found in the output directory (C165 is about the search),
looked for only without `--init-path`. `none`: the script raises, as it does without `--val-list` (`sg_val` is not assigned, :116). Reading of the
files, of the networks and of models is not modelled. -/
def trainEmbed (s : Kind2) (ck : Option Int) (conv : Ty → String → Option Val) (us : List Use) : Option Job :=
  (build (trainOpts s)).bind (fun p => (parse conv p us).bind (fun ns => (dictGet ns "verbose").bind (fun _ =>
    let a := ns.filter (fun q => decide (q.1 ≠ "verbose"))
    ((trainOwn s).mapM (fun k : String => (dictGet a k).map (fun v : Val => (k, v)))).bind (fun o =>
      let kw := a.filter (fun q => !(trainOwn s).contains q.1)
      let found := if arg o "init_path" = .null then ck else none
      let kw' := if found.isSome then dictSet kw "init_epoch" (.int (found.getD 0 + s.step)) else kw
      let model := if arg o "init_path" = .null ∧ ck = none then some (embAttrs s.ctor (arg o "loss") (pick (embValid s.names) kw)) else none
      if arg o "val_list" = .null ∨ (arg o ("freeze_" ++ s.enc) = .bool true ∧ s.canFreeze = false) ∨ arg o ("freeze_" ++ s.enc ++ "_layers") ≠ .null ∨
          arg o ("freeze_" ++ s.pt ++ "_layers") ≠ .null then none
      else (bindKw s.sig (pick s.valid kw')).bind (fun g => (cbCreate (outPath (arg o "output_path")) (pick cbValid kw')).bind (fun cb =>
        ((kofCreate (pick kofValid kw')).bind id).map (fun op => ⟨o, model, g, op, cb⟩)))))))
where
  /-- the text of the output path -/
  outPath : Val → String
    | .str t => t
    | _ => ""

end Hyp.Cli
