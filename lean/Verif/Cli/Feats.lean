import Verif.Cli.Props

/-!
Command lines for features: MFCC, normalisation, frame selection, the scripts `compute-mfcc-feats.py` and `copy-feats.py`; options with a
prefix.
-/

namespace Hyp.Cli

/-- utils/misc.py:19-26 -/
def str2bool (s : String) : Option Bool :=
  dictGet [("true", true), ("t", true), ("yes", true), ("y", true), ("false", false), ("f", false), ("no", false), ("n", false)] s.toLower

/-- `p1` of the `add_argparse_args`, e.g. feats/mfcc.py:379-384: the beginning of an option string -/
def p1 : Option String → String
  | none => "--"
  | some p => "--" ++ p ++ "-"

/-- `p2`, and `p` of `filter_args`: the beginning of a name -/
def p2 : Option String → String
  | none => ""
  | some p => p ++ "_"

/-- an option written without the beginning of its option string and name -/
def addPre (p : Option String) (o : Opt) : Opt := { o with flags := o.flags.map (fun f => p1 p ++ f), dest := p2 p ++ o.dest }

/-- `dict((k, kwargs[p+k]) for k in valid_args if p+k in kwargs)` -/
def pickP (p : Option String) (valid : List String) (kw : List (String × Val)) : List (String × Val) :=
  valid.filterMap (fun k => (dictGet kw (p2 p ++ k)).map (fun v => (k, v)))

/-- feats/feature_windows.py:50-54 -/
def windowOpts : List Opt :=
  [⟨["window-type"], "window_type", .store .str (some [.str "hamming", .str "hanning", .str "povey", .str "rectangular", .str "blackman"]), .str "povey", false⟩]

/-- feats/filter_banks.py:129-151 -/
def fbOpts : List Opt :=
  [⟨["fb-type"], "fb_type", .store .str (some [.str "mel_kaldi", .str "mel_etsi", .str "linear"]), .str "mel_kaldi", false⟩,
   ⟨["num-filters"], "num_filters", .store .int none, .int 23, false⟩,
   ⟨["low-freq"], "low_freq", .store .float none, .int 20, false⟩,
   ⟨["high-freq"], "high_freq", .store .float none, .int 0, false⟩,
   ⟨["norm-filters"], "norm_filters", .store .bool none, .bool false, false⟩]

/-- feats/mfcc.py:371-458 -/
def mfccOpts : List Opt :=
  [⟨["sample-frequency"], "fs", .store .int none, .int 16000, false⟩,
   ⟨["frame-length"], "frame_length", .store .int none, .int 25, false⟩,
   ⟨["frame-shift"], "frame_shift", .store .int none, .int 10, false⟩,
   ⟨["fft-length"], "fft_length", .store .int none, .int 512, false⟩,
   ⟨["remove-dc-offset"], "remove_dc_offset", .store .bool none, .bool true, false⟩,
   ⟨["preemphasis-coeff"], "preemph_coeff", .store .float none, .dec 97 2, false⟩] ++ windowOpts ++
  [⟨["use-fft2"], "use_fft2", .store .bool none, .bool true, false⟩,
   ⟨["dither"], "dither", .store .float none, .int 1, false⟩] ++ fbOpts ++
  [⟨["num-ceps"], "num_ceps", .store .int none, .int 13, false⟩,
   ⟨["snip-edges"], "snip_edges", .store .bool none, .bool true, false⟩,
   ⟨["energy-floor"], "energy_floor", .store .float none, .int 0, false⟩,
   ⟨["raw-energy"], "raw_energy", .store .bool none, .bool true, false⟩,
   ⟨["use-energy"], "use_energy", .store .bool none, .bool true, false⟩,
   ⟨["cepstral-lifter"], "cepstral_lifter", .store .float none, .int 22, false⟩,
   ⟨["input-step"], "input_step", .store .str (some [.str "wave", .str "fft", .str "fft_mag", .str "log_spec", .str "logfb"]), .str "wave", false⟩,
   ⟨["output-step"], "output_step", .store .str (some [.str "fft", .str "fft_mag", .str "log_spec", .str "logfb", .str "cepstrum"]), .str "cepstrum", false⟩]

/-- feats/mfcc.py:342-366 -/
def mfccFilter (p : Option String) (kw : List (String × Val)) : List (String × Val) :=
  pickP p ["fs", "frame_length", "frame_shift", "fft_length", "remove_dc_offset", "preemph_coeff", "window_type", "blackman_coeff", "use_fft2", "dither",
    "fb_type", "low_freq", "high_freq", "num_filters", "norm_filters", "num_ceps", "snip_edges", "energy_floor", "raw_energy", "use_energy",
    "cepstral_lifter", "input_step", "output_step"] kw

/-- feats/mfcc.py:97-130: attributes set from the keyword arguments (a name the constructor does not know, such as `blackman_coeff`, raises: no
option sets it) -/
def mfccAttrs (d : List (String × Val)) : List (String × Val) :=
  [("fs", kwarg d "fs" (.int 16000)), ("frame_length", kwarg d "frame_length" (.int 25)), ("frame_shift", kwarg d "frame_shift" (.int 10)),
   ("fft_length", kwarg d "fft_length" (.int 512)), ("remove_dc_offset", kwarg d "remove_dc_offset" (.bool true)),
   ("preemph_coeff", kwarg d "preemph_coeff" (.dec 97 2)), ("window_type", kwarg d "window_type" (.str "povey")),
   ("use_fft2", kwarg d "use_fft2" (.bool true)), ("dither", kwarg d "dither" (.int 1)), ("fb_type", kwarg d "fb_type" (.str "mel_kaldi")),
   ("low_freq", kwarg d "low_freq" (.int 20)), ("high_freq", kwarg d "high_freq" (.int 0)), ("num_filters", kwarg d "num_filters" (.int 23)),
   ("norm_filters", kwarg d "norm_filters" (.bool false)), ("num_ceps", kwarg d "num_ceps" (.int 13)), ("snip_edges", kwarg d "snip_edges" (.bool true)),
   ("energy_floor", kwarg d "energy_floor" (.int 0)), ("raw_energy", kwarg d "raw_energy" (.bool true)), ("use_energy", kwarg d "use_energy" (.bool true)),
   ("cepstral_lifter", kwarg d "cepstral_lifter" (.int 22)), ("input_step", kwarg d "input_step" (.str "wave")),
   ("output_step", kwarg d "output_step" (.str "cepstrum"))]

/-- feats/feature_normalization.py:256-271 -/
def mvnOpts : List Opt :=
  [⟨["no-norm-mean"], "no_norm_mean", .const true, .bool false, false⟩,
   ⟨["norm-var"], "norm_var", .const true, .bool false, false⟩,
   ⟨["left-context"], "left_context", .store .int none, .int 300, false⟩,
   ⟨["right-context"], "right_context", .store .int none, .int 300, false⟩]

/-- feats/feature_normalization.py:210-236 -/
def mvnFilter (p : Option String) (kw : List (String × Val)) : Option (List (String × Val)) :=
  swapNeg (pickP p ["no_norm_mean", "norm_mean", "norm_var", "left_context", "right_context"] kw) ("no_norm_mean", "norm_mean")

/-- feats/feature_normalization.py:28-32 -/
def mvnAttrs (d : List (String × Val)) : List (String × Val) :=
  [("norm_mean", kwarg d "norm_mean" (.bool true)), ("norm_var", kwarg d "norm_var" (.bool false)), ("left_context", kwarg d "left_context" .null),
   ("right_context", kwarg d "right_context" .null)]

/-- feats/frame_selector.py:94-96 -/
def selOpts : List Opt := [⟨["tol-num-frames"], "tol_num_frames", .store .int none, .int 3, false⟩]

/-- feats/frame_selector.py:55-74: `valid_args` is a string, the loop runs over its letters -/
def selFilter (p : Option String) (kw : List (String × Val)) : List (String × Val) :=
  pickP p ("tol_num_frames".toList.map (fun c => String.ofList [c])) kw

/-- feats/frame_selector.py:21-22 -/
def selAttrs (d : List (String × Val)) : List (String × Val) := [("tol_num_frames", kwarg d "tol_num_frames" (.int 3))]

/-- a parser with options of several objects: those of one object, after the constructor -/
def objAttrs (opts : List Opt) (model : List (String × Val) → Option (List (String × Val))) (conv : Ty → String → Option Val) (us : List Use) :
    Option (List (String × Val)) :=
  (build opts).bind (fun p => (parse conv p us).bind model)

/-- io/data_rw_factory.py:125-146 -/
def drfOpts : List Opt :=
  [⟨["scp-sep"], "scp_sep", .store .str none, .str " ", false⟩,
   ⟨["path-prefix"], "path_prefix", .store .str none, .null, false⟩,
   ⟨["part-idx"], "part_idx", .store .int none, .int 1, false⟩,
   ⟨["num-parts"], "num_parts", .store .int none, .int 1, false⟩]

/-- utils/kaldi_matrix.py:238-244 -/
def methods : List Val :=
  [.str "auto", .str "speech-feat", .str "2byte-auto", .str "2byte-signed-integer", .str "1byte-auto", .str "1byte-unsigned-integer", .str "1byte-0-1"]

/-- bin/compute-mfcc-feats.py:80-91: the options -/
def mfccScriptOpts : List Opt :=
  [⟨["--input"], "input_path", .store .str none, .null, true⟩,
   ⟨["--output"], "output_path", .store .str none, .null, true⟩,
   ⟨["--write-num-frames"], "write_num_frames", .store .str none, .null, false⟩] ++ drfOpts.map (addPre none) ++ mfccOpts.map (addPre none) ++
  [⟨["--compress"], "compress", .const true, .bool false, false⟩,
   ⟨["--compression-method"], "compression_method", .store .str (some methods), .str "auto", false⟩,
   ⟨["-v", "--verbose"], "verbose", .store .int (some [.int 0, .int 1, .int 2, .int 3]), .int 1, false⟩]

/-- what `compute-mfcc-feats.py` does with its command line: attributes of the MFCC object, whether the input is read as audio, arguments of the
reader, and the arguments of the function itself -/
structure FeatPlan where
  mfcc : List (String × Val)
  wave : Bool
  reader : List (String × Val)
  own : List (String × Val)
deriving DecidableEq

/-- bin/compute-mfcc-feats.py:25-42, 92-98 -/
def mfccScript (conv : Ty → String → Option Val) (us : List Use) : Option FeatPlan :=
  (build mfccScriptOpts).bind (fun p => (parse conv p us).map (fun ns =>
    let own := ["input_path", "output_path", "compress", "compression_method", "write_num_frames"]
    let kw := ns.filter (fun q => decide (q.1 ≠ "verbose") && !own.contains q.1)
    let a := mfccAttrs (mfccFilter none kw)
    let wave := decide (dictGet a "input_step" = some (.str "wave"))
    ⟨a, wave, if wave then pickP none ["part_idx", "num_parts"] kw else pickP none ["scp_sep", "path_prefix", "part_idx", "num_parts"] kw, pick own ns⟩))

end Hyp.Cli
