import Verif.Cli.Jobs

/-!
C174: the command lines of the scripts that convert files and that train and apply Keras embeddings.
-/

namespace Hyp.Cli

/-! ### Specification -/

/-- an integer option with a default -/
def intRow (attr flag : String) (d : Val) : Row := ⟨attr, [flag], d, .value .int none⟩

/-- an option that takes several texts -/
def wordsRow (attr flag : String) : Row := ⟨attr, [flag], .null, .value .words none⟩

/-- a switch that is off -/
def offRow (attr flag : String) : Row := ⟨attr, [flag], .bool false, .switch (.bool true)⟩

/-- `copy-feats.py` -/
def copyTable : List Row :=
  [wordsRow "input_spec" "--input", fileRow "output_spec" "--output", fileRow "path_prefix" "--path-prefix", offRow "compress" "--compress",
   ⟨"compression_method", ["--compression-method"], .str "auto", .value .str (some [.str "auto", .str "speech-feat", .str "2byte-auto", .str "2byte-signed-integer",
     .str "1byte-auto", .str "1byte-unsigned-integer", .str "1byte-0-1"])⟩,
   ⟨"scp_sep", ["--scp-sep"], .str " ", .value .str none⟩, intRow "part_idx" "--part-idx" (.int 1), intRow "num_parts" "--num-parts" (.int 1)]

/-- `merge-h5-files.py` -/
def mergeTable : List Row := [wordsRow "input_files" "--input-files", fileRow "output_path" "--output-path", intRow "chunk_size" "--chunk-size" .null]

/-- `scores2lre_format.py` -/
def lreTable : List Row :=
  [fileRow "input_file" "--input-file", fileRow "output_file" "--output-file", fileRow "test_list" "--test-list", fileRow "class_file" "--class-file",
   offRow "add_ext" "--add-ext"]

/-- `vectors2scores.py` -/
def vecTable : List Row := [fileRow "input_file" "--input-file", fileRow "output_file" "--output-file", fileRow "class_file" "--class-file"]

/-- `eval-2class-performance.py` -/
def perfTable : List Row := [fileRow "score_file" "--score-file", fileRow "key_file" "--key-file", fileRow "output_path" "--output-path"]

/-- `ark2hyp.py` -/
def arkTable : List Row :=
  [fileRow "input_file" "--input-file", fileRow "input_dir" "--input-dir", fileRow "output_file" "--output-file", ⟨"field", ["--field"], .str "", .value .str none⟩,
   intRow "chunk_size" "--chunk-size" .null, offRow "squeeze" "--squeeze"]

/-- `rttm-to-bin-vad.py` and `segments-to-bin-vad.py`: the frame shift is 10 without its option -/
def binVadTable (attr flag : String) : List Row :=
  [fileRow attr flag, fileRow "num_frames_file" "--num-frames", ⟨"frame_shift", ["--frame-shift"], .int 10, .value .float none⟩, fileRow "output_path" "--output-path",
   intRow "part_idx" "--part-idx" (.int 1), intRow "num_parts" "--num-parts" (.int 1)]

/-- the reader of features -/
def featReader : List Row :=
  [⟨"scp_sep", ["--scp-sep"], .str " ", .value .str none⟩, fileRow "path_prefix" "--path-prefix", intRow "part_idx" "--part-idx" (.int 1),
   intRow "num_parts" "--num-parts" (.int 1)]

/-- `keras-extract-seq-embed.py` -/
def extractTable : List Row :=
  [fileRow "seq_file" "--seq-file", fileRow "model_file" "--model-file", fileRow "preproc_file" "--preproc-file", fileRow "output_path" "--output-path",
   wordsRow "layer_names" "--layer-names", intRow "max_seq_length" "--max-seq-length" .null]

/-- `keras-eval-seq-embed.py` -/
def evalEmbTable : List Row :=
  [fileRow "seq_file" "--seq-file", fileRow "model_file" "--model-file", fileRow "preproc_file" "--preproc-file", fileRow "output_path" "--output-path",
   intRow "max_seq_length" "--max-seq-length" .null]

/-- the generator of the first training script -/
def genTableV1 : List Row :=
  [fileRow "class_list" "--class-list", ⟨"path_prefix", ["--path-prefix"], .str "", .value .str none⟩, intRow "batch_size" "--batch-size" (.int 128),
   ⟨"iters_per_epoch", ["--iters-per-epoch"], .str "auto", .value .autoInt none⟩,
   ⟨"gen_method", ["--gen-method"], .str "random", .value .lower (some [.str "full_seqs", .str "sequential", .str "random"])⟩,
   intRow "min_seq_length" "--min-seq-length" .null, intRow "max_seq_length" "--max-seq-length" .null, intRow "seq_overlap" "--seq-overlap" (.int 0),
   intRow "prune_min_length" "--prune-min-length" (.int 0),
   ⟨"class_weight", ["--class-weight"], .null, .value .lower (some [.str "balanced", .str "unbalanced"])⟩,
   ⟨"seq_weight", ["--seq-weight"], .str "balanced", .value .lower (some [.str "balanced", .str "unbalanced"])⟩,
   intRow "sg_seed" "--sg-seed" (.int 1024), ⟨"scp_sep", ["--scp-sep"], .str " ", .value .str none⟩, intRow "part_idx" "--part-idx" (.int 1),
   intRow "num_parts" "--num-parts" (.int 1)]

/-- the generator of the second training script -/
def genTableV2 : List Row :=
  [fileRow "class_list" "--class-list", ⟨"path_prefix", ["--path-prefix"], .str "", .value .str none⟩, intRow "batch_size" "--batch-size" (.int 128),
   ⟨"iters_per_epoch", ["--iters-per-epoch"], .str "auto", .value .autoInt none⟩, intRow "num_egs_per_class" "--num-egs-per-class" (.int 1),
   intRow "num_egs_per_utt" "--num-egs-per-utt" (.int 1), intRow "min_seq_length" "--min-seq-length" .null, intRow "max_seq_length" "--max-seq-length" .null,
   intRow "prune_min_length" "--prune-min-length" (.int 0),
   ⟨"class_weight", ["--class-weight"], .null, .value .lower (some [.str "balanced", .str "unbalanced"])⟩,
   intRow "sg_seed" "--sg-seed" (.int 1024), ⟨"scp_sep", ["--scp-sep"], .str " ", .value .str none⟩, intRow "part_idx" "--part-idx" (.int 1),
   intRow "num_parts" "--num-parts" (.int 1)]

/-- the first epoch -/
def epochRow : Row := intRow "init_epoch" "--init-epoch" (.int 0)

/-- the pooling and the contexts of the embedding -/
def poolRow : Row := ⟨"pooling", ["--pooling"], .str "mean+std", .value .str (some [.str "mean+std", .str "mean+logvar", .str "mean"])⟩

/-- the files and switches of a training script with networks `enc` and `pt` -/
def trainTable (enc pt : String) : List Row :=
  [fileRow "data_path" "--data-path", fileRow "train_list" "--train-list", fileRow "val_list" "--val-list",
   fileRow (enc ++ "_net_path") ("--" ++ enc ++ "-net"), fileRow (pt ++ "_net_path") ("--" ++ pt ++ "-net"),
   ⟨"loss", ["--loss"], .str "categorical_crossentropy", .value .str (some [.str "categorical_crossentropy", .str "categorical_hinge", .str "categorical_mbr"])⟩,
   fileRow "init_path" "--init-path", intRow "epochs" "--epochs" (.int 1000), fileRow "preproc_file" "--preproc-file", fileRow "output_path" "--output-path",
   offRow ("freeze_" ++ enc) ("--freeze-" ++ enc), wordsRow ("freeze_" ++ enc ++ "_layers") ("--freeze-" ++ enc ++ "-layers"),
   wordsRow ("freeze_" ++ pt ++ "_layers") ("--freeze-" ++ pt ++ "-layers")]

/-- the pooling of SeqEmbedLDE -/
def ldeRows : List Row :=
  [⟨"pooling", ["--pooling"], .str "lde", .value .str (some [.str "mean+std", .str "mean+logvar", .str "mean", .str "lde"])⟩,
   intRow "num_comp" "--lde-num-comp" (.int 64), intRow "lde_order" "--lde-order" (.int 2)]

/-- all options of a training script -/
def jobTable (enc pt : String) (pool gen : List Row) : List Row :=
  trainTable enc pt ++ pool ++ [intRow "left_context" "--left-context" (.int 0), intRow "right_context" "--right-context" (.int 0),
    intRow "begin_context" "--begin-context" .null, intRow "end_context" "--end-context" .null] ++ epochRow :: gen ++ kofTable.map (Row.at none) ++
  cbTable.map (Row.at none) ++ [verbRow]

/-- a training does what its command line `us` says: `pool` are the options of the pooling, `gen` those of the generator, `first` the first epoch after a checkpoint, if the run starts from
one. A new model gets its contexts from the options, and those at the borders are the inner ones unless given. -/
structure Does (conv : Ty → String → Option Val) (us : List Use) (enc pt : String) (pool gen : List Row) (fixed : List (String × Val)) (first : Option Int) (j : Job) : Prop where
  own : Follows conv us (trainTable enc pt) j.own
  gen : ∀ r ∈ gen, ∃ v, dictGet j.gen r.attr = some v ∧ r.Takes conv us v
  fixed : ∀ q ∈ fixed, dictGet j.gen q.1 = some q.2
  resumed : ∀ e, first = some e → dictGet j.gen "init_epoch" = some (.int e)
  started : first = none → ∃ v, dictGet j.gen "init_epoch" = some v ∧ epochRow.Takes conv us v
  opt : ∃ val, (∀ r ∈ kofTable, r.attr ≠ "amsgrad" → (r.at none).Takes conv us (val r.attr)) ∧ Makes (kofSpec (.fixed (.bool false))) (val "opt_type") val j.opt
  cbs : ∃ val path, (∀ r ∈ cbTable, (r.at none).Takes conv us (val r.attr)) ∧ CbList path val j.cbs ∧ dictGet j.own "output_path" = some (.str path)
  loaded : (first ≠ none ∨ ∃ u ∈ us, u.flag = "--init-path") → j.model = none
  fresh : first = none → (∀ u ∈ us, u.flag ≠ "--init-path") → ∃ p l r b e loss, Follows conv us pool p ∧
    (intRow "left_context" "--left-context" (.int 0)).Takes conv us l ∧ (intRow "right_context" "--right-context" (.int 0)).Takes conv us r ∧
    (intRow "begin_context" "--begin-context" .null).Takes conv us b ∧ (intRow "end_context" "--end-context" .null).Takes conv us e ∧
    dictGet j.own "loss" = some loss ∧
    j.model = some (p ++ [("loss", loss), ("left_context", l), ("right_context", r), ("begin_context", firstOf b l), ("end_context", firstOf e r)])

/-! ### Proofs -/

theorem mem_dictGet {α β : Type} [DecidableEq α] {d : List (α × β)} {q : α × β} (h : q ∈ d) : ∃ v, dictGet d q.1 = some v := by
  induction d with
  | nil => cases h
  | cons x d ih =>
    obtain ⟨a, b⟩ := x
    rw [dictGet]
    by_cases e : a = q.1
    · rw [if_pos e]; exact ⟨b, rfl⟩
    · rw [if_neg e]
      rcases List.mem_cons.1 h with rfl | h
      · exact absurd rfl e
      · exact ih h

/-- the keys of a parsed command line are destinations -/
theorem parse_keys {conv : Ty → String → Option Val} {p : List Opt} {us : List Use} {ns : List (String × Val)} (h : parse conv p us = some ns) {q : String × Val}
    (hq : q ∈ ns) : ∃ o ∈ p, o.dest = q.1 := by
  by_contra hc
  have := parse_other (k := q.1) h (fun o ho e => hc ⟨o, ho, e⟩)
  obtain ⟨v, hv⟩ := mem_dictGet hq
  rw [hv] at this
  cases this

/-- the conditions on a script that passes all its arguments to a function -/
def directOk (opts : List Opt) (verb : Bool) (sig : List (String × Option Val)) : Bool :=
  (!verb || opts.any (fun o => decide (o.dest = "verbose"))) &&
  opts.all (fun o => (verb && decide (o.dest = "verbose")) || sig.any (fun p => decide (p.1 = o.dest))) &&
  sig.all (fun p => p.2.isSome || (opts.any (fun o => decide (o.dest = p.1)) && decide (p.1 ≠ "verbose")))

theorem direct_core {opts : List Opt} {verb : Bool} {sig : List (String × Option Val)} {all : List Row} {fl : List String} (hs : sepB opts = true)
    (ht : tabled opts all = true) (hr : (opts.filter (fun o => o.required)).map (fun o => o.flags) = fl.map (fun f => [f])) (hok : directOk opts verb sig = true)
    (conv : Ty → String → Option Val) (us : List Use) :
    ((direct opts verb sig conv us).isSome ↔ Correct conv us all ∧ Used us fl) ∧
    ∀ l, direct opts verb sig conv us = some l → ∃ kw, l = sig.map (fun p => (p.1, ((dictGet kw p.1).orElse (fun _ => p.2)).getD .null)) ∧
      (∀ k, (∀ o ∈ opts, o.dest ≠ k) → dictGet kw k = none) ∧ ∀ o ∈ opts, o.dest ≠ "verbose" → ∃ v, dictGet kw o.dest = some v ∧ OTakes conv o us v := by
  have hsep := sep_of hs
  have hb := build_some (sep_flags hsep)
  have hps := parse_spec (conv := conv) hsep us
  unfold tabled at ht
  simp only [Bool.and_eq_true, List.all_eq_true, List.any_eq_true] at ht
  have hacc := accepts_of (conv := conv) (t := all) (opts := opts) (fun o h => by obtain ⟨r, hr, hf⟩ := ht.1 o h; exact ⟨r, hr, full_fits hf⟩)
    (fun r h => by obtain ⟨o, ho, hf⟩ := ht.2 r h; exact ⟨o, ho, full_fits hf⟩) us
  have hreq : (∀ o ∈ opts, o.required = true → ∃ u ∈ us, u.flag ∈ o.flags) ↔ Used us fl := by
    constructor
    · intro h f hf
      have : [f] ∈ fl.map (fun f => [f]) := List.mem_map.2 ⟨f, hf, rfl⟩
      rw [← hr, List.mem_map] at this
      obtain ⟨o, h1, h2⟩ := this
      rw [List.mem_filter] at h1
      obtain ⟨u, hu, hm⟩ := h o h1.1 h1.2
      rw [h2] at hm
      exact ⟨u, hu, by simpa using hm⟩
    · intro h o h1 h2
      have : o.flags ∈ (opts.filter (fun o => o.required)).map (fun o => o.flags) := List.mem_map.2 ⟨o, List.mem_filter.2 ⟨h1, h2⟩, rfl⟩
      rw [hr, List.mem_map] at this
      obtain ⟨f, hf, e⟩ := this
      obtain ⟨u, hu, hm⟩ := h f hf
      exact ⟨u, hu, by rw [← e]; simp [hm]⟩
  unfold directOk at hok
  simp only [Bool.and_eq_true, List.all_eq_true, Bool.or_eq_true, List.any_eq_true, decide_eq_true_eq, Bool.not_eq_true'] at hok
  obtain ⟨⟨hv, hsig⟩, hnone⟩ := hok
  rw [← hacc, ← hreq, ← hps.1]
  unfold direct
  rw [hb, Option.bind_some]
  cases hp : parse conv opts us with
  | none => simp
  | some ns =>
    rw [Option.bind_some]
    have hfil : ∀ k, dictGet (ns.filter (fun q => decide (q.1 ≠ "verbose"))) k = if k ≠ "verbose" then dictGet ns k else none := by
      intro k
      rw [dictGet_filter ns (fun k => decide (k ≠ "verbose")) k]
      by_cases e : k = "verbose" <;> simp [e]
    have main : ∀ kw, (∀ q ∈ kw, q ∈ ns ∧ (verb = true → q.1 ≠ "verbose")) → (∀ k, k ≠ "verbose" → dictGet kw k = dictGet ns k) →
        ∃ l, bindKw sig kw = some l ∧ l = sig.map (fun p => (p.1, ((dictGet kw p.1).orElse (fun _ => p.2)).getD .null)) := by
      intro kw h1 h2
      refine ⟨_, (bindKw_some _ _ _).2 ⟨fun q hq => ?_, fun p hpm hn => ?_, rfl⟩, rfl⟩
      · obtain ⟨o, ho, e⟩ := parse_keys hp (h1 q hq).1
        rcases hsig o ho with ⟨e1, e2⟩ | ⟨p, hp1, hp2⟩
        · exact absurd (e ▸ e2) ((h1 q hq).2 e1)
        · exact ⟨p, hp1, by rw [hp2, e]⟩
      · rcases hnone p hpm with h | ⟨⟨o, ho, e⟩, hne⟩
        · rw [hn] at h; cases h
        · obtain ⟨v, hv, _⟩ := hps.2 ns hp o ho
          exact ⟨v, by rw [h2 _ hne, ← e, hv]⟩
    have fin : ∀ kw l, (∀ k, k ≠ "verbose" → dictGet kw k = dictGet ns k) →
        (∀ k, dictGet ns k = none → dictGet kw k = none) →
        bindKw sig kw = some l → ∃ kw, l = sig.map (fun p => (p.1, ((dictGet kw p.1).orElse (fun _ => p.2)).getD .null)) ∧
          (∀ k, (∀ o ∈ opts, o.dest ≠ k) → dictGet kw k = none) ∧ ∀ o ∈ opts, o.dest ≠ "verbose" → ∃ v, dictGet kw o.dest = some v ∧ OTakes conv o us v := by
      intro kw l h2 h3 hl
      refine ⟨kw, ((bindKw_some _ _ _).1 hl).2.2, fun k hk => h3 k (parse_other hp hk), fun o ho hne => ?_⟩
      obtain ⟨v, hv, htk⟩ := hps.2 ns hp o ho
      exact ⟨v, by rw [h2 _ hne, hv], htk⟩
    cases verb with
    | true =>
      obtain ⟨o, ho, e⟩ := hv.resolve_left (by simp)
      obtain ⟨w, hw, _⟩ := hps.2 ns hp o ho
      rw [e] at hw
      rw [if_pos rfl, hw, Option.bind_some]
      obtain ⟨l, hl, _⟩ := main (ns.filter (fun q => decide (q.1 ≠ "verbose"))) (fun q hq => by
        rw [List.mem_filter] at hq; exact ⟨hq.1, fun _ => by simpa using hq.2⟩) (fun k hk => by rw [hfil, if_pos hk])
      refine ⟨by rw [hl]; simp, fun l hl => fin _ l (fun k hk => by rw [hfil, if_pos hk]) (fun k hk => ?_) hl⟩
      rw [hfil, hk]; split <;> rfl
    | false =>
      rw [if_neg (by simp)]
      obtain ⟨l, hl, _⟩ := main ns (fun q hq => ⟨hq, fun h => by cases h⟩) (fun _ _ => rfl)
      exact ⟨by rw [hl]; simp, fun l hl => fin ns l (fun _ _ => rfl) (fun _ h => h) hl⟩

/-- arguments of the call, as a table -/
theorem direct_follows {conv : Ty → String → Option Val} {us : List Use} {opts : List Opt} {kw : List (String × Val)} {sig : List (String × Option Val)} {t : List Row}
    (h : ∀ o ∈ opts, o.dest ≠ "verbose" → ∃ v, dictGet kw o.dest = some v ∧ OTakes conv o us v) (he : sig.map Prod.fst = t.map Row.attr)
    (ht : t.all (fun r => decide (r.attr ≠ "verbose") && opts.any (fun o => fitsFull r o)) = true) :
    Follows conv us t (sig.map (fun p => (p.1, ((dictGet kw p.1).orElse (fun _ => p.2)).getD .null))) := by
  have h2 : List.Forall₂ (fun (r : Row) (q : String × Option Val) => q.1 = r.attr) t sig := by
    have : List.Forall₂ Eq (sig.map Prod.fst) (t.map Row.attr) := by rw [he]; exact List.forall₂_refl _
    rw [List.forall₂_map_left_iff, List.forall₂_map_right_iff] at this
    exact this.flip
  clear he
  unfold Follows
  rw [List.forall₂_map_right_iff]
  rw [List.all_eq_true] at ht
  induction h2 with
  | nil => exact .nil
  | @cons r q t l h1 _ ih =>
    refine .cons ⟨h1, ?_⟩ (ih (fun r hr => ht r (by simp [hr])))
    have := ht r (by simp)
    simp only [Bool.and_eq_true, decide_eq_true_eq, List.any_eq_true] at this
    obtain ⟨hne, o, ho, hf⟩ := this
    have hd : r.attr = o.dest := by
      unfold fitsFull at hf
      simp only [Bool.and_eq_true, decide_eq_true_eq] at hf
      exact hf.1.1.1
    obtain ⟨v, hv, hk⟩ := h o ho (by rw [← hd]; exact hne)
    have := (full_takes hf hk).2
    dsimp only
    rw [h1, hd, hv]
    exact this

theorem simple_core {opts : List Opt} {verb : Bool} {sig : List (String × Option Val)} {t all : List Row} {fl : List String} (hs : sepB opts = true)
    (ht : tabled opts all = true) (hr : (opts.filter (fun o => o.required)).map (fun o => o.flags) = fl.map (fun f => [f])) (hok : directOk opts verb sig = true)
    (he : sig.map Prod.fst = t.map Row.attr) (hrt : t.all (fun r => decide (r.attr ≠ "verbose") && opts.any (fun o => fitsFull r o)) = true)
    (conv : Ty → String → Option Val) (us : List Use) :
    ((direct opts verb sig conv us).isSome ↔ Correct conv us all ∧ Used us fl) ∧ ∀ l, direct opts verb sig conv us = some l → Follows conv us t l := by
  obtain ⟨h1, h2⟩ := direct_core hs ht hr hok conv us
  refine ⟨h1, fun l hl => ?_⟩
  obtain ⟨kw, rfl, _, h3⟩ := h2 l hl
  exact direct_follows h3 he hrt

/-- C174: `copy-feats.py`: the arguments of the copy; files are read one utterance at a time -/
theorem C174_copy (conv : Ty → String → Option Val) (us : List Use) :
    ((copyFeats conv us).isSome ↔ Correct conv us (copyTable ++ [verbRow]) ∧ Used us ["--input", "--output"]) ∧
    ∀ l, copyFeats conv us = some l → ∃ l', l = l' ++ [("chunk_size", .int 1)] ∧ Follows conv us copyTable l' := by
  unfold copyFeats
  obtain ⟨h1, h2⟩ := direct_core (opts := [⟨["--input"], "input_spec", .store .words none, .null, true⟩, txt "--output" "output_spec" true, verbOpt] ++ drfOpts.map (addPre none) ++
    [⟨["--compress"], "compress", .const true, .bool false, false⟩,
     ⟨["--compression-method"], "compression_method", .store .str (some methods), .str "auto", false⟩]) (verb := true)
    (sig := [("input_spec", none), ("output_spec", none), ("path_prefix", some .null), ("compress", some (.bool false)), ("compression_method", some (.str "auto")),
     ("scp_sep", some (.str " ")), ("part_idx", some (.int 1)), ("num_parts", some (.int 1)), ("chunk_size", some (.int 1))]) (all := copyTable ++ [verbRow])
    (fl := ["--input", "--output"]) (by decide +kernel) (by decide +kernel) (by decide +kernel) (by decide +kernel) conv us
  refine ⟨h1, fun l hl => ?_⟩
  obtain ⟨kw, rfl, h3, h4⟩ := h2 l hl
  refine ⟨_, ?_, direct_follows (t := copyTable) (sig := [("input_spec", none), ("output_spec", none), ("path_prefix", some .null), ("compress", some (.bool false)),
    ("compression_method", some (.str "auto")), ("scp_sep", some (.str " ")), ("part_idx", some (.int 1)), ("num_parts", some (.int 1))]) h4 (by decide +kernel) (by decide +kernel)⟩
  have : dictGet kw "chunk_size" = none := h3 _ (by decide +kernel)
  simp only [List.map_cons, List.map_nil, List.cons_append, List.nil_append, this]
  rfl

/-- C174: `merge-h5-files.py` -/
theorem C174_merge (conv : Ty → String → Option Val) (us : List Use) :
    ((mergeH5 conv us).isSome ↔ Correct conv us mergeTable ∧ Used us ["--input-files", "--output-path"]) ∧
    ∀ l, mergeH5 conv us = some l → Follows conv us mergeTable l := by
  unfold mergeH5
  exact simple_core (by decide +kernel) (by decide +kernel) (by decide +kernel) (by decide +kernel) (by decide +kernel) (by decide +kernel) conv us

/-- C174: `scores2lre_format.py` -/
theorem C174_lre (conv : Ty → String → Option Val) (us : List Use) :
    ((lreFormat conv us).isSome ↔ Correct conv us (lreTable ++ [verbRow]) ∧ Used us ["--input-file", "--output-file"]) ∧
    ∀ l, lreFormat conv us = some l → Follows conv us lreTable l := by
  unfold lreFormat
  exact simple_core (by decide +kernel) (by decide +kernel) (by decide +kernel) (by decide +kernel) (by decide +kernel) (by decide +kernel) conv us

/-- C174: `vectors2scores.py` -/
theorem C174_vectors (conv : Ty → String → Option Val) (us : List Use) :
    ((vecScores conv us).isSome ↔ Correct conv us vecTable ∧ Used us ["--input-file", "--output-file"]) ∧
    ∀ l, vecScores conv us = some l → Follows conv us vecTable l := by
  unfold vecScores
  exact simple_core (by decide +kernel) (by decide +kernel) (by decide +kernel) (by decide +kernel) (by decide +kernel) (by decide +kernel) conv us

/-- C174: `eval-2class-performance.py` -/
theorem C174_performance (conv : Ty → String → Option Val) (us : List Use) :
    ((eval2class conv us).isSome ↔ Correct conv us (perfTable ++ [verbRow]) ∧ Used us ["--score-file", "--key-file", "--output-path"]) ∧
    ∀ l, eval2class conv us = some l → Follows conv us perfTable l := by
  unfold eval2class
  exact simple_core (by decide +kernel) (by decide +kernel) (by decide +kernel) (by decide +kernel) (by decide +kernel) (by decide +kernel) conv us

/-- C174: `ark2hyp.py` -/
theorem C174_ark (conv : Ty → String → Option Val) (us : List Use) :
    ((ark2hyp conv us).isSome ↔ Correct conv us (arkTable ++ [verbRow]) ∧ Used us ["--input-file", "--output-file"]) ∧
    ∀ l, ark2hyp conv us = some l → Follows conv us arkTable l := by
  unfold ark2hyp
  exact simple_core (by decide +kernel) (by decide +kernel) (by decide +kernel) (by decide +kernel) (by decide +kernel) (by decide +kernel) conv us

/-- C174: `arkvad2nist.py` always fails: it does not import `config_logger` -/
theorem C174_arkvad_never_runs (conv : Ty → String → Option Val) (us : List Use) : arkvad arkvadNames conv us = none := by
  unfold arkvad
  exact if_neg (by decide +kernel)

/-- C174: `arkvad2nist.py`, with `config_logger` imported -/
theorem C174_arkvad_imported (names : List String) (hn : "config_logger" ∈ names) (conv : Ty → String → Option Val) (us : List Use) :
    ((arkvad names conv us).isSome ↔ Correct conv us [fileRow "input_file" "--input-file", fileRow "input_dir" "--input-dir", fileRow "output_dir" "--output-dir", verbRow] ∧
      Used us ["--input-file", "--output-dir"]) ∧
    ∀ l, arkvad names conv us = some l → Follows conv us [fileRow "input_file" "--input-file", fileRow "input_dir" "--input-dir", fileRow "output_dir" "--output-dir"] l := by
  unfold arkvad
  rw [if_pos hn]
  exact simple_core (by decide +kernel) (by decide +kernel) (by decide +kernel) (by decide +kernel) (by decide +kernel) (by decide +kernel) conv us

/-- C174: `h5vad2nist.py` -/
theorem C174_h5vad (conv : Ty → String → Option Val) (us : List Use) :
    ((h5vad conv us).isSome ↔ Correct conv us [fileRow "input_file" "--input-file", fileRow "output_dir" "--output-dir", verbRow] ∧ Used us ["--input-file", "--output-dir"]) ∧
    ∀ l, h5vad conv us = some l → Follows conv us [fileRow "input_file" "--input-file", fileRow "output_dir" "--output-dir"] l := by
  unfold h5vad
  exact simple_core (by decide +kernel) (by decide +kernel) (by decide +kernel) (by decide +kernel) (by decide +kernel) (by decide +kernel) conv us

/-- C174: `rttm-to-bin-vad.py` -/
theorem C174_rttm (conv : Ty → String → Option Val) (us : List Use) :
    ((rttmVad conv us).isSome ↔ Correct conv us (binVadTable "rttm_file" "--rttm" ++ [verbRow]) ∧ Used us ["--rttm", "--output-path"]) ∧
    ∀ l, rttmVad conv us = some l → Follows conv us (binVadTable "rttm_file" "--rttm") l := by
  unfold rttmVad
  exact simple_core (by decide +kernel) (by decide +kernel) (by decide +kernel) (by decide +kernel) (by decide +kernel) (by decide +kernel) conv us

/-- C174: `segments-to-bin-vad.py` -/
theorem C174_segments (conv : Ty → String → Option Val) (us : List Use) :
    ((segVad conv us).isSome ↔ Correct conv us (binVadTable "segments_file" "--segments" ++ [verbRow]) ∧ Used us ["--segments", "--output-path"]) ∧
    ∀ l, segVad conv us = some l → Follows conv us (binVadTable "segments_file" "--segments") l := by
  unfold segVad
  exact simple_core (by decide +kernel) (by decide +kernel) (by decide +kernel) (by decide +kernel) (by decide +kernel) (by decide +kernel) conv us

/-- C174: `keras-extract-seq-embed.py` -/
theorem C174_extract (conv : Ty → String → Option Val) (us : List Use) :
    ((kerasExtract conv us).isSome ↔ Correct conv us (extractTable ++ featReader ++ [verbRow]) ∧
      Used us ["--seq-file", "--model-file", "--output-path", "--layer-names"]) ∧
    ∀ pl, kerasExtract conv us = some pl → Follows conv us extractTable pl.own ∧ Follows conv us featReader pl.reader ∧ Follows conv us [] pl.model := by
  unfold kerasExtract
  exact plain_core (by decide +kernel) (by decide +kernel) (by decide +kernel) (by decide +kernel) (by decide +kernel) (by decide +kernel) (by decide +kernel) (by decide +kernel) (by decide +kernel) (by decide +kernel) conv us

/-- C174: `keras-eval-seq-embed.py` -/
theorem C174_eval (conv : Ty → String → Option Val) (us : List Use) :
    ((kerasEval conv us).isSome ↔ Correct conv us (evalEmbTable ++ featReader ++ [verbRow]) ∧ Used us ["--seq-file", "--model-file", "--output-path"]) ∧
    ∀ pl, kerasEval conv us = some pl → Follows conv us evalEmbTable pl.own ∧ Follows conv us featReader pl.reader ∧ Follows conv us [] pl.model := by
  unfold kerasEval
  exact plain_core (by decide +kernel) (by decide +kernel) (by decide +kernel) (by decide +kernel) (by decide +kernel) (by decide +kernel) (by decide +kernel) (by decide +kernel) (by decide +kernel) (by decide +kernel) conv us

/-! ### Training -/

theorem pick_eq (valid : List String) (kw : List (String × Val)) : pick valid kw = pickP none valid kw := by
  unfold pick pickP
  congr 1

theorem pick_congr {valid : List String} {kw kw' : List (String × Val)} (h : ∀ k ∈ valid, dictGet kw k = dictGet kw' k) : pick valid kw = pick valid kw' := by
  unfold pick
  exact List.filterMap_congr (fun k hk => by rw [h k hk])

theorem own_get {ns : List (String × Val)} {own : List String} {ow : List (String × Val)}
    (h : List.Forall₂ (fun k (q : String × Val) => q.1 = k ∧ dictGet ns k = some q.2) own ow) {k : String} (hk : k ∈ own) : dictGet ow k = dictGet ns k := by
  induction h with
  | nil => cases hk
  | @cons a q l ow h1 _ ih =>
    obtain ⟨b, v⟩ := q
    obtain ⟨rfl, h2⟩ := h1
    dsimp only at h2 ⊢
    rw [dictGet]
    by_cases e : b = k
    · rw [if_pos e, ← e, h2]
    · rw [if_neg e]
      exact ih ((List.mem_cons.1 hk).resolve_left (fun e' => e e'.symm))

/-- own parameters of a function -/
theorem own_some {conv : Ty → String → Option Val} {opts : List Opt} (hsep : Sep opts) {own : List String} (ho : owned opts own = true) {us : List Use}
    {ns : List (String × Val)} (hns : parse conv opts us = some ns) : (∃ w, dictGet ns "verbose" = some w) ∧
    ∃ ow, (own.mapM (fun k : String => (dictGet (ns.filter (fun q => decide (q.1 ≠ "verbose"))) k).map (fun v : Val => (k, v)))) = some ow ∧
      List.Forall₂ (fun k (q : String × Val) => q.1 = k ∧ dictGet ns k = some q.2) own ow := by
  unfold owned at ho
  simp only [Bool.and_eq_true, List.all_eq_true, List.any_eq_true, decide_eq_true_eq] at ho
  have hps := (parse_spec (conv := conv) hsep us).2 ns hns
  constructor
  · obtain ⟨o, h, e⟩ := ho.2
    obtain ⟨v, hv, _⟩ := hps o h
    exact ⟨v, by rw [← e, hv]⟩
  · have hg : ∀ k ∈ own, ∃ v, dictGet (ns.filter (fun q => decide (q.1 ≠ "verbose"))) k = some v ∧ dictGet ns k = some v := by
      intro k hk
      obtain ⟨h1, o, ho, rfl⟩ := ho.1 k hk
      obtain ⟨v, hv, _⟩ := hps o ho
      refine ⟨v, ?_, hv⟩
      rw [dictGet_filter ns (fun k => decide (k ≠ "verbose")) o.dest, if_pos (by simpa using h1), hv]
    clear hps ho
    induction own with
    | nil => exact ⟨[], rfl, .nil⟩
    | cons k l ih =>
      obtain ⟨v, h1, h2⟩ := hg k (by simp)
      obtain ⟨ow, h3, h4⟩ := ih (fun k hk => hg k (by simp [hk]))
      exact ⟨(k, v) :: ow, by rw [List.mapM_cons, h1, h3]; rfl, .cons ⟨rfl, h2⟩ h4⟩

/-- accepted command lines -/
theorem accept_core {opts : List Opt} (hsep : Sep opts) {t : List Row} (ht : tabled opts t = true) {fl : List String}
    (hr : (opts.filter (fun o => o.required)).map (fun o => o.flags) = fl.map (fun f => [f])) (conv : Ty → String → Option Val) (us : List Use) :
    (parse conv opts us).isSome ↔ Correct conv us t ∧ Used us fl := by
  unfold tabled at ht
  simp only [Bool.and_eq_true, List.all_eq_true, List.any_eq_true] at ht
  have hacc := accepts_of (conv := conv) (t := t) (opts := opts) (fun o h => by obtain ⟨r, hr, hf⟩ := ht.1 o h; exact ⟨r, hr, full_fits hf⟩)
    (fun r h => by obtain ⟨o, ho, hf⟩ := ht.2 r h; exact ⟨o, ho, full_fits hf⟩) us
  have hreq : (∀ o ∈ opts, o.required = true → ∃ u ∈ us, u.flag ∈ o.flags) ↔ Used us fl := by
    constructor
    · intro h f hf
      have : [f] ∈ fl.map (fun f => [f]) := List.mem_map.2 ⟨f, hf, rfl⟩
      rw [← hr, List.mem_map] at this
      obtain ⟨o, h1, h2⟩ := this
      rw [List.mem_filter] at h1
      obtain ⟨u, hu, hm⟩ := h o h1.1 h1.2
      rw [h2] at hm
      exact ⟨u, hu, by simpa using hm⟩
    · intro h o h1 h2
      have : o.flags ∈ (opts.filter (fun o => o.required)).map (fun o => o.flags) := List.mem_map.2 ⟨o, List.mem_filter.2 ⟨h1, h2⟩, rfl⟩
      rw [hr, List.mem_map] at this
      obtain ⟨f, hf, e⟩ := this
      obtain ⟨u, hu, hm⟩ := h f hf
      exact ⟨u, hu, by rw [← e]; simp [hm]⟩
  rw [← hacc, ← hreq, ← (parse_spec (conv := conv) hsep us).1]

theorem null_unused {conv : Ty → String → Option Val} {us : List Use} {v : Val} {a f : String} {ty : Ty} (hn : ∀ s, conv ty s ≠ some .null)
    (h : (⟨a, [f], .null, .value ty none⟩ : Row).Takes conv us v) : v = .null ↔ ∀ u ∈ us, u.flag ≠ f := by
  rcases h with ⟨h, e⟩ | ⟨pre, u, post, hu, ⟨hf, s, _, e, _⟩, _⟩
  · exact ⟨fun _ u hu => by have := h u hu; simpa using this, fun _ => e⟩
  · constructor
    · intro hv; rw [hv] at e; exact absurd e (hn s)
    · intro h
      have := h u (by rw [hu]; simp)
      simp at hf
      exact absurd hf this

theorem off_used {conv : Ty → String → Option Val} {us : List Use} {v : Val} {a f : String} (h : (offRow a f).Takes conv us v) :
    v = .bool true ↔ ∃ u ∈ us, u.flag = f := by
  rcases h with ⟨h, e⟩ | ⟨pre, u, post, hu, ⟨hf, _, e⟩, _⟩
  · rw [e]
    refine ⟨fun h => by simp [offRow] at h, fun ⟨u, hu, e⟩ => ?_⟩
    exact absurd e (by simpa [offRow] using h u hu)
  · refine ⟨fun _ => ⟨u, by rw [hu]; simp, by simpa [offRow] using hf⟩, fun _ => e⟩

theorem follows_ctor {conv : Ty → String → Option Val} {us : List Use} {pool : List Row} {c : List (String × Val)} {f : String → Val → Val}
    (h : c.map (fun q => q.1) = pool.map Row.attr) (ht : ∀ r ∈ pool, ∀ d, r.Takes conv us (f r.attr d)) : Follows conv us pool (c.map (fun q => (q.1, f q.1 q.2))) := by
  induction pool generalizing c with
  | nil =>
    rw [List.map_nil, List.map_eq_nil_iff] at h
    subst h
    exact .nil
  | cons r pool ih =>
    cases c with
    | nil => cases h
    | cons q c =>
      rw [List.map_cons, List.map_cons, List.cons.injEq] at h
      refine .cons ⟨h.1, ?_⟩ (ih h.2 (fun r hr => ht r (by simp [hr])))
      dsimp only
      rw [h.1]
      exact ht r (by simp) q.2

/-- the conditions on a training script -/
def jobOk (s : Kind2) (pool gen : List Row) (fixed : List (String × Val)) : Bool :=
  sepB (trainOpts s) && tabled (trainOpts s) (jobTable s.enc s.pt pool gen) && owned (trainOpts s) (trainOwn s) &&
  decide (((trainOpts s).filter (fun o => o.required)).map (fun o => o.flags) =
    (["--data-path", "--train-list", "--" ++ s.enc ++ "-net", "--" ++ s.pt ++ "-net", "--output-path"] : List String).map (fun f => [f])) &&
  decide (trainOwn s = (trainTable s.enc s.pt).map Row.attr) && (trainTable s.enc s.pt).all (fun r => (trainOpts s).any (fun o => fitsFull r o)) &&
  (cbValid ++ kofValid ++ embValid s.names).all (fun k => decide (k ≠ "verbose") && decide (k ≠ "init_epoch") && !(trainOwn s).contains k) &&
  s.valid.all (fun k => decide (k ≠ "verbose") && !(trainOwn s).contains k && (s.sig.any (fun p => decide (p.1 = k)) || (trainOpts s).all (fun o => decide (o.dest ≠ k)))) &&
  s.valid.contains "init_epoch" && s.sig.all (fun p => p.2.isSome) &&
  (epochRow :: gen).all (fun r => s.valid.contains r.attr && (dictGet s.sig r.attr).isSome && (trainOpts s).any (fun o => fitsFull r o)) &&
  gen.all (fun r => decide (r.attr ≠ "init_epoch")) && decide (s.names = pool.map Row.attr) && decide (s.ctor.map (fun q => q.1) = pool.map Row.attr) &&
  pool.all (fun r => (s.pool.map (addPre none)).any (fun o => fitsFull r o)) &&
  fixed.all (fun q => decide (dictGet s.sig q.1 = some (some q.2)) && !s.valid.contains q.1)

theorem train_core {s : Kind2} {pool gen : List Row} {fixed : List (String × Val)} (hok : jobOk s pool gen fixed = true) {conv : Ty → String → Option Val}
    (hstr : ∀ t, conv .str t = some (.str t)) (hint : ∀ t, conv .int t ≠ some .null) (hfl : ∀ t, conv .float t ≠ some .null)
    (hw : ∀ t, conv .words t ≠ some .null) (us : List Use) (ck : Option Int) :
    ((trainEmbed s ck conv us).isSome ↔ Correct conv us (jobTable s.enc s.pt pool gen) ∧
      Used us ["--data-path", "--train-list", "--" ++ s.enc ++ "-net", "--" ++ s.pt ++ "-net", "--output-path"] ∧ (∃ u ∈ us, u.flag = "--val-list") ∧
      ∀ u ∈ us, u.flag ≠ "--lr-inc-factor" ∧ u.flag ≠ "--freeze-" ++ s.enc ++ "-layers" ∧ u.flag ≠ "--freeze-" ++ s.pt ++ "-layers" ∧
        (s.canFreeze = false → u.flag ≠ "--freeze-" ++ s.enc)) ∧
    ∀ j, trainEmbed s ck conv us = some j → ∀ first, ((∃ u ∈ us, u.flag = "--init-path") → first = none) →
      ((∀ u ∈ us, u.flag ≠ "--init-path") → first = ck.map (fun e => e + s.step)) → Does conv us s.enc s.pt pool gen fixed first j := by
  unfold jobOk at hok
  simp only [Bool.and_eq_true, decide_eq_true_eq] at hok
  obtain ⟨⟨⟨⟨⟨⟨⟨⟨⟨⟨⟨⟨⟨⟨⟨hs, ht⟩, ho⟩, hr⟩, he⟩, hot⟩, hval⟩, hgv⟩, hie⟩, hsig⟩, hgen⟩, hgne⟩, hnames⟩, hctor⟩, hpool⟩, hfix⟩ := hok
  have hsep := sep_of hs
  have hacc := accept_core hsep ht hr conv us
  rw [← and_assoc, ← hacc]
  unfold trainEmbed
  rw [build_some (sep_flags hsep), Option.bind_some]
  cases hp : parse conv (trainOpts s) us with
  | none => simp
  | some ns =>
    obtain ⟨⟨w, hverb⟩, ow, how1, how2⟩ := own_some hsep ho hp
    simp only [Option.bind_some, hverb, how1]
    have hps := (parse_spec (conv := conv) hsep us).2 ns hp
    have rowNs : ∀ r : Row, ((trainOpts s).any (fun o => fitsFull r o)) = true → ∃ v, dictGet ns r.attr = some v ∧ r.Takes conv us v := by
      intro r h
      rw [List.any_eq_true] at h
      obtain ⟨o, ho, hf⟩ := h
      obtain ⟨v, hv, hk⟩ := hps o ho
      obtain ⟨h3, h4⟩ := full_takes hf hk
      exact ⟨v, by rw [h3, hv], h4⟩
    have ownRow : ∀ r ∈ trainTable s.enc s.pt, ∃ v, dictGet ow r.attr = some v ∧ arg ow r.attr = v ∧ r.Takes conv us v := by
      intro r hr
      obtain ⟨v, h1, h2⟩ := rowNs r ((List.all_eq_true.1 hot) r hr)
      have : dictGet ow r.attr = some v := by rw [own_get how2 (by rw [he]; exact List.mem_map_of_mem hr), h1]
      exact ⟨v, this, by unfold arg; rw [this]; rfl, h2⟩
    have hsn : ∀ t, conv .str t ≠ some .null := by intro t h; rw [hstr] at h; cases h
    obtain ⟨vval, _, evl, tvl⟩ := ownRow (fileRow "val_list" "--val-list") (by simp [trainTable])
    obtain ⟨vini, _, ein, tin⟩ := ownRow (fileRow "init_path" "--init-path") (by simp [trainTable])
    obtain ⟨vout, gout, eout, tout⟩ := ownRow (fileRow "output_path" "--output-path") (by simp [trainTable])
    obtain ⟨vloss, gloss, eloss, _⟩ := ownRow ⟨"loss", ["--loss"], .str "categorical_crossentropy", .value .str (some [.str "categorical_crossentropy", .str "categorical_hinge", .str "categorical_mbr"])⟩ (by simp [trainTable])
    obtain ⟨vfr, _, efr, tfr⟩ := ownRow (offRow ("freeze_" ++ s.enc) ("--freeze-" ++ s.enc)) (by simp [trainTable])
    obtain ⟨vfe, _, efe, tfe⟩ := ownRow (wordsRow ("freeze_" ++ s.enc ++ "_layers") ("--freeze-" ++ s.enc ++ "-layers")) (by simp [trainTable])
    obtain ⟨vfp, _, efp, tfp⟩ := ownRow (wordsRow ("freeze_" ++ s.pt ++ "_layers") ("--freeze-" ++ s.pt ++ "-layers")) (by simp [trainTable])
    dsimp only [fileRow, offRow, wordsRow] at evl ein eout eloss efr efe efp gout gloss
    rw [evl, ein, eout, eloss, efr, efe, efp]
    have cvl := null_unused hsn tvl
    have cin := null_unused hsn tin
    have cfr := off_used tfr
    have cfe := null_unused hw tfe
    have cfp := null_unused hw tfp
    clear evl ein eout eloss efr efe efp tvl tin tfr tfe tfp
    -- the output path is a text
    have hacc' := (hacc.1 (by rw [hp]; rfl)).2
    have hpath : ∃ t, vout = .str t := by
      rcases tout with ⟨h, _⟩ | ⟨pre, u, post, _, ⟨_, t, _, e, _⟩, _⟩
      · obtain ⟨u, hu, e⟩ := hacc' "--output-path" (by simp)
        exact absurd (by simp [fileRow, e]) (h u hu)
      · rw [hstr] at e; exact ⟨t, by simpa using e.symm⟩
    obtain ⟨path, rfl⟩ := hpath
    clear tout
    -- the remaining arguments
    generalize hkw : (ns.filter (fun q => decide (q.1 ≠ "verbose"))).filter (fun q => !(trainOwn s).contains q.1) = kw
    have gkw : ∀ k, k ≠ "verbose" → k ∉ trainOwn s → dictGet kw k = dictGet ns k := by
      intro k h1 h2
      rw [← hkw, dictGet_filter _ (fun k => !(trainOwn s).contains k) k, if_pos (by simpa using h2), dictGet_filter ns (fun k => decide (k ≠ "verbose")) k,
        if_pos (by simpa using h1)]
    generalize hfd : (if vini = Val.null then ck else none) = found
    generalize hkw' : (if found.isSome then dictSet kw "init_epoch" (.int (found.getD 0 + s.step)) else kw) = kw'
    have gkw' : ∀ k, k ≠ "init_epoch" → dictGet kw' k = dictGet kw k := by
      intro k hk
      rw [← hkw']
      split
      · rw [dictGet_set, if_neg (fun e => hk e.symm)]
      · rfl
    have gie : dictGet kw' "init_epoch" = if found.isSome then some (.int (found.getD 0 + s.step)) else dictGet kw "init_epoch" := by
      rw [← hkw']
      split
      · rw [dictGet_set, if_pos rfl]
      · rfl
    have hvalp : ∀ k ∈ cbValid ++ kofValid ++ embValid s.names, k ≠ "verbose" ∧ k ≠ "init_epoch" ∧ k ∉ trainOwn s := by
      intro k hk
      have := (List.all_eq_true.1 hval) k hk
      simpa [and_assoc] using this
    have pcb : pick cbValid kw' = pickP none cbValid ns := by
      rw [← pick_eq]
      refine pick_congr (fun k hk => ?_)
      obtain ⟨h1, h2, h3⟩ := hvalp k (by simp [hk])
      rw [gkw' k h2, gkw k h1 h3]
    have pkof : pick kofValid kw' = pickP none kofValid ns := by
      rw [← pick_eq]
      refine pick_congr (fun k hk => ?_)
      obtain ⟨h1, h2, h3⟩ := hvalp k (by simp [hk])
      rw [gkw' k h2, gkw k h1 h3]
    have hmade : ∀ {α : Type} (valid : List String) (create : List (String × Val) → Option α), madeIn (trainOpts s) none valid create conv us = create (pickP none valid ns) := by
      intro α valid create
      unfold madeIn
      rw [build_some (sep_flags hsep), Option.bind_some, hp, Option.bind_some]
    -- callbacks
    obtain ⟨ca, hca1, hca2, _⟩ := core_in (opts := cbOpts) (valid := cbValid) (sig := cbSig) (t := cbTable) hsep (p := none)
      (fun o h => by simp only [trainOpts, List.mem_append]; exact Or.inl (Or.inr (List.mem_map_of_mem h)))
      (by decide +kernel) (by decide +kernel) (by decide +kernel) (cbCreate path) (cbBody path) (fun kw => cb_create path kw) (conv := conv) (us := us) (by rw [hp]; rfl)
    rw [hmade] at hca1
    have hcv : ∀ r ∈ cbTable, r.attr ∈ cbValid := by decide +kernel
    have tcb := fun r hr => hca2 r hr (hcv r hr)
    have q1 : arg ca "lr_patience" ≠ .null := by
      rcases tcb (⟨"lr_patience", ["lr-patience"], .int 10, .value .int none⟩) (by simp [cbTable]) with ⟨_, e⟩ | ⟨pre, u, post, _, ⟨_, t, _, e, _⟩, _⟩
      · dsimp only at e; rw [e]; simp [Row.at]
      · intro hn; dsimp only at e; rw [hn] at e; exact hint t e
    have q2 : arg ca "lr_inc_factor" = .null ↔ ∀ u ∈ us, u.flag ≠ "--lr-inc-factor" := by
      have h := tcb (⟨"lr_inc_factor", ["lr-inc-factor"], .null, .value .float none⟩) (by simp [cbTable])
      exact null_unused (a := "lr_inc_factor") (f := "--lr-inc-factor") hfl h
    -- optimiser
    obtain ⟨oa, hoa1, hoa2, hoa3⟩ := core_in (opts := kofOpts) (valid := kofValid) (sig := kofSig) (t := kofTable) hsep (p := none)
      (fun o h => by simp only [trainOpts, List.mem_append]; exact Or.inl (Or.inl (Or.inr (List.mem_map_of_mem h))))
      (by decide +kernel) (by decide +kernel) (by decide +kernel) kofCreate (fun a => some (dictGet (kofCases a) (arg a "opt_type")))
      (fun kw => by unfold kofCreate; cases bindKw kofSig kw <;> rfl) (conv := conv) (us := us) (by rw [hp]; rfl)
    rw [hmade] at hoa1
    have hov : ∀ r ∈ kofTable, r.attr ≠ "amsgrad" → r.attr ∈ kofValid := by decide +kernel
    have tko := fun r hr hn => hoa2 r hr (hov r hr hn)
    have hams : arg oa "amsgrad" = .bool false := hoa3 "amsgrad" (some (.bool false)) (by decide +kernel) (by decide +kernel)
    have hch : arg oa "opt_type" ∈ [Val.str "sgd", .str "nsgd", .str "rmsprop", .str "adam", .str "nadam", .str "adamax"] :=
      takes_choice (r := ⟨"opt_type", ["optimizer"], .str "adam", .value .lower (some _)⟩) rfl (by decide) none (tko _ (List.mem_cons_self ..) (by decide))
    have hcases : kofCases oa = (kofSpec (.fixed (.bool false))).map (fun t => (.str t.1, ⟨t.2.1, t.2.2.map (fun s => (s.1, s.2.value (arg oa)))⟩)) := by
      unfold kofCases
      rw [hams]
      rfl
    obtain ⟨om, hom1, hom2⟩ : ∃ m, dictGet (kofCases oa) (arg oa "opt_type") = some m ∧ Makes (kofSpec (.fixed (.bool false))) (arg oa "opt_type") (arg oa) m := by
      rcases makes_of hcases (arg oa "opt_type") with ⟨m, g1, g2⟩ | ⟨g1, g2⟩
      · exact ⟨m, g1, g2⟩
      · exfalso
        have : ∀ v ∈ [Val.str "sgd", .str "nsgd", .str "rmsprop", .str "adam", .str "nadam", .str "adamax"], v ∈ ((kofSpec (.fixed (.bool false))).map (fun t => Val.str t.1)) := by
          decide +kernel
        obtain ⟨t, ht, e⟩ := List.mem_map.1 (this _ hch)
        exact g2 t ht e.symm
    have hopt : (kofCreate (pick kofValid kw')).bind id = some om := by
      rw [pkof, hoa1, hom1]; rfl
    -- generator
    have hgvp : ∀ k ∈ s.valid, k ≠ "verbose" ∧ k ∉ trainOwn s ∧ ((∃ p ∈ s.sig, p.1 = k) ∨ ∀ o ∈ trainOpts s, o.dest ≠ k) := by
      intro k hk
      have := (List.all_eq_true.1 hgv) k hk
      simpa [and_assoc] using this
    have hgb : ∃ g, bindKw s.sig (pick s.valid kw') = some g := by
      refine ⟨_, (bindKw_some _ _ _).2 ⟨fun q hq => ?_, fun p hpm hn => ?_, rfl⟩⟩
      · unfold pick at hq
        rw [List.mem_filterMap] at hq
        obtain ⟨k, hk, e⟩ := hq
        rw [Option.map_eq_some_iff] at e
        obtain ⟨v, hv, rfl⟩ := e
        dsimp only
        obtain ⟨h1, h2, h3⟩ := hgvp k hk
        rcases h3 with h3 | h3
        · exact h3
        · exfalso
          by_cases hki : k = "init_epoch"
          · have := (List.all_eq_true.1 hgen) epochRow (by simp)
            simp only [Bool.and_eq_true, List.any_eq_true] at this
            obtain ⟨_, o, ho, hf⟩ := this
            unfold fitsFull at hf
            simp only [Bool.and_eq_true, decide_eq_true_eq] at hf
            exact h3 o ho (by rw [hki, ← hf.1.1.1]; rfl)
          · rw [gkw' k hki, gkw k h1 h2, parse_other hp h3] at hv
            cases hv
      · have := (List.all_eq_true.1 hsig) p hpm
        rw [hn] at this; cases this
    obtain ⟨g, hg⟩ := hgb
    have hgarg : ∀ k d, dictGet s.sig k = some d → dictGet g k = some (((dictGet (pick s.valid kw') k).orElse (fun _ => d)).getD .null) := by
      intro k d hd
      obtain ⟨_, _, rfl⟩ := (bindKw_some _ _ _).1 hg
      rw [dictGet_mapv s.sig (fun k d => ((dictGet (pick s.valid kw') k).orElse (fun _ => d)).getD .null) k, hd]
      rfl
    have hout : trainEmbed.outPath (.str path) = path := rfl
    rw [hg, Option.bind_some, hopt, pcb, hout, hca1]
    simp only [Option.map_some]
    have hcond : (vval = Val.null ∨ (vfr = Val.bool true ∧ s.canFreeze = false) ∨ vfe ≠ Val.null ∨ vfp ≠ Val.null) ↔
        ¬ ((∃ u ∈ us, u.flag = "--val-list") ∧ (∀ u ∈ us, u.flag ≠ "--freeze-" ++ s.enc ++ "-layers") ∧ (∀ u ∈ us, u.flag ≠ "--freeze-" ++ s.pt ++ "-layers") ∧
          ∀ u ∈ us, s.canFreeze = false → u.flag ≠ "--freeze-" ++ s.enc) := by
      rw [cvl, cfr, ne_eq, ne_eq, cfe, cfp]
      constructor
      · rintro (h | ⟨⟨u, h1, h2⟩, h3⟩ | h | h) ⟨⟨u1, a1, a2⟩, b, c, d⟩
        · exact h u1 a1 a2
        · exact d u h1 h3 h2
        · exact h b
        · exact h c
      · intro h
        by_contra hc
        push Not at hc
        obtain ⟨h1, h2, h3, h4⟩ := hc
        refine h ⟨h1, h3, h4, fun u hu hcf e => ?_⟩
        have := h2 ⟨u, hu, e⟩
        rw [hcf] at this
        exact this rfl
    have hbody := cb_body path ca
    constructor
    · constructor
      · intro h
        split at h
        · cases h
        · rename_i hc
          rw [hcond, not_not] at hc
          obtain ⟨a, b, c, d⟩ := hc
          by_cases hinc : arg ca "lr_inc_factor" = .null
          · exact ⟨rfl, a, fun u hu => ⟨q2.1 hinc u hu, b u hu, c u hu, d u hu⟩⟩
          · rw [hbody.1 q1 hinc] at h; cases h
      · rintro ⟨_, a, b⟩
        rw [if_neg (by rw [hcond, not_not]; exact ⟨a, fun u hu => (b u hu).2.1, fun u hu => (b u hu).2.2.1, fun u hu => (b u hu).2.2.2⟩)]
        obtain ⟨r, h1, _⟩ := hbody.2 (Or.inr (q2.2 fun u hu => (b u hu).1))
        rw [h1]; rfl
    · intro j hj first hf1 hf2
      split at hj
      · cases hj
      · rw [Option.bind_eq_some_iff] at hj
        obtain ⟨cb, hcb, hj⟩ := hj
        rw [Option.some.injEq] at hj
        have hinc : arg ca "lr_inc_factor" = .null := by
          by_contra hc
          rw [hbody.1 q1 hc] at hcb; cases hcb
        obtain ⟨r, h1, hlist⟩ := hbody.2 (Or.inr hinc)
        rw [hcb, Option.some.injEq] at h1
        subst h1
        -- the first epoch
        have hfirst : first = found.map (fun e => e + s.step) := by
          by_cases hi : ∀ u ∈ us, u.flag ≠ "--init-path"
          · rw [hf2 hi, ← hfd, if_pos (cin.2 hi)]
          · rw [← hfd, if_neg (fun e => hi (cin.1 e))]
            push Not at hi
            exact hf1 hi
        have ghas : ∀ r ∈ epochRow :: gen, ∃ d, dictGet s.sig r.attr = some d ∧ r.attr ∈ s.valid ∧ ∃ v, dictGet ns r.attr = some v ∧ r.Takes conv us v := by
          intro r hr
          have := (List.all_eq_true.1 hgen) r hr
          simp only [Bool.and_eq_true] at this
          obtain ⟨⟨a, b⟩, c⟩ := this
          obtain ⟨d, hd⟩ := Option.isSome_iff_exists.1 b
          exact ⟨d, hd, by simpa using a, rowNs r c⟩
        subst hj
        refine ⟨?_, ?_, ?_, ?_, ?_, ⟨arg oa, fun r hr hn => tko r hr hn, hom2⟩, ⟨arg ca, path, fun r hr => tcb r hr, hlist, gout⟩, ?_, ?_⟩
        · exact own_follows hps he hot how2
        · intro r hr
          obtain ⟨d, hd, hv, v, h1, h2⟩ := ghas r (by simp [hr])
          refine ⟨v, ?_, h2⟩
          obtain ⟨g1, g2, _⟩ := hgvp _ hv
          have hne : r.attr ≠ "init_epoch" := by simpa using (List.all_eq_true.1 hgne) r hr
          dsimp only
          rw [hgarg _ d hd, dictGet_pick, if_pos hv, gkw' _ hne, gkw _ g1 g2, h1]; rfl
        · intro q hq
          have := (List.all_eq_true.1 hfix) q hq
          simp only [Bool.and_eq_true, decide_eq_true_eq, Bool.not_eq_true', List.contains_eq_mem, decide_eq_false_iff_not] at this
          dsimp only
          rw [hgarg _ _ this.1, dictGet_pick, if_neg this.2]; rfl
        · intro e hfe
          obtain ⟨d, hd, hv, _⟩ := ghas epochRow (by simp)
          rw [hfirst, Option.map_eq_some_iff] at hfe
          obtain ⟨e', h1, rfl⟩ := hfe
          have h2 := hgarg _ d hd
          rw [dictGet_pick, if_pos hv] at h2
          dsimp only [epochRow, intRow] at h2 ⊢
          rw [h2, gie, h1]; rfl
        · intro hfe
          obtain ⟨d, hd, hv, v, h1, h2⟩ := ghas epochRow (by simp)
          obtain ⟨g1, g2, _⟩ := hgvp _ hv
          refine ⟨v, ?_, h2⟩
          rw [hfirst, Option.map_eq_none_iff] at hfe
          have h3 := hgarg _ d hd
          rw [dictGet_pick, if_pos hv] at h3
          dsimp only [epochRow, intRow] at h1 h3 g1 g2 ⊢
          rw [h3, gie, hfe, if_neg (by simp), gkw _ g1 g2, h1]; rfl
        · intro h
          dsimp only
          refine if_neg ?_
          rintro ⟨h1, h2⟩
          rcases h with h | ⟨u, hu, e⟩
          · apply h
            rw [hfirst, ← hfd, if_pos h1, h2]; rfl
          · exact cin.1 h1 u hu e
        · intro h1 h2
          have hi := cin.2 h2
          have hck : ck = none := by
            rw [hfirst, Option.map_eq_none_iff, ← hfd, if_pos hi] at h1
            exact h1
          have emb : ∀ r : Row, r.attr ∈ embValid s.names → ((s.pool.map (addPre none) ++ ctxOpts.map (addPre none)).any (fun o => fitsFull r o)) = true →
              ∀ d, r.Takes conv us (kwarg (pick (embValid s.names) kw) r.attr d) := by
            intro r a b d
            have hmem : ∀ o ∈ s.pool.map (addPre none) ++ ctxOpts.map (addPre none), o ∈ trainOpts s := by
              intro o h
              rcases List.mem_append.1 h with h | h
              · simp only [trainOpts, List.mem_append]; exact Or.inl (Or.inl (Or.inl (Or.inl (Or.inl (Or.inr h)))))
              · simp only [trainOpts, List.mem_append]; exact Or.inl (Or.inl (Or.inl (Or.inl (Or.inr h))))
            obtain ⟨v, g1, g2⟩ := rowNs r (by
              rw [List.any_eq_true] at b ⊢
              obtain ⟨o, ho, hf⟩ := b
              exact ⟨o, hmem o ho, hf⟩)
            obtain ⟨k1, _, k3⟩ := hvalp r.attr (by simp [a])
            unfold kwarg
            rw [dictGet_pick, if_pos a, gkw _ k1 k3, g1]
            exact g2
          have ctx : ∀ r : Row, r ∈ [intRow "left_context" "--left-context" (.int 0), intRow "right_context" "--right-context" (.int 0),
              intRow "begin_context" "--begin-context" .null, intRow "end_context" "--end-context" .null] → ∀ d,
              r.Takes conv us (kwarg (pick (embValid s.names) kw) r.attr d) := by
            intro r hr d
            have hfit : ∀ r ∈ [intRow "left_context" "--left-context" (.int 0), intRow "right_context" "--right-context" (.int 0),
              intRow "begin_context" "--begin-context" .null, intRow "end_context" "--end-context" .null],
                r.attr ∈ ["left_context", "right_context", "begin_context", "end_context"] ∧
                (ctxOpts.map (addPre none)).any (fun o => fitsFull r o) = true := by decide +kernel
            obtain ⟨a, b⟩ := hfit r hr
            exact emb r (List.mem_append.2 (Or.inr a)) (by rw [List.any_append, b, Bool.or_true]) d
          have hpf : Follows conv us pool (s.ctor.map (fun q => (q.1, kwarg (pick (embValid s.names) kw) q.1 q.2))) := by
            have : ∀ r ∈ pool, ∀ d, r.Takes conv us (kwarg (pick (embValid s.names) kw) r.attr d) := by
              intro r hr d
              refine emb r (List.mem_append.2 (Or.inl (by rw [hnames]; exact List.mem_map_of_mem hr))) ?_ d
              rw [List.any_append, (List.all_eq_true.1 hpool) r hr, Bool.true_or]
            exact follows_ctor hctor this
          refine ⟨_, _, _, _, _, vloss, hpf, ctx (intRow "left_context" "--left-context" (.int 0)) (by simp) (.int 0),
            ctx (intRow "right_context" "--right-context" (.int 0)) (by simp) (.int 0), ctx (intRow "begin_context" "--begin-context" .null) (by simp) .null,
            ctx (intRow "end_context" "--end-context" .null) (by simp) .null, gloss, ?_⟩
          dsimp only
          rw [if_pos ⟨hi, hck⟩]
          rfl

/-- C174: `keras-train-cat-seq-embed-gen-v1.py`, for every epoch `ck` of a checkpoint: it trains exactly for correct command lines with the required files, with
`--val-list`, and without `--lr-inc-factor` and any of the three `--freeze` options; a run that continues starts again with the epoch of the checkpoint -/
theorem C174_train_v1 {conv : Ty → String → Option Val} (hstr : ∀ t, conv .str t = some (.str t)) (hint : ∀ t, conv .int t ≠ some .null)
    (hfl : ∀ t, conv .float t ≠ some .null) (hw : ∀ t, conv .words t ≠ some .null) (us : List Use) (ck : Option Int) :
    ((trainEmbed v1 ck conv us).isSome ↔ Correct conv us (jobTable "prepool" "postpool" [poolRow] genTableV1) ∧
      Used us ["--data-path", "--train-list", "--prepool-net", "--postpool-net", "--output-path"] ∧ (∃ u ∈ us, u.flag = "--val-list") ∧
      ∀ u ∈ us, u.flag ∉ ["--lr-inc-factor", "--freeze-prepool-layers", "--freeze-postpool-layers", "--freeze-prepool"]) ∧
    ∀ j, trainEmbed v1 ck conv us = some j → ∀ first, ((∃ u ∈ us, u.flag = "--init-path") → first = none) →
      ((∀ u ∈ us, u.flag ≠ "--init-path") → first = ck) →
      Does conv us "prepool" "postpool" [poolRow] genTableV1 [("return_class", .bool true), ("max_class_imbalance", .int 2)] first j := by
  obtain ⟨h1, h2⟩ := train_core (s := v1) (pool := [poolRow]) (gen := genTableV1) (fixed := [("return_class", .bool true), ("max_class_imbalance", .int 2)]) (by decide +kernel)
    hstr hint hfl hw us ck
  refine ⟨?_, fun j hj first a b => h2 j hj first a (fun h => by rw [b h]; cases ck <;> simp [v1])⟩
  have e1 : ("--" ++ v1.enc ++ "-net" : String) = "--prepool-net" := by decide +kernel
  have e2 : ("--" ++ v1.pt ++ "-net" : String) = "--postpool-net" := by decide +kernel
  have e3 : ("--freeze-" ++ v1.enc ++ "-layers" : String) = "--freeze-prepool-layers" := by decide +kernel
  have e4 : ("--freeze-" ++ v1.pt ++ "-layers" : String) = "--freeze-postpool-layers" := by decide +kernel
  have e5 : ("--freeze-" ++ v1.enc : String) = "--freeze-prepool" := by decide +kernel
  have e6 : v1.canFreeze = false := rfl
  rw [h1, e1, e2, e3, e4, e5, e6]
  simp only [List.mem_cons, List.not_mem_nil, or_false, not_or, forall_const, true_implies]
  rfl

/-- C174: `keras-train-cat-seq-embed-lde-gen-v1.py`, for every epoch `ck` of a checkpoint: it trains exactly for correct command lines with the required files, with
`--val-list`, and without `--lr-inc-factor` and any of the three `--freeze` options; a run that continues starts again with the epoch of the checkpoint -/
theorem C174_train_lde {conv : Ty → String → Option Val} (hstr : ∀ t, conv .str t = some (.str t)) (hint : ∀ t, conv .int t ≠ some .null)
    (hfl : ∀ t, conv .float t ≠ some .null) (hw : ∀ t, conv .words t ≠ some .null) (us : List Use) (ck : Option Int) :
    ((trainEmbed lde ck conv us).isSome ↔ Correct conv us (jobTable "prepool" "postpool" ldeRows genTableV1) ∧
      Used us ["--data-path", "--train-list", "--prepool-net", "--postpool-net", "--output-path"] ∧ (∃ u ∈ us, u.flag = "--val-list") ∧
      ∀ u ∈ us, u.flag ∉ ["--lr-inc-factor", "--freeze-prepool-layers", "--freeze-postpool-layers", "--freeze-prepool"]) ∧
    ∀ j, trainEmbed lde ck conv us = some j → ∀ first, ((∃ u ∈ us, u.flag = "--init-path") → first = none) →
      ((∀ u ∈ us, u.flag ≠ "--init-path") → first = ck) →
      Does conv us "prepool" "postpool" ldeRows genTableV1 [("return_class", .bool true), ("max_class_imbalance", .int 2)] first j := by
  obtain ⟨h1, h2⟩ := train_core (s := lde) (pool := ldeRows) (gen := genTableV1) (fixed := [("return_class", .bool true), ("max_class_imbalance", .int 2)]) (by decide +kernel)
    hstr hint hfl hw us ck
  refine ⟨?_, fun j hj first a b => h2 j hj first a (fun h => by rw [b h]; cases ck <;> simp [lde])⟩
  have e1 : ("--" ++ lde.enc ++ "-net" : String) = "--prepool-net" := by decide +kernel
  have e2 : ("--" ++ lde.pt ++ "-net" : String) = "--postpool-net" := by decide +kernel
  have e3 : ("--freeze-" ++ lde.enc ++ "-layers" : String) = "--freeze-prepool-layers" := by decide +kernel
  have e4 : ("--freeze-" ++ lde.pt ++ "-layers" : String) = "--freeze-postpool-layers" := by decide +kernel
  have e5 : ("--freeze-" ++ lde.enc : String) = "--freeze-prepool" := by decide +kernel
  have e6 : lde.canFreeze = false := rfl
  rw [h1, e1, e2, e3, e4, e5, e6]
  simp only [List.mem_cons, List.not_mem_nil, or_false, not_or, forall_const, true_implies]
  rfl

/-- C174: `keras-train-cat-seq-embed-gen-v2.py`: `--freeze-enc` works; a run that continues starts with the epoch after that of the checkpoint -/
theorem C174_train_v2 {conv : Ty → String → Option Val} (hstr : ∀ t, conv .str t = some (.str t)) (hint : ∀ t, conv .int t ≠ some .null)
    (hfl : ∀ t, conv .float t ≠ some .null) (hw : ∀ t, conv .words t ≠ some .null) (us : List Use) (ck : Option Int) :
    ((trainEmbed v2 ck conv us).isSome ↔ Correct conv us (jobTable "enc" "pt" [poolRow] genTableV2) ∧
      Used us ["--data-path", "--train-list", "--enc-net", "--pt-net", "--output-path"] ∧ (∃ u ∈ us, u.flag = "--val-list") ∧
      ∀ u ∈ us, u.flag ∉ ["--lr-inc-factor", "--freeze-enc-layers", "--freeze-pt-layers"]) ∧
    ∀ j, trainEmbed v2 ck conv us = some j → ∀ first, ((∃ u ∈ us, u.flag = "--init-path") → first = none) →
      ((∀ u ∈ us, u.flag ≠ "--init-path") → first = ck.map (fun e => e + 1)) →
      Does conv us "enc" "pt" [poolRow] genTableV2 [("return_class", .bool true), ("return_utt1hot", .bool false)] first j := by
  obtain ⟨h1, h2⟩ := train_core (s := v2) (pool := [poolRow]) (gen := genTableV2) (fixed := [("return_class", .bool true), ("return_utt1hot", .bool false)]) (by decide +kernel)
    hstr hint hfl hw us ck
  refine ⟨?_, h2⟩
  have e1 : ("--" ++ v2.enc ++ "-net" : String) = "--enc-net" := by decide +kernel
  have e2 : ("--" ++ v2.pt ++ "-net" : String) = "--pt-net" := by decide +kernel
  have e3 : ("--freeze-" ++ v2.enc ++ "-layers" : String) = "--freeze-enc-layers" := by decide +kernel
  have e4 : ("--freeze-" ++ v2.pt ++ "-layers" : String) = "--freeze-pt-layers" := by decide +kernel
  have e6 : v2.canFreeze = true := rfl
  rw [h1, e1, e2, e3, e4, e6]
  simp only [List.mem_cons, List.not_mem_nil, or_false, not_or, Bool.true_eq_false, false_implies, and_true]
  rfl

/-! ### Examples -/

example : (∀ t, exConv .str t = some (.str t)) ∧ (∀ t, exConv .words t ≠ some .null) ∧ (∀ t, exConv .int t ≠ some .null) ∧ ∀ t, exConv .float t ≠ some .null := by
  have h1 : ∀ t, exConv .words t ≠ some .null := by intro t; unfold exConv; simp
  have h2 : ∀ t, exConv .int t ≠ some .null := by intro t; unfold exConv; dsimp only; split_ifs <;> simp
  have h3 : ∀ t, exConv .float t ≠ some .null := by intro t; unfold exConv; dsimp only; split_ifs <;> simp
  exact ⟨fun _ => rfl, h1, h2, h3⟩

/-- a training with the second generator that continues after epoch 4, and one with the first generator without a validation list -/
example : ((trainEmbed v2 (some 4) exConv [⟨"--data-path", some "d"⟩, ⟨"--train-list", some "t"⟩, ⟨"--val-list", some "v"⟩, ⟨"--enc-net", some "e"⟩,
      ⟨"--pt-net", some "p"⟩, ⟨"--output-path", some "o"⟩, ⟨"--batch-size", some "4"⟩, ⟨"--optimizer", some "sgd"⟩, ⟨"--freeze-enc", none⟩]).map
        (fun j => (j.gen.drop 12, j.model, j.opt.cls, j.cbs.map (fun m => m.cls)))) =
      some ([("init_epoch", .int 5), ("sg_seed", .int 1024), ("scp_sep", .str " "), ("part_idx", .int 1), ("num_parts", .int 1)], none, "SGD",
        ["HypModelCheckpoint", "CSVLogger", "EarlyStopping", "ReduceLROnPlateau"]) ∧
    (trainEmbed v1 none exConv [⟨"--data-path", some "d"⟩, ⟨"--train-list", some "t"⟩, ⟨"--prepool-net", some "e"⟩, ⟨"--postpool-net", some "p"⟩,
      ⟨"--output-path", some "o"⟩]).isNone ∧
    (trainEmbed v1 none exConv [⟨"--data-path", some "d"⟩, ⟨"--train-list", some "t"⟩, ⟨"--prepool-net", some "e"⟩, ⟨"--postpool-net", some "p"⟩,
      ⟨"--output-path", some "o"⟩, ⟨"--val-list", some "v"⟩, ⟨"--left-context", some "4"⟩, ⟨"--end-context", some "2"⟩]).map (fun j => j.model) =
      some (some [("pooling", .str "mean+std"), ("loss", .str "categorical_crossentropy"), ("left_context", .int 4), ("right_context", .int 0),
        ("begin_context", .int 4), ("end_context", .int 2)]) := by
  decide +kernel

/-- the script with dictionary encoders -/
example : (trainEmbed lde none exConv [⟨"--data-path", some "d"⟩, ⟨"--train-list", some "t"⟩, ⟨"--prepool-net", some "e"⟩, ⟨"--postpool-net", some "p"⟩,
      ⟨"--output-path", some "o"⟩, ⟨"--val-list", some "v"⟩, ⟨"--lde-num-comp", some "4"⟩]).map (fun j => j.model) =
      some (some [("pooling", .str "lde"), ("num_comp", .int 4), ("lde_order", .int 2), ("loss", .str "categorical_crossentropy"), ("left_context", .int 0),
        ("right_context", .int 0), ("begin_context", .int 0), ("end_context", .int 0)]) ∧
    (trainEmbed lde none exConv [⟨"--data-path", some "d"⟩, ⟨"--train-list", some "t"⟩, ⟨"--prepool-net", some "e"⟩, ⟨"--postpool-net", some "p"⟩,
      ⟨"--output-path", some "o"⟩, ⟨"--val-list", some "v"⟩, ⟨"--freeze-prepool", none⟩]).isNone := by
  decide +kernel

/-- the other scripts -/
example : copyFeats exConv [⟨"--input", some "scp:a"⟩, ⟨"--output", some "ark:b"⟩, ⟨"--compress", none⟩, ⟨"--num-parts", some "4"⟩] =
      some [("input_spec", .strs ["scp:a"]), ("output_spec", .str "ark:b"), ("path_prefix", .null), ("compress", .bool true), ("compression_method", .str "auto"),
        ("scp_sep", .str " "), ("part_idx", .int 1), ("num_parts", .int 4), ("chunk_size", .int 1)] ∧
    mergeH5 exConv [⟨"--input-files", some "a"⟩, ⟨"--output-path", some "b"⟩] = some [("input_files", .strs ["a"]), ("output_path", .str "b"), ("chunk_size", .null)] ∧
    mergeH5 exConv [⟨"--input-files", some "a"⟩, ⟨"--output-path", some "b"⟩, ⟨"-v", some "2"⟩] = none ∧
    (segVad exConv [⟨"--segments", some "a"⟩, ⟨"--output-path", some "b"⟩]).isSome ∧
    (kerasExtract exConv [⟨"--seq-file", some "a"⟩, ⟨"--model-file", some "m"⟩, ⟨"--output-path", some "b"⟩]).isNone := by
  decide +kernel

end Hyp.Cli
