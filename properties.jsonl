{"id": "C01", "title": "Splitting a list for parallel jobs is a partition", "statement": "For any list of length n and any number of parts P>=1, running split_list(a, idx, P) for idx=1..P and concatenating the P results gives back a exactly, in order; part sizes differ by at most one, and the returned index array selects exactly the returned elements.", "quantifier": "all lists, all P>=1, all idx in 1..P", "why_tests_cant": "lengths and job counts are unbounded; the boundary arithmetic floor(idx*n/P) must meet with no gap or overlap for every pair", "anchors": ["hyperion/utils/list_utils.py: split_list"]}
{"id": "C02", "title": "Splitting by group key never breaks a group", "statement": "For any list with one key per element, the parts produced by split_list_group_by_key for idx=1..P are disjoint, together contain each element exactly once, and two elements with the same key always land in the same part; within a group the original order is kept; an empty list raises.", "quantifier": "all lists, all key assignments, all P>=1", "why_tests_cant": "the number of groups and their interleaving are unbounded", "anchors": ["hyperion/utils/list_utils.py: split_list_group_by_key"]}
{"id": "C03", "title": "ismember/intersect are exact membership", "statement": "ismember(a,b) flags element a[i] iff it occurs in b and then gives the index of its first occurrence; intersect(a,b) returns the sorted duplicate-free common elements together with indices in a and in b at which those elements are found.", "quantifier": "all lists a, b", "why_tests_cant": "lists, repetitions and orders are unbounded", "anchors": ["hyperion/utils/list_utils.py: ismember, intersect, sort"]}
{"id": "C04", "title": "SCP script file round trip", "statement": "Saving an SCPList to a text file and loading it back with the same separators returns keys, file paths, byte offsets and row ranges unchanged, for all non-empty lists whose keys/paths avoid the characters the format reserves (a range column holding only whole-file ranges comes back as no ranges).", "quantifier": "all lists of entries (any keys, paths, offsets, ranges), with and without offsets/ranges", "why_tests_cant": "string contents, numbers and list lengths are unbounded", "anchors": ["hyperion/utils/scp_list.py: SCPList.save, SCPList.load, SCPList.parse_script"]}
{"id": "C05", "title": "SCP entries stay attached to their key", "statement": "After any sequence of sort, shuffle, filter, filter_index, filter_paths, split and merge, every (key, file path, offset, range) entry of the resulting SCPList is an entry of one of the source lists: columns are never misaligned; and looking a key up always returns an entry with that key, also after earlier look-ups populated the look-up cache.", "quantifier": "all operation histories, all lists, all permutations chosen by shuffle", "why_tests_cant": "histories are unbounded; the stale-cache failure needs particular interleavings of look-up and reordering", "anchors": ["hyperion/utils/scp_list.py: SCPList.{sort,shuffle,filter,filter_paths,filter_index,split,merge,get_index,__getitem__,_key_to_index}"]}
{"id": "C06", "title": "SCP filter keeps exactly the requested keys", "statement": "filter(keys) raises iff a requested key is absent and otherwise returns exactly the entries whose key was requested, in list order; filter(keys, keep=False) returns exactly the entries whose key was not requested; filter_paths does the same by file path; filter_index returns the entries at the requested positions in the requested order (or raises), and with keep=False those at all other positions.", "quantifier": "all lists, all key/path/position lists", "why_tests_cant": "unbounded lists and subsets", "anchors": ["hyperion/utils/scp_list.py: SCPList.filter"]}
{"id": "C07", "title": "SCP split then merge restores the list", "statement": "Merging the P parts obtained with split(1,P)..split(P,P) gives back the original SCPList, including offsets and ranges; with group_by_key the parts together hold exactly the entries of the list and all entries of one key are in one part, in order.", "quantifier": "all lists, all P>=1", "why_tests_cant": "unbounded lists and P", "anchors": ["hyperion/utils/scp_list.py: SCPList.split, SCPList.merge"]}
{"id": "C08", "title": "Merging trial indexes is set union", "statement": "For TrialNdx objects, a (model,segment) pair is a trial of merge([x1..xn]) iff it is a trial of some xi; the merged model and segment lists are the sorted unions; hence merge is commutative, associative and idempotent as a set of trials.", "quantifier": "all lists of valid TrialNdx objects", "why_tests_cant": "model/segment lists, masks and number of merged objects are unbounded", "anchors": ["hyperion/utils/trial_ndx.py: TrialNdx.merge"]}
{"id": "C09", "title": "Filtering a trial index is restriction", "statement": "filter(model_set, seg_set, keep=True) keeps exactly the trials whose model and segment are in the given lists and raises if a requested name is missing; keep=False keeps exactly those whose model and segment are both not listed.", "quantifier": "all valid TrialNdx objects, all name lists", "why_tests_cant": "unbounded name lists and masks", "anchors": ["hyperion/utils/trial_ndx.py: TrialNdx.filter"]}
{"id": "C10", "title": "Splitting a trial index into a grid is a partition", "statement": "The num_model_parts x num_seg_parts objects returned by split have disjoint trial sets whose union is the trial set of the whole; merging them gives back the sorted original.", "quantifier": "all TrialNdx, all part counts >=1", "why_tests_cant": "unbounded sizes and counts", "anchors": ["hyperion/utils/trial_ndx.py: TrialNdx.split, TrialNdx.merge"]}
{"id": "C11", "title": "Trial index text round trip", "statement": "save_txt followed by load_txt yields a TrialNdx with exactly the same set of trials, with sorted duplicate-free model and segment lists.", "quantifier": "all TrialNdx with names free of white space", "why_tests_cant": "unbounded names and masks; row/column order reconstruction must be right for each", "anchors": ["hyperion/utils/trial_ndx.py: TrialNdx.save_txt, TrialNdx.load_txt"]}
{"id": "C12", "title": "A trial key never marks a trial both target and non-target", "statement": "Starting from valid keys, filter, split and merge of TrialKey objects return keys where no trial is both target and nontarget, or raise; a trial is target (nontarget) in the result iff it was in a source; the HDF5 representation (tar-non in int8) restores both masks exactly.", "quantifier": "all valid keys, all operation arguments", "why_tests_cant": "unbounded masks, combinations of overlapping keys", "anchors": ["hyperion/utils/trial_key.py: TrialKey.{merge,filter,split,save_h5,load_h5,validate}"]}
{"id": "C13", "title": "get_tar_non returns exactly the labelled scores", "statement": "TrialScores.get_tar_non(key) returns the scores of the key's target trials that have a score, and the scores of its nontarget trials that have a score: nothing else, each once, with each score taken from the right (model, segment) pair although key and scores may list models and segments in different orders.", "quantifier": "all score/key pairs", "why_tests_cant": "unbounded matrices and permutations of rows and columns", "anchors": ["hyperion/utils/trial_scores.py: TrialScores.get_tar_non, TrialScores.filter"]}
{"id": "C14", "title": "Aligning scores with a trial index", "statement": "align_with_ndx(ndx) (raise_missing=True) returns the model/segment lists of ndx, with a score for exactly the trials of ndx, each equal to the score of the same pair in the input, and raises if some trial of ndx has no score; with raise_missing=False missing scores are masked out; set_missing_to_value gives each missing trial the value and leaves the rest as is.", "quantifier": "all score objects and all ndx", "why_tests_cant": "unbounded matrices and name orders", "anchors": ["hyperion/utils/trial_scores.py: TrialScores.align_with_ndx, TrialScores.set_missing_to_value, TrialScores.filter"]}
{"id": "C15", "title": "Merging score files", "statement": "merge of TrialScores raises when two inputs score the same trial; otherwise every trial of every input has in the result the score it had in its input, and no other trial has a score.", "quantifier": "all lists of score objects", "why_tests_cant": "unbounded", "anchors": ["hyperion/utils/trial_scores.py: TrialScores.merge"]}
{"id": "C16", "title": "Dropping models/segments from scores", "statement": "TrialScores.filter(model_set, seg_set, keep=False) returns the scores of all models not in model_set against all segments not in seg_set.", "quantifier": "all score objects and name lists", "why_tests_cant": "needs arbitrary, asymmetric model and segment lists", "anchors": ["hyperion/utils/trial_scores.py: TrialScores.filter"]}
{"id": "C17", "title": "Score transformation only touches existing trials", "statement": "transform(f) replaces each existing score s by f(s) and leaves the trial mask and the name lists unchanged; the text round trip preserves every existing trial with its score.", "quantifier": "all functions f, all score objects", "why_tests_cant": "unbounded functions and matrices", "anchors": ["hyperion/utils/trial_scores.py: TrialScores.transform, save_txt, load_txt"]}
{"id": "C18", "title": "Cross-validation folds never split a group", "statement": "FoldList.create, when it returns, assigns each unmasked segment exactly one fold in 0..num_folds-1 and each masked segment the fold -1; segments of the same group and the same balance class get the same fold; the numbers of groups of a class in any two folds differ by at most one; fold numbers in use have no gaps; it succeeds and uses every fold whenever each class has at least num_folds unmasked groups; train and test flags of a fold are complementary within the unmasked segments. TrainValEvalList.create likewise, with each part within one group of its proportion. The flags of a part mark exactly its rows.", "quantifier": "all segment lists, group and class assignments, masks, num_folds", "why_tests_cant": "rounding of j*num_groups/num_folds must leave no gap for any sizes", "anchors": ["hyperion/utils/fold_list.py: FoldList.create, get_fold_idx, get_fold_seg", "hyperion/utils/train_val_eval_list.py: TrainValEvalList.create"]}
{"id": "C19", "title": "Kaldi token and integer encoding round trip", "statement": "Reading what write_token/write_int32 wrote returns the same token/integer and leaves the reader exactly after the field, whatever bytes follow.", "quantifier": "all tokens without white space, all 32-bit signed integers, all following bytes", "why_tests_cant": "unbounded tokens and 2^32 integers with arbitrary suffix", "anchors": ["hyperion/utils/kaldi_io_funcs.py: read_token, write_token, read_int32, write_int32, init_kaldi_output_stream, init_kaldi_input_stream"]}
{"id": "C20", "title": "Kaldi binary matrix round trip", "statement": "KaldiMatrix.read applied to what KaldiMatrix.write wrote returns the same matrix/vector (shape and raw element bytes, float32 and float64), consumes exactly the written bytes, and read_shape agrees with the stored shape.", "quantifier": "all matrices and vectors of any shape, any trailing bytes", "why_tests_cant": "unbounded shapes and contents", "anchors": ["hyperion/utils/kaldi_matrix.py: KaldiMatrix.write, KaldiMatrix.read, KaldiMatrix.read_shape"]}
{"id": "C21", "title": "Row-range reads equal slicing the full matrix", "statement": "Reading with row_offset and num_rows returns exactly rows row_offset..row_offset+num_rows (or to the end) of the stored matrix; in sequential mode the stream is left exactly at the start of the next record regardless of the range.", "quantifier": "all matrices, all offsets and row counts inside the matrix", "why_tests_cant": "unbounded shapes and ranges; off-by-one seeks only show on some ranges", "anchors": ["hyperion/utils/kaldi_matrix.py: KaldiMatrix.read, KaldiCompressedMatrix.read, KaldiCompressedMatrix._get_read_info"]}
{"id": "C22", "title": "Archive written sequentially reads back the same sequence", "statement": "For any sequence of (key, matrix) writes, the sequential archive reader returns exactly the same sequence; and each byte position stored in the script file, when seeked to, yields the matrix of that key.", "quantifier": "all sequences of records, all splits into write calls", "why_tests_cant": "unbounded record streams; every offset must be right", "anchors": ["hyperion/io/ark_data_writer.py: ArkDataWriter.write", "hyperion/io/ark_data_reader.py: SequentialArkFileDataReader, SequentialArkScriptDataReader, RandomAccessArkDataReader"]}
{"id": "C23", "title": "Batch size does not change what a reader returns", "statement": "Repeatedly calling read(num_records) with any positive batch sizes until the reader reports end of file returns the concatenation of all records in order, no record twice, none lost; after reset the same sequence comes again; CopyFeats with any chunk size writes the same output stream.", "quantifier": "all record streams, all sequences of batch sizes", "why_tests_cant": "unbounded schedules of batch sizes", "anchors": ["hyperion/io/data_reader.py: SequentialDataReader.read", "hyperion/io/ark_data_reader.py: read, eof, reset", "hyperion/io/h5_data_reader.py", "hyperion/io/copy_feats.py: CopyFeats"]}
{"id": "C24", "title": "Script row ranges combine to a sub-range", "statement": "Reading a script entry path[a:b] with row_offset o and num_rows n returns rows a+o.. of the stored matrix and never rows outside a..b.", "quantifier": "all ranges, offsets, numbers of rows", "why_tests_cant": "integer arithmetic over all values; the failing combinations are few", "anchors": ["hyperion/io/data_reader.py: DataReader._combine_ranges, DataReader._apply_range_to_shape"]}
{"id": "C25", "title": "Compressed matrix container round trip", "statement": "For each of the three compressed formats, read after write gives back the header, per-column headers and data bytes; get_data_attrs/build_from_data_attrs reconstruct the same compressed matrix; decompression depends only on these bytes.", "quantifier": "all headers and byte contents, all shapes, any trailing bytes", "why_tests_cant": "unbounded shapes and contents", "anchors": ["hyperion/utils/kaldi_matrix.py: KaldiCompressedMatrix.write, read, get_data_attrs, build_from_data_attrs"]}
{"id": "C26", "title": "Compression error bound", "statement": "For the linear (2-byte and 1-byte) compression methods every decompressed element is within 0.5011 quantization steps of the original when the original lies in [min, min+range] (which it always does for the automatic methods); quantized values never leave 0..65535 / 0..255; quantization is monotone, saturates outside the range and is stable under re-compression; scale(alpha) multiplies every decompressed element by alpha.", "quantifier": "all real elements, minima and ranges", "why_tests_cant": "continuum of values", "anchors": ["hyperion/utils/kaldi_matrix.py: KaldiCompressedMatrix._float_to_uint16,_uint16_to_float,_float_to_uint8,_uint8_to_float"]}
{"id": "C27", "title": "Speech-feature compression: percentile header is strictly increasing and byte code is monotone", "statement": "For any column, the per-column percentile header satisfies p0<p25<p75<p100 in uint16 (so the piecewise-linear code never divides by zero) and the byte code of a value is monotone in the value, within 0..255, decoding back to within one code step.", "quantifier": "all columns of any number of rows", "why_tests_cant": "continuum of columns", "anchors": ["hyperion/utils/kaldi_matrix.py: KaldiCompressedMatrix._compute_column_header,_float_to_char,_char_to_float"]}
{"id": "C28", "title": "Read/write specifier parsing", "statement": "WSpecifier.create / RSpecifier.create map each well-formed specifier string to the documented type, paths and options; malformed ones (more than one ':' list, mismatched number of paths, no or several archives) raise; option order does not matter where documented.", "quantifier": "all specifier strings", "why_tests_cant": "unbounded strings; combinations of options and orders", "anchors": ["hyperion/io/rw_specifiers.py: WSpecifier.create, RSpecifier.create"]}
{"id": "C29", "title": "PAV returns the isotonic regression", "statement": "pavx(y) returns a non-decreasing sequence of the same length that is constant on blocks, each block value being the mean of the y's in the block; widths are positive and sum to n; heights are strictly increasing; and it minimises the sum of squared errors over all non-decreasing sequences.", "quantifier": "all real sequences y of length>=1", "why_tests_cant": "continuum of inputs, unbounded lengths", "anchors": ["hyperion/metrics/utils.py: pavx"]}
{"id": "C30", "title": "ROC convex hull is made of reachable operating points", "statement": "compute_rocch(tar, non) starts at (Pmiss,Pfa)=(0,1) and ends at (1,0), Pmiss is non-decreasing and Pfa non-increasing; every vertex is the (Pmiss,Pfa) of some decision threshold (ties between target and nontarget scores are never split); the vertices are in convex position.", "quantifier": "all nonempty target and nontarget score lists, with arbitrary ties", "why_tests_cant": "continuum of scores, unbounded sizes, ties", "anchors": ["hyperion/metrics/roc.py: compute_rocch, compute_roc"]}
{"id": "C31", "title": "Minimum DCF is the minimum over all thresholds", "statement": "compute_min_dcf(tar, non, prior) returns a cost no larger than the cost at any threshold, and attained at some threshold, for each prior in (0,1).", "quantifier": "all score lists, all priors, all thresholds", "why_tests_cant": "continuum of thresholds and scores", "anchors": ["hyperion/metrics/dcf.py: compute_min_dcf, compute_dcf", "hyperion/metrics/roc.py: compute_rocch"]}
{"id": "C32", "title": "Actual DCF uses the Bayes threshold", "statement": "compute_act_dcf(tar, non, priors) returns for each prior the normalised cost with miss rate = fraction of targets below, and false-alarm rate = fraction of nontargets at or above, the threshold -logit(prior).", "quantifier": "all score lists, all ascending prior vectors accepted by the function", "why_tests_cant": "continuum of scores; repeated thresholds", "anchors": ["hyperion/metrics/dcf.py: compute_act_dcf"]}
{"id": "C33", "title": "EER is where the ROC convex hull meets the diagonal", "statement": "compute_eer returns a value e in [0,1/2] such that the point (P_miss,P_fa)=(e,e) lies on the ROC convex hull (the polygon through the vertices of compute_rocch), and no threshold has both rates below e; compute_prbep does the same for the hull of the numbers of errors. The linear solver inside is never called on a singular system.", "quantifier": "all ROC hulls produced by compute_rocch", "why_tests_cant": "continuum of scores", "anchors": ["hyperion/metrics/roc.py: rocch2eer", "hyperion/metrics/eer.py: compute_eer"]}
{"id": "C34", "title": "Cllr is symmetric in the roles of targets and nontargets", "statement": "compute_cllr(tar, non) is the average of the target cost log2(1+exp(-s)) and the nontarget cost log2(1+exp(s)); a system whose nontarget scores go to minus infinity is not penalised for them.", "quantifier": "all score lists", "why_tests_cant": "continuum of scores", "anchors": ["hyperion/metrics/cllr.py: compute_cllr"]}
{"id": "C35", "title": "Sliding-window normalisation: fast and slow implementations agree", "statement": "For every feature matrix and every left/right context, the cumulative-sum implementation of short-time mean (and variance) normalisation equals, in exact arithmetic, the window-by-window definition: window = frames t-L..t+R clipped to the utterance.", "quantifier": "all feature matrices, all contexts, all lengths including shorter than the window", "why_tests_cant": "boundary cases for all T, L, R", "anchors": ["hyperion/feats/feature_normalization.py: MeanVarianceNorm.normalize, normalize_cumsum, normalize_slow, normalize_conv"]}
{"id": "C36", "title": "Frame selection keeps exactly the voiced frames", "statement": "FrameSelector.select(x, sel) returns the frames with true decision, in order; when lengths differ by no more than the tolerance both are truncated to the shorter; otherwise it raises.", "quantifier": "all matrices, decision vectors, tolerances", "why_tests_cant": "unbounded lengths", "anchors": ["hyperion/feats/frame_selector.py: FrameSelector.select"]}
{"id": "C37", "title": "Symmetric / triangular matrix packing round trip", "statement": "vec2symmat(symmat2vec(S)) = S for each symmetric S, symmat2vec(vec2symmat(v)) = v for each vector of triangular length, with lower or upper packing, and with diagonal factor undone; the same for triangular matrices; packing has length d(d+1)/2.", "quantifier": "all dimensions and all contents", "why_tests_cant": "unbounded dimension", "anchors": ["hyperion/utils/math.py: symmat2vec, vec2symmat, trimat2vec, vec2trimat"]}
{"id": "C38", "title": "Flat clusters from a dendrogram", "statement": "get_flat_clusters(criterion num_clusters k) labels N points with exactly k distinct labels 0..k-1, two points share a label iff they are connected by the first N-k merges; clusterings for decreasing k are nested.", "quantifier": "all dendrograms from AHC on N points, all k in 1..N", "why_tests_cant": "unbounded N and merge histories", "anchors": ["hyperion/clustering/ahc.py: AHC.get_flat_clusters_from_num_clusters, get_flat_clusters_from_thr, fit"]}
{"id": "C39", "title": "Score normalisation with masks uses only valid cohort scores", "statement": "ZNorm/TNorm with a boolean mask give each score exactly (s-mu)/max(sigma,floor) with mu, sigma computed over the unmasked cohort scores only: masked values have no influence; and an all-true mask equals no mask; normalisation is invariant to a common positive affine transformation of scores (when above the floor).", "quantifier": "all score matrices and masks with at least one valid entry per row/column", "why_tests_cant": "continuum of values, all masks", "anchors": ["hyperion/score_norm/z_norm.py: ZNorm.predict", "hyperion/score_norm/t_norm.py: TNorm.predict", "hyperion/score_norm/s_norm.py: SNorm.predict", "hyperion/score_norm/adapt_s_norm.py: AdaptSNorm.predict"]}
{"id": "C40", "title": "Metric accumulator is the sample-weighted mean", "statement": "After any sequence of updates since the last reset, MetricAcc.metrics holds, for each metric, the sum of value*num_samples over updates divided by the total number of samples.", "quantifier": "all histories of updates and resets", "why_tests_cant": "unbounded histories", "anchors": ["hyperion/torch/utils/metric_acc.py: MetricAcc"]}
{"id": "C41", "title": "Learning-rate schedules stay within bounds", "statement": "For any history of batch/epoch calls that does not raise (it raises exactly when warmup_steps is 0, the default, and a batch is processed), the exponential scheduler's rate equals max(min_lr, base*decay^((t-hold)/steps)) after the hold time and base before, is non-increasing after warm-up and stays in [min_lr, base]; the warm-up rate rises linearly from min_lr to base; the cosine rate follows the annealing formula, is between min_lr and gamma^restarts*base (so in [min_lr, base] while that peak is above min_lr), and a warm restart sets it to gamma^restarts*base. With warm restarts and per-epoch updates the rate of every epoch is the cosine of the period containing it, periods growing by the factor T_mul and peaks shrinking by gamma.", "quantifier": "all event histories and parameter values", "why_tests_cant": "unbounded histories; parameters range over reals", "anchors": ["hyperion/torch/lr_schedulers/lr_scheduler.py: LRScheduler", "hyperion/torch/lr_schedulers/exp_lr.py: ExponentialLR", "hyperion/torch/lr_schedulers/cos_lr.py: CosineLR"]}
{"id": "C42", "title": "Reduce-on-plateau state machine", "statement": "ReduceLROnPlateau asks for a reduction at the end of an epoch exactly when the last patience+1 epochs brought no improvement and no reduction was asked for in the last patience+cooldown epochs; only then does a rate change at an epoch end, to max(lr*factor, min_lr) if lower by more than eps; the rate stays in [min_lr, base] and is never raised after warm-up; the stored best is a metric seen such that no metric seen is better by more than the threshold (relative thresholds: for non-negative metrics). An improvement is a change beyond the threshold, absolute or relative.", "quantifier": "all metric histories and parameters", "why_tests_cant": "unbounded histories", "anchors": ["hyperion/torch/lr_schedulers/red_lr_on_plateau.py: ReduceLROnPlateau"]}
{"id": "C43", "title": "Generator queue delivers each item once, in order, within its size limit", "statement": "With one worker thread and an endless generator, the consumer of GeneratorQueue receives the generator's items (except None) in order, each once, none skipped, for every interleaving of producer, consumer and stop; there is no deadlock before stop; with any number of workers no item is lost or duplicated among taken, queued and held ones; the number of queued items never exceeds max_queue_size (with w threads: max_queue_size + w - 1). When the generator ends, items still queued are not delivered.", "quantifier": "all interleavings of worker and consumer steps, all generators", "why_tests_cant": "schedules are unbounded and nondeterministic", "anchors": ["hyperion/utils/queues.py: GeneratorQueue.start, GeneratorQueue.get"]}
{"id": "C44", "title": "Mini-batch sub-sequences stay inside their utterance", "statement": "Every sub-sequence produced by the sequence batch generators has a length between the configured minimum and maximum, starts and ends inside the utterance it is taken from, and carries the class label of that utterance; each batch has exactly the configured number of items; in the class-balanced generator consecutive items share class and utterance in the configured group sizes; with sensible configurations a call always returns. With full sequences the batches of an epoch are consecutive slices of the table.", "quantifier": "all utterance length tables, all random draws, all configurations accepted by the constructor", "why_tests_cant": "random draws range over a continuum", "anchors": ["hyperion/generators/sequence_batch_generator_v1.py", "hyperion/generators/sequence_batch_generator_v2.py"]}
{"id": "C45", "title": "Generator epochs", "statement": "The generators' (cur_epoch, cur_step) counters after any number of batches equal the quotient and remainder of the number of batches by steps_per_epoch, and the number of steps is the configured number of passes times the utterances over the batch size. Epochs are reproducible: the batches of an epoch only depend on the seed, the epoch number and the configuration. (Found false of the code: epoch 1 repeats epoch 0 and every later epoch lags by one, so resuming with init_epoch does not continue the run; sequential mode does not cover every frame and can hang.) The 'auto' number of passes of the balanced generator is the least that covers the average length.", "quantifier": "all numbers of batches and resets", "why_tests_cant": "unbounded histories", "anchors": ["hyperion/generators/sequence_batch_generator_v2.py: read, reset", "hyperion/generators/sequence_batch_generator_v1.py"]}
{"id": "C46", "title": "Samples-per-class filtering", "statement": "VectorClassReader with min_spc/max_spc keeps exactly the classes with at least min_spc samples and, of each, min(count, max_spc) samples, in their order, unrelabelled; spc_pruning_mode 'first'/'last' says which end is removed, 'random' removes any; never a sample of another class.", "quantifier": "all utterance-class tables, all limits, all random draws", "why_tests_cant": "unbounded tables and draws", "anchors": ["hyperion/helpers/vector_class_reader.py: VectorClassReader._filter_by_spc"]}
{"id": "C47", "title": "Splitting classes into sub-classes", "statement": "_split_classes never puts samples of two classes in one sub-class and gives each sub-class at most max_spc samples, in every mode; in sequential mode with overlap < max_spc it always succeeds and covers every sample.", "quantifier": "all class tables, all max_spc, overlaps", "why_tests_cant": "unbounded", "anchors": ["hyperion/helpers/vector_class_reader.py: VectorClassReader._split_classes"]}
{"id": "C48", "title": "RTTM adjacent-segment merging preserves coverage", "statement": "RTTM.merge_adjacent_segments(margin) never joins segments of different types, files or speakers; every instant of a merged segment was covered before or lies in a gap of at most margin between neighbours; if no segment ends before a joinable neighbour in front of it, every instant covered before is covered after; merging twice is merging once.", "quantifier": "all RTTM tables (validated), all margins", "why_tests_cant": "continuum of times, unbounded number of segments, containment patterns", "anchors": ["hyperion/utils/rttm.py: RTTM.merge_adjacent_segments"]}
{"id": "C49", "title": "Speaker look-up by time returns exactly the overlapping segments", "statement": "RTTM.get_segment_names for a list of windows returns for each the distinct names (joined, with their number) of exactly the segments of the type and file which overlap the window and are not strictly inside it; the cached and the slow version agree. prepend_file_id_to_name renames exactly the segments of the given type to file_name and changes nothing else.", "quantifier": "all RTTM tables and time windows", "why_tests_cant": "continuum of times; the strictly-inside case", "anchors": ["hyperion/utils/rttm.py: RTTM.get_segment_names_from_timestamps"]}
{"id": "C50", "title": "Extended segments are consecutive runs of one speaker", "statement": "ExtSegmentList.merge_adjacent_segments(max_segments) cuts the segments, in order, into runs of consecutive same-file same-name segments of at most max_segments each, ended only by a change or by being full; each segment's new ext id is the '@'-joined ids of its run, and the new ext table has one row per run with its name.", "quantifier": "all segment tables, all max_segments", "why_tests_cant": "unbounded tables", "anchors": ["hyperion/utils/ext_segment_list.py: ExtSegmentList"]}
{"id": "C51", "title": "Binary VAD from segments marks exactly the covered frames", "statement": "SegmentList.to_bin_vad(file) has the requested length and frame t is 1 iff a segment of the file has round(tbeg) <= t <= round(tend) in frames; so frames inside a segment are marked and marked frames are within half a frame of a segment.", "quantifier": "all segment tables and numbers of frames", "why_tests_cant": "unbounded", "anchors": ["hyperion/utils/segment_list.py: SegmentList.to_bin_vad"]}
{"id": "C52", "title": "Utterance-info tables keep key and info aligned", "statement": "After any sequence of sort, shuffle, filter, filter_index, split and merge of Utt2Info tables, each row is a row of a source table and lookup by key returns that key's info; filter(keys) returns the rows in the requested order or raises. Integer indices enumerate the rows in order.", "quantifier": "all tables and histories", "why_tests_cant": "unbounded histories", "anchors": ["hyperion/utils/utt2info.py: Utt2Info"]}
{"id": "C53", "title": "K-means never increases its loss", "statement": "KMeans.fit assigns every point to a nearest centroid (first on ties); the returned losses never increase, also when clusters become empty (whose centroid becomes zero), the last loss is the mean squared error of the returned assignment with respect to the centroids left in the model; it stops early only when the relative change is below rtol; seeds are data points.", "quantifier": "all data sets, all initialisations", "why_tests_cant": "continuum of data", "anchors": ["hyperion/clustering/kmeans.py: KMeans"]}
{"id": "C54", "title": "Optimal calibration (opt_loglr) is finite and order preserving", "statement": "opt_loglr(tar, non, 'laplace') returns one log-likelihood ratio per trial, all finite (logarithms of numbers strictly inside (0,1) plus at most 1e-6), and a trial with a higher score always gets a strictly higher value; trials with equal scores are ordered by position, targets first.", "quantifier": "all non-empty lists of target and nontarget scores, with ties", "why_tests_cant": "continuum of scores, unbounded sizes, all tie patterns", "anchors": ["hyperion/metrics/utils.py: opt_loglr, pavx"]}
{"id": "C55", "title": "Class balancing of the utterance list", "statement": "With class_weight='balanced' and max_class_imbalance = r (a natural number >= 1) the generator's utterance list keeps every utterance, adds only copies of utterances, and afterwards no class has more than r times as many entries as another; no class shrinks and none grows beyond the largest original class.", "quantifier": "all utterance lists and class assignments, all r >= 1", "why_tests_cant": "class histograms are unbounded", "anchors": ["hyperion/generators/sequence_batch_generator_v1.py: _balance_class_weight, _balance_class_weight_helper"]}
{"id": "C56", "title": "Padding variable-length data into three-dimensional arrays loses nothing", "statement": "to3D_by_seq and to3D_by_class put every frame (row) of sequence (class) i in slice i, in order and with sample weight 1, followed only by zero frames of weight 0; a sequence longer than the requested max_length raises instead of being truncated.", "quantifier": "all lists of sequences, all class assignments, all max_length", "why_tests_cant": "lengths and numbers of sequences are unbounded", "anchors": ["hyperion/utils/tensors.py: to3D_by_seq, to3D_by_class"]}
{"id": "C57", "title": "Overlap elimination", "statement": "RTTM.eliminate_overlaps keeps all rows and labels, leaves rows without overlap unchanged, and cuts an isolated overlap of two consecutive segments of a file at its midpoint.", "quantifier": "all RTTM tables", "why_tests_cant": "continuum of times; chains and containments of any length", "anchors": ["hyperion/utils/rttm.py: RTTM.eliminate_overlaps"]}
{"id": "C58", "title": "RTTM to segment list", "statement": "RTTM.to_segment_list keeps every row's file, start and end in order, raises iff a duration is negative, and two rows of a file get equal ids iff their starts and ends agree in whole seconds. Segment ids have seven-digit times.", "quantifier": "all RTTM tables with non-negative times", "why_tests_cant": "continuum of times", "anchors": ["hyperion/utils/rttm.py: RTTM.to_segment_list"]}
{"id": "C59", "title": "Sorting a trial list does not change its trials", "statement": "sort on a TrialNdx, TrialKey or TrialScores sorts the model and segment names increasingly and keeps exactly the same trials, target/nontarget labels and scores; two indexes with the same names and trials become identical once sorted.", "quantifier": "all trial lists, all valid argsort results", "why_tests_cant": "permuting rows and columns of the mask and of the score matrix must be consistent for every order of names", "anchors": ["hyperion/utils/trial_ndx.py: TrialNdx.sort", "hyperion/utils/trial_key.py: TrialKey.sort", "hyperion/utils/trial_scores.py: TrialScores.sort"]}
{"id": "C60", "title": "Splitting scores into parts loses and duplicates no score", "statement": "TrialScores.split(i, P, j, Q) keeps exactly the scores of the i-th block of models against the j-th block of segments, and every scored trial is in exactly one of the P x Q parts, with its score.", "quantifier": "all score objects, all part counts and part indices", "why_tests_cant": "all sizes and numbers of parts", "anchors": ["hyperion/utils/trial_scores.py: TrialScores.split"]}
{"id": "C61", "title": "Trial key text round trip", "statement": "save_txt followed by load_txt yields a TrialKey with exactly the same target and nontarget trials, with sorted duplicate-free model and segment lists.", "quantifier": "all keys with names free of white space", "why_tests_cant": "unbounded names and masks", "anchors": ["hyperion/utils/trial_key.py: TrialKey.save_txt, TrialKey.load_txt"]}
{"id": "C62", "title": "Replacing test files by their segments", "statement": "apply_segmentation_to_test replaces every test file by its segments: the result has a trial (model, e) exactly when e is a segment of a file f with (model, f) a trial; it fails exactly when there is no test file or a segment name is repeated.", "quantifier": "all indexes and all segmentations", "why_tests_cant": "unbounded segmentations", "anchors": ["hyperion/utils/trial_ndx.py: TrialNdx.apply_segmentation_to_test"]}
{"id": "C63", "title": "Checkpoints survive crashes and form one uninterrupted training", "statement": "Whatever the history of training processes (each one builds a trainer, calls load_last_checkpoint and fit) killed at any point, also inside torch.save, and of removals of broken files, the complete checkpoints found in the experiment directory are those of epochs 1..n, each is the state after that epoch of a single training without interruption, and a complete checkpoint is never changed or lost later. When training is a function of the stored state the checkpoints are exactly those of the training that was never killed. File names have a four-digit epoch up to epoch 9999.", "quantifier": "all histories of starts, kill points, numbers of epochs, all training functions and unsaved random states", "why_tests_cant": "kill points and restart histories are unbounded", "anchors": ["hyperion/torch/torch_trainer.py: TorchTrainer.fit, save_checkpoint, load_checkpoint, load_last_checkpoint"]}
{"id": "C64", "title": "Training can be resumed after a crash", "statement": "After a kill at any point of a training process, a new process loads the last complete checkpoint and, if it is not killed, completes all epochs.", "quantifier": "all histories and kill points", "why_tests_cant": "the kill can fall at any instruction", "anchors": ["hyperion/torch/torch_trainer.py: TorchTrainer.load_last_checkpoint, save_checkpoint, fit"]}
{"id": "C65", "title": "The training log has one row per epoch", "statement": "train.log holds one row per completed epoch, in order, also after training is resumed.", "quantifier": "all trainings and restarts", "why_tests_cant": "all restart histories", "anchors": ["hyperion/torch/loggers/csv_logger.py: CSVLogger", "hyperion/torch/torch_trainer.py: TorchTrainer._default_loggers"]}
{"id": "C66", "title": "softmax, logsumexp and the sigmoids compute what their names say for every input", "statement": "softmax returns exp(r_k)/sum_j exp(r_j): positive numbers that sum to one, unchanged when a constant is added to all inputs and in the order of the inputs; logsumexp returns log sum exp within 1e-20, never below it; sigmoid, logsigmoid and neglogsigmoid are within exp(-100) of the exact functions for every real number, exact above -100; sigmoid is monotone with values in [0,1).", "quantifier": "all lengths and all real inputs", "why_tests_cant": "all real vectors", "anchors": ["hyperion/utils/math.py: softmax, logsumexp, sigmoid, logsigmoid, neglogsigmoid"]}
{"id": "C67", "title": "Sufficient statistics of a mixture do not depend on the batch size and add up over segments", "statement": "The frame posteriors are the Bayes posteriors of the mixture (positive, sum to one). The zero and first order statistics are the posterior-weighted sums over all frames, whatever the batch size; their total mass is the total weight of the frames; the statistics of consecutive segments that cover the recording, or of segment probabilities that sum to one, add up to those of the recording.", "quantifier": "all mixtures, data, weights, batch sizes and segmentations", "why_tests_cant": "all batch sizes and segmentations of unbounded recordings", "anchors": ["hyperion/pdfs/mixtures/exp_family_mixture.py: accum_suff_stats, accum_suff_stats_segments, accum_suff_stats_segments_prob, compute_pz_nat"]}
{"id": "C68", "title": "Sliding-window statistics are the statistics of each window", "statement": "accum_suff_stats_sorttime returns, for every window of the recording, the sum of the statistics over that window; in batches the result is the same.", "quantifier": "all recordings, window lengths, shifts and batch sizes", "why_tests_cant": "all window lengths and shifts", "anchors": ["hyperion/pdfs/mixtures/exp_family_mixture.py: accum_suff_stats_sorttime"]}
{"id": "C69", "title": "Gaussian and GMM scores are log densities", "statement": "log_prob of a diagonal covariance Gaussian is the logarithm of its density, by both methods; log_prob of a GMM is the logarithm of sum_k (pi_k+1e-15) N(x; mu_k, Lambda_k^-1) within 1e-20, the same by both methods; natural and standard parameters convert into each other without loss.", "quantifier": "all parameters with positive precisions and all points", "why_tests_cant": "all real parameters and points", "anchors": ["hyperion/pdfs/mixtures/gmm_diag_cov.py: GMMDiagCov.log_prob_std, compute_eta, compute_std, compute_A_nat, compute_A_std", "hyperion/pdfs/core/normal_diag_cov.py: NormalDiagCov", "hyperion/pdfs/mixtures/exp_family_mixture.py: log_prob_nat"]}
{"id": "C70", "title": "EM training of a diagonal GMM never decreases the likelihood", "statement": "Each epoch of GMMDiagCov.fit sets means, variances (floored) and weights to their posterior-weighted estimates, and never decreases the log-likelihood of the training data under the model; the reported bound never exceeds that log-likelihood.", "quantifier": "all training sets, starting models, options, batch sizes and numbers of epochs", "why_tests_cant": "all data sets and unbounded numbers of epochs", "anchors": ["hyperion/pdfs/mixtures/gmm_diag_cov.py: GMMDiagCov.Mstep", "hyperion/pdfs/mixtures/exp_family_mixture.py: fit, Estep, elbo, log_pi"]}
{"id": "C71", "title": "Fitting a diagonal Gaussian is maximum likelihood", "statement": "NormalDiagCov.fit returns the weighted mean and the weighted variance of the data (floored), whatever the batch size; among all Gaussians whose variances are at least the floor no other has a higher likelihood.", "quantifier": "all data sets, weights, floors and batch sizes", "why_tests_cant": "all data sets and all competing parameters", "anchors": ["hyperion/pdfs/core/normal_diag_cov.py: NormalDiagCov.Mstep", "hyperion/pdfs/core/exp_family.py: fit, accum_suff_stats"]}
{"id": "C72", "title": "Centering and whitening whitens the training data", "statement": "After CentWhiten.fit on more rows than dimensions, the (weighted) training data passed through predict have mean zero, unit variance and zero correlation in every output coordinate; one output coordinate per positive eigenvalue of the covariance; the first element of every axis is not negative. With no more rows than dimensions the transformation is only a rotation of the centred data.", "quantifier": "all data sets, sample weights of non-zero total, dimensions", "why_tests_cant": "all data sets and dimensions, including degenerate ones", "anchors": ["hyperion/transforms/cent_whiten.py: CentWhiten.fit, predict", "hyperion/pdfs/core/normal.py: Normal.Mstep, Sigma"]}
{"id": "C73", "title": "Length normalisation", "statement": "LNorm keeps the direction of every vector and gives it a norm of at most sqrt(dim), equal to sqrt(dim) up to a factor 1-1e-10 for inputs of norm at least one; zero vectors stay zero.", "quantifier": "all vectors", "why_tests_cant": "all vectors, including zero", "anchors": ["hyperion/transforms/lnorm.py: LNorm.predict"]}
{"id": "C74", "title": "PCA finds the directions of largest variance", "statement": "PCA.fit stores orthonormal directions; the transformed training data have mean zero, uncorrelated coordinates and non-increasing variances; no other set of as many orthonormal directions keeps more of the energy of the centred data. It raises exactly when pca_dim exceeds the dimension.", "quantifier": "all data sets, dimensions, pca_dim and all competing sets of directions", "why_tests_cant": "optimality over all frames", "anchors": ["hyperion/transforms/pca.py: PCA.fit, predict"]}
{"id": "C75", "title": "LDA whitens within classes and maximises between-class variance", "statement": "SbSw.fit stores the mean of the class means, their covariance and the average within-class covariance, every class counting the same; an LDA trained on it gives output coordinates that are uncorrelated with unit variance within classes and uncorrelated with non-increasing variances between class means, and no other directions normalised in the same way have a larger between-class variance.", "quantifier": "all labelled data sets with invertible within-class matrix, all lda_dim and all competing directions", "why_tests_cant": "optimality over all frames, all class sizes", "anchors": ["hyperion/transforms/lda.py: LDA.fit, predict", "hyperion/transforms/sb_sw.py: SbSw.fit, normalize"]}
{"id": "C76", "title": "Between/within class statistics can be computed on parts", "statement": "Raw statistics (normalize=False) of parts of a data set that share no class add up to those of the whole; SbSw.accum_stats is meant to return that sum but returns an object without statistics, whose normalisation raises.", "quantifier": "all partitions of labelled data by class", "why_tests_cant": "all partitions", "anchors": ["hyperion/transforms/sb_sw.py: SbSw.__init__, fit, accum_stats, normalize"]}
{"id": "C77", "title": "Global mean and variance normalisation", "statement": "After MVN.fit the transformed training data have mean zero and mean square one in every coordinate that is not constant.", "quantifier": "all data sets and coordinates", "why_tests_cant": "all data sets", "anchors": ["hyperion/transforms/mvn.py: MVN.fit, predict"]}
{"id": "C78", "title": "Gaussianisation is a monotone rank mapping", "statement": "After Gaussianizer.fit, predict never fails and maps a value to the normal quantile of (number of stored background values below it + 1)/(number stored + 2), strictly between 0 and 1; order is never reversed and values on both sides of a stored value are told apart. fit keeps all values up to max_vectors, otherwise max_vectors of them including the extremes; max_vectors=None raises.", "quantifier": "all background sets, max_vectors and test values", "why_tests_cant": "all data, ties, sizes around max_vectors", "anchors": ["hyperion/transforms/gaussianizer.py: Gaussianizer.fit, predict"]}
{"id": "C79", "title": "Nuisance attribute projection removes the nuisance directions", "statement": "With orthonormal nuisance directions, NAP.predict leaves no component along them, is idempotent, leaves vectors without nuisance component unchanged and preserves the inner products with them.", "quantifier": "all orthonormal U and all vectors", "why_tests_cant": "all vectors and subspaces", "anchors": ["hyperion/transforms/nap.py: NAP.predict"]}
{"id": "C80", "title": "PLDA verification score is the log likelihood ratio", "statement": "llr_1vs1 of the full-rank, simplified and full PLDA models returns, for every pair of vectors, the logarithm of the ratio of the probability density of both vectors having one speaker to that of having two independent speakers, the densities being integrals over the unknown speaker variable (and, for PLDA, over the channel variable of each vector).", "quantifier": "all dimensions, positive definite parameters and pairs of vectors", "why_tests_cant": "an identity between a matrix formula and integrals for all parameters and inputs", "anchors": ["hyperion/pdfs/plda/frplda.py: FRPLDA.llr_1vs1", "hyperion/pdfs/plda/splda.py: SPLDA.llr_1vs1", "hyperion/pdfs/plda/plda.py: PLDA.llr_1vs1, compute_aux", "hyperion/utils/math.py: invert_pdmat, invert_trimat, logdet_pdmat"]}
{"id": "C81", "title": "Many-to-many PLDA scoring", "statement": "llr_NvsM_book of the full-rank model gives for every pair of classes the log likelihood ratio of the whole sets of vectors (and is symmetric); savg gives the average of all pairwise scores; vavg scores the averages of the vectors.", "quantifier": "all labelled data sets and class pairs", "why_tests_cant": "all data sets and class sizes, including repeated and different class sizes in one call", "anchors": ["hyperion/pdfs/plda/frplda.py: FRPLDA.llr_NvsM_book", "hyperion/pdfs/plda/plda_base.py: PLDABase.compute_stats_hard, llr_NvsM_savg, llr_NvsM_vavg"]}
{"id": "C82", "title": "PLDA speaker posterior", "statement": "compute_py_g_x returns the mean, covariance and log density at zero of the posterior distribution of the speaker variable given the vectors of a speaker. For simplified PLDA this holds only when the model mean is zero or every speaker has one vector: otherwise the returned mean is wrong.", "quantifier": "all models and labelled data sets", "why_tests_cant": "Bayes rule for all data and parameters", "anchors": ["hyperion/pdfs/plda/frplda.py: FRPLDA.compute_py_g_x", "hyperion/pdfs/plda/splda.py: SPLDA.compute_py_g_x"]}
{"id": "C83", "title": "The reported PLDA training objective is the log likelihood", "statement": "elbo(Estep(D)) equals the log likelihood of the training vectors under the model (integrated over speakers and channels). For SPLDA and PLDA this needs a zero mean or single-vector speakers: otherwise the reported value can exceed the log likelihood.", "quantifier": "all models and labelled data sets", "why_tests_cant": "an identity between sufficient-statistics formulas and integrals", "anchors": ["hyperion/pdfs/plda/frplda.py: FRPLDA.elbo, Estep", "hyperion/pdfs/plda/splda.py: SPLDA.elbo, Estep", "hyperion/pdfs/plda/plda.py: PLDA.elbo"]}
{"id": "C84", "title": "Full-rank PLDA training never lowers the likelihood", "statement": "With W fixed, every epoch of FRPLDA.fit keeps B positive definite and does not lower the likelihood of the training data, for any number of epochs; the reported objectives are non-decreasing. When W is updated the likelihood can decrease, since the update leaves out the posterior covariances.", "quantifier": "all data sets, initial models and numbers of epochs", "why_tests_cant": "all runs of any length", "anchors": ["hyperion/pdfs/plda/frplda.py: FRPLDA.MstepML, Estep", "hyperion/pdfs/plda/plda_base.py: PLDABase.fit"]}
{"id": "C85", "title": "Simplified PLDA training never lowers the likelihood", "statement": "Every epoch of SPLDA.fit (maximum likelihood and minimum divergence steps in any combination and any options) does not lower the likelihood of the training data and the reported objectives are non-decreasing, as long as the mean is fixed at zero or every speaker has one vector and the minimum-divergence step does not update V alone. Otherwise the likelihood can decrease (mean update with several vectors per speaker; minimum-divergence step with update_mu=False).", "quantifier": "all data sets, initial models, options and schedules of steps", "why_tests_cant": "all runs of any length", "anchors": ["hyperion/pdfs/plda/splda.py: SPLDA.MstepML, MstepMD, Estep", "hyperion/pdfs/plda/plda_base.py: PLDABase.fit"]}
{"id": "C86", "title": "Short-time analysis covers the signal with whole frames", "statement": "stft, strft and st_logE cut a signal of at least frame_length samples into the largest number of whole frames, frame i starting at i*frame_shift; st_logE entry i is the log energy of frame i. A signal shorter than a frame gives no frames, unless it is shorter than frame_length-frame_shift, which raises.", "quantifier": "all signals, frame lengths and shifts", "why_tests_cant": "all lengths and boundary cases", "anchors": ["hyperion/feats/stft.py: stft, strft, st_logE"]}
{"id": "C87", "title": "The inverse short-time transforms recover the signal", "statement": "istft(stft(x)) and istrft(strft(x)) (even FFT length, at least the frame length) return the samples covered by frames wherever the overlapped windows do not vanish; a FFT shorter than the frame makes the inverse raise, and an odd FFT length makes istrft return a wrong signal.", "quantifier": "all signals, windows, frame lengths, shifts and FFT lengths", "why_tests_cant": "holds for every signal and window", "anchors": ["hyperion/feats/stft.py: istft, istrft"]}
{"id": "C88", "title": "Filter state makes processing in pieces equal to processing at once", "statement": "The offset removal and preemphasis filters satisfy their difference equations; filtering a signal in pieces gives the same samples as filtering it at once. EnergyVAD keeps the state between calls, so its log energies for a wave depend on the waves since the last reset exactly through the filtered concatenation, and reset makes them independent of the past.", "quantifier": "all signals, coefficients and call histories", "why_tests_cant": "all histories of calls", "anchors": ["hyperion/feats/energy_vad.py: EnergyVAD", "hyperion/feats/mfcc.py: MFCC.compute"]}
{"id": "C89", "title": "snip_edges=False gives one frame per shift", "statement": "With snip_edges=False and frames of at least two shifts, a non-empty wave is padded by reflection such that round(len/shift) frames result and the samples stay in place; with shorter frames some lengths raise. With snip_edges=True the wave is unchanged.", "quantifier": "all waves, frame lengths and shifts", "why_tests_cant": "all lengths", "anchors": ["hyperion/feats/energy_vad.py: EnergyVAD.compute", "hyperion/feats/mfcc.py: MFCC.compute"]}
{"id": "C90", "title": "Energy VAD decisions", "statement": "Without context, EnergyVAD marks a frame as speech exactly if its log energy is above threshold + scale * mean log energy; a higher threshold marks fewer frames; with scale 1 the decisions do not change under a gain of the log energies. With vad_frames_context > 0 compute always raises.", "quantifier": "all waves, log energies and parameters", "why_tests_cant": "all inputs", "anchors": ["hyperion/feats/energy_vad.py: EnergyVAD.compute"]}
{"id": "C91", "title": "Filter banks", "statement": "The mel and inverse mel maps are inverse and increasing. Filters of the Kaldi-style mel bank are non-negative triangles of height at most one on the mel axis, the DC bin and the last bin have no weight, and neighbouring filters sum to one between the first and the last centre; bin j is however taken at the frequency j*fs/(fft_length-1). Linear and ETSI filters are triangles over bins; filter normalisation makes every filter with weight sum to one. Odd FFT lengths with a bank up to the Nyquist frequency raise.", "quantifier": "all sampling rates, FFT lengths, numbers of filters and frequency ranges", "why_tests_cant": "all configurations", "anchors": ["hyperion/feats/filter_banks.py: FilterBankFactory"]}
{"id": "C92", "title": "Windows", "statement": "FeatureWindowFactory returns windows of the requested length exactly for the five documented names, with values in [0,1], positive except possibly at the first point, and periodically symmetric; two Hann windows at half overlap sum to one; analysis and resynthesis with any of the windows returns every covered sample except possibly the first, which is lost (returned as 0) with the Povey, Hann and Blackman windows.", "quantifier": "all lengths and window types", "why_tests_cant": "all lengths", "anchors": ["hyperion/feats/feature_windows.py: FeatureWindowFactory"]}
{"id": "C93", "title": "The MFCC pipeline can be stopped and continued", "statement": "Stopping at the magnitude spectrum or at the log filter banks (with energy) and continuing later gives what the one-step computation gives; so does stopping at the complex spectrum without energies or with non-negative log energies. With negative log energies (complex spectrum), for the log spectrum and for log filter banks without energies this fails. The argument of compute is unchanged unless energies are used and input and output step are the same, in which case its first column is overwritten.", "quantifier": "all waves, configurations, filter banks, filter states and pairs of steps", "why_tests_cant": "all combinations of steps and options", "anchors": ["hyperion/feats/mfcc.py: MFCC.compute"]}
{"id": "C94", "title": "MFCC values, shapes and state", "statement": "From a wave with at least one frame, compute returns one row per frame: log filter bank outputs preceded by the floored log energy, or num_ceps liftered DCT coefficients with the floored log energy first. More cepstra than filters raise with a lifter. The FFT length holds a frame. The energy from the spectrum averages over half the spectrum, so it is not the frame energy. Calls since the last reset act as one signal for the filters.", "quantifier": "all waves, configurations, filter banks and histories of calls", "why_tests_cant": "all inputs and call histories", "anchors": ["hyperion/feats/mfcc.py: MFCC"]}
{"id": "C95", "title": "HDF5 archives read back what was written", "statement": "Arrays written under distinct slash-free keys, in any number of write calls with any mix of plain and compressed arrays, are accepted, and the sequential reader returns every key once in increasing order with its array (plain ones unchanged, compressed ones decoded); writing a key twice raises. A key with a slash is accepted by the writer but makes sequential reading of the archive raise.", "quantifier": "all lists of records, keys and arrays", "why_tests_cant": "unbounded sets of keys and arrays; the order of reading differs from that of writing", "anchors": ["hyperion/io/h5_data_writer.py: H5DataWriter.write", "hyperion/io/h5_data_reader.py: SequentialH5FileDataReader"]}
{"id": "C96", "title": "Sequential HDF5 reading covers every record once", "statement": "Any sequence of read(n) calls of the sequential HDF5 reader returns consecutive records without gap or repetition; read_shapes returns the shapes of the arrays; reset starts again (but does nothing once closed, after which reading raises); the parts of num_parts readers, split by position or by key, cover the archive exactly once.", "quantifier": "all archives, batch sizes, numbers of parts", "why_tests_cant": "all call sequences and partitions", "anchors": ["hyperion/io/h5_data_reader.py: SequentialH5FileDataReader.read, read_shapes, reset; H5DataReader.close"]}
{"id": "C97", "title": "HDF5 row ranges and random access", "statement": "read(row_offset, num_rows) returns exactly those rows of every record (integer or per-record lists), raising when they do not exist; random access by key returns for every requested key, in the requested order, the rows of its array, and for a missing key an empty array if permissive, an exception otherwise; a closed reader raises; shapes likewise, with an exception for the empty list of keys.", "quantifier": "all archives, key lists, ranges", "why_tests_cant": "all combinations of ranges and keys", "anchors": ["hyperion/io/h5_data_reader.py: _read_h5_data, RandomAccessH5FileDataReader.read, read_shapes"]}
{"id": "C98", "title": "HDF5 script readers", "statement": "The script file produced while writing loads to a list through which sequential reading returns the arrays in the order of writing and random access returns the array of every requested key; for any list, also with row ranges and several files, sequential and random access return the rows of the entry, independently of which files are open; reset works after close. Row requests inside the range of an entry are rows of that range, but a request beyond the range of an entry returns rows outside it.", "quantifier": "all lists, files, requests", "why_tests_cant": "all histories of open handles and all ranges", "anchors": ["hyperion/io/h5_data_reader.py: SequentialH5ScriptDataReader, RandomAccessH5ScriptDataReader", "hyperion/io/h5_data_writer.py: H5DataWriter.write"]}
{"id": "C99", "title": "squeeze of read arrays", "statement": "With squeeze=True arrays of one shape are stacked in the order of the keys; a permissive reader replaces a missing array by zeros of the shape of the first; arrays of different shapes, no arrays, or an empty array in a non-permissive reader raise; a permissive call raises when the first key is the missing one, so the result depends on the order of the keys.", "quantifier": "all lists of arrays", "why_tests_cant": "all shapes and positions of missing arrays", "anchors": ["hyperion/io/data_reader.py: DataReader._squeeze", "hyperion/io/h5_data_reader.py: RandomAccessH5FileDataReader.read"]}
{"id": "C100", "title": "Merging HDF5 files", "statement": "H5Merger.merge of files with uncompressed arrays and distinct keys produces, for every chunk size, a file with exactly the arrays of the inputs; a key in two inputs raises; without chunk size an empty input raises; compressed arrays are merged into their codes without the attributes, so that they no longer read back; read_slice returns the rows asked for or silently fewer.", "quantifier": "all files, keys, chunk sizes", "why_tests_cant": "all numbers and sizes of inputs and chunks", "anchors": ["hyperion/io/h5_merger.py: H5Merger.merge", "hyperion/io/hyp_data_reader.py: HypDataReader.read, read_slice", "hyperion/io/hyp_data_writer.py: HypDataWriter.write"]}
{"id": "C101", "title": "Gaussian score calibration", "statement": "GaussCalibration.predict after training returns the log likelihood ratio of two Gaussian densities with the trained means and shared variance; adding the log prior odds gives the log posterior odds. fit (weighted or not) computes the weighted class means, the pooled weighted variance and the weighted target proportion, which maximise the weighted log likelihood; the result does not depend on the order of the scores nor on the scale of the weights, is equivariant under affine changes of the scores, preserves score order exactly when the target mean is larger, and is undefined when a class is missing.", "quantifier": "all scores, labels, weights and parameters", "why_tests_cant": "real-valued inputs and optimality over all parameters", "anchors": ["hyperion/calibration/gauss_calibration.py: GaussCalibration.fit, predict"]}
{"id": "C102", "title": "Gaussian back-end scoring", "statement": "LinearGBE.predict: the llk method returns the log density of every class Gaussian; the linear method differs from it by a term common to the classes, so that score differences are log likelihood ratios and decisions agree with the densities; normalised scores of both methods are log posteriors for equal priors; an unknown method raises. The predictive method gives the posteriors of the Student t predictive distribution when all classes have the same count, but is wrong when counts differ.", "quantifier": "all models with positive definite precision, all observations", "why_tests_cant": "real-valued models and observations of every dimension", "anchors": ["hyperion/classifiers/linear_gbe.py: LinearGBE.predict, eval_linear, eval_llk, eval_predictive"]}
{"id": "C103", "title": "Gaussian back-end training", "statement": "LinearGBE.fit without prior maximises the (balanced or unbalanced) weighted log likelihood over all means and precisions that may be updated; with a prior it maximises the posterior density (Normal-Wishart form); parameters that are not updated are kept; a class without data makes the result undefined even with a prior; adapting to two data sets one after the other equals adapting to both; class ids and weights select the rows of each class and an id beyond the number of classes raises.", "quantifier": "all data, weights, options and priors", "why_tests_cant": "optimality over all parameters", "anchors": ["hyperion/classifiers/linear_gbe.py: LinearGBE.fit, _load_prior, _int2onehot"]}
{"id": "C104", "title": "Q-scoring back-end", "statement": "QScoringHomoGBE: the score of a class is the log of the integral of the product of the class Gaussian and the observation Gaussian divided by the standard normal prior, normalised scores are log posteriors. Training gives for every class the posterior of its mean under a standard normal prior with the weighted observation likelihoods; trained precisions keep scoring valid for variances at most one; post_N only rescales counts and precision; with weights that sum to one and no prior balance_class_weight has no effect; with balance off, precision ignores weights and prior; prior_N with a prior raises; order of observations is irrelevant.", "quantifier": "all observations, weights, options", "why_tests_cant": "real-valued inputs; integrals", "anchors": ["hyperion/classifiers/q_scoring_homo_gbe.py: QScoringHomoGBE.fit, predict, _load_prior"]}
{"id": "C105", "title": "Logistic regression and SVM wrappers", "statement": "The weights given to the optimiser sum, over the observations of each class, to the prior of the class; sample weights multiply them, and the caller's array is overwritten. After training, logits are log likelihood ratios: posteriors for the training priors are those of the optimised model when bias_scaling is one, and are not otherwise. Posterior, log posterior and decision threshold agree with Bayes' rule. Missing or dictionary priors raise in multinomial training. Saving and loading preserves logistic regression scores, but multiplies the bias of a support vector machine by bias_scaling; the SVM's bin-logpost has the wrong sign; lambda_reg and lr_seed of the binary model have no effect.", "quantifier": "all data, weights, priors, optimiser results and numbers of reloads", "why_tests_cant": "every optimiser result and every real input", "anchors": ["hyperion/classifiers/logistic_regression.py: LogisticRegression.fit, predict", "hyperion/classifiers/binary_logistic_regression.py: BinaryLogisticRegression", "hyperion/classifiers/linear_svmc.py: LinearSVMC"]}
{"id": "C106", "title": "Trial evaluation from files", "statement": "The trial scoring scripts (cosine, PLDA) in the enroll-test set succeed exactly when every model of the trial list is enrolled by exactly one row of the enrolment file and all vectors can be read; the score written for a model and a segment is the back-end score of the transformed vector enrolled for that model and the transformed vector of that segment, whatever the order of the files. coh-test scores all rows of the enrolment file. The enroll-coh and coh-coh sets, and any division in parts, always raise. Cosine scores are the dimension times the cosine, symmetric and bounded; frplda and splda scores are the log likelihood ratios of the model.", "quantifier": "all trial lists, enrolment files, vector archives, preprocessing maps and score functions", "why_tests_cant": "Ranges over all trial lists, file orders and archives; a test fixes one of each.", "anchors": ["hyperion/bin/eval-cos-1vs1.py", "hyperion/bin/eval-plda-1vs1.py", "hyperion/helpers/trial_data_reader.py:TrialDataReader", "hyperion/utils/trial_ndx.py:TrialNdx.parse_eval_set"]}
{"id": "C107", "title": "Two-class performance script", "statement": "The performance script succeeds exactly when the scores know the names of the key, score all its labelled trials, and there is at least one target and one nontarget trial; the numbers of trials written are those of the key each counted once, and the equal error rate is computed from the scores of exactly these trials, lies between 0 and 1/2, and is not beaten by any threshold. Whenever the trials of a key were scored with the evaluation script the performance script succeeds on the result.", "quantifier": "all score objects and keys over any linearly ordered field; all evaluation runs", "why_tests_cant": "Ranges over all scores, keys and evaluation runs.", "anchors": ["hyperion/bin/eval-2class-performance.py", "hyperion/utils/trial_scores.py:TrialScores.get_tar_non", "hyperion/metrics/eer.py"]}
{"id": "C108", "title": "Classification scripts and score tables", "statement": "The classification scripts succeed exactly when class and segment names are distinct, there are segments whose vectors can be read, and the model gives one score per class of the class list; the score of class i and segment s is entry i of the prediction for the vector of s. vectors2scores stores entry i of the vector of s as the score of class i. The language recognition table has a heading with the classes, then one line per segment of the test list with its original name and the score of each class, -100 for missing scores.", "quantifier": "all class lists, segment lists, archives, models and score objects", "why_tests_cant": "Ranges over all lists, archives and score objects.", "anchors": ["hyperion/bin/eval-linear-gbe.py", "hyperion/bin/eval-logistic-regression.py", "hyperion/bin/vectors2scores.py", "hyperion/bin/scores2lre_format.py", "hyperion/helpers/classif_trial_data_reader.py:ClassifTrialDataReader"]}
{"id": "C109", "title": "Covariance flooring", "statement": "Flooring a covariance S by a minimum covariance F gives a positive definite covariance that is at least F and at least S, is S itself when S is at least F, and has the highest Gaussian likelihood for data with covariance S among all covariances at least F. The result is the same for every factor of F, lower or upper triangular, and is equivariant under invertible linear maps. The version on Cholesky factors returns the factor of the same covariance; a number f as floor stands for f times the identity (f squared on factors).", "quantifier": "all dimensions, positive semidefinite S, positive definite F and factors; every SVD and Cholesky routine satisfying its specification", "why_tests_cant": "Ranges over all matrices and all factorisation routines; optimality is over an uncountable set of covariances.", "anchors": ["hyperion/utils/math.py:fullcov_varfloor", "hyperion/utils/math.py:fullcov_varfloor_from_cholS"]}
{"id": "C110", "title": "Full-covariance Gaussian", "statement": "Scoring a vector gives the log density of the Gaussian, from natural and standard parameters alike; conversion between the parameters is a bijection and the two normalisers agree; the dimension is recovered from the number of natural parameters exactly. fit succeeds exactly when the total weight is not zero and the weighted covariance is positive definite (never with at most as many vectors as dimensions), returns weighted mean and inverse weighted covariance and reports the log likelihood, which no other Gaussian exceeds; without updates parameters are kept. Normalised statistics are not whitened (defect).", "quantifier": "all dimensions, data, weights and parameters over the reals; every Cholesky routine", "why_tests_cant": "Ranges over all data and all competing Gaussians.", "anchors": ["hyperion/pdfs/core/normal.py:Normal", "hyperion/pdfs/core/exp_family.py:ExpFamily"]}
{"id": "C111", "title": "Mixtures of full-covariance Gaussians", "statement": "A model scores with the log mixture density within 1e-20. An epoch sets the means to the share-weighted means and the covariances to the likelihood-optimal covariances above the minimum covariance (var_floor times the mean covariance of the components); it succeeds exactly when that minimum is positive definite, never with a non-positive var_floor; weights never change in training. Training of the means never decreases the likelihood; training of covariances does not when the weighted or previous covariances are above the minimum, and can otherwise. The bound reported is the likelihood minus the entropy of the posteriors.", "quantifier": "all numbers of components, dimensions, data with nonnegative weights, batch sizes, options and numbers of epochs", "why_tests_cant": "Ranges over all data, models and training histories.", "anchors": ["hyperion/pdfs/mixtures/gmm.py:GMM", "hyperion/pdfs/mixtures/exp_family_mixture.py:ExpFamilyMixture"]}
{"id": "C112", "title": "Sub-sequence reader: cyclic modes", "statement": "The sub-sequences a sequence counts for start at multiples of maximum length minus overlap, lie inside the sequence, have the maximum length except possibly the last, which has at least the minimum length, and leave fewer rows than the minimum length uncovered. In sequential mode the reads of an epoch deliver batches of the batch size; of every sequence they deliver its first sub-sequences, in order and without repetition, and all of them when the batches exhaust the total. In the random modes every sequence delivers at most its count, each inside the sequence with the right length. No read of an epoch raises when the total is at least batch size times number of sequences; otherwise a read can raise in the middle of an epoch (defect).", "quantifier": "all lists of sequences with distinct names, lengths, options with overlap below the maximum length, shufflings, random generators, starting states at an epoch boundary and numbers of reads in the epoch", "why_tests_cant": "Ranges over all data lists and all histories of reads and random draws.", "anchors": ["hyperion/helpers/sequence_reader.py:SequenceReader", "hyperion/io/hyp_data_reader.py:HypDataReader"]}
{"id": "C113", "title": "Sequence reader: one item per sequence", "statement": "With whole sequences or one random sub-sequence per sequence, the reads of an epoch do not raise and deliver, in the order of the list and in batches of the batch size, every eligible sequence once: all its rows, or a slice (consecutive rows) or sorted sample of rows of the sequence of length the minimum of maximum length and sequence length. Sequences of exactly the minimum length are counted as eligible but not read as whole sequences, so the last reads of an epoch raise (defect).", "quantifier": "all lists of sequences, lengths, options, shufflings, random generators, starting states at an epoch boundary and numbers of reads", "why_tests_cant": "Ranges over all data lists and all histories of reads and random draws.", "anchors": ["hyperion/helpers/sequence_reader.py:SequenceReader"]}
{"id": "C114", "title": "Confusion matrix and accuracy", "statement": "compute_confusion_matrix returns, for distinct labels of which one occurs as a true label, the matrix whose entry (a, b) is the total weight of the samples with true label a and predicted label b (default labels: all labels in increasing order; default weight 1); normalised, every row is divided by its sum, so that with non-negative weights it is a distribution, and rows without samples are nan. It raises exactly when numbers of samples differ or no label is a true label. compute_accuracy is the (share of the) weight of the correct samples, which is the diagonal over the total of the matrix.", "quantifier": "all label types with a total order, label sequences, label lists and weights over a field", "why_tests_cant": "Ranges over all label sequences and weights.", "anchors": ["hyperion/metrics/confusion_matrix.py:compute_confusion_matrix", "hyperion/metrics/acc.py:compute_accuracy"]}
{"id": "C115", "title": "Confusion matrix with different labels in training and test", "statement": "compute_xlabel_confusion_matrix returns the matrix whose entry (a, b) is the total weight of the samples with true label a and predicted label b, provided no test label equals a training label plus the number of test labels (always so for class numbers); otherwise samples are lost (defect). The call shifts the caller's arrays of predictions and training labels in place, so a second call can return a zero matrix (defect); string labels always raise (defect).", "quantifier": "all integer label sequences, label lists and weights over a field", "why_tests_cant": "Ranges over all label sequences and weights; the failures depend on coincidences of labels.", "anchors": ["hyperion/metrics/confusion_matrix.py:compute_xlabel_confusion_matrix"]}
{"id": "C116", "title": "Accuracy metrics of torch models", "statement": "CategoricalAccuracy is the share of the weight of the samples whose predicted class, the one with the largest score, is the target class; it lies in [0,1]; targets may be class numbers or rows with one largest element. The summed binary accuracy is the weight of the elements whose decision equals the target; the mean binary accuracy raises for more than one element (defect).", "quantifier": "all score matrices, targets, weights over an ordered field and every choice among equal scores", "why_tests_cant": "Ranges over all scores, targets and tie-breaking rules.", "anchors": ["hyperion/torch/metrics/accuracy_functional.py:categorical_accuracy", "hyperion/torch/metrics/accuracy_functional.py:binary_accuracy"]}
{"id": "C117", "title": "What a model file keeps of a model", "statement": "save writes a model file exactly when the path has a directory part, the class is not the full-covariance GMM and the name is one HDF5 takes beside 'config'; load then succeeds exactly when the class can be loaded at all (not the Gaussian pdfs, the mixtures, SbSw, GaussCalibration: defects), every parameter was set, and the dimensions read off the parameters exist. The loaded model has the same class and name, every parameter rounded to the precision of the file, the kept options as they were (integer class labels of a weight dictionary become strings), the dimensions of the parameters, and the forgotten options (update flags of the linear transforms, priors, regularisation) at their defaults. A second cycle changes nothing. The class name in the file is not checked.", "quantifier": "all objects of 27 model classes, all names, parameter values, option values, paths, and every idempotent rounding", "why_tests_cant": "Ranges over all classes, values and names.", "anchors": ["hyperion/hyp_model.py:HypModel", "hyperion/transforms/cent_whiten.py:CentWhiten", "hyperion/transforms/lda.py:LDA", "hyperion/pdfs/plda/plda_base.py:PLDABase", "hyperion/classifiers/linear_gbe.py:LinearGBE", "hyperion/classifiers/logistic_regression.py:LogisticRegression"]}
{"id": "C118", "title": "Lists of transforms in files", "statement": "A TransformList/Pipeline gives every transform a name under its own name (raising if one has none); append gives the list constructed with the new transform. A list is saved exactly when no two parameters are stored under or through the same path (two transforms with the same name and a common parameter cannot be saved). It is loaded exactly when all members are of the ten classes that the module knows and of the dimensions they need. The loaded list has the same transforms in the same order with the parameters rounded, so it predicts the same; but each cycle of saving and loading puts the name of the list once more before every name; that does not prevent later cycles. In a list of unnamed transforms a missing parameter is silently taken from another transform (defect).", "quantifier": "all lists of transforms, names, parameter values, numbers of cycles and prediction functions of the parameters", "why_tests_cant": "Ranges over all lists and numbers of cycles.", "anchors": ["hyperion/transforms/transform_list.py:TransformList", "hyperion/pipeline/pipeline.py:Pipeline"]}
{"id": "C119", "title": "Segment lists: filter, split, merge, iteration", "statement": "A SegmentList accepts a table iff no segment ends before it starts. filter(keys) raises iff a key (file, or segment id when indexed by segment) has no row and otherwise gives for each key in the given order its rows; filter(keys, keep=False) never raises and keeps exactly the segments with other keys, keys in increasing order, each key's segments in table order. split(idx,P) for idx=1..P, put together, is all segments, files in increasing order, each file in one part only (indexed by file), or the table itself (indexed by segment, different ids; a repeated id multiplies its rows: defect). merge concatenates. Iterating a list indexed by file works iff every file has two or more segments (defect), access by position ignores the position (defect).", "quantifier": "all segment tables, key lists, numbers of parts", "why_tests_cant": "Ranges over all tables and job counts.", "anchors": ["hyperion/utils/segment_list.py:SegmentList"]}
{"id": "C120", "title": "VAD scripts for segment files and diarisations", "statement": "segments-to-bin-vad with a listing that has every file once writes one record per file in increasing order, of the listed length, in which frame t is 1 iff a segment of the file covers it. The records of P parallel jobs, one after the other, are those of a single job. rttm-to-bin-vad does the same for the converted diarisation and, in part 1, adds an all-ones record for every listed file the whole diarisation does not have. A file missing or repeated in the listing raises; so does any run without the (optional) listing (defect).", "quantifier": "all segment tables and diarisations with non-negative times and durations, listings, frame shifts, numbers of jobs", "why_tests_cant": "Ranges over all tables and job counts.", "anchors": ["hyperion/bin/segments-to-bin-vad.py:segments_to_bin_vad", "hyperion/bin/rttm-to-bin-vad.py:rttm_to_bin_vad"]}
{"id": "C121", "title": "Speech intervals in OpenSAT format", "statement": "For every non-empty 0/1 VAD of n frames the intervals written by arkvad2nist/h5vad2nist begin at 0, end at n, follow each other without gap or overlap, alternate between speech and non-speech; the interval containing frame f carries the label of frame f+1 (the last frame's for the last): every region is written one frame early, and an isolated first frame gives an empty interval (defects). The file has one line of nine tab-separated fields per interval with times in hundredths. An empty VAD raises.", "quantifier": "all binary VADs and keys without tabs or line breaks", "why_tests_cant": "Ranges over all sequences.", "anchors": ["hyperion/bin/arkvad2nist.py:bin2intervals", "hyperion/bin/arkvad2nist.py:write_opensat", "hyperion/bin/h5vad2nist.py:bin2intervals"]}
{"id": "C122", "title": "Error rates depend only on the order of the scores", "statement": "The EER is the minimum cost at the worst prior: the one number e such that for every prior some threshold costs at most e and for some prior none costs less. A map strictly increasing on the scores, and any reordering of the trials, leave ROC, hull, EER, break-even point and minimum costs unchanged; so does repeating all targets k and all nontargets m times (EER, minimum cost). Raising target scores or lowering nontarget scores never increases EER or minimum cost. Exchanging targets and nontargets with the opposite sign keeps the EER and the minimum cost for the complementary prior. The EER is zero exactly when every nontarget is below every target.", "quantifier": "all non-empty score lists over an ordered field, all priors, maps, permutations", "why_tests_cant": "Ranges over all score sets and transformations.", "anchors": ["hyperion/metrics/roc.py:compute_roc", "hyperion/metrics/roc.py:compute_rocch", "hyperion/metrics/eer.py:compute_eer", "hyperion/metrics/dcf.py:compute_min_dcf"]}
{"id": "C123", "title": "Copying features keeps every record", "statement": "Copying any list of readable inputs (HDF5 archives, ark archives, script files, in any mixture) to an ark archive does not raise, changes no other file, and the new archive - and its script file, if one is asked for - read back through their specifiers give the records of all the inputs in order, each array as the writer converts it, for every chunk size. Copying to an HDF5 archive gives the same records sorted by key (its script in input order) when the keys are distinct, and raises when a key occurs twice.", "quantifier": "all disks, input lists, record contents, chunk sizes, conversions, output specifiers with an archive", "why_tests_cant": "Ranges over all file contents and mixtures of formats and over the chunk size.", "anchors": ["hyperion/io/copy_feats.py:CopyFeats", "hyperion/io/data_rw_factory.py", "hyperion/io/data_writer.py", "hyperion/io/rw_specifiers.py"]}
{"id": "C124", "title": "When copying features raises or destroys data", "statement": "An ark archive copied onto itself ends up empty, without an exception; an HDF5 archive copied onto itself raises. Copying raises when an output path has no directory part, when the output specifier has only a script, when several inputs or an ark archive without script are to be split in parts, and when an input archive does not exist. A script file whose first line has no blank cannot be opened, whatever the separator option.", "quantifier": "all disks, options and paths", "why_tests_cant": "Failure behaviour on every disk and option.", "anchors": ["hyperion/io/copy_feats.py:CopyFeats", "hyperion/io/data_rw_factory.py", "hyperion/io/data_writer.py", "hyperion/io/rw_specifiers.py"]}
{"id": "C125", "title": "The parts of an input are the input", "statement": "When a script file or an HDF5 archive can be read whole, every part i of P can be read, and the parts one after the other are the whole list of records; copying each part to its own ark archive and reading the archives in order gives all the records, converted.", "quantifier": "all disks, script files and HDF5 archives, numbers of parts, path prefixes", "why_tests_cant": "Ranges over all lists and numbers of parts.", "anchors": ["hyperion/io/copy_feats.py:CopyFeats", "hyperion/io/data_rw_factory.py", "hyperion/io/data_writer.py", "hyperion/io/rw_specifiers.py", "hyperion/utils/scp_list.py:SCPList.split", "hyperion/utils/list_utils.py:split_list"]}
{"id": "C126", "title": "Random access through the factory", "statement": "The archives and scripts written by a copy, opened through the random access factory, return for any list of stored keys, in any order and with repetitions, exactly the arrays of those keys. A key that is not stored gives an empty array when the specifier is permissive and an exception otherwise. An ark archive without its script cannot be opened for random access.", "quantifier": "all disks, inputs, lists of keys", "why_tests_cant": "Ranges over all contents and query lists.", "anchors": ["hyperion/io/copy_feats.py:CopyFeats", "hyperion/io/data_rw_factory.py", "hyperion/io/data_writer.py", "hyperion/io/rw_specifiers.py", "hyperion/io/ark_data_reader.py:RandomAccessArkDataReader", "hyperion/io/h5_data_reader.py:RandomAccessH5FileDataReader"]}
{"id": "C127", "title": "Path prefix of script readers", "statement": "A script opened with a path prefix p - sequentially, whole or in parts, or for random access - reads exactly as it would without prefix from a disk on which each file f named in the script is the file p + f: same records, same exceptions.", "quantifier": "all disks, scripts, prefixes, separators, parts, numbers of records, key lists", "why_tests_cant": "Ranges over all scripts and disks.", "anchors": ["hyperion/io/data_rw_factory.py", "hyperion/utils/scp_list.py:SCPList.add_prefix_to_filepath", "hyperion/io/ark_data_reader.py", "hyperion/io/h5_data_reader.py"]}
{"id": "C128", "title": "Wave specifiers", "statement": "Reading a wave specifier yields a signal exactly when the text, without the white space around it, is either a command followed by a bar whose run ends with return code 0 and whose output decodes, or the path of a decodable file whose extension is one of the supported ones; every sample comes out multiplied by the scale and the sampling frequency unchanged; in all other cases it raises. (Defect proved: .w64 files are always refused.)", "quantifier": "all specifier texts, files, commands, scales", "why_tests_cant": "Ranges over all texts, file systems and command results.", "anchors": ["hyperion/io/audio_reader.py:AudioReader.read_wavspecifier", "hyperion/io/audio_reader.py:AudioReader.read_pipe"]}
{"id": "C129", "title": "Sequential audio reader", "statement": "After any history of reads of k1, k2, ... records, what came out is the first k1+k2+... entries of the script in order, each read from its specifier; the reader is at the end iff all entries were read; a final read() gives all the rest, reset() starts again, a for loop gives all the entries. The P part-readers together read every entry once, all entries of a recording by the same part. (Defect proved: colons and brackets in paths or commands are taken for offsets and ranges.)", "quantifier": "all scripts, worlds, scales, read histories, numbers of parts", "why_tests_cant": "Ranges over all histories of calls and all scripts.", "anchors": ["hyperion/io/audio_reader.py:SequentialAudioReader"]}
{"id": "C130", "title": "Reading segments of recordings", "statement": "A segment [tbeg, tend) of a recording gives the samples from floor(tbeg fs) up to floor(tend fs) or the end of the recording, raising iff it starts past the end; consecutive segments that cover a recording concatenate to the recording exactly. Reads, iteration and parts deliver the segments in order, each once, of the recording named by the segment. (Defects proved: read() with segments counts recordings, negative times count from the end, an open end (tend<0) is refused.)", "quantifier": "all signals, times, segment lists, read histories, numbers of parts", "why_tests_cant": "Ranges over all times, signals and histories.", "anchors": ["hyperion/io/audio_reader.py:AudioReader._read_segment", "hyperion/io/audio_reader.py:SequentialAudioReader"]}
{"id": "C131", "title": "Random-access audio reader", "statement": "Random access by keys gives, for each key in order, the signal of the entry (or of the only segment) with that key, and raises for an absent key or an ambiguous segment; on what the sequential reader delivers, both readers agree.", "quantifier": "all scripts, segment lists, key lists", "why_tests_cant": "Ranges over all scripts and key lists.", "anchors": ["hyperion/io/audio_reader.py:RandomAccessAudioReader.read"]}
{"id": "C132", "title": "Audio writer", "statement": "A call of write stores the records up to the first that fails, each in its own file out/key.format with one script line per stored record, and succeeds iff all were stored; over any history of calls every line of the script names a file that holds a signal written under that name, and other files are untouched. Construction succeeds exactly for supported formats and subtypes. (Defects proved: keys a/b and a-b overwrite each other, PCM_24 always raises, subtypes outside the table raise at the first write.)", "quantifier": "all codecs, configurations, histories of calls, also failing ones", "why_tests_cant": "Ranges over all histories of calls and failures.", "anchors": ["hyperion/io/audio_writer.py:AudioWriter"]}
{"id": "C133", "title": "Audio round trip", "statement": "Whatever sequence of write calls stored signals, opening the written script and iterating gives the same keys in the order of writing, with the stored samples times the scale and the same sampling frequencies; for 16 bit PCM and the default scale 2^15, integer signals in range come back exactly and any other signal within one unit. (Defect proved: a key of dots is written but cannot be read.)", "quantifier": "all sequences of calls with distinct file names, all signals", "why_tests_cant": "Ranges over all signals and call sequences.", "anchors": ["hyperion/io/audio_writer.py:AudioWriter.write", "hyperion/io/audio_reader.py:SequentialAudioReader"]}
{"id": "C134", "title": "Feature extraction jobs", "statement": "compute-mfcc-feats.py writes, for every recording of the script in order, the features of that recording alone (no state leaks between recordings) and one line with its number of frames, up to the first exception; without dither the same work split in P jobs succeeds when the single job does, and the jobs together write the same records, each once.", "quantifier": "all scripts, worlds, MFCC configurations, numbers of jobs", "why_tests_cant": "Ranges over all scripts and splits.", "anchors": ["hyperion/bin/compute-mfcc-feats.py", "hyperion/io/audio_reader.py:SequentialAudioReader"]}
{"id": "C135", "title": "Text-mode archives", "statement": "Records written in text mode (binary=False), grouped in any way in calls, are read back by the sequential reader in any split of the reading, and by random access through the written script: same keys and order, same shapes, single precision, every number as its numeral reads - for single precision data within 1e-6. Binary and text archives may be concatenated. Row ranges raise. (Defects proved: a matrix without rows but with columns is written in a form the reader refuses, one without columns comes back as an empty vector, and an archive cut inside a matrix or after a key is not noticed: an empty vector comes out.)", "quantifier": "all records with printable keys, all arrays (also compressed ones), all reading histories, bufferings and transforms", "why_tests_cant": "Ranges over all sequences of records, arrays and read histories.", "anchors": ["hyperion/utils/kaldi_matrix.py:KaldiMatrix.read", "hyperion/utils/kaldi_matrix.py:KaldiMatrix.write", "hyperion/io/ark_data_writer.py:ArkDataWriter.write", "hyperion/io/ark_data_reader.py:SequentialArkFileDataReader.read", "hyperion/io/ark_data_reader.py:RandomAccessArkDataReader.read"]}
{"id": "C136", "title": "Training a chain of transforms", "statement": "Running the training scripts one after the other, each with the output of the previous one as pre-processing, gives a file that loads as the list of all the trained transforms in order, and every transform in it was fitted on exactly the data that the transforms before it in this file make of the script's data (although every file is rounded to single precision and rewritten by each later script). The chain runs to the end when the fits work, the outputs have a directory and the names are distinct plain names; two models of the same name with a common parameter raise. --no-append-tlist writes the new model alone, --no-save-tlist a file that only the class itself loads. --input-path goes on from the model of a file, or from the first transform with the given name of a list. (Defects proved: train-cw --no-lnorm does not read the input file, the class of the input file is ignored, train-gaussianizer cannot go on from a list.) train-lda.py and train-nda.py fail before they reach their functions (C159); for these the statement is about the functions.", "quantifier": "all chains of scripts of any length, all data, fits and transforms, all names, files and options", "why_tests_cant": "Ranges over all sequences of runs and contents of files.", "anchors": ["hyperion/bin/train-cw.py:train_cw", "hyperion/bin/train-cw.py:load_model", "hyperion/bin/train-pca.py:train_pca", "hyperion/bin/train-gaussianizer.py:train_gauss", "hyperion/bin/train-mvn.py:train_mvn", "hyperion/bin/train-nda.py:train_nda", "hyperion/bin/train-lda.py:train_lda", "hyperion/transforms/transform_list.py:TransformList"]}
{"id": "C137", "title": "Mixtures with a tied diagonal covariance", "statement": "GMMTiedDiagCov: log_prob is the log density of the mixture of Gaussians with the common variance 1/Lambda (with weights pi+1e-15, up to 1e-20); log_prob by natural parameters and by standard parameters agree, and the natural parameters give back mu and Lambda. One EM epoch sets each mean to the weighted mean of its component, the variance to the pooled within-component variance (at least that when floored; exactly that when var_floor=0) and the weights to the shares; what is not updated stays. An epoch that does not raise the variance above its old value (in particular any epoch without floor) does not decrease the log-likelihood of the training data at the weights in use, hence neither do n epochs with var_floor=0; fit succeeds for every number of epochs when the rows have positive weight and every coordinate varies. k-means initialisation gives weights that sum to one and the within-cluster variance. (Proved as well: with the variance floor an epoch may decrease the likelihood.)", "quantifier": "all dimensions, numbers of components, parameters, data, weights, batch sizes and numbers of epochs", "why_tests_cant": "Ranges over all real parameters and data sets and all numbers of epochs.", "anchors": ["hyperion/pdfs/mixtures/gmm_tied_diag_cov.py:GMMTiedDiagCov", "hyperion/pdfs/mixtures/exp_family_mixture.py:ExpFamilyMixture.fit"]}
{"id": "C138", "title": "Splitting mixture components", "statement": "split_comp(K) of GMMDiagCov and GMMTiedDiagCov returns a mixture with K components for each old one, in order; each has 1/K of the weight, a mean one standard deviation away from the old mean in every coordinate (for K=2 the first up, the second down) and the standard deviation divided by K (tied: unchanged). The total weight is preserved, and for K=2 the mean of the mixture too. (Defects proved: for K>2 the mean of the mixture may move; the new model forgets min_N and update_Lambda.)", "quantifier": "all mixtures, dimensions, K and random draws", "why_tests_cant": "Ranges over all real parameters, all K and all random draws.", "anchors": ["hyperion/pdfs/mixtures/gmm_diag_cov.py:GMMDiagCov.split_comp", "hyperion/pdfs/mixtures/gmm_tied_diag_cov.py:GMMTiedDiagCov.split_comp"]}
{"id": "C139", "title": "Uncertainty propagation through whitening and length normalisation", "statement": "For rows that hold means and variances: CentWhitenUP.predict returns the mean and the variances of the centred and whitened vector, and LNormUP.predict those of that vector divided by sqrt(|mean|^2+1e-10), for every random vector with uncorrelated coordinates and the given means and variances; the norm of the means returned by LNormUP is below one. fit uses the means only, and the means of the training rows come out white. (Defects proved: predict overwrites the variances in the caller's array, so that a second call gives other values; LNormUP and LNorm scale to different norms.)", "quantifier": "all dimensions, rows, square transformations and finite distributions with the given moments", "why_tests_cant": "Ranges over all real inputs and all distributions.", "anchors": ["hyperion/transforms/cent_whiten_up.py:CentWhitenUP", "hyperion/transforms/lnorm_up.py:LNormUP"]}
{"id": "C140", "title": "Nearest-neighbour discriminant analysis", "statement": "NSbSw.fit computes, for every direction, the within-class variance around the mean of the K nearest neighbours in the own class and the weighted between-class variance around the mean of the K nearest neighbours in the other classes, with weights min(d_i^a,d_j^a)/(d_i^a+d_j^a) of the distances of the K-th neighbours; both matrices are symmetric and positive semidefinite, do not depend on the order of the rows and follow rotations, scalings and shifts of the data (no ties). fit succeeds for different rows, at least two classes and 2 <= K <= the smallest class; the trained NDA makes the within-class matrix the identity and the between-class matrix diagonal. (Defects proved: K=1 never works since a row is its own neighbour; class numbers with gaps scale the results; the function of train-nda.py, which the script itself never reaches (C159), raises when a class has fewer than ten rows, whatever --k.)", "quantifier": "all data, dimensions, class numbers, K, exponents and similarity transformations", "why_tests_cant": "Ranges over all real data sets and transformations.", "anchors": ["hyperion/transforms/sb_sw.py:NSbSw", "hyperion/transforms/nda.py:NDA", "hyperion/bin/train-nda.py:train_nda"]}
{"id": "C141", "title": "Sparse storage of posteriors", "statement": "to_dense(to_sparse(r, k), C) keeps in every row k largest numbers, divided by their sum, and sets the others to zero, for every outcome of the sort; written to a file and read again it gives the same rows rounded to the type of the file. Kept rows of posteriors are posteriors, no other k components keep more mass, the total absolute change is twice the dropped mass; with k = C nothing changes, and a second pass changes nothing. Keeping none or more than C components raises.", "quantifier": "all matrices, sizes, k and outcomes of the sort (ties included)", "why_tests_cant": "Ranges over all matrices and tie-breaking orders.", "anchors": ["hyperion/bin/compute-gmm-post.py:to_sparse", "hyperion/helpers/sequence_post_reader.py:SequencePostReader"]}
{"id": "C142", "title": "Features with posteriors and class labels", "statement": "In the modes it implements SequencePostReader returns, at every read, the same features, keys and order as SequenceReader, and when every sequence has as many posterior rows as feature rows every sub-sequence comes with the posteriors of exactly its rows; the modes that draw random samples raise. Class readers return for every sequence a row with a one at the line of its class in the class file and zeros elsewhere. (Defect proved: a class file with a repeated name makes reading a sequence of a later class raise.)", "quantifier": "all lists, modes, lengths, random draws, shuffles and numbers of reads; all class files and lists", "why_tests_cant": "Ranges over all random outcomes and histories of reads.", "anchors": ["hyperion/helpers/sequence_post_reader.py:SequencePostReader", "hyperion/helpers/sequence_post_class_reader.py:SequencePostClassReader", "hyperion/helpers/sequence_class_reader.py:SequenceClassReader"]}
{"id": "C143", "title": "The old Kaldi reader and conversion to HDF5", "statement": "KaldiDataReader reads a file with a binary float matrix or vector, or with the text of a matrix, as this array; read(n) returns the next n records of the script and moves the position behind them. For a script with different keys and one file per entry, ark2hyp ends for every chunk size above zero and writes under every key plus field the array of the entry. (Defects proved: the script of an archive cannot be read, since positions are dropped; a chunk size of zero never ends; after read() without a number the position is the number of records returned, so the end is not recognised.)", "quantifier": "all arrays, files, scripts, chunk sizes and positions", "why_tests_cant": "Ranges over all files, scripts and sequences of reads.", "anchors": ["hyperion/io/kaldi_data_reader.py:KaldiDataReader", "hyperion/bin/ark2hyp.py:ark2hyp"], "note": "numerals decoded as for C135"}
{"id": "C144", "title": "Pooling over masked sequences (Keras layers)", "statement": "The weighted mean, mean and standard deviation, mean and log-variance and sum pooling layers return the weighted statistics of the frames: frames of weight zero (padding, in any place and number) and the order of the frames change nothing, a weight n counts as n frames, a common factor of the weights cancels; means lie between the smallest and largest frame with positive weight, the standard deviation is zero only for constant sequences, an affine map of the frames acts on the results. With the mask of CreateMask the result is the plain statistics of the frames that are not mask_value. Dictionary encoding returns for each component the mean of the frames, weighted by softmax assignments, minus its centre; padding changes nothing. (Defect proved: the masked maximum is the maximum of 0 and the frames as soon as one frame is masked.)", "quantifier": "all sequences, weights, dimensions, numbers of padding frames and components", "why_tests_cant": "Ranges over all sequences and paddings.", "anchors": ["hyperion/keras/layers/pooling.py:GlobalWeightedAveragePooling1D", "hyperion/keras/layers/pooling.py:GlobalWeightedMeanStdPooling1D", "hyperion/keras/layers/pooling.py:GlobalWeightedMeanLogVarPooling1D", "hyperion/keras/layers/pooling.py:GlobalWeightedSumPooling1D", "hyperion/keras/layers/pooling.py:LDE1D", "hyperion/keras/layers/masking.py:CreateMask", "hyperion/keras/backend_addons/tensorflow_backend.py:max_with_mask"]}
{"id": "C145", "title": "Gaussian posteriors with standard normal prior (Keras layers)", "statement": "Converting a posterior between any two formats (mean or natural parameter; variance, precision, their logarithms and logistic forms) describes the same Gaussian when the variance is between min_var and one, and one with the variance limited to that range otherwise; unknown formats raise. Pooling over a sequence returns the Gaussian whose density is proportional to the prior times, for each frame, posterior over prior to the power weight times penalty; frames of weight zero and the order change nothing; with nothing observed it is the prior. The class score is the log of the integral of class Gaussian times posterior over prior. (Defect proved: beyond precision 100000 only the precision is limited, so the mean of a long sequence of equal frames grows without bound.)", "quantifier": "all formats, parameters, sequences, weights, penalties and dimensions", "why_tests_cant": "Ranges over all real parameters, sequences and paddings.", "anchors": ["hyperion/keras/layers/pooling.py:GlobalNormalDiagCovPostStdPriorPooling1D", "hyperion/keras/layers/sampling.py:ConvertNormalDiagCovPostStdPriorFmt", "hyperion/keras/layers/scoring.py:CatQScoringDiagNormalHomoPostStdPrior"]}
{"id": "C146", "title": "Divergences and likelihood losses (Keras)", "statement": "The divergence layers and functions return the expectation, under the first Gaussian, of its log-density over beta minus the log-density of the second, in every format, or min_kl when that is larger; with beta one it is not negative and zero only for equal Gaussians. On sequences every frame has its own divergence, times the number of frames with nonzero mean when time_norm is off. diag_normal, nllk_normal_diag_cov and normal_1chol (unit determinant) are minus the Gaussian log-density; categorical_mbr is the probability of the other classes. (Defect proved: the Bernoulli losses pass the prediction as target and are affine in the prediction.)", "quantifier": "all means, variances, formats, beta, dimensions and sequences", "why_tests_cant": "Ranges over all real parameters.", "anchors": ["hyperion/keras/layers/losses.py:KLDivNormalVsStdNormal", "hyperion/keras/layers/losses.py:KLDivNormalVsDiagNormal", "hyperion/keras/objectives.py:kl_normal_vs_std_normal", "hyperion/keras/objectives.py:kl_normal_vs_diag_normal", "hyperion/keras/objectives.py:diag_normal", "hyperion/keras/objectives.py:normal_1chol", "hyperion/keras/losses.py:nllk_normal_diag_cov", "hyperion/keras/losses.py:categorical_mbr"]}
{"id": "C147", "title": "Samplers (Keras)", "statement": "The Gaussian sampler returns num_samples rows per row of the batch, next to each other; for independent standard normal noise the rows are independent and every coordinate is Gaussian with the mean and variance described by the parameters of its row, in every format; unknown formats raise. The sequence sampler repeats one sample over time or draws one per time, as asked; the Bernoulli sampler draws ones with the given probability. (Defect proved: the declared number of rows of the sequence sampler leaves out num_samples.)", "quantifier": "all batches, formats, numbers of samples, lengths and noise", "why_tests_cant": "Statements about distributions and all batches.", "anchors": ["hyperion/keras/layers/sampling.py:NormalDiagCovSampler", "hyperion/keras/layers/sampling.py:TiedNormalDiagCovSampler", "hyperion/keras/layers/sampling.py:BernoulliSampler"]}
{"id": "C148", "title": "Embeddings of long sequences (Keras)", "statement": "With left_context 0, a network whose output frames depend on their own input frames and at most right_context frames after them, and end_context covering that look-ahead, predict_embed pools, for a sequence of any length, exactly the frames that the network would compute on the whole sequence, between begin and end context: the chunks do not show. (Defects proved: with left_context > 0 every frame after the first chunk is stored left_context frames too late; a sequence shorter than the end context lets frames through that lie in it.)", "quantifier": "all networks with that dependence, chunk lengths, contexts, downsampling factors and sequences", "why_tests_cant": "Ranges over all sequence lengths, chunk boundaries and networks.", "anchors": ["hyperion/keras/embed/seq_embed.py:SeqEmbed.predict_embed"]}
{"id": "C149", "title": "Iterators shared by threads", "statement": "A generator wrapped with threadsafe_generator can be advanced by any number of threads: in every interleaving the results of all next(it) calls, in order of completion, are those of one thread making the same calls (no item lost, delivered twice or reordered; StopIteration and exceptions where they would occur alone), and a call that raises does not leave the lock held, so every call that has begun can complete. Without the lock two threads can receive the same item. it.next() (Python 2 style) always raises and takes nothing.", "quantifier": "all iterators, numbers of threads, calls and interleavings", "why_tests_cant": "The property is about all schedules; a test runs a few, and a missing lock almost never shows.", "anchors": ["hyperion/utils/multithreading.py:ThreadSafeIter", "hyperion/utils/multithreading.py:threadsafe_generator"]}
{"id": "C150", "title": "Lists of vectors as three-dimensional arrays", "statement": "to3D_by_seq and to3D_by_class put each sequence (the vectors of each class, in order) into one row with sample weight one, followed by zeros with weight zero; with max_length 0 the rows are as long as the longest, with a smaller max_length the call raises. Statistics pooled with the returned weights are those of the vectors alone.", "quantifier": "all lists of sequences, class ids and lengths", "why_tests_cant": "Ranges over all lists of sequences and class ids.", "anchors": ["hyperion/utils/tensors.py:to3D_by_class", "hyperion/utils/tensors.py:to3D_by_seq"]}
{"id": "C151", "title": "Evaluating a function in batches (Keras)", "statement": "_eval_loop returns, for every batch size and number of samples, the outputs that the function gives on each sample, in order, one array per output; the batches are consecutive, non-empty, cover all samples and all but the last are full. The loss per sequence of weighted_objective_per_sample is the weighted mean of the losses of its frames. (Defects proved: a function that returns one array instead of a list raises; with one weight per sample the weight cancels.)", "quantifier": "all sample-wise functions, sample lists, batch sizes, losses and weights", "why_tests_cant": "Ranges over all sizes and batch boundaries.", "anchors": ["hyperion/keras/keras_utils.py:make_batches", "hyperion/keras/keras_utils.py:_eval_loop", "hyperion/keras/keras_utils.py:weighted_objective_per_sample"]}
{"id": "C152", "title": "Checkpoints and learning-rate steps (Keras)", "statement": "With save_best_only, after every history of epochs the checkpoint holds the model of the first epoch with the best value of the metric so far (epochs without the metric do not count); otherwise every epoch is stored under its own path. The learning rate after each epoch is that of the latest step met since training began. CallbacksFactory creates a checkpoint, a log and exactly the callbacks asked for, and raises exactly when lr_inc_factor is given together with lr_patience. (Defects proved: the arguments mode and period of the checkpoint have no effect, so mode='max' may keep the minimum; steps given on the command line never apply.)", "quantifier": "all histories of epochs and metric values, paths, step tables and options", "why_tests_cant": "Ranges over all histories of a training.", "anchors": ["hyperion/keras/callbacks/checkpointers.py:HypModelCheckpoint", "hyperion/keras/callbacks/lr_schedulers.py:LearningRateSteps", "hyperion/keras/helpers/callbacks_factory.py:CallbacksFactory.create_callbacks"]}
{"id": "C153", "title": "Fold and part lists as objects: files, alignment, names", "statement": "A TrainValEvalList without part names, saved and loaded with the same separator, keeps keys and parts (the mask is lost); a text file of fold, separator and key lines is loaded by FoldList as that list if the fold numbers have no gaps. align_with_key gives exactly the requested keys, each with part and mask of its first occurrence; with a missing key it raises or, without raise_missing, changes nothing. A part is found by name exactly if it is one of the part names. The length of a part list is the number n with parts 0..n-1 in use. The training and test keys of a fold are the unmasked keys of the other folds and of the fold. (Defects proved: a list with names such as the default ones can be saved but not loaded, because number and name are joined without separator; FoldList.save raises and leaves an empty file; len of a FoldList raises.)", "quantifier": "all lists of keys, parts, names, masks, separators and requested keys", "why_tests_cant": "Ranges over all lists, keys (with any characters) and orders.", "anchors": ["hyperion/utils/train_val_eval_list.py:TrainValEvalList", "hyperion/utils/fold_list.py:FoldList"]}
{"id": "C154", "title": "Training scripts do what their command lines say", "statement": "For `train-linear-gbe.py` and `train-q-scoring-homo-gbe.py`, a command line is accepted exactly when every option on it is one of the script's documented options with a well-formed argument (a switch has none, a value has the right type and is one of the allowed choices) and `--iv-file`, `--train-list` and `--output-path` are given; then each attribute of the reader and of the model and each file is the value of the last use of its option, or the documented default when it is not used (e.g. `--no-update-mu` turns `update_mu` off). The same holds for a parser that carries only the options of the logistic regression or the linear SVM class (`--balance-class-weight` makes the SVM's class weight 'balanced'). The scripts for logistic regression and the linear SVM, however, stop with an error for every command line (`--verbose` is defined twice), and so does `train-plda.py` (a misspelt name in the PLDA factory); with the name corrected the latter follows its table, except that `--diag-W` can never select a diagonal covariance.", "quantifier": "all command lines (sequences of options written in full with or without an argument, of any length, with repetitions) and all conversions of texts to values", "why_tests_cant": "the options, the namespace, the filter of arguments and the constructor must agree for every combination and order of options", "anchors": ["hyperion/bin/train-linear-gbe.py", "hyperion/bin/train-q-scoring-homo-gbe.py", "hyperion/bin/train-logistic-regression.py", "hyperion/bin/train-linear-svmc.py", "hyperion/bin/train-plda.py", "hyperion/helpers/vector_class_reader.py: VectorClassReader.add_argparse_args, filter_args", "hyperion/classifiers/linear_gbe.py: LinearGBE.add_argparse_train_args, filter_train_args", "hyperion/classifiers/logistic_regression.py", "hyperion/classifiers/linear_svmc.py", "hyperion/classifiers/q_scoring_homo_gbe.py", "hyperion/helpers/plda_factory.py: PLDAFactory.filter_train_args"]}
{"id": "C155", "title": "Feature extraction objects and compute-mfcc-feats.py do what their command lines say", "statement": "An MFCC or mean-variance-normalization object configured through the command line takes, for each documented option, the value of the last use of that option on the line and the documented default when it is not used, whatever prefix its options were registered with; two MFCC objects registered with different prefixes on one parser never influence each other, and the parser accepts a line exactly when every option on it belongs to one of the two and has a well-formed argument. `compute-mfcc-feats.py` accepts a line exactly when all its options are documented and well formed and `--input` and `--output` are given; its extractor, reader and writer then follow the line, and the input is read as audio exactly when the extractor's input step is 'wave'. Two exceptions are proved: in wave mode `--scp-sep` and `--path-prefix` are accepted but reach nobody, and the tolerance option of the frame selector is ignored for every line. Boolean arguments are 'true', 't', 'yes', 'y' and 'false', 'f', 'no', 'n' in any case.", "quantifier": "all command lines, all prefixes and pairs of different prefixes (also none), all conversions of texts to values", "why_tests_cant": "prefix collisions and option orders form an unbounded space; options, filter and constructor must agree for all of them", "anchors": ["hyperion/feats/mfcc.py: MFCC.filter_args, add_argparse_args", "hyperion/feats/feature_normalization.py: MeanVarianceNorm.filter_args, add_argparse_args", "hyperion/feats/frame_selector.py: FrameSelector.filter_args", "hyperion/feats/mfcc.py: MFCC.__init__", "hyperion/feats/filter_banks.py: FilterBankFactory.add_argparse_args", "hyperion/io/data_rw_factory.py: DataReaderFactory/SequentialDataReaderFactory filter_args", "hyperion/io/audio_reader.py: AudioReader.filter_args", "hyperion/bin/compute-mfcc-feats.py", "hyperion/utils/misc.py: str2bool"]}
{"id": "C156", "title": "Weights, scaling and centering of PLDA statistics", "statement": "The statistics that PLDA training and scoring use are, for every set of vectors with class labels or posteriors, the weighted counts, sums and second moments: a scaling factor multiplies them all, a whole-number weight is the same as that many copies of the vector, unit weights and factor are the same as none, sets of vectors add up, the order of the vectors does not matter, and centering the statistics gives the statistics of the centered vectors. With weights the caller's posteriors are left alone; a scaling factor without weights, however, is multiplied into the caller's array, so a second call gives other statistics.", "quantifier": "all vectors, posteriors, labels, weights, factors and numbers of classes", "why_tests_cant": "an identity between sums over all data sets and weights; the effect on the caller's array depends on which optional arguments are given", "anchors": ["hyperion/pdfs/plda/plda_base.py: PLDABase.compute_stats_soft, compute_stats_hard, center_stats"]}
{"id": "C157", "title": "Gains in decibels and the simple activity detector", "statement": "Applying a gain in dB to linear features multiplies amplitudes by 10^(dB/20) and powers by 10^(dB/10); applied to log features it gives the logarithm of the amplified linear features; gains add up, no gain changes nothing and the opposite gain undoes a gain; the power of an amplified signal is the amplified power; feature types other than the six documented ones raise. The activity detector marks exactly the frames less than 35 below the loudest, always marks at least one frame, does not depend on a common gain, and raises for no frames.", "quantifier": "all arrays, gains and feature types", "why_tests_cant": "identities for all real inputs", "anchors": ["hyperion/utils/misc.py: apply_gain, apply_gain_logx, apply_gain_logx2, apply_gain_x, apply_gain_x2, energy_vad"]}
{"id": "C158", "title": "Ordered prefetching queue: order, bounds and stop under every schedule", "statement": "Whatever the order in which the workers of an OrderedQueue complete their tasks, its generator delivers the items of the sequence in the order of submission, round after round, without gap or repetition, skipping the ones that are None; an item that raises ends the generator after all items before it; the queue never holds more than max_queue_size results; while the queue runs it can always deliver one more item; stop(), called at any moment, ends the submitting thread, and what was delivered is still a subsequence. The code falls short of this: with threads start() raises NameError, with processes nothing is ever delivered, stop() does not return over an empty sequence, and a consumer that waits when stop() comes waits forever.", "quantifier": "all sequences, queue sizes, numbers of workers, shuffles, interleavings of the submitting thread, the workers, the consumer and stop()", "why_tests_cant": "the interleavings of three kinds of threads and the moments of stop() cannot be enumerated by tests", "anchors": ["hyperion/utils/queues.py: OrderedQueue.start, _run, get, stop", "hyperion/io/queues.py: OrderedQueue"]}
{"id": "C159", "title": "Command lines of evaluation and transformation-training scripts", "statement": "The scripts eval-cos-1vs1, eval-plda-1vs1, eval-linear-gbe, eval-q-scoring-homo-gbe, eval-logistic-regression, eval-linear-svmc, eval-elbo-ubm, train-mvn, train-cw, train-pca and train-gaussianizer run for exactly the command lines whose options are known, have correct arguments and include the required files (for trials: also a list of trials or of tests), and then every parameter of the script's function, of the reader and of the model has the value of the last use of its option, or the documented default. Exceptions of the code: --vlist-sep is ignored by train-mvn, train-cw, train-pca and train-gaussianizer; --update-mu and --update-t update the parameter for every non-empty argument, also for False; train-lda and train-nda never run (train-nda imports NSbSw from hyperion.transforms, which has no such name; with the name it behaves as the others).", "quantifier": "all command lines (any number and order of options, repeated options, any arguments) and all conversions of arguments", "why_tests_cant": "there are unboundedly many command lines and interactions of options", "anchors": ["hyperion/bin/eval-cos-1vs1.py: eval_cos", "hyperion/bin/eval-plda-1vs1.py: eval_plda", "hyperion/bin/eval-linear-gbe.py: eval_linear_gbe", "hyperion/bin/eval-q-scoring-homo-gbe.py: eval_qscoring_gbe", "hyperion/bin/eval-logistic-regression.py: eval_lr", "hyperion/bin/eval-linear-svmc.py: eval_svm", "hyperion/bin/eval-elbo-ubm.py: eval_elbo", "hyperion/bin/train-mvn.py: train_mvn", "hyperion/bin/train-cw.py: train_cw", "hyperion/bin/train-pca.py: train_pca", "hyperion/bin/train-gaussianizer.py: train_gauss", "hyperion/bin/train-nda.py: train_nda", "hyperion/bin/train-lda.py", "hyperion/helpers/trial_data_reader.py: TrialDataReader.filter_args, add_argparse_args", "hyperion/helpers/classif_trial_data_reader.py: ClassifTrialDataReader.filter_args, add_argparse_args", "hyperion/helpers/vector_reader.py: VectorReader.filter_args", "hyperion/helpers/sequence_reader.py: filter_eval_args", "hyperion/helpers/plda_factory.py: add_argparse_eval_args", "hyperion/transforms/cent_whiten.py: CentWhiten.filter_args", "hyperion/transforms/pca.py: PCA.filter_args", "hyperion/transforms/gaussianizer.py: Gaussianizer.filter_args"]}
{"id": "C160", "title": "Activation functions by name and their configuration", "statement": "ActivationFactory.create(name, **kwargs) makes the torch module of that name with every keyword argument and otherwise torch's defaults, and raises for an unknown name, an unknown or a missing argument; a module or None is returned as it is. For the names elu, hardshrink, hardtanh, leakyrelu, logsigmoid, prelu, relu, rrelu, selu, celu, softplus, tanh, tanhshrink, threshold, softmin, softmax, softmax2d and logsoftmax, get_config of the made module gives the name and arguments from which create makes an equal module. Exceptions of the code: a dict argument always raises; sigmoid and alogsoftmax give a name that create does not know; get_config of softsign raises; softshrink forgets lambd; relu6 comes back as hardtanh with bounds 0 and 6.", "quantifier": "all names, all keyword arguments and values", "why_tests_cant": "every combination of name, arguments and values, through two tables that must agree entry by entry", "anchors": ["hyperion/torch/helpers/activation_factory.py: ActivationFactory.create, create_from_str, get_config"]}
{"id": "C161", "title": "Feed-forward networks compute the documented layers", "statement": "FCNetV1 and FFNetV1 are constructed for exactly: at least one (hidden) layer, one number of units or a list of the right length, known activations. Called on a batch they apply, for each hidden layer, batch normalisation (if asked), linear layer, activation (if any), dropout (if rate > 0), then the output layer (batch normalisation, linear, activation; none with without_output_layer), and FFNetV1 then output dropout and output batch normalisation; the batch must have the number of input units, any other raises, and the result has the number of output units (of the last hidden layer without output layer). FFNetV1 with n+1 layers equals FCNetV1 with n hidden layers. All hidden layers share one activation module. Exceptions of the code: FCNetV1 with output batch normalisation, or output dropout with an output layer, raises on every call; get_config of FCNetV1 always raises.", "quantifier": "all numbers of layers and units, all options, all functions computed by the layers, all batches", "why_tests_cant": "a test covers a few configurations; the order of layers and the sizes must fit for every depth and every combination of options", "anchors": ["hyperion/torch/archs/fcnet.py: FCNetV1.__init__, forward, get_config", "hyperion/torch/archs/ffnet.py: FFNetV1.__init__, forward"]}
{"id": "C162", "title": "Optimisers and learning-rate schedulers from command lines and keyword arguments", "statement": "With the options of OptimizerFactory (torch or Keras) or LRSchedulerFactory on a parser, with any prefix, exactly the correct command lines are accepted, and the object of the chosen type is made with the documented parameters, each with the value of the last use of its option or the default; from keyword arguments exactly the known names with a type (and a learning rate for optimisers) are accepted, with the defaults of create; an unknown type gives None. With different prefixes optimiser and scheduler share a parser without disturbing each other. Exceptions of the code: exp_lr always has update_lr_on_batch False; adamcos_lr always raises; red_lr_on_plateau raises for a factor that is not below one; Keras' --amsgrad has no effect; both torch factories with the same prefix (or none) cannot share a parser (--eps twice), nor can the optimiser prefix end in min (--min-lr).", "quantifier": "all command lines, conversions of arguments, prefixes and keyword arguments", "why_tests_cant": "there are unboundedly many command lines, prefixes and argument values", "anchors": ["hyperion/torch/helpers/optimizer_factory.py: OptimizerFactory.create, filter_args, add_argparse_args", "hyperion/torch/lr_schedulers/factory.py: LRSchedulerFactory.create, filter_args, add_argparse_args", "hyperion/torch/lr_schedulers/cos_lr.py: AdamCosineLR.__init__", "hyperion/torch/lr_schedulers/red_lr_on_plateau.py: ReduceLROnPlateau.__init__", "hyperion/keras/helpers/optimizer_factory.py: OptimizerFactory.create_optimizer, filter_args, add_argparse_args"]}
{"id": "C163", "title": "Callbacks for Keras training", "statement": "create_callbacks gives, from a command line with any prefix or from keyword arguments: a checkpoint callback (model.NNNN for every epoch, or model.best for the best epoch only), a CSV log, early stopping if patience is given, steps of the learning rate if given, and reduction on a plateau if lr_patience is given, with lr_monitor (or else monitor) and lr_red_factor (or else lr_factor); exactly the correct command lines are accepted and there is then always early stopping and reduction. Exceptions of the code: --lr-inc-factor always raises; the checkpoint ignores monitor_mode; --lr-steps never changes the learning rate.", "quantifier": "all command lines, conversions, prefixes, keyword arguments and directories", "why_tests_cant": "unboundedly many command lines and combinations of arguments", "anchors": ["hyperion/keras/helpers/callbacks_factory.py: CallbacksFactory.create_callbacks, filter_args, add_argparse_args", "hyperion/keras/callbacks/checkpointers.py: HypModelCheckpoint.__init__", "hyperion/keras/callbacks/lr_schedulers.py: LearningRateSteps.on_epoch_begin, ReduceLROnPlateauIncreaseOnImprovement.__init__"]}
{"id": "C164", "title": "Progress lines of a training and lists of loggers", "statement": "While a model is trained with torch_trainer.py, the progress logger never raises and prints for every epoch one line at its start, one line for every interval-th batch (from the first batch on) and one line at its end. A batch line shows the epoch out of the announced number, the elapsed time, the remaining time (elapsed time times the samples that remain over the samples done), the number of the batch, the samples done in this epoch out of the data set with the percentage rounded down, and exactly the requested metrics in their order; what is shown of an epoch does not depend on earlier epochs. Times below 31 days can be read back unambiguously as whole seconds; longer (or negative) times are printed as another time. If the number of batches is announced, or with interval 0, the first batch raises. A list of loggers passes every call to all its loggers: each of them does what it does alone, and the training goes on exactly if it goes on with each logger alone.", "quantifier": "all numbers of epochs, first epochs, data set sizes, batch sizes, metrics, clocks that do not step back, intervals, earlier states of the logger; all loggers (any state machine) and all sequences of calls", "why_tests_cant": "The lines depend on clocks, batch sizes and the whole history of calls; the wrap of the printed time appears only after a month.", "anchors": ["hyperion/torch/loggers/prog_logger.py: ProgLogger", "hyperion/torch/loggers/loggers.py: LoggerList, Logger", "hyperion/torch/torch_trainer.py: TorchTrainer.fit, train_epoch"]}
{"id": "C165", "title": "Keras training that is killed and started again", "statement": "load_checkpoint(dir, epochs) takes the newest epoch not above epochs that has a model.%04d.json, else model.best with epoch 0, else no model, and raises exactly if one of the three files of the chosen model is missing or incomplete. A process that is not killed leaves its last model as dir/model, every epoch under its number with --save-all-epochs, and otherwise the first best epoch of this process as model.best. With the script gen-v2 and all epochs saved, after any history of starts, kills at any point (also inside a write) and removals of incomplete checkpoints, the checkpoints that can be loaded are the epochs 0..n-1 of one training; none is ever changed; a start with no incomplete checkpoint left completes all epochs. Not so: a save that was cut makes every later start raise; the optimizer begins anew, so that the result differs; gen-v1 trains the last epoch once more and replaces its checkpoint; when model.best (or the checkpoint of gen-v1) is replaced and the process is killed between the two networks, the model that is loaded afterwards has the new encoder and the old classifier; in the default mode (best model only) the counting starts again and the first epoch replaces the best model whatever its metric; --init-path ignores all checkpoints; without --val-list the script always raises.", "quantifier": "all histories of starts (any arguments), kills at any write, removals; all training functions, random states, optimizers, metrics, numbers of epochs, early stops, contents of the disk", "why_tests_cant": "The failures appear only for kills at certain points and for certain sequences of starts.", "anchors": ["hyperion/keras/keras_model_loader.py: KerasModelLoader.load, load_checkpoint", "hyperion/keras/embed/seq_embed.py: SeqEmbed.save, load", "hyperion/keras/callbacks/checkpointers.py: HypModelCheckpoint", "hyperion/keras/helpers/callbacks_factory.py: CallbacksFactory.create_callbacks", "hyperion/bin/keras-train-cat-seq-embed-gen-v1.py: train_embed", "hyperion/bin/keras-train-cat-seq-embed-gen-v2.py: train_embed"]}
{"id": "C166", "title": "Context of the TDNN networks", "statement": "TDNNV1(..., return_context=True) with 'same' padding: an output frame depends only on the input frames at most context away from it (so the frames computed from a part of a sequence are those computed from the whole one, except context frames next to a cut). This holds for all weights exactly when d(k-1) is even in every layer; with even kernels it is false. The window is exact: sum of the halves of d(k-1), rounded down to the left and up to the right; [0, sum] for 'valid' padding, [-sum, 0] for 'causal'. 'same' and 'causal' keep the number of frames, 'valid' takes the sum of the d(k-1) away. The constructor accepts exactly lists with one entry per layer; one dilation rate gives d, d + factor, d + 2 factor, ... TDNNV1WithEmbedInputV1: in addition only frame t of the embedding input; rejects everything with 'valid' padding and a kernel > 1. TDNNV1Transpose has the same window for lists, but with one dilation rate for all layers reports more context than TDNNV1 (the rates count down from num_td_layers). ResTDNNV1: the first convolution of every block has no effect on the output (the second one is applied to the input of the block), so the reported context is too large; 'valid' padding fails. Chunked extraction with SeqEmbed.predict_embed does not give the frames of the whole sequence for such a network.", "quantifier": "all numbers of layers, kernel sizes, dilation rates (scalars and lists), paddings, weights and activations, sequences, positions", "why_tests_cant": "A test with particular weights and inputs cannot show that no other frame matters, nor that the window is right for all layer sizes.", "anchors": ["hyperion/keras/archs/tdnn.py: TDNNV1, TDNNV1Transpose, ResTDNNV1, TDNNV1WithEmbedInputV1", "hyperion/keras/embed/seq_embed.py: SeqEmbed.predict_embed"]}
{"id": "C167", "title": "Shapes reported by the Kaldi readers without reading the data", "statement": "Any history of read, read_shapes, read_num_rows, read_dims, eof and reset calls on a sequential reader of a Kaldi archive, or of a script file (several archives, row ranges, any open archive), gets the answers of one cursor over the records: a query reports the shapes, numbers of rows (1 for a vector) and columns of the records that read would return at that point and moves as read does. With assert_same_dim a query raises iff two of these records have different numbers of columns - also leaving the reader where read would; but read_shapes and read_num_rows of script readers raise as well when no record is left. Random access reports the shapes, rows and columns of the arrays of the requested keys ((0,) and one row for a missing key in permissive mode) and raises with assert_same_dim iff widths differ or no key is requested. An entry whose range starts after the end of its matrix has a reported negative number of rows although reading it raises.", "quantifier": "all written records (plain, compressed, empty), script lists with ranges inside the arrays, histories of calls, buffer sizes, requested keys", "why_tests_cant": "All interleavings of queries and reads, all contents and positions.", "anchors": ["hyperion/io/ark_data_reader.py: SequentialArkDataReader.read_num_rows, read_dims, SequentialArkFileDataReader.read_shapes, SequentialArkScriptDataReader.read_shapes, RandomAccessArkDataReader.read_shapes, read_num_rows, read_dims", "hyperion/io/data_reader.py: DataReader._apply_range_to_shape, _combine_ranges", "hyperion/utils/kaldi_matrix.py: KaldiMatrix.read_shape"]}
{"id": "C168", "title": "Embedding and evaluation scripts: one vector per sequence, all or nothing", "statement": "The scripts that run a network on every sequence of a list (keras-extract-seq-embed.py, keras-eval-seq-embed.py and the q variants) write, for an input (ark archive, HDF5 archive, or script file with ranges) whose arrays have the same number of columns, exactly one record per record of the input, in its order (in increasing order of key in HDF5 archives), with its key and the vector of its array; no other file changes, and the output may be the input, which is read completely first. If the widths differ, or the network raises for one array, no output is created at all. The jobs of the parts 1..P write, one after the other, the vectors of the whole. But an empty script file raises (an empty archive gives an empty archive), so with more parts than records of a script at least one job raises. The write formats p1, p2, p1+p2 store the first parameter, the second, or the first followed by the second.", "quantifier": "all disks, specifiers, readers and options, numbers of records, shapes, networks (any partial function of the array), converters of the writer, numbers of parts", "why_tests_cant": "All contents of the input, points of failure of the network and splits into parts.", "anchors": ["hyperion/bin/keras-extract-seq-embed.py: extract_embed", "hyperion/bin/keras-eval-seq-embed.py: eval_embed", "hyperion/bin/keras-extract-seq-q-embed.py: extract_embed", "hyperion/bin/keras-eval-seq-q-embed.py: eval_embed", "hyperion/io/h5_data_reader.py: SequentialH5DataReader.read_num_rows", "hyperion/io/data_rw_factory.py: SequentialDataReaderFactory.create, DataWriterFactory.create"]}
{"id": "C169", "title": "Posterior embeddings of sequences (SeqQEmbed)", "statement": "SeqQEmbed.predict_embed encodes a sequence in chunks; with left_context 0 and a network that looks at most right_context (and end_context) frames ahead, for a sequence of any length beyond the right context it returns, in the output format asked for, the Gaussian whose natural parameter is the sum of those of the frames between the begin and the end context, computed on the whole sequence, and whose precision is one plus the sum of the excesses over one of theirs (at most 100000); formats in which the posterior of a frame is given do not matter. For a sequence not longer than the two contexts nothing is encoded: the result depends neither on the frames nor on the network, and with smaller contexts at the ends it is narrower than the prior. The network for extraction leaves out frame_corr_penalty: natural parameters and excesses of precision are those of the trained posterior divided by the penalty, equal for all inputs only with the default 1. Every --pooling-input offered is understood; of the --pooling-output offered (for training: with a network that keeps the number of frames) exactly the two misspelled ones raise, for every sequence, and the words they stand for are refused. A model read back gives the same embeddings unless the downsampling was given and is not the ratio of the lengths of the network: then it raises for every sequence. A network with fewer output than input frames cannot be trained at all (build raises NameError).", "quantifier": "all lengths of sequences and chunks, contexts, downsamplings, networks (frame-wise with finite look-ahead for the positive part, any function for the others), dimensions, posteriors of the frames, formats, minimum variances and penalties", "why_tests_cant": "All sequence lengths (short last chunks, none at all), networks and parameter values.", "anchors": ["hyperion/keras/embed/seq_q_embed.py: SeqQEmbed.__init__, prepool_downsampling, build, build_embed, predict_embed, save, load, add_argparse_args", "hyperion/keras/layers/pooling.py: GlobalNormalDiagCovPostStdPriorPooling1D"]}
{"id": "C170", "title": "Residual networks on sequences (ResNetV1): frames seen, lengths, reported context, architectures that cannot be built", "statement": "ResNetV1 with is_sequence=True, padding 'same', plain residual blocks and different numbers of filters in consecutive blocks (or interblock strides 1) maps a sequence of T > 0 frames to ceil(T/R) frames, R = input_strides*input_pool_strides*interblock_strides^(num_blocks-1); output frame t is a function of an interval of S input frames around frame tR (S by a formula in kernels, strides and numbers of sub-blocks), and for suitable weights it does depend on both ends of the interval, so the interval cannot be smaller. When R divides T the context returned is the stated formula; with odd kernels it is smaller than (S-1)/2 by k*(sum of strides seen by the second convolutions), since one of the two convolutions of each block is not counted: there are weights and sequences of any long enough length where frames outside the reported context change an output frame. ResNet18V1 with up to 64 filters: S = 435, R = 32, context 97 (both sides: 195+31). With bottleneck_blocks=True (the default of ResNetV1, and ResNet50V1, ResNet101V1, ResNet152V1) construction always raises; with interblock strides of at least 2 and a block with as many filters as the previous one (ResNet18V1 with 128 or more filters) construction raises for all sequences longer than a stated length.", "quantifier": "all numbers of blocks, sub-blocks, kernels, strides, filters, dense layers, lengths of sequences, contents of frames and functions computed by the layers", "why_tests_cant": "All architectures, lengths and weights; networks are never built in tests here, and the context is a number nobody checks against the network.", "anchors": ["hyperion/keras/archs/resnet.py: ResNetV1, ResNet18V1, ResNet50V1, ResNet101V1, ResNet152V1, conv2d_res_block, conv2d_bn_res_block"]}
{"id": "C171", "title": "Time-delay 2D convolutional networks (TDConv2DNetV1, TDVGGNetV1, TDVGG16/19): frames seen, lengths, arguments", "statement": "With padding='same' and pooling over frequency only (the defaults), TDConv2DNetV1 and TDVGGNetV1 map a sequence of any length to one of the same length, and output frame t is determined by input frames t-l..t+r, where l is the sum over the convolutions of half of dilation*(kernel-1) rounded down and r rounded up (in TDVGGNetV1 every block counts as many times as it has layers), wherever in the sequence t is; no smaller interval is right for all weights. With kernels of one frame the networks compute the documented layers in order on every frame. TDConv2DNetV1 is built exactly when there is a layer of each kind and each list has one entry per convolution; TDVGGNetV1 raises when a list has the wrong length. num_block_layers given as a number n to TDVGGNetV1 raises if n is smaller than the number of blocks and means n layers in each block otherwise. TDVGG16 and TDVGG19 with dilation d see 13d and 16d frames on each side.", "quantifier": "all numbers of layers and blocks, kernels, dilation rates, lists and numbers as arguments, weights (arbitrary functions of the window), sequences and positions", "why_tests_cant": "All architectures, weights and lengths; nothing reports the context of these networks, the user has to know it.", "anchors": ["hyperion/keras/archs/convnet.py: TDConv2DNetV1", "hyperion/keras/archs/vgg.py: TDVGGNetV1, TDVGG16, TDVGG19"]}
{"id": "C172", "title": "Embedding models written to files and read again (SeqEmbed, SeqEmbedLDE, SeqQEmbed, SeqMetaEmbed)", "statement": "An embedding model constructed with any arguments and both networks is saved without an error and load gives back the same networks and the same value of every constructor argument (loss, pooling, contexts, number of components, posterior settings, number of classes, name); contexts at the ends that were not given stay those between chunks. KerasModelLoader.load finds the class in the file for SeqEmbed, SeqEmbedLDE and SeqQEmbed (for SeqMetaEmbed it raises). Saving touches only the files path + suffixes of the class. Built for the same length, the model that is read extracts with the same lengths, contexts and downsampling when no downsampling was given or it is the quotient of the lengths. Not saved: lde_order (always 2 after loading) and enc_downsampling (a model that needs it raises after loading). A model without its second network raises in save after the first files are written: with older files of that name load then mixes the new first network with the old second one. With dictionary encoding as pooling, the embedding of a sequence of any length is that of the frames between the begin and end context as encoded on the whole sequence.", "quantifier": "all classes, keyword arguments, networks, file systems, paths, input lengths, encoders, sequences and codebooks", "why_tests_cant": "Every combination of arguments and every earlier content of the directory; nothing checks that get_config, save, load and the constructors name the same things.", "anchors": ["hyperion/keras/embed/seq_embed.py: SeqEmbed.__init__, get_config, save, load", "hyperion/keras/embed/seq_embed_lde.py: SeqEmbedLDE", "hyperion/keras/embed/seq_q_embed.py: SeqQEmbed.get_config, save, load", "hyperion/keras/embed/seq_meta_embed.py: SeqMetaEmbed.get_config, save, load", "hyperion/keras/keras_model_loader.py: KerasModelLoader.load", "hyperion/hyp_model.py: HypModel.to_json, load_config"]}
{"id": "C173", "title": "The loss of the variational autoencoder bounds the evidence", "statement": "For a model with standard normal prior, diagonal posterior and diagonal Gaussian observations, the loss of every row of a batch is the mean over num_samples hidden samples of that row (each with noise of its own) of minus the log-likelihood that the decoder gives the row, plus the divergence of the posterior from the prior, raised to min_kl where smaller. With standard normal noise its expectation is, for every encoder, decoder, number of samples and min_kl, at least minus the log of the likelihood integrated over the prior. elbo(x, M) is minus the mean of M evaluations of the loss, row by row; generate decodes every vector from a hidden vector of its own. Unknown forms of the observations raise; priors other than the standard normal raise at the first evaluation; load raises NameError for every saved model; decode_z with sample_x=False raises unless the observations are probabilities.", "quantifier": "all batches, encoders, decoders (for the bound: those whose likelihood is integrable under the prior and its logarithm under the posterior), numbers of samples, values of min_kl, draws of the noise", "why_tests_cant": "The bound is about expectations over continuous noise and holds for every network; a test sees one draw.", "anchors": ["hyperion/keras/vae/vae.py: VAE.build, _build_loss, elbo, generate, decode_z, save, load, _get_loss_diag_normal, _get_loss_normal, _get_loss_bernoulli", "hyperion/keras/layers/sampling.py: DiagNormalSampler", "hyperion/keras/objectives.py: kl_normal_vs_std_normal, diag_normal"]}
{"id": "C174", "title": "Command lines of the file conversion scripts and of the training and use of Keras embeddings", "statement": "For every command line of copy-feats.py, merge-h5-files.py, scores2lre_format.py, vectors2scores.py, eval-2class-performance.py, ark2hyp.py, h5vad2nist.py, rttm-to-bin-vad.py, segments-to-bin-vad.py, keras-extract-seq-embed.py, keras-eval-seq-embed.py, keras-train-cat-seq-embed-gen-v1.py, -gen-v2.py and -lde-gen-v1.py: the script goes past its command line exactly when every word belongs to a known option with a value of the right type and the required options are there. Then every parameter of its function (files, lists, sizes, reader options) has the value of the last use of its option, or the documented default; nothing else arrives. The training scripts give the pooling and context options to the model when they make a new one (no --init-path and no checkpoint), the generator options to the training and the validation generator, and the optimiser and callback options to these. They additionally fail when --val-list is missing, and when --freeze-prepool, --freeze-prepool-layers or --freeze-postpool-layers (v1, lde), or --freeze-enc-layers or --freeze-pt-layers (v2), is given. A run that continues from a checkpoint of epoch e starts with epoch e + 1 in v2 and with epoch e in v1 and lde; with --init-path, checkpoints are not looked at and --init-epoch counts. arkvad2nist.py fails for every command line (it does not import config_logger; with the import it behaves as the others).", "quantifier": "all command lines (sequences of options with values), conversions of values, epochs of the checkpoint found or none", "why_tests_cant": "Values pass through several filters and constructors by name; a name missing in one of them silently leaves a default, for one option of dozens, and tests do not try every option.", "anchors": ["hyperion/bin/copy-feats.py", "hyperion/bin/merge-h5-files.py", "hyperion/bin/scores2lre_format.py", "hyperion/bin/vectors2scores.py", "hyperion/bin/eval-2class-performance.py", "hyperion/bin/ark2hyp.py", "hyperion/bin/arkvad2nist.py", "hyperion/bin/h5vad2nist.py", "hyperion/bin/rttm-to-bin-vad.py", "hyperion/bin/segments-to-bin-vad.py", "hyperion/bin/keras-extract-seq-embed.py", "hyperion/bin/keras-eval-seq-embed.py", "hyperion/bin/keras-train-cat-seq-embed-gen-v1.py", "hyperion/bin/keras-train-cat-seq-embed-gen-v2.py", "hyperion/generators/sequence_batch_generator_v1.py: filter_args, add_argparse_args", "hyperion/generators/sequence_batch_generator_v2.py: filter_args, add_argparse_args", "hyperion/bin/keras-train-cat-seq-embed-lde-gen-v1.py", "hyperion/keras/embed/seq_embed.py: SeqEmbed.__init__, filter_args, add_argparse_args", "hyperion/keras/embed/seq_embed_lde.py: SeqEmbedLDE.__init__, filter_args, add_argparse_args"]}
{"id": "C175", "title": "Weight constraints and constant Gaussian layers (Keras)", "statement": "Triu(dim, diag_val) turns any matrix into the nearest upper triangular matrix with this diagonal, and leaves such a matrix as it is; Clip(min, max) gives the nearest number between the bounds (a maximum below the minimum counts as the minimum); a ConstraintList applies its constraints from the first to the last, so Triu before Clip is triangular only if zero is within the bounds. Whatever the optimiser does, the weight of ConstTriu is triangular with its diagonal after every update, whatever constraint was given to the constructor; before the first update it is the identity, which has the diagonal asked for only if this is one. MultConstDiagCov gives for every frame the Gaussian with constant variance whose natural parameter is the input; MultConstDiagCovStdPrior the posterior under a standard normal prior, with variance 1/(1+exp(weight)) below one. Repeat(n, axis) repeats every slice n times in place and declares this shape.", "quantifier": "all dimensions, weights, diagonals, bounds, sequences of updates, inputs and repetitions", "why_tests_cant": "Ranges over all matrices and all histories of an arbitrary optimiser.", "anchors": ["hyperion/keras/constraints.py:ConstraintList, Triu, Clip", "hyperion/keras/layers/core.py:ConstTriu", "hyperion/keras/layers/cov.py:MultConstDiagCov, MultConstDiagCovStdPrior", "hyperion/keras/layers/tensor_manipulation.py:Repeat"]}
{"id": "C176", "title": "Diarisation tables: construction, filter, access, iteration, merge, speaker counts", "statement": "An RTTM table is accepted iff no start goes back between neighbouring rows of a file. filter(keys) raises iff a key has no row or the rows asked for (key by key, each in table order) go back; for different keys of files whose rows are in order it keeps exactly the rows of those files. Item access and iteration give each file, in order of first appearance, its rows in table order, and raise for a file with one row (defect) or whose scattered rows go back (defect). merge concatenates, or raises if starts go back at a junction. The total speaker count is the number of different names in SPEAKER rows; per file likewise; the total is at most the sum. A diarisation made from a segment list has row i = segment i with speaker i, raises iff the numbers differ or starts go back, and converts back to the same files, starts and ends. With prepend_file_id surplus speakers are dropped silently in create_spkdiar (defect).", "quantifier": "all RTTM tables, key lists, lists of tables, segment lists", "why_tests_cant": "Ranges over all tables and key lists; the failures depend on row multiplicity and order.", "anchors": ["hyperion/utils/rttm.py:RTTM"]}
{"id": "C177", "title": "Text files of segment lists and diarisations", "statement": "A valid SegmentList with non-negative times and names without separator, quote or end of line, saved and loaded again, has the same segments in order with the same id and file, each start and end a whole number of milliseconds at most half a millisecond away; if all times are whole milliseconds it is the same list. An RTTM made by create_spkdiar likewise keeps type, file, name and order; starts and durations are each within half a millisecond, ends within one, and it is always accepted when loaded. Adjoining segments can overlap by a millisecond after reloading (defect). All provided pandas reads the name columns as text: a column in which every name is a numeral is read as numbers.", "quantifier": "all segment lists, diarisations with non-negative times, all separators which are not a digit, dot or end of line", "why_tests_cant": "Continuum of times and all names; rounding must keep both validity checks for every table.", "anchors": ["hyperion/utils/segment_list.py:SegmentList.save", "hyperion/utils/segment_list.py:SegmentList.load", "hyperion/utils/rttm.py:RTTM.save", "hyperion/utils/rttm.py:RTTM.load"]}
