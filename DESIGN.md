# Formal model of hyperion in Lean 4: design and trusted base

The code is `/repo` (jsalt2019-diadet/hyperion at the pinned commit), read as text. The model is in `lean/Verif`; every
definition of the model carries a comment with the file and lines it models and says where it simplifies.
`properties.jsonl` lists the properties, `MANIFEST.json` the theorems of each, `seeded/LOG.jsonl` the wrong programs against
which the theorems were tested.

## 1. Conventions

* A Python function is a total Lean function. An exception is a value (`Option`, `Except`), so "raises" is a statement one can
  prove. Loops whose termination is not obvious carry a fuel argument; theorems say that enough fuel suffices, or that no fuel
  does (a hang).
* Objects that change are explicit states; a *history* is a list of calls, and theorems quantify over all lists. Threads are a
  transition system whose schedule is an arbitrary sequence of steps.
* Floating point is modelled by exact arithmetic (any linearly ordered field, or the reals when roots, logarithms, exponentials
  or integrals are involved), except in the Kaldi binary formats, whose subject is bytes. Rounding, overflow and NaN are not
  modelled unless a definition says so.
* Random choices are outcomes of an arbitrary machine (`Rng`, or a permutation/draw parameter): theorems hold for every outcome.
* Strings are `String` or `List Char`, files are lists of lines or lists of bytes, a file system is a map from paths.
* pandas/numpy calls are modelled by list functions with the documented behaviour (`Verif/Np.lean`, `Verif/PyDict.lean`):
  `np.unique`, boolean and integer indexing, `searchsorted`, stable sort, broadcasting only where the code relies on it.
* Specifications (`Spec.lean`, or definitions in a `Props` file) do not use the model's helpers. Where the code does not have a
  property, the part that holds is a theorem with the suffix `_partial` and the failure is a separate theorem with a concrete
  witness; these theorems pin down what the code does, so they stop proving when the defect is repaired.
* Beside a theorem with hypotheses there is an `example` that meets them, or the witness of the negation does.

## 2. Trusted base

* The kernel of Lean 4.33.0, and Mathlib as a library (its theorems are checked by the same kernel).
* Axioms: only `propext`, `Classical.choice`, `Quot.sound`; none of our own, no compiled evaluation. `vcheck` prints the axioms
  of every theorem.
* The reading of the Python code: that the definitions say what the cited lines do. This is the part that no proof covers.
* Oracles: results of external libraries enter as parameters with a stated property.
  - `IsEigh`, `IsEighGen` (scipy.linalg.eigh: ascending eigenvalues, orthonormal eigenvectors, generalised problem);
  - `IsCholesky` (scipy.linalg.cholesky of a positive definite matrix: upper triangular, positive diagonal, `R'R = A`);
    `exists_isCholesky` shows that such a function exists;
  - scipy.cluster.hierarchy.linkage: any valid sequence of merges;
  - erfinv: any monotone function; numpy random generators: any machine with the documented ranges;
  - `BufferedReader.peek`: any non-empty prefix of the rest; `torch.save`: a two-step write (truncate, then contents);
  - Python's `queue`/thread steps are atomic, as in CPython.

## 3. What is modelled, by area

### Splitting and grouping lists (`Verif/ListUtils`): C01, C02, C03
`utils/list_utils.py`: split_list, split_list_group_by_key, sort, ismember, filter functions over lists. Proof: arithmetic of floor(i*n/P), induction over lists.

### Script lists (`Verif/Scp`): C04, C05, C06, C07
`utils/scp_list.py`: `SCPList` as rows plus the cached key index as explicit state; save/load as text with the real parser. Proof: parser inversion, refinement of merge/filter/split to operations on row lists.

### Trial lists (`Verif/Trials`): C08, C09, C10, C11, C12, C13, C14, C15, C16, C17, C59, C60, C61
`utils/trial_ndx.py`, `trial_key.py`, `trial_scores.py`: name lists with boolean/score matrices. Proof: refinement to sets of (model, segment) pairs and partial score maps (`Trials/Spec.lean`); text files by parser inversion including `%f` rendering. `TrialKey` condition arrays, hdf5 files and `==` with tolerance are not modelled.

### Folds and partitions (`Verif/Folds`, `Verif/Round`): C18
`utils/fold_list.py`, `train_val_eval_list.py`: creation loops over rationals with half-even rounding.

### Kaldi archives (`Verif/Kaldi`): C19, C20, C21, C22, C23, C24, C25, C26, C27
`utils/kaldi_io_funcs.py`, `kaldi_matrix.py`, `io/ark_data_reader.py`, `ark_data_writer.py`, `copy_feats.py`: bytes, binary mode, plain and compressed matrices, script files, random access. The float bytes of headers are raw. The quantisation rules (C26, C27) are over ordered fields. Proof: decode-after-encode with arbitrary trailing bytes.

### Read/write specifiers (`Verif/Spec`): C28
`io/rw_specifiers.py`: the option parsers on character lists.

### Detection metrics (`Verif/Metrics`): C29, C30, C31, C32, C33, C34, C54
`metrics/utils.py`, `roc.py`, `dcf.py`, `eer.py`, `cllr.py`. Proof: block invariant of pool-adjacent-violators, convex hull argument, counting over sorted lists.

### Feature normalisation and frame selection (`Verif/Feats`): C35, C36
`feats/feature_normalization.py` (one column, real arithmetic), `frame_selector.py`.

### Numerical helpers (`Verif/MathUtils`): C37, C66
`utils/math.py`: packing of symmetric/triangular matrices, softmax, logsumexp, sigmoid family, Fisher ratio.

### Clustering (`Verif/Clustering`): C38, C53
`clustering/ahc.py` (flat clusters from a dendrogram), `kmeans.py`.

### Score normalisation (`Verif/ScoreNorm`): C39
`score_norm/*.py`.

### Training loop (`Verif/Torch`): C40, C41, C42, C63, C64, C65
`torch/utils/metric_acc.py`, `torch/lr_schedulers/*.py`, `torch/torch_trainer.py` (checkpoints as a file-system history with kills at every point), `torch/loggers/csv_logger.py`. State dictionaries are opaque values.

### Background queue (`Verif/Queues`): C43
`utils/queues.py`, `io/queues.py`: workers and consumer as a transition system with arbitrary schedules (threads; processes are not modelled).

### Batch generators (`Verif/Generators`): C44, C45, C55
`generators/sequence_batch_generator_v1.py`, `_v2.py`: construction, pruning, balancing, all reading modes, epochs, resume.

### Class readers (`Verif/Readers`): C46, C47
`helpers/vector_class_reader.py`.

### Segments (`Verif/Segments`): C48, C49, C50, C51, C56, C57, C58
`utils/rttm.py`, `segment_list.py`, `ext_segment_list.py` over ordered fields.

### Utterance information (`Verif/Utt2Info`): C52
`utils/utt2info.py` with the `.loc` semantics of pandas >= 1.0; csv files not modelled.

### Tensors (`Verif/Tensors`): C62
`utils/tensors.py`.

### Mixture models (`Verif/Pdfs`): C67, C68, C69, C70, C71
`pdfs/core/exp_family.py`, `normal_diag_cov.py`, `mixtures/exp_family_mixture.py`, `gmm_diag_cov.py` over the reals. Proof of EM by Gibbs' inequality and exact maximisation.

### Linear transformations (`Verif/Transforms`): C72, C73, C74, C75, C76, C77, C78, C79
`transforms/*.py` over the reals with eigen-decompositions as oracles. Optimality by the Ky Fan inequality.

### PLDA (`Verif/Plda`): C80, C81, C82, C83, C84, C85
`pdfs/plda/plda_base.py`, `frplda.py`, `splda.py`, `plda.py` over the reals; the specification (`Plda/Spec.lean`) uses Lebesgue integrals of Gaussian densities. Proof: completion of the square, change of variables by the Cholesky factor, Woodbury identity, and EM by Gibbs' inequality. Training of `PLDA` with channel subspace is not modelled.

### Acoustic features (`Verif/Feats`): C86, C87, C88, C89, C90, C91, C92, C93, C94
`feats/stft.py`, `energy_vad.py`, `filter_banks.py`, `feature_windows.py`, `mfcc.py` over the reals and complexes; the FFT by its definition, dither noise as a function of the length. Proof: roots of unity, overlap-add invariant, filters as folds, all input/output steps of the pipeline.

### HDF5 archives (`Verif/H5`): C95, C96, C97, C98, C99, C100
`io/h5_data_writer.py`, `h5_data_reader.py`, `h5_merger.py`, `hyp_data_reader.py`, `hyp_data_writer.py`, `_squeeze` of `data_reader.py`. A file is the list of its datasets with h5py's naming rules (trusted, stated at `File`); readers are explicit states. Proof: induction over the reading loops against a list of (key, array) items.

### Classifiers and calibration (`Verif/Classifiers`): C101, C102, C103, C104, C105
`calibration/gauss_calibration.py`, `classifiers/linear_gbe.py`, `q_scoring_homo_gbe.py`, `logistic_regression.py`, `binary_logistic_regression.py`, `linear_svmc.py` over the reals; Cholesky factorisation and scikit-learn's optimiser are oracles. Specification by Gaussian and Student densities. Proof: quadratic expansion, Gibbs-type optimality of mean and precision, conjugate updates.

### Evaluation pipelines (`Verif/Pipelines`): C106, C107, C108
`helpers/trial_data_reader.py`, `classif_trial_data_reader.py`, `TrialNdx.parse_eval_set` and the scripts `bin/eval-cos-1vs1.py`, `eval-plda-1vs1.py`, `eval-2class-performance.py`, `eval-linear-gbe.py`, `eval-logistic-regression.py`, `vectors2scores.py`, `scores2lre_format.py`, composed from the models of trial lists, Utt2Info, metrics, PLDA and transforms; archives are partial functions from keys to vectors.

### Full-covariance Gaussians (`Verif/FullCov`): C109, C110, C111
`utils/math.py` (`fullcov_varfloor`, `fullcov_varfloor_from_cholS`), `pdfs/core/normal.py`, `pdfs/mixtures/gmm.py` over the reals; SVD and Cholesky are functions satisfying their specification. Proof: spectral flooring is optimal by Hadamard's inequality in the eigenbasis; EM by Gibbs' inequality.

### Sequence reader (`Verif/SeqReader`): C112, C113
`helpers/sequence_reader.py` with the slice and sample readers of `io/hyp_data_reader.py`: a state machine over lists of (name, number of rows); random draws and shuffling are arbitrary functions. Proof: invariant over the cyclic loop relating the counters to what was delivered; a progress measure for the absence of exceptions.

### Confusion matrices and accuracy (`Verif/Confusion`): C114, C115, C116
`metrics/confusion_matrix.py`, `metrics/acc.py`, `torch/metrics/accuracy_functional.py`; the functions of scikit-learn are modelled from their source, torch's arg max is any choice among the largest. Specification: sums over filtered samples (`pairWeight`). Plotting and printing of matrices are not modelled.

### Model files (`Verif/Persist`): C117, C118
`hyp_model.py` (save, load), `get_config`/`save_params`/`load_params`/constructors of 27 model classes as a table of descriptors, `transforms/transform_list.py`, `pipeline/pipeline.py`. The specification is a second, independent set of tables (`Persist/Props.lean`: params, kept, fromShape, forgotten). Proof: one generic round trip for descriptors with HDF5 naming, then a case split over the classes.

### Segment lists and VAD scripts (`Verif/Segments/SegOps`, `Opensat`): C119, C120, C121
`utils/segment_list.py` (constructor, filter, split, merge, item access, iteration), `bin/segments-to-bin-vad.py`, `bin/rttm-to-bin-vad.py`, `bin/arkvad2nist.py`, `bin/h5vad2nist.py`. Pandas `.loc` is modelled as selection of rows by label. Proof: grouping by a duplicate-free key list is a permutation; invariant over the change points.

### Invariance of error rates (`Verif/Metrics/Invariance`): C122
On the model of `metrics/roc.py`, `eer.py`, `dcf.py`: the EER as value of a two-player game (from the hull theorems C30, C33), from which the invariances follow; strictly increasing maps and permutations by uniqueness of the stable sort.

### Copying features, reader and writer factories (`Verif/Copy`): C123, C124, C125, C126, C127
`io/copy_feats.py`, `io/data_rw_factory.py`, the directory check of `io/data_writer.py`, on the models of specifiers, ark and HDF5 archives and script lists; a disk is a partial function from paths to contents, outputs become visible when closed. Proof: the four readers as instances of one generic loop (`loopG`), which splits at any chunk boundary; monotonicity of reading in the disk; then the round trips C22, C95, C98. Concrete cases in `Copy/Examples.lean`.

### Audio (`Verif/Audio`): C128, C129, C130, C131, C132, C133, C134
`io/audio_reader.py`, `io/audio_writer.py`, `bin/compute-mfcc-feats.py` with wave input, on the models of script lists, segment lists and the MFCC pipeline. libsndfile, the shell and the codecs are arbitrary functions; signals have one channel, samples in an ordered field; the parsing of the segments file by pandas is not modelled (numeric ids become integers there, and the look-up of the recording then raises). Proof: the reading loop as a prefix of one list of records; floor arithmetic for the segments; the written script parsed back.

### Text-mode archives (`Verif/Kaldi/TextArk`, `TextArkProps`): C135
`KaldiMatrix.read/write` with `binary=False` and the ark writer in text mode, on the readers of `Kaldi/Ark.lean`. Printing and parsing of a number are parameters (`fmt`, `Decoder.num`) with the hypothesis `NumOk` (the numeral is an ASCII word that parses); `C135_text_precision` instantiates them with `%f` (exact decimal rounding) and nearest single precision. Proof: the lines of the file, one row per line, by induction; a stored-record relation `EncR` for records in either mode.

### Training scripts (`Verif/Train`): C136
`bin/train-cw.py`, `train-pca.py`, `train-gaussianizer.py`, `train-mvn.py`, `train-nda.py`, `train-lda.py` (its function: the command line itself raises) on the model of saved transforms; `fit` and `predict` of the classes are arbitrary functions, what the readers return without pre-processing is given. Invariant along the chain: the last file loads as the transforms trained so far; reloading a transform that came from a file changes nothing, because rounding is idempotent.

### Tied covariances and splitting (`Verif/Pdfs/Tied`, `TiedProps`, `TiedMore`): C137, C138
`pdfs/mixtures/gmm_tied_diag_cov.py` and `split_comp` of it and of `gmm_diag_cov.py`, on the mixture model of `DiagGmm.lean`. Proof: a tied mixture is untied to a diagonal one for the densities; the EM step by the same inequality (`em_step_sum`), maximised over the common variance.

### Uncertainty propagation, NDA (`Verif/Transforms/Up`, `Nda`): C139, C140
`transforms/cent_whiten_up.py`, `lnorm_up.py` (specification: a finite weighted family with the given moments), `transforms/sb_sw.py` (`NSbSw`), `transforms/nda.py`, the function of `bin/train-nda.py`. `BallTree.query` is any function satisfying `IsKnn`. Proof of the equivariance: without ties the neighbours are the first K of the rows sorted by distance.

### Posteriors of sequences, the old Kaldi reader (`Verif/SeqReader/Sparse`, `Post`, `Verif/Kaldi/OldReader`): C141, C142, C143
`to_sparse`/`to_dense` (`bin/compute-gmm-post.py`, `helpers/sequence_post_reader.py`), `SequencePostReader`, the classes of `SequencePostClassReader`/`SequenceClassReader`, `io/kaldi_data_reader.py` and `bin/ark2hyp.py`. `argsort` is any function with the documented result. The post reader is proved to return the features of the modelled `SequenceReader` (C112, C113). The old reader: text and binary matrices through the same lines/bytes lemmas as C20 and C135; the conversion loop by induction on the number of reads.

### Keras layers (`Verif/Keras`): C144, C145, C146, C147, C148, C151, C152
`keras/layers/pooling.py`, `masking.py`, `max_with_mask` of the backend add-ons: real arithmetic on one sequence. Proof: every pooled value is a function of weighted sums, which do not see frames of weight zero, the order, or a common factor. Posteriors (`Post`), divergences, losses and samplers (`Losses`): `First`, `Second`, `Spread` say what the parameters of each format mean; the specifications are Gaussian densities, expectations under `gaussianReal` and laws of images of Gaussian measures from Mathlib. `SeqEmbed`: the loop of `predict_embed`; invariant: after chunk i the stored frames are those of the specification up to the look-ahead.

### Shared iterators, padded arrays (`Verif/Misc`): C149, C150
`utils/multithreading.py`: threads are programs of atomic steps, a schedule is any list of events; invariant over all schedules relating the results to those of one thread. `utils/tensors.py`: lists of vectors; the row of the array is specified position by position.

### Fold and part lists as objects (`Verif/Folds/Files`, `FilesProps`): C153
`utils/fold_list.py`, `utils/train_val_eval_list.py`: constructor, alignment, part names, text files; text model of `Verif/Text.lean`. Proof: splitting and printing lemmas, first occurrences from C03.

### Command lines of the training scripts: C154
`Verif/Cli`: options, parser (argparse for options written in full), namespace, `filter_*args`, constructor. The specification is one table per class (attribute, option strings, value without the option, what the option does); the theorems say that a command line is accepted exactly when it uses the tables' options correctly, and that each attribute then has the value of the last use of its option. The scripts that always raise are proved to.

### Command lines for features, with prefixes: C155
`Verif/Cli/Feats`, `FeatsProps`: options of `MFCC`, `MeanVarianceNorm`, `FrameSelector`, readers and `compute-mfcc-feats.py`; a prefix is an optional string that is put in front of the option and of the key. Proof: two option names with different prefixes are equal only if one option is a proper tail of the other after a dash, which no pair of options is; then the parser lemmas of C154 apply.

### PLDA statistics with weights (`Verif/Plda/Weights`, `WeightsProps`): C156
`compute_stats_soft/hard`, `center_stats`: matrices over the reals; a call returns the statistics and the caller's array. Proof: induction over the rows, bilinearity of the outer product.

### Gains (`Verif/Misc/Gain`, `GainProps`): C157
`utils/misc.py`: real arithmetic, arrays element by element. Proof: laws of logarithm and power; maximum of a list.

### Ordered queue (`Verif/Queues/OrderedQueue`, `OrderedQueueProps`): C158
`OrderedQueue`: submitting thread, workers, generator and `stop` as atomic steps; a schedule is any list of events; `names = false` is the code as it is. Proof: invariant `delivered ++ pending = range submitted` (a sublist once `stop` may intervene).

### Command lines of evaluation and transformations (`Verif/Cli/Eval`, `EvalProps`): C159
One interpreter `run` for the end of all these scripts (parser, verbosity, assertion, parameters of the function, `filter_args` and constructors); one option table for each script. Proof: general lemmas for `run`; the agreement of option tables and specification tables is computed by the kernel.

### Activations (`Verif/Torch/Activation`, `ActivationProps`): C160
`ActivationFactory`: the tables of names and of `isinstance` tests; constructors of torch.nn as a table of parameters. Proof: the tables are compared entry by entry by the kernel, the arguments are treated by induction over the parameters.

### Feed-forward nets (`Verif/Torch/Nets`, `NetsProps`): C161
`FCNetV1`, `FFNetV1`: a layer is its role, index and sizes; what it computes is a parameter; activations have identities. Proof: induction over the hidden layers; `forward` equals the documented list of layers.

### Factories behind command lines (`Verif/Cli/Factories`, `FactoriesProps`, `CallbacksProps`): C162, C163
Option tables, `filter_args`, binding of keyword arguments to a signature, and the cases of `create`; a made object is a class with arguments. Proof: one lemma `core_in` from parser to bound arguments for every factory; the specification tables are compared by the kernel.

### Progress lines and lists of loggers (`Verif/Torch/Progress`, `ProgressProps`): C164
`ProgLogger`, `LoggerList` and the calls of `TorchTrainer`: a logger is a state machine over calls; lines are texts. The specification lists what each line is about and how a time is written. Proof: induction over batches and epochs; the day of the month by integer arithmetic of the Gregorian calendar.

### Keras training with crashes (`Verif/Keras/Resume`, `ResumeProps`): C165
The scripts keras-train-cat-seq-embed-gen-v1/v2, `KerasModelLoader.load_checkpoint`, `SeqEmbed.save`/`load`: a disk of files, processes as lists of writes, kills after any number of them. Proof: an invariant over histories (complete checkpoints 0..n-1, at most one cut one), and a refinement of the checkpoint callback of C152 to the files.

### TDNN networks (`Verif/Keras/Tdnn`, `TdnnProps`): C166
Constructors of keras/archs/tdnn.py as functions from sequences of frames to sequences of frames plus the reported context; layers compute arbitrary functions of windows of frames, with the three paddings. Proof: `Window` (which frames determine an output frame) composes over layers; induction over the layers; weights that pass on the last or first frame of the window show that no smaller window is right.

### Shapes reported by the Kaldi readers (`Verif/Kaldi/Shapes`, `ShapesProps`): C167
`read_shapes`, `read_num_rows`, `read_dims` of the three ark readers; failing checks leave the reader moved. The specification is a cursor over a list of records (`answer`, `after`). Proof: refinement, call by call, from the reader (position in bytes, open archive) to the cursor, for any list of calls.

### Extraction scripts (Verif/Extract): C168
`job` is the script: open the reader, `read_num_rows`, `reset`, `read(1)` as often as there are records, the network `f` on each array, then create the writer and write. The readers and writers are the models of C123 and C167. Proved: the loop on a reader with pending records is `mapM f` (induction); the number of rows reported is the number of records that can be read; the outputs as in C123.

### Posterior embeddings (`Verif/Keras/SeqQEmbed`, `SeqQEmbedProps`): C169
`SeqQEmbed`: the chunk loop of C148 with its own number of chunks (a rational ceiling), the pooling layer of C145 with and without penalty, reading back, tables of choices. Proof: the number of chunks equals that of `SeqEmbed` for sequences longer than the contexts and is zero otherwise, then C148 and C145; formats by cases.

### Residual networks (`Verif/Keras/ResNet`, `ResNetLemmas`, `ResNetProps`): C170
`ResNetV1` and its wrappers along the time axis, with the strides of convolutions and maximum; `Window L R lo hi` says that a network on sequences of `L` frames gives one frame for `R`, depends on nothing outside an interval and, for the weights that add natural numbers, on both its ends. It composes (windows of strided layers), by induction over blocks. The reported context is computed with rational quotients and `int`, as in the code; it is exact when the length is a multiple of the joint stride.

### 2D convolutional networks in time (`Verif/Keras/TdConv2d`, `TdConv2dProps`): C171
`TDConv2DNetV1`, `TDVGGNetV1` on the time axis with the convolutions of C166. Window by composition over layers and blocks; tightness with weights that pass on the first or last frame of each window: such networks shift sequences (`ShiftL`, `ShiftR`), and shifts compose.

### Files of embedding models (`Verif/Keras/SaveLoad`, `SaveLoadProps`): C172
Constructor, `get_config`, `save`, `load` of the four classes as tables of names with defaults, the directory as a map from paths to contents. Proof: the value of an attribute after construction, the dictionary of the configuration and the filtered keyword arguments are computed as functions of the key; what is saved and read is closed under the rule for contexts that were not given; file names with different suffixes differ. The dictionary encoding follows from C148 and the invariance in C144. Left out: compiled models, JSON of values that are not numbers, strings or None.

### Variational autoencoder (`Verif/Keras/Vae`, `VaeProps`): C173
`VAE` with diagonal Gaussian posterior: sampler, loss, `elbo`, generation over the reals; encoder and decoder are functions of a row. Proof: the loss is rewritten with Gaussian densities (C146); the product of 1-D Gaussians has the product of the densities as density, which gives the change of measure; the bound is `log t <= t - 1` integrated.

### Command lines of conversion scripts and of Keras training (`Verif/Cli/Jobs`, `JobsProps`): C174
Parser, filters and constructors of 14 scripts as tables, as in the areas of C157 and after. The statements use tables of their own (option, parameter, type, default). For the training, the dictionary is changed by the epoch of a checkpoint before it is filtered: filters that do not contain `init_epoch` see no change, and the generator sees the epoch instead of the option. Left out: reading of files, networks and models.

### Weight constraints and constant Gaussian layers (`Verif/Keras/Constraints`, `ConstraintsProps`): C175
`keras/constraints.py`, `ConstTriu`, `MultConstDiagCov`, `MultConstDiagCovStdPrior`, `Repeat`; the optimiser is an arbitrary function. Proof: entry by entry; completing the square.

### Diarisation tables (`Verif/Segments/RttmOps`, `RttmOpsProps`): C176
`utils/rttm.py`: constructor, `filter`, item access, iteration, `merge`, speaker counts, `create_spkdiar` and `create_spkdiar_from_segments`. Validation stays a hypothesis in terms of neighbouring rows. Proof: lists, pandas `.loc` as grouping by key, the first-appearance order of `unique`.

### Files of segment lists and diarisations (`Verif/Segments/SegFile`, `SegFileProps`): C177
`SegmentList.save/load`, `RTTM.save/load` as text with the real number format (`%.3f`); pandas type inference is an arbitrary function. Proof: parser inversion, monotone rounding keeps both validity checks.

## 4. Properties

| id | property | status | theorems (last name component) | limits |
|---|---|---|---|---|
| C01 | Splitting a list for parallel jobs is a partition | proved | C01_split_list_partition, C01_split_list_balanced, C01_split_list_out_of_range | Exact floor(idx*n/P) cut points in Nat arithmetic (Python computes them in float64: modelled as exact). |
| C02 | Splitting by group key never breaks a group | proved | C02_group_split_partition, C02_group_split_keeps_groups, C02_group_split_order, C02_group_split_empty_raises |  |
| C03 | ismember/intersect are exact membership | proved | C03_ismember, C03_intersect, C03_sort |  |
| C04 | SCP script file round trip | proved | C04_scp_round_trip, C04_empty_file_raises | Empty list: load of the empty file raises IndexError (C04_empty_file_raises), so the property is stated for non-empty lists. |
| C05 | SCP entries stay attached to their key | proved | C05_entries_stay_together, C05_lookup, C05_sort_shuffle, C05_merge_concat, C05_eq, C05_getitem_position | merge drops the offset (range) column of the whole result when the first list has none; stated explicitly. |
| C06 | SCP filter keeps exactly the requested keys | proved | C06_filter_keep, C06_filter_drop, C06_filter_paths, C06_filter_index |  |
| C07 | SCP split then merge restores the list | partial | C07_split_merge_partial, C07_group_split, C07_split_merge_loses_ranges | False when there are ranges and more parts than entries: an empty part has range None and merge drops all ranges (witness C07_split_merge_loses_ranges). Proved otherwise. |
| C08 | Merging trial indexes is set union | proved | C08_merge_is_union, C08_merge_comm_idem, C08_merge_assoc |  |
| C09 | Filtering a trial index is restriction | proved | C09_filter_keep, C09_filter_drop |  |
| C10 | Splitting a trial index into a grid is a partition | proved | C10_split_partition, C10_split_merge |  |
| C11 | Trial index text round trip | proved | C11_txt_round_trip, C11_file_round_trip, C11_short_line, C11_white_space |  |
| C12 | A trial key never marks a trial both target and non-target | partial | C12_merge_union, C12_merge_consistent_partial, C12_merge_conflict_not_detected, C12_filter_keep, C12_filter_drop, C12_split, C12_h5_round_trip, C12_to_ndx, C12_h5_content | The code violates the claim: merging keys which disagree on a trial yields a trial that is both target and nontarget (C12_merge_conflict_not_detected, concrete witness). Proved for consistent inputs; everything else is proved in full. |
| C13 | get_tar_non returns exactly the labelled scores | proved | C13_get_tar_non |  |
| C14 | Aligning scores with a trial index | proved | C14_align_raise, C14_align_no_raise, C14_set_missing |  |
| C15 | Merging score files | partial | C15_merge_detects_overlap, C15_merge_values_partial, C15_merge_leaks_masked_scores | The code adds the values stored in masked-out cells, so the value part is false in general (C15_merge_leaks_masked_scores); proved when masked-out cells hold 0. |
| C16 | Dropping models/segments from scores | partial | C16_filter_drop_partial, C16_filter_drop_wrong | The code computes the kept segments from model_set; false in general (C16_filter_drop_wrong). |
| C17 | Score transformation only touches existing trials | proved | C17_transform, C17_txt_round_trip, C17_file_round_trip | The file theorem includes the six-decimal rendering of the scores (finite scores as exact rationals). |
| C18 | Cross-validation folds never split a group | proved | C18_folds, C18_no_gaps, C18_succeeds, C18_train_test, C18_parts, C18_get_part_raises, C18_few_groups_raise, C18_part_flags, C18_get_part_two | FoldList.create and TrainValEvalList.create over rationals (float rounding not modelled); shuffling is any permutation-valued machine. The last two theorems are limits/defects. |
| C19 | Kaldi token and integer encoding round trip | proved | C19_token_round_trip, C19_bad_token_raises, C19_int32_round_trip, C19_int32_out_of_range, C19_marker, C19_marker_round_trip, C19_token_ascii | for every token / int32, every trailing bytes and every behaviour of BufferedReader.peek |
| C20 | Kaldi binary matrix round trip | proved | C20_matrix_round_trip, C20_other_types_do_not_round_trip | binary mode, float32/float64; the negative theorem shows arrays of other types are written with the wrong type letter |
| C21 | Row-range reads equal slicing the full matrix | proved | C21_row_range, C21_vector_offset_misreads, C21_row_range_compressed, C21_compressed_shape | plain and compressed matrices; reading a vector with an offset mis-reads, shown by the negative theorem |
| C22 | Archive written sequentially reads back the same sequence | proved | C22_sequential_round_trip, C22_bad_key_raises, C22_write_calls, C22_random_access, C22_missing_key, C22_script_sequential, C22_iterate | binary archives |
| C23 | Batch size does not change what a reader returns | proved | C23_batches_ark, C23_copy_chunk_size, C23_batches_script, C23_copy_reads | ark archives and script files |
| C24 | Script row ranges combine to a sub-range | partial | C24_script_range_partial, C24_too_many_rows_raises, C24_reads_outside_the_entry, C24_shape_agrees, C24_shape_raises | missing because false of the code: an offset beyond the end of the entry is not rejected (C24_reads_outside_the_entry) |
| C25 | Compressed matrix container round trip | proved | C25_attrs_round_trip, C25_build_of_attrs, C25_read_write, C25_empty, C25_decompress_elementwise | all three formats and the empty matrix |
| C26 | Compression error bound | proved | C26_code_range, C26_monotone, C26_error_u16, C26_error_u8, C26_saturation, C26_recode, C26_matrix_auto, C26_matrix_fixed, C26_integers, C26_scale, C26_shape | exact arithmetic; float rounding not modelled |
| C27 | Speech-feature compression: percentile header is strictly increasing and byte code is monotone | proved | C27_header_strict, C27_code_range, C27_code_monotone, C27_decode_monotone, C27_error, C27_ends, C27_column_error, C27_recode, C27_matrix | exact arithmetic; float rounding not modelled |
| C28 | Read/write specifier parsing | partial | C28_write_spec_partial, C28_flag_order, C28_plain_path, C28_unknown_option, C28_two_colons, C28_surplus_paths_accepted, C28_blank_after_comma_raises, C28_read_spec_partial, C28_documented_read_options_raise, C28_read_several_paths, C28_script_type | exact meaning of every list of accepted options; missing because false of the code: surplus paths in a write specifier are accepted, and the documented read options b, t and negations raise |
| C29 | PAV returns the isotonic regression | proved | C29_blocks, C29_empty_raises, C29_shape, C29_optimal, C29_least_squares | exact arithmetic, float input |
| C30 | ROC convex hull is made of reachable operating points | proved | C30_shape, C30_operating_points, C30_below_roc, C30_strictly_convex, C30_dominates, C30_raises, C30_roc_contains_thresholds | exact arithmetic over any linearly ordered field |
| C31 | Minimum DCF is the minimum over all thresholds | proved | C31_min_dcf, C31_raises, C31_effective_prior | exact arithmetic |
| C32 | Actual DCF uses the Bayes threshold | partial | C32_act_dcf_partial, C32_descending_raises, C32_min_le_act, C32_repeated_priors | true for strictly ascending priors; repeated priors (accepted by the code) give wrong counts, even a miss rate of -1: C32_repeated_priors |
| C33 | EER is where the ROC convex hull meets the diagonal | proved | C33_eer, C33_no_better, C33_prbep | exact arithmetic; includes PRBEP |
| C34 | Cllr is symmetric in the roles of targets and nontargets | partial | C34_cllr_partial, C34_nontargets_wrong, C34_nontarget_monotone_wrong_way | the code is wrong: nontarget scores enter with the wrong sign; proved what it computes and the negation of the property |
| C35 | Sliding-window normalisation: fast and slow implementations agree | proved | C35_cumsum_eq_slow, C35_conv_eq_slow, C35_mean_only, C35_mean_var, C35_global | one column (operations are column-wise); exact real arithmetic; constant columns excluded when the variance is normalised |
| C36 | Frame selection keeps exactly the voiced frames | proved | C36_select, C36_count |  |
| C37 | Symmetric / triangular matrix packing round trip | proved | C37_length, C37_layout_upper, C37_layout_lower, C37_symmetric_roundtrip, C37_vector_roundtrip, C37_triangular_roundtrip, C37_triangular_vector_roundtrip, C37_bad_length | dimension computed with the integer square root (equals the code where the float square root is exact) |
| C38 | Flat clusters from a dendrogram | proved | C38_num_clusters, C38_nested, C38_many, C38_zero_raises, C38_threshold, C38_threshold_inversion | The dendrogram is any valid sequence of merges (scipy linkage is trusted to return one). Threshold criterion needs ordered merge scores; C38_threshold_inversion shows that this is needed. |
| C39 | Score normalisation with masks uses only valid cohort scores | proved | C39_znorm, C39_tnorm, C39_znorm_masked, C39_tnorm_masked, C39_full_mask, C39_affine_invariant, C39_standardised, C39_snorm, C39_caller_array_changed, C39_adapt_snorm, C39_adapt_snorm_nomask, C39_adapt_masked_chosen | Exact real arithmetic. Adaptive S-norm: proved which scores are used; masked members can be chosen (C39_adapt_masked_chosen). |
| C40 | Metric accumulator is the sample-weighted mean | proved | C40_weighted_mean, C40_batching, C40_no_raise | Exact arithmetic over any field of characteristic 0. |
| C41 | Learning-rate schedules stay within bounds | proved | C41_exp_epoch, C41_exp_batch, C41_warmup, C41_unchanged, C41_zero_warmup_raises, C41_no_raise, C41_exp_bounds, C41_exp_nonincreasing, C41_cos_between, C41_cos_bounds, C41_cos_below_min, C41_cos_epoch, C41_cos_batch, C41_cos_schedule_anti, C41_cos_restart, C41_cos_first_epoch, C41_cos_epoch_end_raises, C41_cos_T_adjust, C41_cos_warm, C41_cos_first_epoch_batches | Real arithmetic; a new scheduler; AdamCosineLR not modelled (its constructor raises). Defects shown: default warmup_steps=0 raises at the first batch; last_restart=1 shifts the schedule; one batch in the first epoch raises; T is rounded to a multiple of nb-1. |
| C42 | Reduce-on-plateau state machine | proved | C42_reduces_iff, C42_only_on_decision, C42_bounds, C42_never_raised, C42_best, C42_best_negative, C42_zero_warmup_raises, C42_improvement | C42_best_negative: with negative metrics and a relative threshold the claim about the best value is false. |
| C43 | Generator queue delivers each item once, in order, within its size limit | proved | C43_in_order, C43_no_loss_no_dup, C43_bounded, C43_bounded_one, C43_progress, C43_all_delivered, C43_exhausted_loses, C43_two_workers | Threads only (multiprocessing not modelled). A finite generator loses queued items (C43_exhausted_loses); several workers can reorder and exceed the size by w-1 (C43_two_workers). |
| C44 | Mini-batch sub-sequences stay inside their utterance | proved | C44_v1_random, C44_v1_sequential, C44_v1_random_total, C44_v1_label, C44_v1_prune_stale_lengths, C44_v2, C44_v2_total, C44_v2_hangs, C44_v1_full, C44_v2_num_classes | both generators, all random machines; C44_v1_prune_stale_lengths and C44_v2_hangs are defects of the code outside the stated hypotheses |
| C45 | Generator epochs | proved | C45_v1_counters, C45_v1_second_epoch_repeats_first, C45_v1_resume, C45_v1_random_order, C45_v1_sequential_terminates, C45_v1_sequential_hangs, C45_v1_two_passes_hang, C45_v1_epoch_may_skip_utterances, C45_v1_sequential_may_skip_frames, C45_v2_counters, C45_v2_steps, C45_v2_epochs, C45_v2_auto, C45_v1_auto | counters and reproducibility proved for both generators; the coverage of sequential mode is refuted (_may_skip_ theorems) |
| C46 | Samples-per-class filtering | proved | C46_filter_by_spc, C46_none_min_raises | all tables/limits/modes/random machines; mode name says which samples are removed; the None min_spc default of the class-splitting options raises (proved) |
| C47 | Splitting classes into sub-classes | proved | C47_split_pure, C47_sequential_covers, C47_random_overflow, C47_random_drops_class, C47_random1subclass_drops | purity and size bound in all modes, success and coverage in sequential mode; random-mode buffer overflow, silent class loss and random_1subclass loss proved as defects |
| C48 | RTTM adjacent-segment merging preserves coverage | proved | C48_merge_sound, C48_merge_complete, C48_merge_idempotent, C48_contained_loses_speech | functional spec of merging (runs), soundness for all tables, completeness when no joinable neighbour ends earlier; the contained-segment loss is proved as a defect |
| C49 | Speaker look-up by time returns exactly the overlapping segments | proved | C49_fast_eq_slow, C49_names_of_window, C49_exact_when_not_inside, C49_inside_missed, C49_empty_file_raises, C49_files_with_other_names, C49_prepend | exact characterisation; segments strictly inside the window are missed (proved defect) |
| C50 | Extended segments are consecutive runs of one speaker | proved | C50_merge_adjacent, C50_at_sign_collision, C50_unknown_raises, C50_index | times and score column not modelled |
| C51 | Binary VAD from segments marks exactly the covered frames | proved | C51_bin_vad, C51_bin_vad_time, C51_end_frame_marked, C51_default_length, C51_by_segment_raises, C51_by_segment | exact arithmetic for times; end frame inclusive and default length from the last row proved |
| C52 | Utterance-info tables keep key and info aligned | proved | C52_rows_aligned, C52_lookup, C52_filter, C52_filter_complement, C52_filter_info, C52_filter_index, C52_split, C52_split_group, C52_sort, C52_info_one_column, C52_duplicate_key_lookup, C52_info_two_columns, C52_index, C52_sort_fields, C52_split_field, C52_split_history | C52_duplicate_key_lookup and C52_info_two_columns are defects outside the unique-key / one-column case |
| C53 | K-means never increases its loss | proved | C53_fit, C53_predict, C53_centroids, C53_seeds, C53_fit_returns, C53_seeds_repeat, C53_cluster_lost | over any ordered field (rounding not modelled); the last two theorems are a proved defect of the seeding |
| C54 | Optimal calibration (opt_loglr) is finite and order preserving | proved | C54_opt_loglr, C54_ties_split | laplace method; over the reals. Ties are split (C54_ties_split). |
| C55 | Class balancing of the utterance list | proved | C55_class_balance | integer imbalance; the code admits any real number |
| C56 | Padding variable-length data into three-dimensional arrays loses nothing | proved | C56_by_seq, C56_by_seq_too_long, C56_by_class |  |
| C57 | Overlap elimination | proved | C57_eliminate_overlaps, C57_chain_still_overlaps, C57_contained_negative, C57_by_row_nan, C57_by_row_rest | index by file; chain, containment and row-number-index defects proved |
| C58 | RTTM to segment list | proved | C58_to_segment_list, C58_ids_collide, C58_width | non-negative times |
| C59 | Sorting a trial list does not change its trials | proved | C59_sort_ndx, C59_sort_canonical, C59_sort_key, C59_sort_scores | Without condition arrays of TrialKey. |
| C60 | Splitting scores into parts loses and duplicates no score | proved | C60_split_scores, C60_split_partition |  |
| C61 | Trial key text round trip | proved | C61_key_round_trip, C61_file_round_trip |  |
| C62 | Replacing test files by their segments | proved | C62_apply_segmentation |  |
| C63 | Checkpoints survive crashes and form one uninterrupted training | proved | C63_crash_consistency, C63_resume_deterministic, C63_never_lost, C63_name_width | State dictionaries are opaque; the file system is a map from paths to files, written in two steps by torch.save. |
| C64 | Training can be resumed after a crash | partial | C64_resume_partial, C64_broken_file_blocks | False of the code when the kill falls inside torch.save: the broken file is selected by load_last_checkpoint and every later start raises (C64_broken_file_blocks). Proved for all histories without a broken file. |
| C65 | The training log has one row per epoch | partial | C65_log_partial, C65_log_lost, C65_append_raises | Proved for a training that is never restarted; false after a restart (earlier rows are lost, append mode always raises), both proved. |
| C66 | softmax, logsumexp and the sigmoids compute what their names say for every input | proved | C66_softmax_value, C66_softmax_distribution, C66_softmax_shift, C66_softmax_order, C66_logsumexp, C66_sigmoids, C66_sigmoids_exact, C66_sigmoid_monotone | Exact real arithmetic. |
| C67 | Sufficient statistics of a mixture do not depend on the batch size and add up over segments | proved | C67_posterior, C67_stats, C67_batch_invariance, C67_total_mass, C67_no_rows, C67_segments_additive, C67_segment_probabilities | Exact real arithmetic; sample weights and the optional u_x argument are modelled as per-frame weights. An empty recording with a batch size raises (C67_no_rows). |
| C68 | Sliding-window statistics are the statistics of each window | partial | C68_windows_partial, C68_one_window_raises, C68_batches_raise | Proved for recordings with at least two windows processed in one go. The rest is false of the code: a recording with fewer than two windows raises, and the batch version raises for all overlapping windows (both proved). |
| C69 | Gaussian and GMM scores are log densities | proved | C69_log_prob, C69_nat_eq_std, C69_parameters, C69_normal | Exact real arithmetic. |
| C70 | EM training of a diagonal GMM never decreases the likelihood | partial | C70_update, C70_em_step_partial, C70_fit_no_floor, C70_reported_bound, C70_weights, C70_floor_decreases, C70_update_lambda_only, C70_weights_frozen, C70_stale_weights, C70_floor | False of the code in general (negations proved): a variance floor above the data's variance decreases the likelihood; update_mu=False with update_Lambda=True gives negative variances; log_pi is cached and never reset, so learned weights are never used. Proved: without floor, the likelihood computed by the model never decreases over any number of epochs; with a floor under the stated condition. |
| C71 | Fitting a diagonal Gaussian is maximum likelihood | proved | C71_fit, C71_maximum_likelihood, C71_batch_size, C71_fixed_mean | With update_mu=False the code estimates E[x^2]-mu^2 instead of the variance around mu (C71_fixed_mean). |
| C72 | Centering and whitening whitens the training data | proved | C72_whitening, C72_dimension, C72_sign, C72_few_rows, C72_few_rows_mean | LAPACK eigh is an oracle specified by IsEigh; exact arithmetic |
| C73 | Length normalisation | proved | C73_direction, C73_norm, C73_bounds |  |
| C74 | PCA finds the directions of largest variance | proved | C74_dim, C74_uncorrelated, C74_descending, C74_optimal, C74_sign | LAPACK eigh is an oracle specified by IsEigh; sample_weight is ignored by the code |
| C75 | LDA whitens within classes and maximises between-class variance | proved | C75_between_within, C75_diagonal, C75_optimal, C75_dim, C75_data | generalised eigh is an oracle specified by IsEighGen |
| C76 | Between/within class statistics can be computed on parts | partial | C76_additive_partial, C76_accum_loses | the defect is proved as a negation |
| C77 | Global mean and variance normalisation | proved | C77_mvn | constant coordinates give nan (0/0) and are excluded |
| C78 | Gaussianisation is a monotone rank mapping | proved | C78_value, C78_monotone, C78_separates, C78_fit | the quantile function (erfinv) is a parameter assumed monotone |
| C79 | Nuisance attribute projection removes the nuisance directions | proved | C79_nap | NAP.fit raises (np.uniqe) and is not modelled |
| C80 | PLDA verification score is the log likelihood ratio | proved | C80_frplda_llr, C80_splda_llr, C80_plda_llr | exact arithmetic; Cholesky factorisation is an oracle specified by IsCholesky |
| C81 | Many-to-many PLDA scoring | proved | C81_book, C81_symm, C81_savg, C81_vavg | SPLDA/PLDA llr_NvsM_book return None (see DESIGN) and are not modelled |
| C82 | PLDA speaker posterior | partial | C82_fr_posterior, C82_sp_posterior_partial, C82_sp_mean_wrong | the defect of SPLDA for mu != 0 is proved |
| C83 | The reported PLDA training objective is the log likelihood | partial | C83_fr_elbo, C83_sp_elbo_partial, C83_plda_elbo_partial, C83_sp_elbo_exceeds |  |
| C84 | Full-rank PLDA training never lowers the likelihood | partial | C84_fr_mstep_partial, C84_fr_fit_partial, C84_fr_update_W_decreases | with update_mu=False the mean must be zero or B fixed |
| C85 | Simplified PLDA training never lowers the likelihood | partial | C85_sp_epoch_partial, C85_sp_fit_partial, C85_sp_update_mu_decreases, C85_sp_md_decreases |  |
| C86 | Short-time analysis covers the signal with whole frames | proved | C86_frames, C86_short, C86_logE | exact arithmetic |
| C87 | The inverse short-time transforms recover the signal | proved | C87_istft, C87_istrft, C87_no_window, C87_fft_too_short, C87_odd_fft_wrong | exact arithmetic; FFT by its definition |
| C88 | Filter state makes processing in pieces equal to processing at once | proved | C88_filter_append, C88_difference, C88_dc_constant, C88_preemph, C88_vad_stream, C88_reset, C88_no_reset_differs, C88_vad_dither | exact arithmetic |
| C89 | snip_edges=False gives one frame per shift | proved | C89_frames, C89_short_frame_raises, C89_snip, C89_mirror, C89_empty |  |
| C90 | Energy VAD decisions | proved | C90_decision, C90_wave, C90_context_raises, C90_monotone, C90_gain |  |
| C91 | Filter banks | proved | C91_mel_inverse, C91_kaldi, C91_kaldi_partition, C91_kaldi_dc, C91_kaldi_bin_frequency_wrong, C91_linear, C91_etsi, C91_norm, C91_norm_bin, C91_odd_fft_raises, C91_create | exact arithmetic |
| C92 | Windows | proved | C92_exists, C92_range, C92_symmetric, C92_hann_overlap, C92_resynthesis, C92_first_sample, C92_shape | exact arithmetic |
| C93 | The MFCC pipeline can be stopped and continued | proved | C93_resume_logfb, C93_resume_mag, C93_resume_fft, C93_resume_fft_energy, C93_resume_fft_wrong, C93_raises, C93_resume_logspec, C93_argument_kept, C93_argument_overwritten, C93_extras, C93_extras_refused, C93_wrong_width | exact arithmetic |
| C94 | MFCC values, shapes and state | proved | C94_logfb, C94_cepstra, C94_too_many_ceps, C94_fft_length, C94_half_spectrum, C94_spectrum, C94_reset, C94_stream, C94_dither | exact arithmetic; snip_edges=True |
| C95 | HDF5 archives read back what was written | proved | C95_written_file, C95_write_read, C95_duplicate_raises, C95_slash_key | h5py trusted as stated at File; keys with a '.' component or a trailing slash not modelled |
| C96 | Sequential HDF5 reading covers every record once | proved | C96_read, C96_batches, C96_read_shapes, C96_reset_close, C96_split_by_key_same, C96_parts, C96_iterate |  |
| C97 | HDF5 row ranges and random access | proved | C97_sequential_rows, C97_random_rows, C97_random_closed, C97_random_shapes, C97_empty_shapes, C97_random_lists, C97_sequential_lists |  |
| C98 | HDF5 script readers | proved | C98_written_script, C98_write_read, C98_sequential, C98_reset, C98_range, C98_reads_outside_the_entry, C98_shape, C98_rand_open, C98_random, C98_random_is_sequential, C98_shapes_at_the_end, C98_random_lists, C98_read_shapes |  |
| C99 | squeeze of read arrays | proved | C99_same_shape, C99_permissive, C99_first_missing, C99_raises, C99_order_matters, C99_zeros |  |
| C100 | Merging HDF5 files | proved | C100_merge, C100_duplicate_raises, C100_empty_input_raises, C100_compressed_lost, C100_read_slice |  |
| C101 | Gaussian score calibration | proved | C101_llr, C101_posterior_odds, C101_order, C101_fit_values, C101_unweighted, C101_weight_scale, C101_permutation, C101_affine, C101_missing_class, C101_fit_ml | exact real arithmetic |
| C102 | Gaussian back-end scoring | proved | C102_llk, C102_linear_llr, C102_decision, C102_posterior, C102_raw, C102_unknown_method, C102_predictive_value, C102_predictive_posterior, C102_predictive_wrong | C102_predictive_wrong is a proved defect |
| C103 | Gaussian back-end training | proved | C103_ml, C103_map, C103_values, C103_empty_class, C103_sequential, C103_class_ids, C103_bad_id, C103_num_classes |  |
| C104 | Q-scoring back-end | proved | C104_score, C104_posterior, C104_fit_posterior, C104_fit_values, C104_post_N, C104_balance_no_effect, C104_unbalanced_ignores, C104_prior_N_raises, C104_valid, C104_permutation, C104_prior_N, C104_prior_N_ignores |  |
| C105 | Logistic regression and SVM wrappers | proved | C105_weights, C105_total_weight, C105_weights_overwritten, C105_binary_bayes, C105_binary_decision, C105_binary_fit, C105_bias_scaling_wrong, C105_multi_bayes, C105_multi_fit, C105_prior_errors, C105_reload, C105_svm_reload, C105_svm_reload_changes, C105_svm_logpost_sign, C105_binary_options_ignored | scikit-learn's optimiser is an arbitrary function |
| C106 | Trial evaluation from files | proved | C106_enroll_test, C106_order, C106_coh_test, C106_raises, C106_cosine, C106_frplda, C106_splda | A random access reader is a partial function from keys to vectors (C97, C98 prove this of the readers). |
| C107 | Two-class performance script | proved | C107_performance, C107_end_to_end | DCF values written by the script are covered by C34; here the equal error rate and the counts. |
| C108 | Classification scripts and score tables | proved | C108_lre_table, C108_classification, C108_vectors2scores, C108_lre_list, C108_lre_tabs, C108_first_fields | Scores in the table are printed with %f semantics (printF of Trials/TxtFile); os.path.splitext is a parameter with root + ext = name. |
| C109 | Covariance flooring | proved | C109_varfloor, C109_equivariant, C109_from_chol, C109_scalar | Real arithmetic; SVD and Cholesky are functions satisfying their specification. |
| C110 | Full-covariance Gaussian | proved | C110_log_prob, C110_parameters, C110_fit, C110_too_few, C110_fixed, C110_norm_stats_wrong | var_floor of Normal is ignored by the code, so fit is plain maximum likelihood. |
| C111 | Mixtures of full-covariance Gaussians | partial | C111_log_prob, C111_update, C111_succeeds, C111_weights_frozen, C111_em_step_partial, C111_fit_means, C111_reported_bound, C111_floor_decreases | Monotonicity with covariance updates needs the stated condition; the unconditional claim is false (C111_floor_decreases). |
| C112 | Sub-sequence reader: cyclic modes | proved | C112_slices, C112_sequential, C112_complete, C112_random, C112_progress, C112_stall, C112_short_negative | The condition for progress is sufficient; C112_stall shows that the unconditional claim is false. |
| C113 | Sequence reader: one item per sequence | proved | C113_one_per_seq, C113_full, C113_min_length | Reading random samples needs non-empty sequences. |
| C114 | Confusion matrix and accuracy | proved | C114_counts, C114_default_labels, C114_no_weights, C114_raises, C114_normalized, C114_rows, C114_accuracy, C114_trace | scikit-learn's confusion_matrix and accuracy_score are modelled from their source. |
| C115 | Confusion matrix with different labels in training and test | proved | C115_xlabel, C115_class_numbers, C115_default_labels, C115_mutates, C115_collision, C115_second_call, C115_strings |  |
| C116 | Accuracy metrics of torch models | proved | C116_strict, C116_categorical, C116_unweighted, C116_one_hot, C116_range, C116_binary_sum, C116_binary_mean_raises | Two-dimensional inputs. |
| C117 | What a model file keeps of a model | proved | C117_save_iff, C117_bare_path_raises, C117_load_iff, C117_missing_raises, C117_broken_classes, C117_roundtrip, C117_tables_cover, C117_second_cycle, C117_class_not_checked, C117_constructor | Attributes of the scikit-learn objects other than coefficients are represented by one option. |
| C118 | Lists of transforms in files | proved | C118_construct, C118_append, C118_save_iff, C118_same_name_raises, C118_load_iff, C118_roundtrip, C118_predict, C118_names_grow, C118_second_cycle, C118_borrowed_parameter | Lists within lists and the same object twice in a list are not modelled. |
| C119 | Segment lists: filter, split, merge, iteration | proved | C119_constructor, C119_filter_keep, C119_filter_drop, C119_split_by_file, C119_split_by_segment, C119_split_repeated_id, C119_merge, C119_iteration, C119_index_ignored | Pandas .loc and concat by contract (pandas >= 1.0). |
| C120 | VAD scripts for segment files and diarisations | proved | C120_segments_script, C120_parts, C120_num_frames_needed, C120_bad_listing, C120_rttm_script, C120_rttm_num_frames_needed |  |
| C121 | Speech intervals in OpenSAT format | proved | C121_intervals, C121_label_shift, C121_one_frame_early, C121_empty_first_interval, C121_file | Times are exact multiples of 0.01. |
| C122 | Error rates depend only on the order of the scores | proved | C122_eer_minimax, C122_increasing_map, C122_permutation, C122_proportions, C122_monotone, C122_symmetry, C122_zero_iff | Exact arithmetic. |
| C123 | Copying features keeps every record | proved | C123_copy_to_ark, C123_copy_to_h5, C123_duplicate_key_h5_raises | Text archives are not modelled; inputs must not depend on the output files. |
| C124 | When copying features raises or destroys data | proved | C124_in_place_empties, C124_in_place_h5_raises, C124_bare_output_raises, C124_script_only_raises, C124_parts_of_many_raises, C124_parts_of_ark_raises, C124_missing_input_raises, C124_separator_ignored | Directory creation is not modelled beyond the bare file name. |
| C125 | The parts of an input are the input | proved | C125_parts, C125_copy_parts | Entries of ark scripts must not have offset 0 (the reader does not seek then). |
| C126 | Random access through the factory | proved | C126_random_ark, C126_random_h5, C126_random_ark_without_script_raises, C126_missing_key | Distinct keys. |
| C127 | Path prefix of script readers | proved | C127_prefix_sequential, C127_prefix_random |  |
| C128 | Wave specifiers | proved | C128_read_wavspecifier, C128_w64_defect |  |
| C129 | Sequential audio reader | proved | C129_history, C129_iteration, C129_parts, C129_colon_bracket_defect |  |
| C130 | Reading segments of recordings | proved | C130_segment, C130_tiling, C130_history, C130_iteration, C130_parts, C130_recording_of_segment, C130_negative_times, C130_until_end_refused, C130_read_all_defect |  |
| C131 | Random-access audio reader | proved | C131_recordings, C131_segments, C131_agree |  |
| C132 | Audio writer | proved | C132_write, C132_history, C132_formats, C132_unknown_subtype, C132_pcm24_defect, C132_collision, C132_collision_overwrites, C132_sample_types |  |
| C133 | Audio round trip | proved | C133_round_trip, C133_pcm16_exact, C133_pcm16_error, C133_dots_defect |  |
| C134 | Feature extraction jobs | proved | C134_compute_mfcc, C134_jobs |  |
| C135 | Text-mode archives | proved | C135_text_array, C135_text_archive, C135_mixed_archive, C135_write_calls, C135_text_random_access, C135_text_precision, C135_slices_raise, C135_no_rows_raises, C135_no_columns, C135_truncated_not_noticed, C135_key_only |  |
| C136 | Training a chain of transforms | proved | C136_training_chain, C136_chain_runs, C136_same_name_raises, C136_no_append, C136_no_tlist, C136_input_model, C136_input_list, C136_gauss_list_raises, C136_no_lnorm_ignores_input, C136_input_class_ignored |  |
| C137 | Mixtures with a tied diagonal covariance | proved | C137_log_prob, C137_nat_eq_std, C137_update, C137_em_step, C137_fit_no_floor, C137_fit_succeeds, C137_kmeans_init, C137_floor_decreases | real arithmetic instead of floating point; k-means centroids given |
| C138 | Splitting mixture components | proved | C138_split, C138_split_tied, C138_mass_and_mean, C138_mass_and_mean_tied, C138_mean_moves, C138_options |  |
| C139 | Uncertainty propagation through whitening and length normalisation | proved | C139_cw_propagates, C139_lnorm_propagates, C139_lnorm_norm, C139_fit_whitens, C139_input_overwritten, C139_second_call_differs, C139_scales_differ, C139_fit_weighted, C139_shape | real arithmetic; eigenvectors as documented |
| C140 | Nearest-neighbour discriminant analysis | proved | C140_stats, C140_psd, C140_similarity, C140_succeeds, C140_train, C140_one_neighbour_fails, C140_small_class_raises, C140_tool_needs_ten, C140_gap | BallTree and eigh as documented (IsKnn is shown satisfiable) |
| C141 | Sparse storage of posteriors | proved | C141_keep_largest, C141_shape, C141_posterior, C141_all, C141_again, C141_bad_number, C141_sequences | exact arithmetic; the file type must represent the component numbers exactly |
| C142 | Features with posteriors and class labels | proved | C142_same_features, C142_aligned, C142_no_samples, C142_labels, C142_repeated_class | rows are given by their numbers; random draws and shuffles are arbitrary |
| C143 | The old Kaldi reader and conversion to HDF5 | proved | C143_binary, C143_text, C143_convert, C143_archive_raises, C143_zero_chunk, C143_rest_position, C143_records, C143_position, C143_open, C143_squeeze | conversion proved with squeeze=False; decoding of numerals as for C135 |
| C144 | Pooling over masked sequences (Keras layers) | proved | C144_values, C144_padding, C144_repeats, C144_scale, C144_affine, C144_range, C144_mask, C144_create_mask, C144_max, C144_max_negative, C144_sum, C144_lde_assign, C144_lde_proportional, C144_lde, C144_lde_invariance | real arithmetic, one sequence at a time (elements of a batch do not interact) |
| C145 | Gaussian posteriors with standard normal prior (Keras layers) | proved | C145_convert, C145_convert_limited, C145_unknown, C145_pool_values, C145_pool_density, C145_padding, C145_prior, C145_long_sequences, C145_saturation, C145_score | real arithmetic; the formats are given after the split at the first + |
| C146 | Divergences and likelihood losses (Keras) | proved | C146_kl_std, C146_kl_seq, C146_kl_diag, C146_kl_objectives, C146_kl_nonneg, C146_diag_normal, C146_nllk_frame, C146_normal_chol, C146_mbr, C146_bernoulli_swapped | real arithmetic; binary_crossentropy as in Keras 2 |
| C147 | Samplers (Keras) | proved | C147_rows, C147_law, C147_unknown, C147_tied, C147_bernoulli | noise is an input of the model; its law is a hypothesis of the statement on distributions |
| C148 | Embeddings of long sequences (Keras) | proved | C148_whole, C148_pool, C148_left_context, C148_short, C148_reject | the network is a function of one chunk; integers instead of float divisions; negative shifts left out |
| C149 | Iterators shared by threads | proved | C149_serial, C149_exactly_once, C149_no_deadlock, C149_unprotected | threads take steps: begin a call, acquire, read the iterator's state, finish and release; the wrapped iterator is any deterministic state machine |
| C150 | Lists of vectors as three-dimensional arrays | proved | C150_by_seq, C150_by_class, C150_pool, C150_by_class_mismatch |  |
| C151 | Evaluating a function in batches (Keras) | proved | C151_batches, C151_eval_loop, C151_empty, C151_unwrap, C151_array_raises, C151_weighted, C151_sample_weight_cancels, C151_output_lengths | the Keras function is a list of functions of one sample; learning phase and shuffling left out |
| C152 | Checkpoints and learning-rate steps (Keras) | proved | C152_best, C152_every, C152_arguments_ignored, C152_mode_max_keeps_min, C152_steps, C152_steps_option, C152_create | metric values are rationals (no NaN); a saved model is the number of its epoch |
| C153 | Fold and part lists as objects: files, alignment, names | proved | C153_parts_round_trip, C153_names_lost, C153_fold_save, C153_fold_load, C153_align, C153_by_name, C153_len, C153_fold_len_raises, C153_get_fold, C153_default_names, C153_len_empty, C153_save_returns | integers in text: sign and decimal digits; separators of one character |
| C154 | Training scripts do what their command lines say | proved | C154_gbe, C154_qs, C154_lr, C154_svm, C154_verbose_conflict, C154_plda_always_raises, C154_plda_intended, C154_defaults, C154_plda_accepts | argparse is modelled for options written in full with a separate argument; abbreviations, --x=y and @file are not modelled. Text conversion is an oracle. |
| C155 | Feature extraction objects and compute-mfcc-feats.py do what their command lines say | proved | C155_mfcc, C155_two_prefixes, C155_mvn, C155_mvn_needs_switch, C155_tolerance_ignored, C155_compute_mfcc, C155_compute_mfcc_accepts, C155_bool, C155_accepts, C155_defaults | Same argparse model as C154. The theorem about two prefixes is for two MFCC objects. |
| C156 | Weights, scaling and centering of PLDA statistics | proved | C156_soft, C156_unit, C156_copies, C156_hard, C156_additive, C156_order, C156_center, C156_scales_argument, C156_second_call_differs | Exact arithmetic; broadcasting of a single row is not modelled. PLDABase.fit accepts sample_weight and never uses it. |
| C157 | Gains in decibels and the simple activity detector | proved | C157_types, C157_amplitude, C157_log, C157_power, C157_add, C157_vad, C157_vad_gain | Exact real arithmetic. |
| C158 | Ordered prefetching queue: order, bounds and stop under every schedule | partial | C158_order, C158_round, C158_capacity, C158_no_deadlock_partial, C158_subsequence, C158_stop_ends_producer, C158_threads_never_start, C158_processes_never_deliver, C158_empty_sequence, C158_stop_leaves_consumer_blocked | As shipped the class never delivers an item (ThreadPool, get_index and random are not defined, proved); progress is proved for the class with these names defined. A worker step is the completion of any submitted task; the calls of stop() inside get() are one step. |
| C159 | Command lines of evaluation and transformation-training scripts | proved | C159_cos, C159_plda, C159_gbe, C159_qs, C159_lr, C159_svm, C159_elbo, C159_nda_never_runs, C159_nda_imported, C159_mvn, C159_cw, C159_pca, C159_gauss, C159_update_true, C159_lda_never, C159_defaults | Conversions of arguments are an oracle; abbreviations, --x=y and @files of argparse are not modelled; what the functions then do with the parameters is the subject of other properties. With --input-path the attributes of the model are those of the loaded model. |
| C160 | Activation functions by name and their configuration | proved | C160_create, C160_config_round_trip, C160_config_bad, C160_create_args | Parameters, defaults, attributes and inheritance of the classes of torch.nn are an assumption (torch is not part of this code). |
| C161 | Feed-forward networks compute the documented layers | proved | C161_fc_accepts, C161_fc, C161_fc_output_raises, C161_ff_accepts, C161_ff, C161_ff_shape, C161_same, C161_no_config | What a layer computes is a parameter; its requirement on the number of features is modelled. |
| C162 | Optimisers and learning-rate schedulers from command lines and keyword arguments | proved | C162_torch_optimizer, C162_torch_optimizer_create, C162_torch_scheduler, C162_torch_scheduler_create, C162_keras_optimizer, C162_keras_optimizer_create, C162_conflict, C162_two_prefixes, C162_min_conflict | Conversions of arguments are an oracle; the object is the class and the arguments passed to it; torch's and Keras' own checks of arguments are not modelled. |
| C163 | Callbacks for Keras training | proved | C163_callbacks, C163_callbacks_create, C163_lr_steps_no_effect | The verbosity of the callbacks and the creation of the directory are not modelled; what the callbacks do is C152. |
| C164 | Progress lines of a training and lists of loggers | proved | C164_training_lines, C164_time_unique, C164_time_text, C164_not_time_text, C164_batches_announced_raises, C164_interval_zero_raises, C164_logger_list, C164_unknown_size, C164_no_size | Exact arithmetic for the clock; '%.6f' is a parameter; the limits (31 days, announced batches, interval 0) are proved as separate theorems. |
| C165 | Keras training that is killed and started again | partial | C165_which, C165_one_process, C165_crash_consistency, C165_never_lost, C165_resume_partial, C165_cut_blocks, C165_needs_validation, C165_v1_twice, C165_best_lost, C165_init_path, C165_optimizer_lost | Resuming is proved for gen-v2 with all epochs saved and no cut checkpoint; the other cases are false of the code, each with a theorem. Files are created and filled in separate steps; the networks, the optimizer and an epoch of training are arbitrary. |
| C166 | Context of the TDNN networks | partial | C166_window, C166_arguments, C166_length, C166_tight, C166_context_iff, C166_cut_partial, C166_transpose, C166_transpose_wider, C166_residual, C166_residual_dead, C166_residual_valid, C166_embed, C166_embed_valid, C166_even_kernel_wrong, C166_chunks_wrong | The claim about the context is proved exactly for the layer sizes for which it is true (iff); even kernels and chunked extraction are false of the code. Layers compute arbitrary functions of their windows; padding as documented for the TensorFlow backend; one output layer. |
| C167 | Shapes reported by the Kaldi readers without reading the data | partial | C167_archive, C167_script_partial, C167_random, C167_written_script, C167_nothing_left, C167_negative_rows | Script readers: the claim 'raises iff widths differ' is false when no record is left (C167_nothing_left). Transforms are not applied by queries, so the claims are about reading without a transform; text archives are in the model, the theorems are about binary ones; ranges of vectors only if they cover the vector. |
| C168 | Embedding and evaluation scripts: one vector per sequence, all or nothing | proved | C168_extract_to_ark, C168_extract_to_h5, C168_stops, C168_written_source, C168_parts, C168_more_parts_than_records, C168_write_format, C168_bad_output | The network and the transform of --preproc-file are one function of the array (partial: an exception). Failures while the outputs are written (duplicate keys in HDF5) leave files the model does not describe. The loading of the model file and the command line are not part of this property. |
| C169 | Posterior embeddings of sequences (SeqQEmbed) | partial | C169_extract, C169_short, C169_short_value, C169_penalty_partial, C169_no_penalty, C169_penalty_lost, C169_formats_partial, C169_reload_partial, C169_reload_raises, C169_reload_lost, C169_defaults, C169_reload_train, C169_no_plus, C169_no_training | Partial because the full claims are false of the code: the penalty is lost, two output formats are misspelled, the downsampling is not saved (C169_penalty_lost, C169_formats_partial, C169_reload_lost). Real arithmetic; negative in_shift left out; the network after the pooling (score_net) is not modelled here. |
| C170 | Residual networks on sequences (ResNetV1): frames seen, lengths, reported context, architectures that cannot be built | proved | C170_sees, C170_context, C170_missing, C170_underestimates, C170_resnet18, C170_equal_filters, C170_wide18, C170_bottleneck, C170_deep, C170_asserts, C170_dense | Time axis only: shapes along the frequency axis are left out; dropout is the identity; layers compute arbitrary functions of the frames of their windows. |
| C171 | Time-delay 2D convolutional networks (TDConv2DNetV1, TDVGGNetV1, TDVGG16/19): frames seen, lengths, arguments | proved | C171_conv_arguments, C171_conv, C171_conv_tight, C171_conv_pointwise, C171_vgg, C171_vgg_tight, C171_vgg_pointwise, C171_vgg_number, C171_vgg_named, C171_vgg_asserts | Time axis only; shapes along frequency and other paddings are left out (with them the final Reshape mixes frames or raises). |
| C172 | Embedding models written to files and read again (SeqEmbed, SeqEmbedLDE, SeqQEmbed, SeqMetaEmbed) | proved | C172_roundtrip, C172_kml, C172_arguments, C172_others, C172_embed, C172_half, C172_order, C172_downsampling, C172_unbuilt, C172_lde | Networks are opaque (Keras' save and load_model are assumed to give them back); crashes while writing are in C165. |
| C173 | The loss of the variational autoencoder bounds the evidence | proved | C173_loss, C173_bound, C173_forms, C173_errors, C173_elbo, C173_generate, C173_sampler, C173_load | Networks are functions of one row (test mode); the posterior form with a full matrix and the observations 'normal_1chol' are not modelled. |
| C174 | Command lines of the file conversion scripts and of the training and use of Keras embeddings | proved | C174_copy, C174_merge, C174_lre, C174_vectors, C174_performance, C174_ark, C174_arkvad_never_runs, C174_arkvad_imported, C174_h5vad, C174_rttm, C174_segments, C174_extract, C174_eval, C174_train_v1, C174_train_v2, C174_train_lde | Hypotheses on the conversion of values: str is the identity; int, float and lists of words never give None. Abbreviated options and @file arguments, files, networks and loading of models are not modelled. |
| C175 | Weight constraints and constant Gaussian layers (Keras) | proved | C175_triu, C175_nearest, C175_clip, C175_list, C175_order, C175_training, C175_constant_variance, C175_posterior, C175_repeat | Real arithmetic; Keras applies the constraint after every update of the optimiser. |
| C176 | Diarisation tables: construction, filter, access, iteration, merge, speaker counts | proved | C176_constructor, C176_filter, C176_filter_ordered, C176_filter_repeated, C176_filter_rows, C176_item, C176_iteration, C176_scattered, C176_merge, C176_speakers, C176_speakers_sum, C176_from_segments, C176_round_trip, C176_surplus_speakers | split, filter(keep=False), the in operator and to_matrix always raise (missing attribute index, np.asrray, missing column segment_id, table column named like a file) and are not modelled. |
| C177 | Text files of segment lists and diarisations | proved | C177_segment_list, C177_segment_list_exact, C177_rttm, C177_overlap_created, C177_rttm_exact | pandas to_csv/read_csv are library code, modelled for fields without quoting; its type inference is an arbitrary function infer, with the hypothesis that it keeps the name columns as texts. |

## 5. Defects of the code found while modelling

Those marked (P) are theorems of the model (negations with witnesses); the others were found by reading and are not part of a
theorem.

*Lists and keys*: `SCPList` with a list-typed range specification always raises; `merge` drops the ranges when the first list
has none, so splitting a list with ranges into more parts than entries and merging loses them (P C07); loading an empty file
raises (P C04). `Utt2Info` with a repeated key drops the first row of the answer (P C52); `info` with two columns fails (P C52).
*Trials*: merging keys that disagree gives trials that are both target and non-target (P C12); merging scores adds values of
masked cells (P C15); `filter(keep=False)` of scores uses the model list for segments (P C16); `TrialKey` conditions are broken
in `merge`, `sort` and `filter`; `TrialScores.validate` with no scores raises NameError; save and load disagree on unknown file
extensions.
*Kaldi I/O*: non-float arrays are written with the letter of doubles (P C20); reading a vector with an offset mis-reads (P C21);
offsets beyond the end of an entry are not rejected (P C24); an empty text matrix cannot be read back; surplus paths in write
specifiers are accepted (P C28).
*Metrics*: repeated priors give wrong counts, even a miss rate of -1 (P C32); the actual Cllr has the wrong sign for non-targets
(P C34); `pavx` on integer arrays truncates; `filter_roc` and `compute_area_under_rocch` raise.
*Features*: options of `FrameSelector.filter_args` are lost; `EnergyVAD` with context raises NameError.
*Score normalisation*: adaptive S-norm can choose masked cohort members (P C39); `TZNorm`/`ZTNorm` raise NameError.
*Torch*: `warmup_steps=0` (default) raises at the first batch, the cosine schedule is shifted by the default `last_restart=1`,
ends below `min_lr` with `gamma < 1`, and a one-batch first epoch raises (P C41); relative thresholds are wrong for negative
metrics (P C42); a kill inside `torch.save` makes every restart raise (P C64); a restart truncates the log (P C65);
`AdamCosineLR` cannot be constructed.
*Queues*: an exhausted generator loses queued items (P C43); `OrderedQueue` cannot run.
*Generators*: pruning leaves stale lengths (P C44); a class list without rows hangs (P C44); sequential mode may skip chunks
(P C45); the second epoch repeats the first order (P C45); several option combinations raise or hang.
*Class readers*: `csplit-min-spc` default raises, the mode `random_1subclass` loses classes, the random-mode buffer overflows
(P C46, C47).
*Segments*: merging loses contained segments (P C48), window look-up misses segments strictly inside (P C49), ids collide within
a second (P C58), end frames of binary VAD are inclusive (P C51), overlap removal fails on chains (P C57).
*Folds*: fewer groups than folds can raise (P C18); `TrainValEvalList.get_part` raises (P C18).
*Clustering*: K-means seeding repeats seeds and loses clusters (P C53).
*GMM*: stale log-weights after the M step, wrong variance with `update_mu=False`, the reported objective lacks the entropy term
(P C70, C71); `GMM.Mstep` does not update the weights; several `load_params` use an undefined `self`.
*Transforms*: `CentWhiten` only rotates when there are no more rows than dimensions (P C72); `SbSw` ignores its constructor
arguments, so `accum_stats` loses everything (P C76); `NAP.fit` raises; `Gaussianizer(max_vectors=None)` raises (P C78).
*PLDA*: SPLDA and PLDA centre statistics with one mean whatever the count: wrong posterior, objective above the likelihood, mean
update that lowers the likelihood (P C82, C83, C85); the minimum-divergence step with `update_mu=False` lowers the likelihood
(P C85); the full-rank `W` update leaves out the posterior covariances (P C84); `llr_NvsM_book` of SPLDA and PLDA returns None
and changes its arguments; `PLDA.Estep` uses an inner product where an outer product is needed; `PLDA.sample` divides by the
precision instead of its root; class numbers with gaps give 0/0.

Features: a signal shorter than frame_length - frame_shift raises instead of giving no frames (P C86); `istft`/`istrft` raise for FFT
lengths below the frame length and `istrft` is wrong for odd ones (P C87); the energy VAD raises with any context (P C90);
`snip_edges=False` raises for short frames (P C89); the Kaldi mel bank takes bins at j*fs/(fft_length-1) (P C91); odd FFT lengths
raise in the linear and ETSI banks (P C91); MFCC: continuing from a complex spectrum loses the sign of the log energy, from a log
spectrum adds 1e-10, from log filter banks without energies or from cepstra raises, and the caller's matrix is overwritten when
input and output step agree (P C93); the energy "by Parseval" averages half the spectrum (P C94).

HDF5: a key with a slash is written but makes sequential reading raise (P C95); `reset` of a closed file reader does nothing (P C96);
`read_shapes` of no keys raises (P C97, C98); a row request beyond the range of a script entry returns rows outside it (P C98);
permissive `squeeze` raises when the first key is missing (P C99); the merger stores the codes of compressed arrays without their
attributes and raises for an empty input (P C100), and never closes its writer; `DataWriter` raises for an archive path without
directory (`os.makedirs('')`).

Classifiers: `LinearGBE.eval_predictive` uses r where log(c r) is meant, so classes with different counts are scored wrongly (P C102); a class
without data gives nan even under MAP adaptation (P C103); `_load_prior` changes the prior object; `QScoringHomoGBE` with `prior_N` raises
(P C104), its unbalanced precision ignores weights and prior (P C104); logistic regression: `bias_scaling` other than one gives posteriors
that are not those of the trained model, the caller's weights are overwritten, multinomial training without a list of priors raises, the
binary model ignores `lambda_reg` (misspelt) and `lr_seed` (P C105); a reloaded SVM has its bias multiplied by `bias_scaling` and
`bin-logpost` has the wrong sign (P C105); `GaussCalibration.load_params` reads `config['sigma2']` (KeyError) and the prior is not saved;
`linear_gbe1.py` unbalanced branch NameError; `LinearGBEUP` float slice TypeError; `greedy_fusion.py` does not parse;
`UnsupGaussCalibration` imports a module that does not exist.

Evaluation sets `enroll-coh`/`coh-coh` raise (`Utt2Info` has no `file_path`) and so does a number of parts above one (`TrialNdx.split` is called
on the class) (P C106); `eval-plda-nvs1.py` NameError `plda_type`; `eval-score-norm.py` imports the misspelt module `trial_scroes` and uses
`scores_enr_coh` before loading it; `PLDAFactory.filter_train_args` NameError `ne_args1`, hence `train-plda.py` always fails; `train-cw.py`
`load_model` calls `CentWhiten(input_path)`; `TrackingDataReader._read_single_utt` swaps arguments; `scores2lre_format.py --add-ext` without a
test list NameError (P C108); cosine scores are the dimension times the cosine (P C106).
Full-covariance `GMM.Mstep` never updates the weights (P C111) and writes into the caller's `Lambda` array; `GMM.load_from_kaldi` always raises
(width of `eta2`); `Normal.norm_suff_stats` is not whitened (P C110) and its second order raises NameError; `Normal` ignores `var_floor`;
`GMM.get_config` NameError `DiagGMM`; `JFATotal.is_init` is a property without `self`, so every use of `JFATotal` raises.
- `SequenceReader` in the cyclic modes makes at most as many iterations as there are sub-sequences; with long and many short sequences a read raises `AssertionError` although the epoch is not complete (`C112_stall`). Sequences shorter than the overlap count negatively (`C112_short_negative`).
- `SequenceReader` counts whole sequences with `>=` and reads them with `>`; a sequence of exactly the minimum length makes the epoch raise (`C113_min_length`).
- `scores2lre_format.py` splits the test list at blanks only: with tab-separated lists whole lines, heading included, become names (`C108_lre_tabs`).
- `compute_xlabel_confusion_matrix` loses samples when a test label equals a training label plus the number of test labels (`C115_collision`), changes the caller's arrays (`C115_mutates`, `C115_second_call`) and raises for strings (`C115_strings`); `print_confusion_matrix` uses `sys` without importing it.
- `binary_accuracy(reduction='mean')` returns `ok.item()` instead of the mean and raises for more than one element (`C116_binary_mean_raises`); the class `BinaryAccuracyWithLogits` has threshold 0.5 on logits, the function 0.
- Model files: the update flags of CentWhiten, LNorm, PCA, LDA, the priors of the GBE classifiers and the regularisation of the logistic regression are not restored (`C117_roundtrip`); Normal, NormalDiagCov, GMMDiagCov, GMMTiedDiagCov, SbSw, NSbSw, GaussCalibration cannot be loaded and GMM cannot be saved (`C117_broken_classes`, `C117_save_iff`); `save('model.h5')` without a directory raises (`C117_bare_path_raises`); an untrained model is saved without complaint and cannot be loaded (`C117_missing_raises`).
- `TransformList` prefixes the names again at every load (`C118_names_grow`), and unnamed transforms share datasets (`C118_same_name_raises`, `C118_borrowed_parameter`).
- `SegmentList` iteration by file raises for a file with a single segment; `getitem_by_index` ignores its argument; `create` uses `pd.Dataframe` (C119).
- `segments-to-bin-vad.py`, `rttm-to-bin-vad.py`: raise without the optional `--num-frames` (C120).
- `arkvad2nist.py`, `h5vad2nist.py`: every boundary is written one frame early (C121); `arkvad2nist.py` does not import `config_logger`.
- `copy-feats.py`: an ark archive copied onto itself ends up empty without an exception; output paths without a directory part raise (`os.makedirs('')`); the script separator option is ignored when the type of a script is detected (C124).
- Audio: `.w64` files are refused (missing dot in `valid_ext`); colons and brackets in wave specifiers are parsed as offsets and ranges (C129); with segments `read()` counts recordings, negative times count from the end, and an open end (`tend<0`) is refused by `SegmentList.validate` (C130); keys `a/b` and `a-b` share a file, `PCM_24` maps to a numpy type that does not exist (C132); keys of dots cannot be read back (C133); `compute-mfcc-feats.py` ignores `--wav-scale` (`filter_args` drops it); `isinstance(file_path, SegmentList)` tests the wrong argument.
- C135: text-mode archives: a matrix with columns but no rows is written as `[]`, which the reader refuses (`arr == '[]'` compares a list with a string); a matrix without columns comes back as a vector; an archive cut inside a matrix, or after a key, yields an empty vector without error.
- C136: `train-cw.py --no-lnorm --input-path f` calls the constructor `CentWhiten(f)` instead of `CentWhiten.load(f)`, so the file is never read; `train-gaussianizer.py --input-path` with a list uses an undefined `name`; `train-lda.py` raises at the start of every run (`args.verbose` is not declared); `--input-path` ignores the class of the file.
- C137/C138: `GMMTiedDiagCov._initialize_kmeans` with one component sets a `(1, x_dim)` matrix as `Lambda`, which `_validate_Lambda` refuses unless `x_dim=1`; `split_comp` loses `min_N` and `update_Lambda` (the configuration keys are `min_n`, `update_lambda`, which the constructor swallows); for K>2 the random signs move the mean of the mixture.
- C139: `CentWhitenUP.predict` writes through a view into the caller's array; `LNormUP` normalises to norm 1, `LNorm` to sqrt(dim). `LinearGBEUP` (`eval_linear`, `fit`) raises on every call: `x.shape[-1]/2` is a float slice bound.
- C140: `NSbSw` counts a row among its own neighbours (K=1 gives NaN); `num_classes = max+1` divides by too much when class numbers have gaps; `train-nda.py` recomputes the statistics with K=10 and raises for classes of fewer than ten rows before saving.
- C141: `compute-gmm-post.py` raises for its first sequence (`logging.degug`), and `--num-comp` given on the command line stays a string, so slicing with it raises.
- C142: `SequencePostReader` has no `read_f` for the modes that draw samples; a class file with a repeated name makes rows of labels that are too short (IndexError); `SequenceReader` and its subclasses accept `preproc` and ignore it; `AdaptSequenceBatchGenerator` cannot be constructed (`self.scp` is read before it exists). `MultiTestTrialDataReader`/`TrackingDataReader` with more than one part call `TrialNdx.split` on the class.
- C143: `KaldiDataReader` keeps only the paths of a script, so scripts of archives cannot be read and ranges are ignored; `read()` sets the position to the number of records it returned; a chunk size of zero loops for ever; the debugging prints were left in.
- C144: `max_with_mask` multiplies masked frames by zero after subtracting 1e10, so they compete with value 0 and negative maxima are lost (P); `GlobalMaskedAveragePooling1D` calls `mask.nonzeros`, which does not exist.
- C145: the pooled precision is limited to 1e5 without scaling the natural parameter (P); `CatQScoringDiagNormalPostStdPrior.call` uses an undefined `Le`.
- C146: `bernoulli` and `nllk_bernoulli` swap target and output of `binary_crossentropy` (P); `KLDivNormalVsStdNormal.get_config` leaves out `time_norm`, so a saved model changes its loss; `KLDivNormalVsDiagNormal.compute_output_shape` asserts two inputs and reads a missing `units`; `kl_normal_commonvar2` uses undefined names.
- C147: `TiedNormalDiagCovSampler.compute_output_shape` leaves out `num_samples` (P).
- C148: `predict_embed` with `left_context > 0` stores all frames after the first chunk `left_context` too late (P); if the end context exceeds the sequence the mask start is negative (P); the chunk buffer is not cleared, so the last chunk is followed by old frames instead of zeros (hence `end_context` must cover the look-ahead); `SeqEmbed.get_config` leaves out `enc_downsampling`.
- C149: `ThreadSafeIter.next` calls `self.it.next()`, which Python 3 iterators do not have (P).
- C151: `_eval_loop` indexes the outputs although a single array was returned (P); in `weighted_objective_per_sample` one weight per sample is divided by its own mean and cancels (P).
- C152: `HypModelCheckpoint` passes neither `mode` nor `period` on (P); `--lr-steps` is a list of strings, in which no epoch is ever found (P); `ReduceLROnPlateauIncreaseOnImprovement.__init__` raises NameError (P).
- C153: `TrainValEvalList.save` writes number and name without separator, so lists with names (the default for two or three parts) cannot be loaded (P); `FoldList.save` hides the file behind the loop variable, raises and leaves an empty file (P); `FoldList.__len__` calls an integer (P); masks are not saved (P).
- C104: with `prior_N` the precision of the prior is replaced by that of the model being trained (P).
- C154: `train-logistic-regression.py` and `train-linear-svmc.py` define `--verbose` twice and always raise (P); `train-plda.py` always raises (`ne_args1` in `PLDAFactory.filter_train_args`), and `--diag-W` stores its default (P); `balance_class_weight` is True by default in the classes but False in the scripts (P).
- C155: the option of `FrameSelector` is ignored (`valid_args` is a string) (P); `MeanVarianceNorm.filter_args` raises KeyError without `no_norm_mean` (P); in wave mode `compute-mfcc-feats.py` ignores `--scp-sep` and `--path-prefix` (P); `EnergyVAD.add_argparse_args` raises NameError (`str2bool` is not imported).
- C156: `compute_stats_soft` with `scal_factor` and without weights scales the caller's `p_theta` in place (P); `PLDABase.fit` accepts `sample_weight` and ignores it.

- C158: `OrderedQueue.start` raises NameError with threads and delivers nothing with processes (`ThreadPool`, `get_index`, `random` are not imported) (P); over an empty sequence `stop()` never returns (P); a consumer that waits when `stop()` comes waits forever (P); `raise StopIteration` inside the generator is a RuntimeError since Python 3.7.
- C159: `VectorReader.filter_args` loops over the letters of `'vlist_sep'`, so `--vlist-sep` is ignored (P); `--update-mu`/`--update-t` use `type=bool`: `--update-mu False` updates (P); `train-lda.py` reads `args.verbose` without defining it and never runs (P).
- C160: `ActivationFactory.create` with a dict raises (`del kwargs.name`) (P); `get_config` gives names unknown to `create` for Sigmoid and AdaptiveLogSoftmaxWithLoss, raises for Softsign, forgets `lambd` of Softshrink, and turns ReLU6 into hardtanh (P).
- C161: `FCNetV1.forward` raises with `use_output_batchnorm` (calls `output_dropout`) and with output dropout (`droput_layers`) (P); its `get_config` reads a missing attribute `hidden_units` (P).
- C162: `AdamCosineLR` cannot be constructed (`super(AdamCosineLR, super)`) (P); `exp_lr` ignores `update_lr_on_batch` (P); Keras `--amsgrad` is dropped by `filter_args` (P); optimiser and scheduler options conflict on `--eps` (P).
- C163: `--lr-inc-factor` raises NameError (P); `HypModelCheckpoint` ignores `mode` (P); `--lr-steps` gives a list of texts, no epoch is in it (P).
- C164: `sec2str` uses the day of the month of `gmtime`: times of 31 days or more wrap around; `estimate_epoch_time` divides by the number of the current batch, which is 0 for the first batch, when `batches` is announced.
- C165: a kill inside `SeqEmbed.save` leaves a `model.%04d.json` that makes every later start raise (P); replacing a checkpoint that exists is not atomic: a kill between the two `.h5` files leaves a model of two different epochs that loads without error (P); keras-train-cat-seq-embed-gen-v1.py (and the LDE and SeqQ scripts) train the last epoch twice, gen-v2 does not (P); with the default `save_all_epochs=False` a restart begins at epoch 0 or 1 and its first epoch replaces `model.best` whatever its metric (P); the optimizer is not stored (P); the scripts raise without `--val-list` (P).
- C166: ResTDNNV1 applies the second convolution (and second dense layer) of every block to the input of the block, so that the first one has no effect and `context` is too large; `context` is too small for even kernels; the dilation rates of TDNNV1Transpose count down from num_td_layers instead of num_td_layers - 1; chunked extraction of a 'same'-padded TDNN is wrong at chunk borders whatever contexts are given.
- C167: `read_shapes`/`read_num_rows` of script readers (and of random access readers for an empty list of keys) raise IndexError with assert_same_dim when there is no record (`dims[0]` of an empty array); `_apply_range_to_shape` reports a negative number of rows for a range that starts after the end.
- C168: an empty script file (or an empty part of one: more parts than records) makes the extraction scripts raise in `read_num_rows`, an empty archive does not.
- C168: an output specifier that cannot be parsed is noticed after all vectors were computed; they are lost.
- C169: SeqQEmbed: sequences not longer than left_context+right_context are not encoded at all; the extraction network omits frame_corr_penalty; `--pooling-output` offers `nat+logar` and `mean+logar` (always raise) and refuses `nat+logvar`, `mean+logvar`; prepool_downsampling is not saved.
- C170: ResNetV1 with bottleneck blocks (the default; ResNet50/101/152) raises NameError; ResNet34/50/101/152 ignore input_shape, conv_filters and max_conv_filters; the context counts one of the two convolutions of each block; equal numbers of filters in consecutive blocks (ResNet18V1 with 128 filters) have no projection although the stride is 2, `Add` raises.
- C171: `ConvNetZhang17V1` (Reshape called with a positional name), `VGGNetV1`, `VGG16`, `VGG19` (`h_i` used before assignment) always raise; TDVGGNetV1 repeats a number of layers `n` times instead of once per block.
- C172: SeqEmbedLDE.get_config omits lde_order, and SeqEmbed/SeqEmbedLDE/SeqQEmbed omit the downsampling: after loading the order is 2 and an encoder whose lengths do not divide raises; save of a model without its second network raises after the configuration and the first network were written, and load then mixes them with an older second network; save of an unbuilt model with pooling lde raises; KerasModelLoader does not know SeqMetaEmbed.
- C172 (scripts): keras-train-cat-seq-embed-gen-v1.py, -lde-gen-v1.py and keras-adapt-cat-seq-embed.py call freeze_prepool_net, freeze_prepool_layers, freeze_postpool_layers or freeze_postpool_net_layers, which SeqEmbed and SeqEmbedLDE do not have (freeze_enc_net, freeze_pt_net_layers).
- C173: `VAE.load` always raises NameError (`enconder_net`); `pz_prior_form` other than 'std_normal' raises TypeError when the loss is evaluated; `decode_z(sample_x=False)` slices a list unless the observations are Bernoulli.
- C174: both training scripts fail without `--val-list` (`sg_val` is not assigned); `--freeze-prepool`, `--freeze-prepool-layers`, `--freeze-postpool-layers`, `--freeze-enc-layers` and `--freeze-pt-layers` call methods that SeqEmbed lacks; v1 repeats the epoch of the checkpoint when it continues; merge-h5-files.py and vectors2scores.py have no `-v`.
- C169 (training): `SeqQEmbed.build` uses `MaxPooling1D`, which is not imported: a network that downsamples cannot be trained (P).
- C174: `arkvad2nist.py` does not import `config_logger` and fails for every command line (P). C159: `train-nda.py` imports `NSbSw` from hyperion.transforms, which does not export it: ImportError for every command line (P).
- Scripts that can never run because an import is missing or the file is not Python: keras-train-cat-seq-q-embed.py, keras-train-cat-tied-dvae.py, keras-train-cat-tied-sup-vae.py (`helpers.SequenceBatchGenerator`), keras-adapt-cat-seq-embed.py, keras-adapt-cat-seq-q-embed.py (`helpers.AdaptSequenceBatchGenerator`), keras-eval-pdda-1vs1.py, keras-train-pdda.py, keras-extract-tvae-ivector.py, keras-extract-tcvae-ivector.py, keras-extract-tcvae-ivector-pt.py, keras-extract-gmm-tcvae-ivector.py, -ivector2.py, -ivector3.py, keras-train-tcvae-ivector.py, keras-train-gmm-tcvae-ivector.py, keras-train-gmm-sup-tcvae-ivector.py, keras-train-sup-tcvae-ivector.py (variational auto-encoder classes that `keras.vae` no longer exports or that import a removed module), keras-eval-pdda-nvs1.py, keras-train-tvae-ivector.py (syntax errors), eval-score-norm.py (`utils.trial_scroes`). Library modules that cannot be imported: classifiers/greedy_fusion.py, model_loader.py, utils/framing.py, utils/splicing.py, keras/layers/attention.py, tf/vae/vae.py (syntax errors), calibration/unsup_gauss_calibration.py, keras/vae/tied_cvae_*.py, keras/deprec, deprec/keras1 (missing modules).
- Functions that always raise NameError or TypeError when called: torch `TorchModel.save` (`os`), `AHC.compute_flat_clusters` (no `self`), `SeqMetaEmbed.fit`, `SeqQEmbed.fit` (no `self`), plot-vector-hist.py and plot-vector-tsne.py (`ouput_path`), `SbSw.load`, `load_params` of Normal and the diagonal Gaussians (`self`).
- C175: `ConstTriu` ignores its `constraint` and starts from the identity whatever `diag_val` (P); `Triu` before a `Clip` with a positive minimum is undone (P). `MultConstCovStdPrior` (`self.input_dim`; its covariance `chol.T (var * chol)` is not symmetric either), `ExpandAndTile` (`K.ndims`), `ExpandDim` (`Expand`), `ExpTaylor` (`xrange`), `ConstraintList` after reading back (no `get_config`): always raise.
- C176: `RTTM.split` (attribute `index` does not exist), `RTTM.filter(keep=False)` (`np.asrray`), `in` on an RTTM and `to_matrix` always raise; a file with one row cannot be accessed or iterated (P); a valid table with a file's rows scattered out of order cannot be iterated (P); `create_spkdiar` with `prepend_file_id` drops surplus speakers (P). `ExtSegmentList`: iteration, `==`, `merge` and `split` raise (misspelt attributes). `TrialKey.__eq__` raises when both keys have trial conditions (`triall_cond`). `ExpFamilyMixture.log_prob_nbest` works only with mode 'nat'.
- C50: `ExtSegmentList.merge_adjacent_segments`, `filter`, `segment_names` and `segment_score` merge tables on a label which is both index level and column: pandas 0.24 and later raise (the model is of the older behaviour, which takes the column). `ExtSegmentList.filter` drops the scores and gives one `files` row per segment.
- C177: adjoining diarisation segments overlap by a millisecond after saving and loading (P); a name column of numerals is read as numbers by `SegmentList.load` and `RTTM.load`, so that string keys no longer match (example). `RTTM.index_by_file` cannot be set (`file_key`); `RTTM.compute_stats` raises without `nbins_dur`.
- keras/monitors: `TrainMonitor` cannot be used: the module imports `monitor` as a top-level module, and uses `np`, `K`, `time`, `pickle` and `sys` without importing them (its early stopping and resume logic is therefore not modelled). `vb_pdfs/core/exponential_family.py` is an older copy of `pdfs/core/exp_family.py` without concrete subclasses.
- keras/layers/advanced_activations.py: `SwishBeta` calls `super(Swish, self)` on an object that is no Swish; `NIN` sets its attributes only when `input_dim` is given and its `call` reads attributes that never exist: both always raise.

## 6. Not modelled

* keras/tensorflow code, except the layers, losses and functions named in §3 (properties from C144 on), and everything under `deprec`; plotting; argument parsers, except where an option default is part of a
  property; scripts of `bin`, except as far as they call modelled functions.
* Code that cannot run: the `HMM` class (cannot be constructed), `framing.py`, `splicing.py`, `model_loader.py` (syntax errors),
  `tdnn.py` (undefined names), `ExpFamilyMixture.fit_generator` and companions (undefined names).
* Neural network layers and losses (PyTorch arithmetic); autograd; GPU and multiprocessing behaviour.
* Floating point rounding, NaN and infinities (except missing values modelled as `none` where stated).
- `AdaptSequenceBatchGenerator` (keras helpers): its constructor always raises. `TrackingDataReader`, `MultiTestTrialDataReader`: used by no script; their split branch always raises. torch `TDNNV1`, `ETDNNV1`: their constructors always raise (undefined names).

## 7. Tests of the theorems

`seeded/LOG.jsonl`: each line is a realistic bug put into a copy of the model (wrong boundary, dropped update, swapped argument,
omitted term), with the theorems that stopped proving. Edits that survived led to new or stronger theorems, collected in
`Verif/Tighten.lean` and the `MoreProps` files; they were then run again.
