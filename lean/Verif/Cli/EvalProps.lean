import Verif.Cli.Eval
import Verif.NpLemmas

/-!
C159: the command lines of the scripts that evaluate models and train transformations.
-/

namespace Hyp.Cli

deriving instance DecidableEq for Row

/-! ### Specification -/

/-- the verbosity, which only the logger sees -/
def verbRow : Row := ⟨"verbose", ["-v", "--verbose"], .int 1, .value .int (some [.int 0, .int 1, .int 2, .int 3])⟩

/-- a file name that is optional or required -/
def fileRow (attr flag : String) : Row := ⟨attr, [flag], .null, .value .str none⟩

/-- the reader of trials -/
def trialTable : List Row :=
  [⟨"tlist_sep", ["--tlist-sep"], .str " ", .value .str none⟩,
   ⟨"model_idx", ["--model-part-idx"], .int 1, .value .int none⟩,
   ⟨"num_model_parts", ["--num-model-parts"], .int 1, .value .int none⟩,
   ⟨"seg_idx", ["--seg-part-idx"], .int 1, .value .int none⟩,
   ⟨"num_seg_parts", ["--num-seg-parts"], .int 1, .value .int none⟩,
   ⟨"eval_set", ["--eval-set"], .str "enroll-test", .value .lower (some [.str "enroll-test", .str "enroll-coh", .str "coh-test", .str "coh-coh"])⟩]

/-- cosine scoring -/
def cosTable : List Row :=
  [fileRow "iv_file" "--iv-file", fileRow "ndx_file" "--ndx-file", fileRow "enroll_file" "--enroll-file", fileRow "test_file" "--test-file",
   fileRow "preproc_file" "--preproc-file", fileRow "score_file" "--score-file"]

/-- PLDA scoring -/
def pldaEvalTable : List Row :=
  [fileRow "iv_file" "--iv-file", fileRow "ndx_file" "--ndx-file", fileRow "enroll_file" "--enroll-file", fileRow "test_file" "--test-file",
   fileRow "preproc_file" "--preproc-file", fileRow "model_file" "--model-file", fileRow "score_file" "--score-file",
   ⟨"plda_type", ["--plda-type"], .str "splda", .value .str (some [.str "frplda", .str "splda", .str "plda"])⟩]

/-- the reader of trials for classifiers -/
def segTable : List Row :=
  [⟨"v_field", ["--v-field"], .str "", .value .str none⟩, ⟨"seg_idx", ["--seg-part-idx"], .int 1, .value .int none⟩,
   ⟨"num_seg_parts", ["--num-seg-parts"], .int 1, .value .int none⟩]

/-- the files of the scripts for classifiers -/
def classifTable : List Row :=
  [fileRow "iv_file" "--iv-file", fileRow "class2int_file" "--class2int-file", fileRow "test_file" "--test-file", fileRow "preproc_file" "--preproc-file",
   fileRow "model_file" "--model-file", fileRow "score_file" "--score-file", fileRow "vector_score_file" "--vector-score-file"]

/-- normalisation of scores -/
def normRow : Row := ⟨"normalize", ["--normalize"], .bool false, .switch (.bool true)⟩

/-- the method of the Gaussian back-end -/
def methodRow : Row := ⟨"eval_method", ["--eval-method"], .str "linear", .value .str (some [.str "linear", .str "llk", .str "predictive"])⟩

/-- the type of scores of logistic regression and SVM -/
def typeRow (choices : List String) : Row := ⟨"eval_type", ["--eval-type"], .str "logit", .value .str (some (choices.map .str))⟩

/-- the reader of sequences -/
def seqTable : List Row :=
  [⟨"scp_sep", ["--scp-sep"], .str "=", .value .str none⟩, ⟨"seq_field", ["--seq-field"], .str "", .value .str none⟩,
   ⟨"part_idx", ["--part-idx"], .int 1, .value .int none⟩, ⟨"num_parts", ["--num-parts"], .int 1, .value .int none⟩]

/-- the lower bound of a UBM -/
def elboTable : List Row :=
  [fileRow "seq_file" "--seq-file", fileRow "file_list" "--file-list", fileRow "model_file" "--model-file", fileRow "preproc_file" "--preproc-file",
   fileRow "output_file" "--output-file", ⟨"ubm_type", ["--ubm-type"], .str "diag-gmm", .value .str (some [.str "diag-gmm", .str "kaldi-diag-gmm"])⟩]

/-- the switches for lists of transformations -/
def saveRow : Row := ⟨"save_tlist", ["--no-save-tlist"], .bool true, .switch (.bool false)⟩

/-- the second switch -/
def appendRow : Row := ⟨"append_tlist", ["--no-append-tlist"], .bool true, .switch (.bool false)⟩

/-- the name of a transformation -/
def nameRow (dflt : String) : Row := ⟨"name", ["--name"], .str dflt, .value .str none⟩

/-- what to update; the argument is read with Python's `bool` -/
def updateRow (attr flag : String) : Row := ⟨attr, [flag], .bool true, .value .truth none⟩

/-- centring and whitening -/
def cwTable : List Row :=
  [fileRow "iv_file" "--iv-file", fileRow "train_list" "--train-list", fileRow "preproc_file" "--preproc-file",
   ⟨"with_lnorm", ["--no-lnorm"], .bool true, .switch (.bool false)⟩, saveRow, appendRow, fileRow "input_path" "--input-path", fileRow "output_path" "--output-path"]

/-- PCA and Gaussianisation -/
def transformTable : List Row :=
  [fileRow "iv_file" "--iv-file", fileRow "train_list" "--train-list", fileRow "preproc_file" "--preproc-file", saveRow, appendRow,
   fileRow "input_path" "--input-path", fileRow "output_path" "--output-path"]

/-- mean and variance normalisation -/
def mvnTrainTable : List Row :=
  [fileRow "iv_file" "--iv-file", fileRow "train_list" "--train-list", fileRow "preproc_file" "--preproc-file", nameRow "mvn", saveRow, appendRow,
   fileRow "output_path" "--output-path"]

/-- nearest-neighbour discriminant analysis -/
def ndaTable : List Row :=
  [fileRow "iv_file" "--iv-file", fileRow "train_list" "--train-list", fileRow "preproc_file" "--preproc-file", ⟨"nda_dim", ["--nda-dim"], .null, .value .int none⟩,
   ⟨"K", ["--k"], .int 10, .value .int none⟩, ⟨"alpha", ["--alpha"], .int 1, .value .float none⟩, nameRow "nda", saveRow, appendRow,
   fileRow "output_path" "--output-path"]

/-- the separator that the scripts for transformations accept and ignore -/
def sepRow : Row := ⟨"vlist_sep", ["--vlist-sep"], .str " ", .value .str none⟩

/-- the options `fl` are all used -/
def Used (us : List Use) (fl : List String) : Prop := ∀ f ∈ fl, ∃ u ∈ us, u.flag = f

/-! ### Proofs -/

/-- a row and an option belong together, with name and default -/
def fitsFull (r : Row) (o : Opt) : Bool :=
  decide (r.attr = o.dest) && decide (r.flags = o.flags) && decide (r.unused = o.dflt) && match r.kind, o.act with
    | .switch v, .const b => decide (v = .bool b)
    | .value ty ch, .store ty' ch' => decide (ty = ty' ∧ ch = ch')
    | _, _ => false

theorem full_fits {r : Row} {o : Opt} (h : fitsFull r o = true) : fits r o = true := by
  obtain ⟨a, fl, un, k⟩ := r
  obtain ⟨fl', d, act, df, rq⟩ := o
  unfold fitsFull at h
  unfold fits
  simp only [Bool.and_eq_true] at h ⊢
  refine ⟨h.1.1.2, ?_⟩
  have := h.2
  cases k <;> cases act <;> simp_all

theorem full_takes {conv : Ty → String → Option Val} {us : List Use} {v : Val} {r : Row} {o : Opt} (h : fitsFull r o = true) (ht : OTakes conv o us v) :
    r.attr = o.dest ∧ r.Takes conv us v := by
  obtain ⟨a, fl, un, k⟩ := r
  obtain ⟨fl', d, act, df, rq⟩ := o
  unfold fitsFull at h
  simp only [Bool.and_eq_true, decide_eq_true_eq] at h
  obtain ⟨⟨⟨rfl, rfl⟩, rfl⟩, h⟩ := h
  refine ⟨rfl, ?_⟩
  cases k with
  | switch w =>
    cases act with
    | const b =>
      obtain rfl : w = .bool b := by simpa using h
      exact row_switch id ht
    | store ty ch => simp at h
  | value ty ch =>
    cases act with
    | const b => simp at h
    | store ty' ch' =>
      obtain ⟨rfl, rfl⟩ : ty = ty' ∧ ch = ch' := by simpa using h
      exact row_value ht

/-- the tables `t` describe the options -/
def tabled (opts : List Opt) (t : List Row) : Bool :=
  opts.all (fun o => t.any (fun r => fitsFull r o)) && t.all (fun r => opts.any (fun o => fitsFull r o))

/-- the own parameters are options -/
def owned (opts : List Opt) (own : List String) : Bool :=
  (own.all (fun k => decide (k ≠ "verbose") && opts.any (fun o => decide (o.dest = k)))) && opts.any (fun o => decide (o.dest = "verbose"))

theorem run_core {opts : List Opt} (hs : sepB opts = true) {t : List Row} (ht : tabled opts t = true) {own : List String} (ho : owned opts own = true)
    {fl : List String} (hr : (opts.filter (fun o => o.required)).map (fun o => o.flags) = fl.map (fun f => [f]))
    (check : List (String × Val) → Bool) (valid : List String) (ctor : List (String × Val)) (mvalid : List String) (mctor : List (String × Val))
    (conv : Ty → String → Option Val) (us : List Use) :
    ((run opts own check valid ctor mvalid mctor conv us).isSome ↔ Correct conv us t ∧ Used us fl ∧
      ∀ ns, parse conv opts us = some ns → check (ns.filter (fun q => decide (q.1 ≠ "verbose"))) = true) ∧
    ∀ pl, run opts own check valid ctor mvalid mctor conv us = some pl → ∃ ns kw, parse conv opts us = some ns ∧
      (∀ o ∈ opts, ∃ v, dictGet ns o.dest = some v ∧ OTakes conv o us v) ∧
      (∀ k, k ≠ "verbose" → k ∉ own → dictGet kw k = dictGet ns k) ∧ List.Forall₂ (fun k q => q.1 = k ∧ dictGet ns k = some q.2) own pl.own ∧
      pl.reader = construct valid ctor kw ∧ pl.model = construct mvalid mctor kw := by
  have hsep := sep_of hs
  have hb := build_some (sep_flags hsep)
  have hT1 : ∀ o ∈ opts, ∃ r ∈ t, fits r o = true := by
    intro o h
    unfold tabled at ht
    simp only [Bool.and_eq_true, List.all_eq_true, List.any_eq_true] at ht
    obtain ⟨r, hr, hf⟩ := ht.1 o h
    exact ⟨r, hr, full_fits hf⟩
  have hT2 : ∀ r ∈ t, ∃ o ∈ opts, fits r o = true := by
    intro r h
    unfold tabled at ht
    simp only [Bool.and_eq_true, List.all_eq_true, List.any_eq_true] at ht
    obtain ⟨o, ho, hf⟩ := ht.2 r h
    exact ⟨o, ho, full_fits hf⟩
  unfold owned at ho
  simp only [Bool.and_eq_true, List.all_eq_true, List.any_eq_true, decide_eq_true_eq] at ho
  have hreq : (∀ o ∈ opts, o.required = true → ∃ u ∈ us, u.flag ∈ o.flags) ↔ Used us fl := by
    constructor
    · intro h f hf
      have : [f] ∈ fl.map (fun f => [f]) := List.mem_map.2 ⟨f, hf, rfl⟩
      rw [← hr, List.mem_map] at this
      obtain ⟨o, h1, h2⟩ := this
      rw [List.mem_filter] at h1
      obtain ⟨u, hu, hm⟩ := h o h1.1 h1.2
      rw [h2] at hm
      exact ⟨u, hu, by simpa using hm⟩
    · intro h o h1 h2
      have : o.flags ∈ (opts.filter (fun o => o.required)).map (fun o => o.flags) := List.mem_map.2 ⟨o, List.mem_filter.2 ⟨h1, h2⟩, rfl⟩
      rw [hr, List.mem_map] at this
      obtain ⟨f, hf, e⟩ := this
      obtain ⟨u, hu, hm⟩ := h f hf
      exact ⟨u, hu, by rw [← e]; simp [hm]⟩
  have hps := parse_spec (conv := conv) hsep us
  have key : ∀ ns, parse conv opts us = some ns → ∃ ow, (own.mapM (fun k : String => (dictGet (ns.filter (fun q => decide (q.1 ≠ "verbose"))) k).map (fun v : Val => (k, v)))) = some ow ∧
      List.Forall₂ (fun k q => q.1 = k ∧ dictGet ns k = some q.2) own ow := by
    intro ns hns
    have hg : ∀ k ∈ own, ∃ v, dictGet (ns.filter (fun q => decide (q.1 ≠ "verbose"))) k = some v ∧ dictGet ns k = some v := by
      intro k hk
      obtain ⟨h1, o, ho, rfl⟩ := ho.1 k hk
      obtain ⟨v, hv, _⟩ := hps.2 ns hns o ho
      refine ⟨v, ?_, hv⟩
      rw [dictGet_filter ns (fun k => decide (k ≠ "verbose")) o.dest, if_pos (by simpa using h1), hv]
    clear hr hreq hps ho
    induction own with
    | nil => exact ⟨[], rfl, .nil⟩
    | cons k l ih =>
      obtain ⟨v, h1, h2⟩ := hg k (by simp)
      obtain ⟨ow, h3, h4⟩ := ih (fun k hk => hg k (by simp [hk]))
      exact ⟨(k, v) :: ow, by rw [List.mapM_cons, h1, h3]; rfl, .cons ⟨rfl, h2⟩ h4⟩
  have hverb : ∀ ns, parse conv opts us = some ns → ∃ v, dictGet ns "verbose" = some v := by
    intro ns hns
    obtain ⟨o, ho, e⟩ := ho.2
    obtain ⟨v, hv, _⟩ := hps.2 ns hns o ho
    exact ⟨v, by rw [← e, hv]⟩
  unfold run
  rw [hb, Option.bind_some, ← accepts_of hT1 hT2, ← hreq, ← and_assoc, ← hps.1]
  cases hp : parse conv opts us with
  | none => simp
  | some ns =>
    obtain ⟨w, hw⟩ := hverb ns hp
    obtain ⟨ow, h1, h2⟩ := key ns hp
    simp only [Option.bind_some, hw, h1, Option.map_some]
    constructor
    · generalize hc : check (ns.filter (fun q => decide (q.1 ≠ "verbose"))) = c
      have : (∀ ns_1, some ns = some ns_1 → check (ns_1.filter (fun q => decide (q.1 ≠ "verbose"))) = true) ↔ c = true := by
        constructor
        · intro h; rw [← hc]; exact h ns rfl
        · intro h n e; cases e; rw [hc]; exact h
      rw [this]
      cases c <;> simp
    · intro pl hpl
      split at hpl
      · rw [Option.some.injEq] at hpl
        subst hpl
        refine ⟨ns, _, rfl, hps.2 ns hp, fun k hk hn => ?_, h2, rfl, rfl⟩
        rw [dictGet_filter _ (fun k => !own.contains k) k, if_pos (by simpa using hn), dictGet_filter ns (fun k => decide (k ≠ "verbose")) k,
          if_pos (by simpa using hk)]
      · cases hpl

/-- the own parameters, as a table -/
theorem own_follows {conv : Ty → String → Option Val} {us : List Use} {opts : List Opt} {ns : List (String × Val)} {own : List String}
    {l : List (String × Val)} {t : List Row} (hns : ∀ o ∈ opts, ∃ v, dictGet ns o.dest = some v ∧ OTakes conv o us v) (he : own = t.map Row.attr)
    (ht : t.all (fun r => opts.any (fun o => fitsFull r o)) = true) (h : List.Forall₂ (fun k q => q.1 = k ∧ dictGet ns k = some q.2) own l) :
    Follows conv us t l := by
  subst he
  rw [List.forall₂_map_left_iff] at h
  unfold Follows
  rw [List.all_eq_true] at ht
  induction h with
  | nil => exact .nil
  | @cons r q t l h1 _ ih =>
    refine .cons ⟨h1.1, ?_⟩ (ih (fun r hr => ht r (by simp [hr])))
    have := ht r (by simp)
    rw [List.any_eq_true] at this
    obtain ⟨o, ho, hf⟩ := this
    obtain ⟨v, hv, hk⟩ := hns o ho
    obtain ⟨h3, h4⟩ := full_takes hf hk
    rw [← h3, h1.2, Option.some.injEq] at hv
    rw [hv]; exact h4

/-- constructor arguments, as a table -/
theorem construct_follows {conv : Ty → String → Option Val} {us : List Use} {opts : List Opt} {ns kw : List (String × Val)} {own valid : List String}
    {ctor : List (String × Val)} {t : List Row} (hns : ∀ o ∈ opts, ∃ v, dictGet ns o.dest = some v ∧ OTakes conv o us v)
    (hkw : ∀ k, k ≠ "verbose" → k ∉ own → dictGet kw k = dictGet ns k) (he : ctor.map Prod.fst = t.map Row.attr)
    (ht : t.all (fun r => decide (r.attr ≠ "verbose") && !own.contains r.attr && valid.contains r.attr && opts.any (fun o => fitsFull r o)) = true) :
    Follows conv us t (construct valid ctor kw) := by
  have h2 : List.Forall₂ (fun (r : Row) (q : String × Val) => q.1 = r.attr) t ctor := by
    have : List.Forall₂ Eq (ctor.map Prod.fst) (t.map Row.attr) := by rw [he]; exact List.forall₂_refl _
    rw [List.forall₂_map_left_iff, List.forall₂_map_right_iff] at this
    exact this.flip
  clear he
  unfold Follows construct
  rw [List.forall₂_map_right_iff]
  rw [List.all_eq_true] at ht
  induction h2 with
  | nil => exact .nil
  | @cons r q t l h1 _ ih =>
    refine .cons ⟨h1, ?_⟩ (ih (fun r hr => ht r (by simp [hr])))
    have := ht r (by simp)
    simp only [Bool.and_eq_true, decide_eq_true_eq, Bool.not_eq_true', List.any_eq_true] at this
    obtain ⟨⟨⟨h3, h4⟩, h5⟩, o, ho, hf⟩ := this
    obtain ⟨v, hv, hk⟩ := hns o ho
    obtain ⟨h6, h7⟩ := full_takes hf hk
    have : kwarg (pick valid kw) q.1 q.2 = v := by
      unfold kwarg
      rw [h1, dictGet_pick, if_pos (by simpa using h5), hkw _ h3 (by simpa using h4), h6, hv]
      rfl
    dsimp only
    rw [this]; exact h7

theorem files_given {conv : Ty → String → Option Val} (hn : ∀ s, conv .str s ≠ some .null) {us : List Use} {opts : List Opt}
    {ns : List (String × Val)} (hns : ∀ o ∈ opts, ∃ v, dictGet ns o.dest = some v ∧ OTakes conv o us v) (d f : String) (hd : d ≠ "verbose")
    (h : (⟨[f], d, .store .str none, .null, false⟩ : Opt) ∈ opts) :
    dictGet (ns.filter (fun q => decide (q.1 ≠ "verbose"))) d ≠ some .null ↔ ∃ u ∈ us, u.flag = f := by
  rw [dictGet_filter ns (fun k => decide (k ≠ "verbose")) d, if_pos (by simpa using hd)]
  obtain ⟨v, hv, ht⟩ := hns _ h
  dsimp only at hv
  rw [hv]
  rcases ht with ⟨h1, rfl⟩ | ⟨pre, u, post, rfl, h2, h3, _⟩
  · simp only [ne_eq, not_true, false_iff]
    rintro ⟨u, hu, e⟩
    exact h1 u hu (by simp [e])
  · constructor
    · intro _; exact ⟨u, by simp, by simpa using h2⟩
    · intro _ e
      rw [Option.some.injEq] at e
      subst e
      obtain ⟨s, _, hs, _⟩ := useVal_store.1 h3
      exact hn s hs

theorem assertion {conv : Ty → String → Option Val} (hn : ∀ s, conv .str s ≠ some .null) (us : List Use) {opts : List Opt} (hs : sepB opts = true)
    (h1 : (⟨["--ndx-file"], "ndx_file", .store .str none, .null, false⟩ : Opt) ∈ opts)
    (h2 : (⟨["--test-file"], "test_file", .store .str none, .null, false⟩ : Opt) ∈ opts) (P : Prop) (hP : P → (parse conv opts us).isSome) :
    (P ∧ ∀ ns, parse conv opts us = some ns → someList (ns.filter (fun q => decide (q.1 ≠ "verbose"))) = true) ↔
      P ∧ ∃ u ∈ us, u.flag = "--ndx-file" ∨ u.flag = "--test-file" := by
  refine and_congr_right (fun hp => ?_)
  obtain ⟨ns, hns⟩ := Option.isSome_iff_exists.1 (hP hp)
  have hsp := (parse_spec (conv := conv) (sep_of hs) us).2 ns hns
  have e1 := files_given hn hsp "ndx_file" "--ndx-file" (by decide) h1
  have e2 := files_given hn hsp "test_file" "--test-file" (by decide) h2
  rw [hns]
  simp only [Option.some.injEq, forall_eq', someList, Bool.or_eq_true, decide_eq_true_eq, e1, e2]
  constructor
  · rintro (⟨u, h, e⟩ | ⟨u, h, e⟩)
    · exact ⟨u, h, .inr e⟩
    · exact ⟨u, h, .inl e⟩
  · rintro ⟨u, h, e | e⟩
    · exact .inr ⟨u, h, e⟩
    · exact .inl ⟨u, h, e⟩

/-- the parts of the two scripts for trials -/
theorem trial_core {model : List Opt} {own : List String} {t : List Row} {fl : List String} (hs : sepB (trialOpts model) = true)
    (ht : tabled (trialOpts model) (t ++ trialTable ++ [verbRow]) = true) (ho : owned (trialOpts model) own = true)
    (hr : ((trialOpts model).filter (fun o => o.required)).map (fun o => o.flags) = fl.map (fun f => [f])) (he : own = t.map Row.attr)
    (hot : t.all (fun r => (trialOpts model).any (fun o => fitsFull r o)) = true)
    (hrt : trialTable.all (fun r => decide (r.attr ≠ "verbose") && !own.contains r.attr && tdrValid.contains r.attr &&
      (trialOpts model).any (fun o => fitsFull r o)) = true)
    {conv : Ty → String → Option Val} (hn : ∀ s, conv .str s ≠ some .null) (us : List Use) :
    ((run (trialOpts model) own someList tdrValid tdrCtor [] [] conv us).isSome ↔ Correct conv us (t ++ trialTable ++ [verbRow]) ∧ Used us fl ∧
      ∃ u ∈ us, u.flag = "--ndx-file" ∨ u.flag = "--test-file") ∧
    ∀ pl, run (trialOpts model) own someList tdrValid tdrCtor [] [] conv us = some pl →
      Follows conv us t pl.own ∧ Follows conv us trialTable pl.reader ∧ pl.model = [] := by
  obtain ⟨h1, h2⟩ := run_core hs ht ho hr someList tdrValid tdrCtor [] [] conv us
  have m1 : (⟨["--ndx-file"], "ndx_file", .store .str none, .null, false⟩ : Opt) ∈ trialOpts model := by simp [trialOpts]
  have m2 : (⟨["--test-file"], "test_file", .store .str none, .null, false⟩ : Opt) ∈ trialOpts model := by simp [trialOpts]
  obtain ⟨h1', _⟩ := run_core hs ht ho hr (fun _ => true) tdrValid tdrCtor [] [] conv us
  constructor
  · rw [h1, ← and_assoc, ← and_assoc]
    refine assertion hn us hs m1 m2 _ (fun hp => ?_)
    have : (run (trialOpts model) own (fun _ => true) tdrValid tdrCtor [] [] conv us).isSome := h1'.2 ⟨hp.1, hp.2, fun _ _ => rfl⟩
    obtain ⟨pl, hpl⟩ := Option.isSome_iff_exists.1 this
    unfold run at hpl
    rw [build_some (sep_flags (sep_of hs)), Option.bind_some, Option.bind_eq_some_iff] at hpl
    obtain ⟨ns, hns, _⟩ := hpl
    rw [hns]; rfl
  · intro pl hpl
    obtain ⟨ns, kw, _, hns, hkw, how, e1, e2⟩ := h2 pl hpl
    rw [e1, e2]
    exact ⟨own_follows hns he hot how, construct_follows hns hkw rfl hrt, rfl⟩

/-- C159: `eval-cos-1vs1.py` runs exactly for correct command lines with the required files and a list of trials or of tests, and every parameter has
the value of the last use of its option, or the default -/
theorem C159_cos (conv : Ty → String → Option Val) (hn : ∀ s, conv .str s ≠ some .null) (us : List Use) :
    ((evalCos conv us).isSome ↔ Correct conv us (cosTable ++ trialTable ++ [verbRow]) ∧ Used us ["--iv-file", "--enroll-file", "--score-file"] ∧
      ∃ u ∈ us, u.flag = "--ndx-file" ∨ u.flag = "--test-file") ∧
    ∀ pl, evalCos conv us = some pl → Follows conv us cosTable pl.own ∧ Follows conv us trialTable pl.reader ∧ pl.model = [] := by
  unfold evalCos
  exact trial_core (by decide +kernel) (by decide +kernel) (by decide +kernel) (by decide +kernel) (by decide +kernel) (by decide +kernel) (by decide +kernel) hn us

/-- C159: `eval-plda-1vs1.py` -/
theorem C159_plda (conv : Ty → String → Option Val) (hn : ∀ s, conv .str s ≠ some .null) (us : List Use) :
    ((evalPlda conv us).isSome ↔ Correct conv us (pldaEvalTable ++ trialTable ++ [verbRow]) ∧
      Used us ["--iv-file", "--enroll-file", "--model-file", "--score-file"] ∧ ∃ u ∈ us, u.flag = "--ndx-file" ∨ u.flag = "--test-file") ∧
    ∀ pl, evalPlda conv us = some pl → Follows conv us pldaEvalTable pl.own ∧ Follows conv us trialTable pl.reader ∧ pl.model = [] := by
  unfold evalPlda
  exact trial_core (by decide +kernel) (by decide +kernel) (by decide +kernel) (by decide +kernel) (by decide +kernel) (by decide +kernel) (by decide +kernel) hn us

/-- scripts without assertion -/
theorem plain_core {opts : List Opt} {own valid mvalid : List String} {ctor mctor : List (String × Val)} {t rt mt all : List Row} {fl : List String}
    (hs : sepB opts = true) (ht : tabled opts all = true) (ho : owned opts own = true)
    (hr : (opts.filter (fun o => o.required)).map (fun o => o.flags) = fl.map (fun f => [f])) (he : own = t.map Row.attr)
    (hot : t.all (fun r => opts.any (fun o => fitsFull r o)) = true) (hre : ctor.map Prod.fst = rt.map Row.attr)
    (hrt : rt.all (fun r => decide (r.attr ≠ "verbose") && !own.contains r.attr && valid.contains r.attr && opts.any (fun o => fitsFull r o)) = true)
    (hme : mctor.map Prod.fst = mt.map Row.attr)
    (hmt : mt.all (fun r => decide (r.attr ≠ "verbose") && !own.contains r.attr && mvalid.contains r.attr && opts.any (fun o => fitsFull r o)) = true)
    (conv : Ty → String → Option Val) (us : List Use) :
    ((run opts own (fun _ => true) valid ctor mvalid mctor conv us).isSome ↔ Correct conv us all ∧ Used us fl) ∧
    ∀ pl, run opts own (fun _ => true) valid ctor mvalid mctor conv us = some pl →
      Follows conv us t pl.own ∧ Follows conv us rt pl.reader ∧ Follows conv us mt pl.model := by
  obtain ⟨h1, h2⟩ := run_core hs ht ho hr (fun _ => true) valid ctor mvalid mctor conv us
  constructor
  · rw [h1]; simp
  · intro pl hpl
    obtain ⟨ns, kw, _, hns, hkw, how, e1, e2⟩ := h2 pl hpl
    rw [e1, e2]
    exact ⟨own_follows hns he hot how, construct_follows hns hkw hre hrt, construct_follows hns hkw hme hmt⟩

/-- C159: `eval-linear-gbe.py` -/
theorem C159_gbe (conv : Ty → String → Option Val) (us : List Use) :
    ((evalGbe conv us).isSome ↔ Correct conv us (classifTable ++ [normRow, methodRow] ++ segTable ++ [verbRow]) ∧ Used us ["--iv-file", "--class2int-file", "--test-file", "--model-file", "--score-file"]) ∧
    ∀ pl, evalGbe conv us = some pl → Follows conv us (classifTable ++ [normRow, methodRow]) pl.own ∧ Follows conv us segTable pl.reader ∧ Follows conv us [] pl.model := by
  unfold evalGbe
  exact plain_core (by decide +kernel) (by decide +kernel) (by decide +kernel) (by decide +kernel) (by decide +kernel) (by decide +kernel) (by decide +kernel) (by decide +kernel) (by decide +kernel) (by decide +kernel) conv us

/-- C159: `eval-q-scoring-homo-gbe.py` -/
theorem C159_qs (conv : Ty → String → Option Val) (us : List Use) :
    ((evalQs conv us).isSome ↔ Correct conv us (classifTable ++ [normRow] ++ segTable ++ [verbRow]) ∧ Used us ["--iv-file", "--class2int-file", "--test-file", "--model-file", "--score-file"]) ∧
    ∀ pl, evalQs conv us = some pl → Follows conv us (classifTable ++ [normRow]) pl.own ∧ Follows conv us segTable pl.reader ∧ Follows conv us [] pl.model := by
  unfold evalQs
  exact plain_core (by decide +kernel) (by decide +kernel) (by decide +kernel) (by decide +kernel) (by decide +kernel) (by decide +kernel) (by decide +kernel) (by decide +kernel) (by decide +kernel) (by decide +kernel) conv us

/-- C159: `eval-logistic-regression.py` -/
theorem C159_lr (conv : Ty → String → Option Val) (us : List Use) :
    ((evalLr conv us).isSome ↔ Correct conv us (classifTable ++ [typeRow ["logit", "log-post", "post"]] ++ segTable ++ [verbRow]) ∧ Used us ["--iv-file", "--class2int-file", "--test-file", "--model-file", "--score-file"]) ∧
    ∀ pl, evalLr conv us = some pl → Follows conv us (classifTable ++ [typeRow ["logit", "log-post", "post"]]) pl.own ∧ Follows conv us segTable pl.reader ∧ Follows conv us [] pl.model := by
  unfold evalLr
  exact plain_core (by decide +kernel) (by decide +kernel) (by decide +kernel) (by decide +kernel) (by decide +kernel) (by decide +kernel) (by decide +kernel) (by decide +kernel) (by decide +kernel) (by decide +kernel) conv us

/-- C159: `eval-linear-svmc.py` -/
theorem C159_svm (conv : Ty → String → Option Val) (us : List Use) :
    ((evalSvm conv us).isSome ↔ Correct conv us (classifTable ++ [typeRow ["logit", "bin-logpost", "bin-post", "cat-logpost", "cat-post"]] ++ segTable ++ [verbRow]) ∧ Used us ["--iv-file", "--class2int-file", "--test-file", "--model-file", "--score-file"]) ∧
    ∀ pl, evalSvm conv us = some pl → Follows conv us (classifTable ++ [typeRow ["logit", "bin-logpost", "bin-post", "cat-logpost", "cat-post"]]) pl.own ∧ Follows conv us segTable pl.reader ∧ Follows conv us [] pl.model := by
  unfold evalSvm
  exact plain_core (by decide +kernel) (by decide +kernel) (by decide +kernel) (by decide +kernel) (by decide +kernel) (by decide +kernel) (by decide +kernel) (by decide +kernel) (by decide +kernel) (by decide +kernel) conv us

/-- C159: `eval-elbo-ubm.py` -/
theorem C159_elbo (conv : Ty → String → Option Val) (us : List Use) :
    ((evalElbo conv us).isSome ↔ Correct conv us (elboTable ++ seqTable ++ [verbRow]) ∧ Used us ["--seq-file", "--file-list", "--model-file", "--output-file"]) ∧
    ∀ pl, evalElbo conv us = some pl → Follows conv us (elboTable) pl.own ∧ Follows conv us seqTable pl.reader ∧ Follows conv us [] pl.model := by
  unfold evalElbo
  exact plain_core (by decide +kernel) (by decide +kernel) (by decide +kernel) (by decide +kernel) (by decide +kernel) (by decide +kernel) (by decide +kernel) (by decide +kernel) (by decide +kernel) (by decide +kernel) conv us

/-- C159: `train-nda.py` always fails: `hyperion.transforms` has no `NSbSw` -/
theorem C159_nda_never_runs (conv : Ty → String → Option Val) (us : List Use) : trainNda transformsNames conv us = none := by
  unfold trainNda
  exact if_pos (by decide +kernel)

/-- C159: `train-nda.py`, with the import repaired; `--vector-score-file` is accepted and ignored -/
theorem C159_nda_imported (names : List String) (h1 : "TransformList" ∈ names) (h2 : "NDA" ∈ names) (h3 : "NSbSw" ∈ names)
    (conv : Ty → String → Option Val) (us : List Use) :
    ((trainNda names conv us).isSome ↔ Correct conv us (ndaTable ++ readerTable ++ [fileRow "vector_score_file" "--vector-score-file"] ++ [verbRow]) ∧ Used us ["--iv-file", "--train-list", "--output-path"]) ∧
    ∀ pl, trainNda names conv us = some pl → Follows conv us (ndaTable) pl.own ∧ Follows conv us readerTable pl.reader ∧ Follows conv us [] pl.model := by
  have hn : ¬ (["TransformList", "NDA", "NSbSw"].all (fun n => names.contains n) = false) := by simp [h1, h2, h3]
  unfold trainNda
  rw [if_neg hn]
  exact plain_core (by decide +kernel) (by decide +kernel) (by decide +kernel) (by decide +kernel) (by decide +kernel) (by decide +kernel) (by decide +kernel) (by decide +kernel) (by decide +kernel) (by decide +kernel) conv us

/-- scripts for transformations: the reader gets no argument -/
theorem transform_core {opts : List Opt} {own mvalid : List String} {mctor : List (String × Val)} {t mt all : List Row} {fl : List String}
    (hs : sepB opts = true) (ht : tabled opts all = true) (ho : owned opts own = true)
    (hr : (opts.filter (fun o => o.required)).map (fun o => o.flags) = fl.map (fun f => [f])) (he : own = t.map Row.attr)
    (hot : t.all (fun r => opts.any (fun o => fitsFull r o)) = true) (hme : mctor.map Prod.fst = mt.map Row.attr)
    (hmt : mt.all (fun r => decide (r.attr ≠ "verbose") && !own.contains r.attr && mvalid.contains r.attr && opts.any (fun o => fitsFull r o)) = true)
    (conv : Ty → String → Option Val) (us : List Use) :
    ((run opts own (fun _ => true) vrValid vrCtor mvalid mctor conv us).isSome ↔ Correct conv us all ∧ Used us fl) ∧
    ∀ pl, run opts own (fun _ => true) vrValid vrCtor mvalid mctor conv us = some pl →
      Follows conv us t pl.own ∧ Follows conv us mt pl.model ∧ pl.reader = [("vlist_sep", .str " ")] := by
  obtain ⟨h1, h2⟩ := run_core hs ht ho hr (fun _ => true) vrValid vrCtor mvalid mctor conv us
  constructor
  · rw [h1]; simp
  · intro pl hpl
    obtain ⟨ns, kw, _, hns, hkw, how, e1, e2⟩ := h2 pl hpl
    refine ⟨own_follows hns he hot how, e2 ▸ construct_follows hns hkw hme hmt, ?_⟩
    rw [e1]
    have hv : "vlist_sep" ∉ vrValid := by decide +kernel
    simp only [construct, vrCtor, List.map_cons, List.map_nil, kwarg, dictGet_pick, if_neg hv, Option.getD_none]

/-- C159: `train-mvn.py`; `--vlist-sep` is accepted and ignored -/
theorem C159_mvn (conv : Ty → String → Option Val) (us : List Use) :
    ((trainMvn conv us).isSome ↔ Correct conv us (mvnTrainTable ++ ([] : List Row) ++ [sepRow, verbRow]) ∧ Used us ["--iv-file", "--train-list", "--output-path"]) ∧
    ∀ pl, trainMvn conv us = some pl → Follows conv us mvnTrainTable pl.own ∧ Follows conv us ([] : List Row) pl.model ∧ pl.reader = [("vlist_sep", .str " ")] := by
  unfold trainMvn
  exact transform_core (by decide +kernel) (by decide +kernel) (by decide +kernel) (by decide +kernel) (by decide +kernel) (by decide +kernel) (by decide +kernel) (by decide +kernel) conv us

/-- C159: `train-cw.py`; `--vlist-sep` is accepted and ignored -/
theorem C159_cw (conv : Ty → String → Option Val) (us : List Use) :
    ((trainCw conv us).isSome ↔ Correct conv us (cwTable ++ [updateRow "update_mu" "--update-mu", updateRow "update_T" "--update-t", nameRow "lnorm"] ++ [sepRow, verbRow]) ∧ Used us ["--iv-file", "--train-list", "--output-path"]) ∧
    ∀ pl, trainCw conv us = some pl → Follows conv us cwTable pl.own ∧ Follows conv us [updateRow "update_mu" "--update-mu", updateRow "update_T" "--update-t", nameRow "lnorm"] pl.model ∧ pl.reader = [("vlist_sep", .str " ")] := by
  unfold trainCw
  exact transform_core (by decide +kernel) (by decide +kernel) (by decide +kernel) (by decide +kernel) (by decide +kernel) (by decide +kernel) (by decide +kernel) (by decide +kernel) conv us

/-- C159: `train-pca.py`; `--vlist-sep` is accepted and ignored -/
theorem C159_pca (conv : Ty → String → Option Val) (us : List Use) :
    ((trainPca conv us).isSome ↔ Correct conv us (transformTable ++ [updateRow "update_mu" "--update-mu", updateRow "update_T" "--update-t", ⟨"pca_dim", ["--pca-dim"], .null, .value .int none⟩, nameRow "pca"] ++ [sepRow, verbRow]) ∧ Used us ["--iv-file", "--train-list", "--output-path"]) ∧
    ∀ pl, trainPca conv us = some pl → Follows conv us transformTable pl.own ∧ Follows conv us [updateRow "update_mu" "--update-mu", updateRow "update_T" "--update-t", ⟨"pca_dim", ["--pca-dim"], .null, .value .int none⟩, nameRow "pca"] pl.model ∧ pl.reader = [("vlist_sep", .str " ")] := by
  unfold trainPca
  exact transform_core (by decide +kernel) (by decide +kernel) (by decide +kernel) (by decide +kernel) (by decide +kernel) (by decide +kernel) (by decide +kernel) (by decide +kernel) conv us

/-- C159: `train-gaussianizer.py`; `--vlist-sep` is accepted and ignored -/
theorem C159_gauss (conv : Ty → String → Option Val) (us : List Use) :
    ((trainGauss conv us).isSome ↔ Correct conv us (transformTable ++ [⟨"max_vectors", ["--max-vectors"], .null, .value .int none⟩, nameRow "gauss"] ++ [sepRow, verbRow]) ∧ Used us ["--iv-file", "--train-list", "--output-path"]) ∧
    ∀ pl, trainGauss conv us = some pl → Follows conv us transformTable pl.own ∧ Follows conv us [⟨"max_vectors", ["--max-vectors"], .null, .value .int none⟩, nameRow "gauss"] pl.model ∧ pl.reader = [("vlist_sep", .str " ")] := by
  unfold trainGauss
  exact transform_core (by decide +kernel) (by decide +kernel) (by decide +kernel) (by decide +kernel) (by decide +kernel) (by decide +kernel) (by decide +kernel) (by decide +kernel) conv us

/-- C159: the argument of `--update-mu` and `--update-t` goes through Python's `bool`: the parameter is updated unless the last argument is the empty
string, so `--update-mu False` updates it -/
theorem C159_update_true (conv : Ty → String → Option Val) (hb : ∀ s, conv .truth s = some (.bool (decide (s ≠ "")))) (us : List Use)
    (hne : ∀ u ∈ us, u.flag = "--update-mu" → u.arg ≠ some "") (hne2 : ∀ u ∈ us, u.flag = "--update-t" → u.arg ≠ some "") (pl : Run)
    (h : trainCw conv us = some pl ∨ trainPca conv us = some pl) :
    dictGet pl.model "update_mu" = some (.bool true) ∧ dictGet pl.model "update_T" = some (.bool true) := by
  have key : ∀ a f v, (∀ u ∈ us, u.flag = f → u.arg ≠ some "") → (updateRow a f).Takes conv us v → v = .bool true := by
    rintro a f v h (⟨_, rfl⟩ | ⟨pre, u, post, rfl, ⟨h1, s, h2, h3, _⟩, _⟩)
    · rfl
    · have hs : s ≠ "" := by
        rintro rfl
        exact h u (by simp) (by simpa [updateRow] using h1) h2
      rw [hb s, Option.some.injEq, decide_eq_true hs] at h3
      exact h3.symm
  have fin : ∀ l m, Follows conv us (updateRow "update_mu" "--update-mu" :: updateRow "update_T" "--update-t" :: l) m →
      dictGet m "update_mu" = some (.bool true) ∧ dictGet m "update_T" = some (.bool true) := by
    intro l m hf
    unfold Follows at hf
    cases hf with
    | cons h1 hf =>
      cases hf with
      | cons h2 hf =>
        rename_i q1 q2 _
        obtain ⟨k1, v1⟩ := q1
        obtain ⟨k2, v2⟩ := q2
        obtain ⟨rfl, t1⟩ := h1
        obtain ⟨rfl, t2⟩ := h2
        dsimp only at t1 t2
        rw [key _ _ _ hne t1, key _ _ _ hne2 t2]
        simp [dictGet, updateRow]
  rcases h with h | h
  · exact fin _ _ ((C159_cw conv us).2 pl h).2.1
  · exact fin _ _ ((C159_pca conv us).2 pl h).2.1

/-- C159: `train-lda.py` runs for no command line: it reads `args.verbose` and has no such option -/
theorem C159_lda_never (conv : Ty → String → Option Val) (us : List Use) : trainLda conv us = none := by
  unfold trainLda run
  rw [build_some (sep_flags (sep_of (by decide +kernel))), Option.bind_some]
  cases hp : parse conv (discrOpts [⟨["--lda-dim"], "lda_dim", .store .int none, .null, false⟩] "lda" []) us with
  | none => rfl
  | some ns =>
    rw [Option.bind_some, parse_other hp (by decide +kernel)]
    rfl

/-! ### Examples -/

example : ∀ s, exConv .str s ≠ some .null := by intro s h; cases h

example : ∀ s, exConv .truth s = some (.bool (decide (s ≠ ""))) := fun _ => rfl

/-- a command line for PLDA scoring; without a list of trials or tests the script stops -/
example : (evalPlda exConv [⟨"--iv-file", some "iv"⟩, ⟨"--enroll-file", some "e"⟩, ⟨"--model-file", some "m"⟩, ⟨"--score-file", some "s"⟩,
      ⟨"--ndx-file", some "n"⟩, ⟨"--seg-part-idx", some "2"⟩, ⟨"--num-seg-parts", some "4"⟩]).map (fun pl => (pl.own.drop 5, pl.reader.drop 3)) =
      some ([("model_file", .str "m"), ("score_file", .str "s"), ("plda_type", .str "splda")],
        [("seg_idx", .int 2), ("num_seg_parts", .int 4), ("eval_set", .str "enroll-test")]) ∧
    evalPlda exConv [⟨"--iv-file", some "iv"⟩, ⟨"--enroll-file", some "e"⟩, ⟨"--model-file", some "m"⟩, ⟨"--score-file", some "s"⟩] = none := by
  decide +kernel

/-- scripts for classifiers and transformations; `--update-mu False` updates -/
example : (evalGbe exConv [⟨"--iv-file", some "iv"⟩, ⟨"--class2int-file", some "c"⟩, ⟨"--test-file", some "t"⟩, ⟨"--model-file", some "m"⟩,
      ⟨"--score-file", some "s"⟩, ⟨"--normalize", none⟩]).map (fun pl => pl.own.drop 6) =
      some [("vector_score_file", .null), ("normalize", .bool true), ("eval_method", .str "linear")] ∧
    (trainPca exConv [⟨"--iv-file", some "iv"⟩, ⟨"--train-list", some "t"⟩, ⟨"--output-path", some "o"⟩, ⟨"--update-mu", some "False"⟩,
      ⟨"--pca-dim", some "4"⟩]).map (fun pl => pl.model) =
      some [("update_mu", .bool true), ("update_T", .bool true), ("pca_dim", .int 4), ("name", .str "pca")] ∧
    (trainNda ("NSbSw" :: transformsNames) exConv [⟨"--iv-file", some "iv"⟩, ⟨"--train-list", some "t"⟩, ⟨"--output-path", some "o"⟩, ⟨"--no-save-tlist", none⟩]).isSome ∧
    (evalElbo exConv [⟨"--seq-file", some "iv"⟩, ⟨"--file-list", some "t"⟩, ⟨"--output-file", some "o"⟩, ⟨"--model-file", some "m"⟩]).isSome := by
  decide +kernel

end Hyp.Cli
