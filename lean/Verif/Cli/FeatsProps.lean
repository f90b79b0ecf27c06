import Verif.Cli.Feats

/-!
C155: command lines for features, with and without prefix.
-/

namespace Hyp.Cli

/-! ### Specification -/

/-- the option string for an option name: `--name`, or `--prefix-name` -/
def optName : Option String → String → String
  | none, f => "--" ++ f
  | some p, f => "--" ++ p ++ "-" ++ f

/-- a table for the option names with a prefix -/
def Row.at (p : Option String) (r : Row) : Row := ⟨r.attr, r.flags.map (optName p), r.unused, r.kind⟩

/-- MFCC -/
def mfccTable : List Row :=
  [⟨"fs", ["sample-frequency"], .int 16000, .value .int none⟩,
   ⟨"frame_length", ["frame-length"], .int 25, .value .int none⟩,
   ⟨"frame_shift", ["frame-shift"], .int 10, .value .int none⟩,
   ⟨"fft_length", ["fft-length"], .int 512, .value .int none⟩,
   ⟨"remove_dc_offset", ["remove-dc-offset"], .bool true, .value .bool none⟩,
   ⟨"preemph_coeff", ["preemphasis-coeff"], .dec 97 2, .value .float none⟩,
   ⟨"window_type", ["window-type"], .str "povey", .value .str (some [.str "hamming", .str "hanning", .str "povey", .str "rectangular", .str "blackman"])⟩,
   ⟨"use_fft2", ["use-fft2"], .bool true, .value .bool none⟩,
   ⟨"dither", ["dither"], .int 1, .value .float none⟩,
   ⟨"fb_type", ["fb-type"], .str "mel_kaldi", .value .str (some [.str "mel_kaldi", .str "mel_etsi", .str "linear"])⟩,
   ⟨"low_freq", ["low-freq"], .int 20, .value .float none⟩,
   ⟨"high_freq", ["high-freq"], .int 0, .value .float none⟩,
   ⟨"num_filters", ["num-filters"], .int 23, .value .int none⟩,
   ⟨"norm_filters", ["norm-filters"], .bool false, .value .bool none⟩,
   ⟨"num_ceps", ["num-ceps"], .int 13, .value .int none⟩,
   ⟨"snip_edges", ["snip-edges"], .bool true, .value .bool none⟩,
   ⟨"energy_floor", ["energy-floor"], .int 0, .value .float none⟩,
   ⟨"raw_energy", ["raw-energy"], .bool true, .value .bool none⟩,
   ⟨"use_energy", ["use-energy"], .bool true, .value .bool none⟩,
   ⟨"cepstral_lifter", ["cepstral-lifter"], .int 22, .value .float none⟩,
   ⟨"input_step", ["input-step"], .str "wave", .value .str (some [.str "wave", .str "fft", .str "fft_mag", .str "log_spec", .str "logfb"])⟩,
   ⟨"output_step", ["output-step"], .str "cepstrum", .value .str (some [.str "fft", .str "fft_mag", .str "log_spec", .str "logfb", .str "cepstrum"])⟩]

/-- short-time mean and variance normalisation -/
def mvnTable : List Row :=
  [⟨"norm_mean", ["no-norm-mean"], .bool true, .switch (.bool false)⟩,
   ⟨"norm_var", ["norm-var"], .bool false, .switch (.bool true)⟩,
   ⟨"left_context", ["left-context"], .int 300, .value .int none⟩,
   ⟨"right_context", ["right-context"], .int 300, .value .int none⟩]

/-- reader for features -/
def drfTable : List Row :=
  [⟨"scp_sep", ["scp-sep"], .str " ", .value .str none⟩, ⟨"path_prefix", ["path-prefix"], .null, .value .str none⟩,
   ⟨"part_idx", ["part-idx"], .int 1, .value .int none⟩, ⟨"num_parts", ["num-parts"], .int 1, .value .int none⟩]

/-- the files and the compression of `compute-mfcc-feats.py` -/
def featIoTable : List Row :=
  [⟨"input_path", ["input"], .null, .value .str none⟩, ⟨"output_path", ["output"], .null, .value .str none⟩,
   ⟨"compress", ["compress"], .bool false, .switch (.bool true)⟩,
   ⟨"compression_method", ["compression-method"], .str "auto", .value .str (some [.str "auto", .str "speech-feat", .str "2byte-auto",
      .str "2byte-signed-integer", .str "1byte-auto", .str "1byte-unsigned-integer", .str "1byte-0-1"])⟩,
   ⟨"write_num_frames", ["write-num-frames"], .null, .value .str none⟩]

/-! ### Prefixes -/

theorem opt_eq (p : Option String) (f : String) : p1 p ++ f = optName p f := by
  cases p with
  | none => rfl
  | some p => simp [p1, optName]

theorem optName_inj {p : Option String} {a b : String} (h : optName p a = optName p b) : a = b := by
  have h := congrArg String.toList h
  cases p <;> simpa [optName, String.toList_append, String.toList_inj] using h

theorem p2_inj {p : Option String} {a b : String} (h : p2 p ++ a = p2 p ++ b) : a = b := by
  have h := congrArg String.toList h
  cases p <;> simpa [p2, String.toList_append, String.toList_inj] using h

theorem cross {α : Type} (c : α) {P Q A B : List α} (h : P ++ c :: A = Q ++ c :: B) : P = Q ∨ (c :: B) <:+ A ∨ (c :: A) <:+ B := by
  rcases List.append_eq_append_iff.1 h with ⟨d, h1, h2⟩ | ⟨d, h1, h2⟩
  · cases d with
    | nil => left; simpa using h1.symm
    | cons x d =>
      simp only [List.cons_append, List.cons.injEq] at h2
      exact .inr (.inl ⟨d, h2.2.symm⟩)
  · cases d with
    | nil => left; simpa using h1
    | cons x d =>
      simp only [List.cons_append, List.cons.injEq] at h2
      exact .inr (.inr ⟨d, h2.2.symm⟩)

/-- different prefixes give different option strings and names, unless one name ends with another -/
theorem pre_ne {p q : Option String} (hpq : p ≠ q) {a b : String} (c : Char) (hab : ¬ (c :: b.toList) <:+ a.toList) (hba : ¬ (c :: a.toList) <:+ b.toList)
    (g : Option String → List Char) (hg : ∀ p, g p = match p with | none => [] | some p => p.toList ++ [c]) :
    g p ++ a.toList ≠ g q ++ b.toList := by
  intro h
  rw [hg, hg] at h
  cases p with
  | none =>
    cases q with
    | none => exact hpq rfl
    | some q =>
      simp only [List.nil_append, List.append_assoc, List.singleton_append] at h
      exact hab ⟨q.toList, h.symm⟩
  | some p =>
    cases q with
    | none =>
      simp only [List.nil_append, List.append_assoc, List.singleton_append] at h
      exact hba ⟨p.toList, h⟩
    | some q =>
      simp only [List.append_assoc, List.singleton_append] at h
      rcases cross c h with h | h | h
      · exact hpq (by rw [String.toList_inj.1 h])
      · exact hab h
      · exact hba h

/-- no option string or name of one list ends with one of another -/
def noTail (os ns : List Opt) : Bool :=
  os.all (fun a => ns.all (fun b => !(('_' :: b.dest.toList).isSuffixOf a.dest.toList) && a.flags.all (fun f => b.flags.all (fun g => !(('-' :: g.toList).isSuffixOf f.toList)))))

theorem sep_pre {os : List Opt} (h : Sep os) (p : Option String) : Sep (os.map (addPre p)) := by
  unfold Sep at h ⊢
  rw [List.pairwise_map]
  refine h.imp fun {a b} hab => ⟨fun he => hab.1 (p2_inj he), fun f hf hc => ?_⟩
  simp only [addPre, List.mem_map] at hf hc
  obtain ⟨f', hf', rfl⟩ := hf
  obtain ⟨g', hg', he⟩ := hc
  rw [opt_eq, opt_eq] at he
  rw [optName_inj he] at hg'
  exact hab.2 f' hf' hg'

theorem sep_two {os ns : List Opt} (h1 : Sep os) (h2 : Sep ns) (h3 : noTail os ns = true) (h4 : noTail ns os = true) {p q : Option String} (hpq : p ≠ q) :
    Sep (os.map (addPre p) ++ ns.map (addPre q)) := by
  unfold Sep
  rw [List.pairwise_append]
  refine ⟨sep_pre h1 p, sep_pre h2 q, fun a ha b hb => ?_⟩
  obtain ⟨a, ha', rfl⟩ := List.mem_map.1 ha
  obtain ⟨b, hb', rfl⟩ := List.mem_map.1 hb
  unfold noTail at h3 h4
  simp only [List.all_eq_true, Bool.and_eq_true, Bool.not_eq_true'] at h3 h4
  have e1 := h3 a ha' b hb'
  have e2 := h4 b hb' a ha'
  refine ⟨fun he => ?_, fun f hf hc => ?_⟩
  · refine pre_ne hpq (a := a.dest) (b := b.dest) '_' (fun hs => ?_) (fun hs => ?_) (fun p => (p2 p).toList) (fun p => by cases p <;> simp [p2]) ?_
    · rw [← List.isSuffixOf_iff_suffix] at hs; rw [hs] at e1; simp at e1
    · rw [← List.isSuffixOf_iff_suffix] at hs; rw [hs] at e2; simp at e2
    · rw [← String.toList_append, ← String.toList_append]; exact congrArg String.toList he
  · simp only [addPre, List.mem_map] at hf hc
    obtain ⟨f', hf', rfl⟩ := hf
    obtain ⟨g', hg', he⟩ := hc
    have e1 := e1.2 f' hf' g' hg'
    have e2 := e2.2 g' hg' f' hf'
    refine pre_ne hpq (a := f') (b := g') '-' (fun hs => ?_) (fun hs => ?_) (fun p => (p1 p).toList.drop 2) (fun p => by cases p <;> simp [p1]) ?_
    · rw [← List.isSuffixOf_iff_suffix] at hs; rw [hs] at e1; simp at e1
    · rw [← List.isSuffixOf_iff_suffix] at hs; rw [hs] at e2; simp at e2
    · have h2 : ∀ p, 2 ≤ (p1 p).toList.length := fun p => by cases p <;> simp [p1]
      have := congrArg (List.drop 2 ∘ String.toList) he.symm
      simpa only [Function.comp, String.toList_append, List.drop_append_of_le_length (h2 _)] using this

theorem dictGet_pickP (p : Option String) (valid : List String) (kw : List (String × Val)) (k : String) :
    dictGet (pickP p valid kw) k = if k ∈ valid then dictGet kw (p2 p ++ k) else none := by
  unfold pickP
  induction valid with
  | nil => simp [dictGet]
  | cons a l ih =>
    rw [List.filterMap_cons]
    by_cases hk : k = a
    · subst hk
      cases hg : dictGet kw (p2 p ++ k) with
      | none =>
        simp only [Option.map_none, List.mem_cons, true_or, if_true]
        rw [ih, hg]; simp
      | some v => simp [dictGet]
    · cases hg : dictGet kw (p2 p ++ a) with
      | none => simp only [Option.map_none, List.mem_cons, hk, false_or]; exact ih
      | some v => simp only [Option.map_some, List.mem_cons, hk, false_or, dictGet, if_neg (Ne.symm hk)]; exact ih

/-- the values of the options of one object -/
def Has (conv : Ty → String → Option Val) (us : List Use) (p : Option String) (os : List Opt) (ns : List (String × Val)) : Prop :=
  ∀ o ∈ os, ∃ v, dictGet ns (p2 p ++ o.dest) = some v ∧ OTakes conv ⟨o.flags.map (optName p), p2 p ++ o.dest, o.act, o.dflt, o.required⟩ us v

theorem addPre_eq (p : Option String) (o : Opt) : addPre p o = ⟨o.flags.map (optName p), p2 p ++ o.dest, o.act, o.dflt, o.required⟩ := by
  unfold addPre
  congr 1
  exact List.map_congr_left fun f _ => opt_eq p f

theorem obj_core {opts os : List Opt} (hs : Sep opts) {p : Option String} (hsub : ∀ o ∈ os, addPre p o ∈ opts)
    (model : List (String × Val) → Option (List (String × Val))) (conv : Ty → String → Option Val) (us : List Use) (l : List (String × Val))
    (h : objAttrs opts model conv us = some l) : ∃ ns, Has conv us p os ns ∧ model ns = some l := by
  unfold objAttrs at h
  rw [build_some (sep_flags hs), Option.bind_some, Option.bind_eq_some_iff] at h
  obtain ⟨ns, hns, h⟩ := h
  refine ⟨ns, fun o ho => ?_, h⟩
  have := (parse_spec hs us).2 ns hns (addPre p o) (hsub o ho)
  rw [addPre_eq] at this
  exact this

theorem mfcc_follows {conv : Ty → String → Option Val} {us : List Use} {p : Option String} {ns : List (String × Val)} (h : Has conv us p mfccOpts ns) :
    Follows conv us (mfccTable.map (Row.at p)) (mfccAttrs (mfccFilter p ns)) := by
  unfold Has at h
  simp only [mfccOpts, windowOpts, fbOpts, List.cons_append, List.nil_append, List.forall_mem_cons] at h
  obtain ⟨⟨v1, g1, t1⟩, ⟨v2, g2, t2⟩, ⟨v3, g3, t3⟩, ⟨v4, g4, t4⟩, ⟨v5, g5, t5⟩, ⟨v6, g6, t6⟩, ⟨v7, g7, t7⟩, ⟨v8, g8, t8⟩, ⟨v9, g9, t9⟩, ⟨v10, g10, t10⟩,
    ⟨v11, g11, t11⟩, ⟨v12, g12, t12⟩, ⟨v13, g13, t13⟩, ⟨v14, g14, t14⟩, ⟨v15, g15, t15⟩, ⟨v16, g16, t16⟩, ⟨v17, g17, t17⟩, ⟨v18, g18, t18⟩, ⟨v19, g19, t19⟩,
    ⟨v20, g20, t20⟩, ⟨v21, g21, t21⟩, ⟨v22, g22, t22⟩, _⟩ := h
  have e : mfccAttrs (mfccFilter p ns) = [("fs", v1), ("frame_length", v2), ("frame_shift", v3), ("fft_length", v4), ("remove_dc_offset", v5),
      ("preemph_coeff", v6), ("window_type", v7), ("use_fft2", v8), ("dither", v9), ("fb_type", v10), ("low_freq", v12), ("high_freq", v13),
      ("num_filters", v11), ("norm_filters", v14), ("num_ceps", v15), ("snip_edges", v16), ("energy_floor", v17), ("raw_energy", v18), ("use_energy", v19),
      ("cepstral_lifter", v20), ("input_step", v21), ("output_step", v22)] := by
    simp [mfccAttrs, mfccFilter, kwarg, dictGet_pickP, g1, g2, g3, g4, g5, g6, g7, g8, g9, g10, g11, g12, g13, g14, g15, g16, g17, g18, g19, g20, g21, g22]
  rw [e]
  unfold Follows mfccTable
  exact .cons ⟨rfl, row_value t1⟩ <| .cons ⟨rfl, row_value t2⟩ <| .cons ⟨rfl, row_value t3⟩ <| .cons ⟨rfl, row_value t4⟩ <| .cons ⟨rfl, row_value t5⟩ <|
    .cons ⟨rfl, row_value t6⟩ <| .cons ⟨rfl, row_value t7⟩ <| .cons ⟨rfl, row_value t8⟩ <| .cons ⟨rfl, row_value t9⟩ <| .cons ⟨rfl, row_value t10⟩ <|
    .cons ⟨rfl, row_value t12⟩ <| .cons ⟨rfl, row_value t13⟩ <| .cons ⟨rfl, row_value t11⟩ <| .cons ⟨rfl, row_value t14⟩ <| .cons ⟨rfl, row_value t15⟩ <|
    .cons ⟨rfl, row_value t16⟩ <| .cons ⟨rfl, row_value t17⟩ <| .cons ⟨rfl, row_value t18⟩ <| .cons ⟨rfl, row_value t19⟩ <| .cons ⟨rfl, row_value t20⟩ <|
    .cons ⟨rfl, row_value t21⟩ <| .cons ⟨rfl, row_value t22⟩ .nil

theorem mfcc_sep : Sep mfccOpts := sep_of (by decide +kernel)

/-- **C155**: an MFCC object from a command line, with any prefix or none -/
theorem C155_mfcc (p : Option String) (conv : Ty → String → Option Val) (us : List Use) (l : List (String × Val))
    (h : objAttrs (mfccOpts.map (addPre p)) (fun ns => some (mfccAttrs (mfccFilter p ns))) conv us = some l) :
    Follows conv us (mfccTable.map (Row.at p)) l := by
  obtain ⟨ns, hn, hl⟩ := obj_core (os := mfccOpts) (sep_pre mfcc_sep p) (fun o ho => List.mem_map_of_mem ho) _ conv us l h
  obtain rfl := Option.some.inj hl
  exact mfcc_follows hn

/-- **C155**: two MFCC objects with different prefixes (or one without) on the same parser do not disturb each other: the parser accepts
both sets of options, and each object takes the values given with its own prefix -/
theorem C155_two_prefixes (p q : Option String) (hpq : p ≠ q) (conv : Ty → String → Option Val) (us : List Use) :
    ((parse conv (mfccOpts.map (addPre p) ++ mfccOpts.map (addPre q)) us).isSome ↔ Correct conv us (mfccTable.map (Row.at p) ++ mfccTable.map (Row.at q))) ∧
    (build (mfccOpts.map (addPre p) ++ mfccOpts.map (addPre q))).isSome ∧
    (∀ l, objAttrs (mfccOpts.map (addPre p) ++ mfccOpts.map (addPre q)) (fun ns => some (mfccAttrs (mfccFilter p ns))) conv us = some l →
      Follows conv us (mfccTable.map (Row.at p)) l) ∧
    (∀ l, objAttrs (mfccOpts.map (addPre p) ++ mfccOpts.map (addPre q)) (fun ns => some (mfccAttrs (mfccFilter q ns))) conv us = some l →
      Follows conv us (mfccTable.map (Row.at q)) l) := by
  have hsep : Sep (mfccOpts.map (addPre p) ++ mfccOpts.map (addPre q)) :=
    sep_two mfcc_sep mfcc_sep (by decide +kernel) (by decide +kernel) hpq
  refine ⟨?_, by rw [build_some (sep_flags hsep)]; rfl, fun l h => ?_, fun l h => ?_⟩
  · rw [(parse_spec hsep us).1]
    have hreq : ∀ o ∈ mfccOpts.map (addPre p) ++ mfccOpts.map (addPre q), o.required = true → ∃ u ∈ us, u.flag ∈ o.flags := by
      have hr : ∀ o ∈ mfccOpts, o.required = false := by decide +kernel
      intro o ho h
      rw [List.mem_append, List.mem_map, List.mem_map] at ho
      rcases ho with ⟨o, ho, rfl⟩ | ⟨o, ho, rfl⟩ <;> (have := hr o ho; simp only [addPre] at h; rw [this] at h; cases h)
    rw [and_iff_left hreq]
    have ha : ∀ o ∈ mfccOpts, ∃ r ∈ mfccTable, fits r o = true := by decide +kernel
    have hb : ∀ r ∈ mfccTable, ∃ o ∈ mfccOpts, fits r o = true := by decide +kernel
    have hc : ∀ (p : Option String) (r : Row) (o : Opt), fits r o = true → fits (r.at p) (addPre p o) = true := by
      intro p r o h
      unfold fits at h ⊢
      rw [addPre_eq]
      simp only [Row.at]
      rw [Bool.and_eq_true] at h ⊢
      refine ⟨?_, h.2⟩
      exact decide_eq_true (congrArg (List.map (optName p)) (of_decide_eq_true h.1))
    apply accepts_of
    · intro o ho
      rw [List.mem_append, List.mem_map, List.mem_map] at ho
      rcases ho with ⟨o, ho, rfl⟩ | ⟨o, ho, rfl⟩
      · obtain ⟨r, hr, hf⟩ := ha o ho
        exact ⟨r.at p, by rw [List.mem_append]; exact .inl (List.mem_map_of_mem hr), hc p r o hf⟩
      · obtain ⟨r, hr, hf⟩ := ha o ho
        exact ⟨r.at q, by rw [List.mem_append]; exact .inr (List.mem_map_of_mem hr), hc q r o hf⟩
    · intro r hr
      rw [List.mem_append, List.mem_map, List.mem_map] at hr
      rcases hr with ⟨r, hr, rfl⟩ | ⟨r, hr, rfl⟩
      · obtain ⟨o, ho, hf⟩ := hb r hr
        exact ⟨addPre p o, by rw [List.mem_append]; exact .inl (List.mem_map_of_mem ho), hc p r o hf⟩
      · obtain ⟨o, ho, hf⟩ := hb r hr
        exact ⟨addPre q o, by rw [List.mem_append]; exact .inr (List.mem_map_of_mem ho), hc q r o hf⟩
  · obtain ⟨ns, hn, hl⟩ := obj_core (os := mfccOpts) (p := p) hsep (fun o ho => by rw [List.mem_append]; exact .inl (List.mem_map_of_mem ho)) _ conv us l h
    obtain rfl := Option.some.inj hl
    exact mfcc_follows hn
  · obtain ⟨ns, hn, hl⟩ := obj_core (os := mfccOpts) (p := q) hsep (fun o ho => by rw [List.mem_append]; exact .inr (List.mem_map_of_mem ho)) _ conv us l h
    obtain rfl := Option.some.inj hl
    exact mfcc_follows hn

/-- **C155**: short-time mean and variance normalisation from a command line, with any prefix -/
theorem C155_mvn (p : Option String) (conv : Ty → String → Option Val) (us : List Use) :
    (∀ l, objAttrs (mvnOpts.map (addPre p)) (fun ns => (mvnFilter p ns).map mvnAttrs) conv us = some l → Follows conv us (mvnTable.map (Row.at p)) l) ∧
    ((objAttrs (mvnOpts.map (addPre p)) (fun ns => (mvnFilter p ns).map mvnAttrs) conv us).isSome ↔ (parse conv (mvnOpts.map (addPre p)) us).isSome) := by
  have hsep : Sep (mvnOpts.map (addPre p)) := sep_pre (sep_of (by decide +kernel)) p
  have key : ∀ ns, Has conv us p mvnOpts ns → ∃ l, (mvnFilter p ns).map mvnAttrs = some l ∧ Follows conv us (mvnTable.map (Row.at p)) l := by
    intro ns h
    unfold Has at h
    simp only [mvnOpts, List.forall_mem_cons] at h
    obtain ⟨⟨v1, g1, t1⟩, ⟨v2, g2, t2⟩, ⟨v3, g3, t3⟩, ⟨v4, g4, t4⟩, _⟩ := h
    obtain ⟨b1, rfl⟩ := switch_bool t1
    refine ⟨[("norm_mean", .bool !b1), ("norm_var", v2), ("left_context", v3), ("right_context", v4)], ?_, ?_⟩
    · unfold mvnFilter
      rw [swapNeg_eq (b := b1) (by rw [dictGet_pickP]; simpa using g1), Option.map_some]
      simp only [mvnAttrs, kwarg, swapGet, dictGet_pickP]
      simp [g2, g3, g4]
    · unfold Follows mvnTable
      exact .cons ⟨rfl, not_row t1⟩ <| .cons ⟨rfl, row_switch id t2⟩ <| .cons ⟨rfl, row_value t3⟩ <| .cons ⟨rfl, row_value t4⟩ .nil
  constructor
  · intro l h
    obtain ⟨ns, hn, hl⟩ := obj_core (os := mvnOpts) hsep (fun o ho => List.mem_map_of_mem ho) _ conv us l h
    obtain ⟨l', h1, h2⟩ := key ns hn
    rw [h1] at hl
    obtain rfl := Option.some.inj hl
    exact h2
  · unfold objAttrs
    rw [build_some (sep_flags hsep), Option.bind_some]
    cases hp : parse conv (mvnOpts.map (addPre p)) us with
    | none => simp
    | some ns =>
      obtain ⟨l', h1, -⟩ := key ns (fun o ho => by
        have := (parse_spec hsep us).2 ns hp (addPre p o) (List.mem_map_of_mem ho)
        rw [addPre_eq] at this; exact this)
      simp only [Option.bind_some, Option.isSome_some, iff_true]
      rw [h1]; rfl

/-- **C155** (defect): arguments for the normalisation that did not come from a parser raise, even when they say `norm_mean` -/
theorem C155_mvn_needs_switch (p : Option String) (kw : List (String × Val)) (h : dictGet kw (p2 p ++ "no_norm_mean") = none) : mvnFilter p kw = none := by
  unfold mvnFilter swapNeg
  dsimp only
  rw [dictGet_pickP]
  simp [h]

/-- **C155** (defect): the option for the frame selector has no effect; the tolerance is 3 whatever the command line says -/
theorem C155_tolerance_ignored (p : Option String) (conv : Ty → String → Option Val) (us : List Use) (l : List (String × Val))
    (h : objAttrs (selOpts.map (addPre p)) (fun ns => some (selAttrs (selFilter p ns))) conv us = some l) : l = [("tol_num_frames", .int 3)] := by
  unfold objAttrs at h
  rw [Option.bind_eq_some_iff] at h
  obtain ⟨ps, -, h⟩ := h
  rw [Option.bind_eq_some_iff] at h
  obtain ⟨ns, -, h⟩ := h
  obtain rfl := Option.some.inj h
  unfold selAttrs selFilter kwarg
  rw [dictGet_pickP, if_neg (by decide +kernel)]
  rfl

/-- **C155**: `compute-mfcc-feats.py` -/
theorem C155_compute_mfcc (conv : Ty → String → Option Val) (us : List Use) (pl : FeatPlan) (h : mfccScript conv us = some pl) :
    Follows conv us (mfccTable.map (Row.at none)) pl.mfcc ∧ Follows conv us (featIoTable.map (Row.at none)) pl.own ∧
    (pl.wave = true ↔ ("input_step", Val.str "wave") ∈ pl.mfcc) ∧
    (pl.wave = false → Follows conv us (drfTable.map (Row.at none)) pl.reader) ∧
    (pl.wave = true → Follows conv us ((drfTable.drop 2).map (Row.at none)) pl.reader) := by
  have hsep : Sep mfccScriptOpts := sep_of (by decide +kernel)
  unfold mfccScript at h
  rw [build_some (sep_flags hsep), Option.bind_some, Option.map_eq_some_iff] at h
  obtain ⟨ns, hns, h⟩ := h
  have ho := (parse_spec hsep us).2 ns hns
  dsimp only at h
  have hk : ∀ k, k ≠ "verbose" → k ∉ ["input_path", "output_path", "compress", "compression_method", "write_num_frames"] →
      dictGet (ns.filter (fun q => decide (q.1 ≠ "verbose") && !(["input_path", "output_path", "compress", "compression_method", "write_num_frames"]).contains q.1)) k =
        dictGet ns k := by
    intro k h1 h2
    rw [dictGet_filter ns (fun k => decide (k ≠ "verbose") && !(["input_path", "output_path", "compress", "compression_method", "write_num_frames"]).contains k) k, if_pos]
    simp only [Bool.and_eq_true, decide_eq_true_eq, Bool.not_eq_true']
    exact ⟨h1, by simpa using h2⟩
  generalize ns.filter (fun q => decide (q.1 ≠ "verbose") && !(["input_path", "output_path", "compress", "compression_method", "write_num_frames"]).contains q.1) = kw at h hk
  have hm : Has conv us none mfccOpts kw := by
    intro o hmem
    have hd : ∀ o ∈ mfccOpts, p2 none ++ o.dest ≠ "verbose" ∧ p2 none ++ o.dest ∉ ["input_path", "output_path", "compress", "compression_method", "write_num_frames"] := by
      decide +kernel
    rw [hk _ (hd o hmem).1 (hd o hmem).2]
    have := ho (addPre none o) (by unfold mfccScriptOpts; simp only [List.mem_append]; exact .inl (.inr (List.mem_map_of_mem hmem)))
    rw [addPre_eq] at this
    exact this
  have hr : Has conv us none drfOpts kw := by
    intro o hmem
    have hd : ∀ o ∈ drfOpts, p2 none ++ o.dest ≠ "verbose" ∧ p2 none ++ o.dest ∉ ["input_path", "output_path", "compress", "compression_method", "write_num_frames"] := by
      decide +kernel
    rw [hk _ (hd o hmem).1 (hd o hmem).2]
    have := ho (addPre none o) (by unfold mfccScriptOpts; simp only [List.mem_append]; exact .inl (.inl (.inr (List.mem_map_of_mem hmem))))
    rw [addPre_eq] at this
    exact this
  have hmf := mfcc_follows hm
  have hget : ∀ (a : List (String × Val)) (v : Val), Follows conv us (mfccTable.map (Row.at none)) a → (dictGet a "input_step" = some v ↔ ("input_step", v) ∈ a) := by
    intro a v ha
    have hkeys : a.map Prod.fst = mfccTable.map Row.attr := by
      have : ∀ {t : List Row} {a : List (String × Val)}, Follows conv us t a → a.map Prod.fst = t.map Row.attr := by
        intro t a h
        induction h with
        | nil => rfl
        | cons h _ ih => simp [h.1, ih]
      rw [this ha, List.map_map]
      rfl
    have hnd : (a.map Prod.fst).Nodup := by rw [hkeys]; decide +kernel
    clear ha hkeys
    induction a with
    | nil => simp [dictGet]
    | cons q a ih =>
      obtain ⟨k, w⟩ := q
      rw [List.map_cons, List.nodup_cons] at hnd
      unfold dictGet
      by_cases hk : k = "input_step"
      · subst hk
        rw [if_pos rfl]
        constructor
        · intro h; simp only [Option.some.injEq] at h; subst h; simp
        · intro h
          rcases List.mem_cons.1 h with h | h
          · rw [(Prod.mk.inj h).2]
          · exact absurd (List.mem_map_of_mem (f := Prod.fst) h) hnd.1
      · rw [if_neg hk]
        refine (ih hnd.2).trans ?_
        simp [Ne.symm hk]
  subst h
  refine ⟨hmf, ?_, ?_, ?_, ?_⟩
  · unfold mfccScriptOpts at ho
    simp only [List.forall_mem_append, List.forall_mem_cons] at ho
    obtain ⟨⟨⟨⟨⟨v1, g1, t1⟩, ⟨v2, g2, t2⟩, ⟨v3, g3, t3⟩, _⟩, _⟩, _⟩, ⟨v4, g4, t4⟩, ⟨v5, g5, t5⟩, _⟩ := ho
    simp only [pick, List.filterMap_cons, List.filterMap_nil, g1, g2, g3, g4, g5, Option.map_some]
    unfold Follows featIoTable
    exact .cons ⟨rfl, row_value t1⟩ <| .cons ⟨rfl, row_value t2⟩ <| .cons ⟨rfl, row_switch id t4⟩ <| .cons ⟨rfl, row_value t5⟩ <| .cons ⟨rfl, row_value t3⟩ .nil
  · dsimp only
    rw [decide_eq_true_eq]
    exact hget _ _ hmf
  all_goals
    unfold Has at hr
    simp only [drfOpts, List.forall_mem_cons] at hr
    obtain ⟨⟨v1, g1, t1⟩, ⟨v2, g2, t2⟩, ⟨v3, g3, t3⟩, ⟨v4, g4, t4⟩, _⟩ := hr
    dsimp only
    intro hw
    rw [hw]
  · simp only [Bool.false_eq_true, if_false, pickP, List.filterMap_cons, List.filterMap_nil, g1, g2, g3, g4, Option.map_some]
    unfold Follows drfTable
    exact .cons ⟨rfl, row_value t1⟩ <| .cons ⟨rfl, row_value t2⟩ <| .cons ⟨rfl, row_value t3⟩ <| .cons ⟨rfl, row_value t4⟩ .nil
  · simp only [if_true, pickP, List.filterMap_cons, List.filterMap_nil, g3, g4, Option.map_some]
    unfold Follows drfTable
    exact .cons ⟨rfl, row_value t3⟩ <| .cons ⟨rfl, row_value t4⟩ .nil

/-- **C155**: which texts are booleans -/
theorem C155_bool (s : String) : (str2bool s = some true ↔ s.toLower ∈ ["true", "t", "yes", "y"]) ∧ (str2bool s = some false ↔ s.toLower ∈ ["false", "f", "no", "n"]) := by
  unfold str2bool
  generalize s.toLower = t
  simp only [dictGet]
  constructor
  all_goals
    by_cases h1 : "true" = t <;> [subst h1; skip] <;> [decide +kernel; skip]
    by_cases h2 : "t" = t <;> [subst h2; skip] <;> [decide +kernel; skip]
    by_cases h3 : "yes" = t <;> [subst h3; skip] <;> [decide +kernel; skip]
    by_cases h4 : "y" = t <;> [subst h4; skip] <;> [decide +kernel; skip]
    by_cases h5 : "false" = t <;> [subst h5; skip] <;> [decide +kernel; skip]
    by_cases h6 : "f" = t <;> [subst h6; skip] <;> [decide +kernel; skip]
    by_cases h7 : "no" = t <;> [subst h7; skip] <;> [decide +kernel; skip]
    by_cases h8 : "n" = t <;> [subst h8; skip] <;> [decide +kernel; skip]
    simp [h1, h2, h3, h4, h5, h6, h7, h8, Ne.symm h1, Ne.symm h2, Ne.symm h3, Ne.symm h4, Ne.symm h5, Ne.symm h6, Ne.symm h7, Ne.symm h8]

/-- **C155**: the command lines that `compute-mfcc-feats.py` accepts -/
theorem C155_compute_mfcc_accepts (conv : Ty → String → Option Val) (us : List Use) :
    (mfccScript conv us).isSome ↔ Correct conv us ((mfccTable ++ featIoTable ++ drfTable).map (Row.at none) ++
      [⟨"verbose", ["-v", "--verbose"], .int 1, .value .int (some [.int 0, .int 1, .int 2, .int 3])⟩]) ∧ ∀ f ∈ ["--input", "--output"], ∃ u ∈ us, u.flag = f := by
  have hsep : Sep mfccScriptOpts := sep_of (by decide +kernel)
  have h1 : (mfccScript conv us).isSome = (parse conv mfccScriptOpts us).isSome := by
    unfold mfccScript
    rw [build_some (sep_flags hsep), Option.bind_some, Option.isSome_map]
  rw [h1, (parse_spec hsep us).1]
  refine and_congr (accepts_of (by decide +kernel) (by decide +kernel) us) ?_
  have hr : mfccScriptOpts.filter (fun o => o.required) =
      [⟨["--input"], "input_path", .store .str none, .null, true⟩, ⟨["--output"], "output_path", .store .str none, .null, true⟩] := by decide +kernel
  have h2 : (∀ o ∈ mfccScriptOpts, o.required = true → ∃ u ∈ us, u.flag ∈ o.flags) ↔
      ∀ o ∈ mfccScriptOpts.filter (fun o => o.required), ∃ u ∈ us, u.flag ∈ o.flags := by
    simp only [List.mem_filter, and_imp]
  rw [h2, hr]
  simp

/-! ### Examples -/

/-- a line in wave mode: the separator of the script file reaches nobody -/
example : (mfccScript exConv [⟨"--input", some "wav.scp"⟩, ⟨"--output", some "ark:f.ark"⟩, ⟨"--num-ceps", some "4"⟩, ⟨"--use-energy", some "yes"⟩,
      ⟨"--scp-sep", some ","⟩, ⟨"--num-parts", some "4"⟩, ⟨"--compress", none⟩]).map (fun pl => (pl.wave, pl.reader, dictGet pl.mfcc "num_ceps", dictGet pl.own "compress")) =
    some (true, [("part_idx", .int 1), ("num_parts", .int 4)], some (.int 4), some (.bool true)) := by
  decide +kernel

/-- the same options with the features given: the reader gets all its options -/
example : (mfccScript exConv [⟨"--input", some "f.scp"⟩, ⟨"--output", some "ark:f.ark"⟩, ⟨"--input-step", some "logfb"⟩, ⟨"--scp-sep", some ","⟩]).map
      (fun pl => (pl.wave, pl.reader)) =
    some (false, [("scp_sep", .str ","), ("path_prefix", .null), ("part_idx", .int 1), ("num_parts", .int 1)]) ∧
    mfccScript exConv [⟨"--input", some "f.scp"⟩] = none := by
  decide +kernel

/-- two sets of MFCC options on one parser, and mean and variance normalization -/
example : (objAttrs (mfccOpts.map (addPre (some "a")) ++ mfccOpts.map (addPre none)) (fun ns => some (mfccAttrs (mfccFilter (some "a") ns))) exConv
      [⟨"--num-ceps", some "4"⟩, ⟨"--a-num-ceps", some "2"⟩]).bind (fun l => dictGet l "num_ceps") = some (.int 2) ∧
    (objAttrs (mvnOpts.map (addPre (some "b"))) (fun ns => (mvnFilter (some "b") ns).map mvnAttrs) exConv [⟨"--b-no-norm-mean", none⟩]).bind
      (fun l => dictGet l "norm_mean") = some (.bool false) ∧
    objAttrs (selOpts.map (addPre none)) (fun ns => some (selAttrs (selFilter none ns))) exConv [⟨"--tol-num-frames", some "4"⟩] = some [("tol_num_frames", .int 3)] := by
  decide +kernel

end Hyp.Cli
