import Verif.Cli.EvalProps
import Verif.Cli.FeatsProps

/-!
Theorems added because an edited model survived: defaults of the constructors behind the command lines, and the command lines of the PLDA script.
-/

namespace Hyp.Cli

/-- C154: objects made with keyword arguments take them by name, and have these defaults; they differ from the defaults of the command line in the
balancing of classes, the prior of the Gaussian back-end, the type of multi-class logistic regression and the name -/
theorem C154_defaults (d : List (String × Val)) :
    gbeAttrs d = [("update_mu", .bool true), ("update_W", .bool true), ("balance_class_weight", .bool true), ("prior", .null), ("prior_beta", .null),
      ("prior_nu", .null), ("post_beta", .null), ("post_nu", .null), ("name", .null)].map (fun q => (q.1, (dictGet d q.1).getD q.2)) ∧
    qsAttrs d = [("balance_class_weight", .bool true), ("prior", .null), ("prior_N", .null), ("post_N", .null), ("name", .null)].map
      (fun q => (q.1, (dictGet d q.1).getD q.2)) ∧
    lrAttrs d = [("penalty", .str "l2"), ("lambda_reg", .dec 1 5), ("use_bias", .bool true), ("bias_scaling", .int 1), ("lr_seed", .int 1024),
      ("solver", .str "lbfgs"), ("max_iter", .int 100), ("dual", .bool false), ("tol", .dec 1 4), ("multi_class", .str "multinomial"), ("verbose", .int 0),
      ("warm_start", .bool true), ("num_jobs", .int 1), ("name", .null)].map (fun q => (q.1, (dictGet d q.1).getD q.2)) ∧
    (svmAttrs d).filter (fun q => decide (q.1 ≠ "class_weight")) = [("penalty", .str "l2"), ("C", .int 1), ("loss", .str "squared_hinge"), ("use_bias", .bool true), ("bias_scaling", .int 1),
      ("lr_seed", .int 1024), ("max_iter", .int 100), ("dual", .bool true), ("tol", .dec 1 4), ("multi_class", .str "ovr"), ("verbose", .int 0), ("name", .null)].map
      (fun q => (q.1, (dictGet d q.1).getD q.2)) := ⟨rfl, rfl, rfl, rfl⟩

/-- C159: the readers and transformations made with keyword arguments -/
theorem C159_defaults (d : List (String × Val)) :
    construct tdrValid tdrCtor d = trialTable.map (fun r => (r.attr, (dictGet (pick tdrValid d) r.attr).getD r.unused)) ∧
    construct ctdrValid ctdrCtor d = segTable.map (fun r => (r.attr, (dictGet (pick ctdrValid d) r.attr).getD r.unused)) ∧
    construct vcrValid vcrCtor [] = (readerTable.map (fun r => (r.attr, if r.attr = "csplit_min_spc" then .int 1 else r.unused))) := ⟨rfl, rfl, by decide +kernel⟩

/-- the arguments of `train-plda.py` that are no parameter of the model -/
def pldaIoTable : List Row :=
  [fileRow "iv_file" "--iv-file", fileRow "train_list" "--train-list", fileRow "val_list" "--val-list", fileRow "preproc_file" "--preproc-file",
   fileRow "output_path" "--output-path", ⟨"epochs", ["--epochs"], .int 40, .value .int none⟩,
   ⟨"ml_md", ["--ml-md"], .str "ml+md", .value .str (some [.str "ml+md", .str "ml", .str "md"])⟩, ⟨"md_epochs", ["--md-epochs"], .null, .value .many none⟩,
   ⟨"diag_W", ["--diag-W"], .bool false, .switch (.bool false)⟩, verbRow]

/-- C154: with the name that the code misspells, `train-plda.py` runs for exactly the correct command lines with the required files -/
theorem C154_plda_accepts (conv : Ty → String → Option Val) (us : List Use) :
    (trainPlda (some ["diag_W", "no_update_mu", "no_update_V", "no_update_U", "no_update_B", "no_update_W", "no_update_D"]) conv us).isSome ↔
      Correct conv us (readerTable ++ pldaTable ++ pldaIoTable) ∧ Used us ["--iv-file", "--train-list", "--output-path"] := by
  have hs : sepB pldaScriptOpts = true := by decide +kernel
  have hsep := sep_of hs
  have hT1 : ∀ o ∈ pldaScriptOpts, ∃ r ∈ readerTable ++ pldaTable ++ pldaIoTable, fits r o = true := by decide +kernel
  have hT2 : ∀ r ∈ readerTable ++ pldaTable ++ pldaIoTable, ∃ o ∈ pldaScriptOpts, fits r o = true := by decide +kernel
  have hreq : (∀ o ∈ pldaScriptOpts, o.required = true → ∃ u ∈ us, u.flag ∈ o.flags) ↔ Used us ["--iv-file", "--train-list", "--output-path"] := by
    have hl : ∀ f ∈ ["--iv-file", "--train-list", "--output-path"], ∃ o ∈ pldaScriptOpts, o.required = true ∧ o.flags = [f] := by decide +kernel
    have hl' : ∀ o ∈ pldaScriptOpts, o.required = true → ∃ f ∈ ["--iv-file", "--train-list", "--output-path"], o.flags = [f] := by decide +kernel
    constructor
    · intro h f hf
      obtain ⟨o, ho, hr, e⟩ := hl f hf
      obtain ⟨u, hu, hm⟩ := h o ho hr
      rw [e] at hm
      exact ⟨u, hu, by simpa using hm⟩
    · intro h o ho hr
      obtain ⟨f, hf, e⟩ := hl' o ho hr
      obtain ⟨u, hu, hm⟩ := h f hf
      exact ⟨u, hu, by rw [e]; simp [hm]⟩
  rw [← accepts_of hT1 hT2, ← hreq, ← (parse_spec hsep us).1]
  unfold trainPlda script
  rw [build_some (sep_flags hsep), Option.bind_some]
  cases hns : parse conv pldaScriptOpts us with
  | none => simp
  | some ns =>
    have ho := (parse_spec hsep us).2 ns hns
    have hk : ∀ k, k ≠ "verbose" → k ∉ ownArgs ++ ["val_list", "epochs", "ml_md", "md_epochs"] →
        dictGet (ns.filter (fun q => decide (q.1 ≠ "verbose") && !(ownArgs ++ ["val_list", "epochs", "ml_md", "md_epochs"]).contains q.1)) k = dictGet ns k := by
      intro k h1 h2
      rw [dictGet_filter ns (fun k => decide (k ≠ "verbose") && !(ownArgs ++ ["val_list", "epochs", "ml_md", "md_epochs"]).contains k) k, if_pos]
      simp only [Bool.and_eq_true, decide_eq_true_eq, Bool.not_eq_true']
      exact ⟨h1, by simpa using h2⟩
    rw [Option.bind_some]
    dsimp only
    generalize ns.filter (fun q => decide (q.1 ≠ "verbose") && !(ownArgs ++ ["val_list", "epochs", "ml_md", "md_epochs"]).contains q.1) = kw at hk ⊢
    rw [Option.isSome_map]
    have hg : ∀ o ∈ pldaOpts, o.dest ∉ ["epochs", "ml_md", "md_epochs"] → ∃ v, dictGet kw o.dest = some v ∧ OTakes conv o us v := by
      intro o hm hn
      have hd : ∀ o ∈ pldaOpts, o.dest ∉ ["epochs", "ml_md", "md_epochs"] → o.dest ≠ "verbose" ∧ o.dest ∉ ownArgs ++ ["val_list", "epochs", "ml_md", "md_epochs"] := by
        decide +kernel
      rw [hk _ (hd o hm hn).1 (hd o hm hn).2]
      exact ho o (by unfold pldaScriptOpts; simp only [List.mem_append]; exact .inl (.inr hm))
    simp only [pldaOpts, List.forall_mem_cons] at hg
    obtain ⟨_, _, _, h4, h5, h6, h7, h8, h9, h10, _, _, _, _, _, _⟩ := hg
    obtain ⟨v4, g4, t4⟩ := h4 (by decide)
    obtain ⟨v5, g5, t5⟩ := h5 (by decide)
    obtain ⟨v6, g6, t6⟩ := h6 (by decide)
    obtain ⟨v7, g7, t7⟩ := h7 (by decide)
    obtain ⟨v8, g8, t8⟩ := h8 (by decide)
    obtain ⟨v9, g9, t9⟩ := h9 (by decide)
    obtain ⟨v10, g10, t10⟩ := h10 (by decide)
    obtain ⟨b4, rfl⟩ := switch_bool t4
    obtain ⟨b5, rfl⟩ := switch_bool t5
    obtain ⟨b6, rfl⟩ := switch_bool t6
    obtain ⟨b7, rfl⟩ := switch_bool t7
    obtain ⟨b8, rfl⟩ := switch_bool t8
    obtain ⟨b9, rfl⟩ := switch_bool t9
    obtain ⟨b10, rfl⟩ := switch_bool t10
    unfold pldaFilter
    simp only [Option.bind_some, List.zip_cons_cons, List.zip_nil_left, List.foldlM_cons, List.foldlM_nil, Option.bind_eq_bind]
    rw [swapNeg_eq (b := b4) (by rw [dictGet_pick]; simpa using g4), Option.bind_some,
      swapNeg_eq (b := b5) (by rw [swapGet, dictGet_pick]; simpa using g5), Option.bind_some,
      swapNeg_eq (b := b6) (by rw [swapGet, swapGet, dictGet_pick]; simpa using g6), Option.bind_some,
      swapNeg_eq (b := b7) (by rw [swapGet, swapGet, swapGet, dictGet_pick]; simpa using g7), Option.bind_some,
      swapNeg_eq (b := b8) (by rw [swapGet, swapGet, swapGet, swapGet, dictGet_pick]; simpa using g8), Option.bind_some,
      swapNeg_eq (b := b9) (by rw [swapGet, swapGet, swapGet, swapGet, swapGet, dictGet_pick]; simpa using g9), Option.bind_some,
      swapNeg_eq (b := b10) (by rw [swapGet, swapGet, swapGet, swapGet, swapGet, swapGet, dictGet_pick]; simpa using g10), Option.bind_some]
    rfl

end Hyp.Cli
