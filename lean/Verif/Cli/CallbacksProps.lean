import Verif.Cli.FactoriesProps

/-!
C163: callbacks for Keras training from command lines and keyword arguments.
-/

namespace Hyp.Cli

/-! ### Specification -/

/-- the options -/
def cbTable : List Row :=
  [⟨"monitor", ["monitor"], .str "val_loss", .value .str none⟩, ⟨"lr_monitor", ["lr-monitor"], .null, .value .str none⟩,
   ⟨"monitor_mode", ["monitor-mode"], .str "auto", .value .str (some [.str "min", .str "max", .str "auto"])⟩,
   ⟨"lr_monitor_mode", ["lr-monitor-mode"], .str "auto", .value .str (some [.str "min", .str "max", .str "auto"])⟩,
   ⟨"patience", ["patience"], .int 100, .value .int none⟩, ⟨"lr_patience", ["lr-patience"], .int 10, .value .int none⟩,
   ⟨"lr_factor", ["lr-factor"], .dec 1 1, .value .float none⟩, ⟨"lr_red_factor", ["lr-red-factor"], .null, .value .float none⟩,
   ⟨"lr_inc_factor", ["lr-inc-factor"], .null, .value .float none⟩, ⟨"min_delta", ["min-delta"], .dec 1 4, .value .float none⟩,
   ⟨"min_lr", ["min-lr"], .dec 1 5, .value .float none⟩, ⟨"lr_steps", ["lr-steps"], .null, .value .words none⟩,
   ⟨"save_all_epochs", ["save-all-epochs"], .bool false, .switch (.bool true)⟩, ⟨"log_append", ["log-append"], .bool false, .switch (.bool true)⟩]

/-- the defaults of `create_callbacks` -/
def cbDefaults : List (String × Val) :=
  [("save_all_epochs", .bool false), ("monitor", .str "val_loss"), ("monitor_mode", .str "auto"), ("patience", .null), ("min_delta", .dec 1 4), ("lr_steps", .null),
   ("lr_monitor", .null), ("lr_monitor_mode", .str "auto"), ("lr_patience", .null), ("lr_factor", .dec 1 1), ("lr_red_factor", .null), ("lr_inc_factor", .null),
   ("min_lr", .dec 1 7), ("log_append", .bool false)]

/-- the first value that is given -/
def firstOf (v w : Val) : Val := if v = .null then w else v

/-- the callback list `r` for the parameters `val` and the directory `path`: a checkpoint (for every epoch or for the best one), the log, early stopping if
`patience` is given, steps of the learning rate if given, reduction on a plateau if `lr_patience` is given -/
def CbList (path : String) (val : String → Val) (r : List Made) : Prop :=
  ∃ ck early steps red, r = ck :: ⟨"CSVLogger", [("filename", .str (path ++ "/train.log")), ("separator", .str ","), ("append", val "log_append")]⟩ :: (early ++ steps ++ red) ∧
    (val "save_all_epochs" = .bool true → ck = ⟨"HypModelCheckpoint", [("filepath", .str (path ++ "/model.{epoch:04d}")), ("monitor", val "monitor"),
      ("save_best_only", .bool false), ("mode", .str "auto"), ("period", .int 1)]⟩) ∧
    (val "save_all_epochs" = .bool false → ck = ⟨"HypModelCheckpoint", [("filepath", .str (path ++ "/model.best")), ("monitor", val "monitor"),
      ("save_best_only", .bool true), ("mode", .str "auto"), ("period", .int 1)]⟩) ∧
    (val "patience" = .null → early = []) ∧
    (val "patience" ≠ .null → early = [⟨"EarlyStopping", [("monitor", val "monitor"), ("patience", val "patience"), ("min_delta", val "min_delta"),
      ("mode", val "monitor_mode")]⟩]) ∧
    (val "lr_steps" = .null → steps = []) ∧ (val "lr_steps" ≠ .null → steps = [⟨"LearningRateSteps", [("schedule", val "lr_steps")]⟩]) ∧
    (val "lr_patience" = .null → red = []) ∧
    (val "lr_patience" ≠ .null → red = [⟨"ReduceLROnPlateau", [("monitor", firstOf (val "lr_monitor") (val "monitor")),
      ("factor", firstOf (val "lr_red_factor") (val "lr_factor")), ("patience", val "lr_patience"), ("mode", val "lr_monitor_mode"), ("min_delta", val "min_delta"),
      ("cooldown", .int 0), ("min_lr", val "min_lr")]⟩])

/-! ### Proofs -/

/-- the callbacks for bound arguments -/
def cbBody (path : String) (a : List (String × Val)) : Option (List Made) :=
  (plateau a).map (fun pl =>
    [checkpoint path a, ⟨"CSVLogger", [("filename", .str (path ++ "/train.log")), ("separator", .str ","), ("append", arg a "log_append")]⟩] ++
    (if arg a "patience" = .null then [] else [⟨"EarlyStopping", [("monitor", arg a "monitor"), ("patience", arg a "patience"), ("min_delta", arg a "min_delta"),
      ("mode", arg a "monitor_mode")]⟩]) ++
    (if arg a "lr_steps" = .null then [] else [⟨"LearningRateSteps", [("schedule", arg a "lr_steps")]⟩]) ++ pl)

theorem cb_body (path : String) (a : List (String × Val)) :
    (arg a "lr_patience" ≠ .null → arg a "lr_inc_factor" ≠ .null → cbBody path a = none) ∧
    ((arg a "lr_patience" = .null ∨ arg a "lr_inc_factor" = .null) → ∃ r, cbBody path a = some r ∧ CbList path (arg a) r) := by
  unfold cbBody plateau
  constructor
  · intro h1 h2
    rw [if_neg h1, if_neg h2]; rfl
  · intro h
    by_cases h1 : arg a "lr_patience" = .null
    · rw [if_pos h1, Option.map_some]
      refine ⟨_, rfl, checkpoint path a, (if arg a "patience" = .null then [] else [⟨"EarlyStopping", [("monitor", arg a "monitor"), ("patience", arg a "patience"), ("min_delta", arg a "min_delta"), ("mode", arg a "monitor_mode")]⟩]),
        (if arg a "lr_steps" = .null then [] else [⟨"LearningRateSteps", [("schedule", arg a "lr_steps")]⟩]), [], ?_, ?_, ?_, ?_, ?_, ?_, ?_, ?_, ?_⟩
      · simp only [List.cons_append, List.nil_append, List.append_assoc]
      · intro hs; unfold checkpoint; rw [hs]; rfl
      · intro hs; unfold checkpoint; rw [hs]; rfl
      · exact fun h => if_pos h
      · exact fun h => if_neg h
      · exact fun h => if_pos h
      · exact fun h => if_neg h
      · exact fun _ => rfl
      · exact fun h => absurd h1 h
    · have h2 : arg a "lr_inc_factor" = .null := h.resolve_left h1
      rw [if_neg h1, if_pos h2, Option.map_some]
      refine ⟨_, rfl, checkpoint path a, (if arg a "patience" = .null then [] else [⟨"EarlyStopping", [("monitor", arg a "monitor"), ("patience", arg a "patience"), ("min_delta", arg a "min_delta"), ("mode", arg a "monitor_mode")]⟩]),
        (if arg a "lr_steps" = .null then [] else [⟨"LearningRateSteps", [("schedule", arg a "lr_steps")]⟩]),
        [⟨"ReduceLROnPlateau", [("monitor", firstOf (arg a "lr_monitor") (arg a "monitor")),
      ("factor", firstOf (arg a "lr_red_factor") (arg a "lr_factor")), ("patience", arg a "lr_patience"), ("mode", arg a "lr_monitor_mode"), ("min_delta", arg a "min_delta"),
      ("cooldown", .int 0), ("min_lr", arg a "min_lr")]⟩], ?_, ?_, ?_, ?_, ?_, ?_, ?_, ?_, ?_⟩
      · simp only [List.cons_append, List.nil_append, List.append_assoc]
        rfl
      · intro hs; unfold checkpoint; rw [hs]; rfl
      · intro hs; unfold checkpoint; rw [hs]; rfl
      · exact fun h => if_pos h
      · exact fun h => if_neg h
      · exact fun h => if_pos h
      · exact fun h => if_neg h
      · exact fun h => absurd h h1
      · exact fun _ => rfl

theorem cb_create (path : String) (kw : List (String × Val)) : cbCreate path kw = (bindKw cbSig kw).bind (cbBody path) := rfl

/-- C163: callbacks from a command line, with any prefix: exactly the correct command lines are accepted, except that `--lr-inc-factor` always raises. There is
always early stopping and reduction on a plateau. -/
theorem C163_callbacks (path : String) (p : Option String) (conv : Ty → String → Option Val) (hint : ∀ s, conv .int s ≠ some .null)
    (hfl : ∀ s, conv .float s ≠ some .null) (us : List Use) :
    (¬ Correct conv us (cbTable.map (Row.at p)) → made p cbOpts cbValid (cbCreate path) conv us = none) ∧
    (Correct conv us (cbTable.map (Row.at p)) → (∃ u ∈ us, u.flag = optName p "lr-inc-factor") → made p cbOpts cbValid (cbCreate path) conv us = none) ∧
    (Correct conv us (cbTable.map (Row.at p)) → (∀ u ∈ us, u.flag ≠ optName p "lr-inc-factor") → ∃ val r,
      (∀ r ∈ cbTable, (r.at p).Takes conv us (val r.attr)) ∧ made p cbOpts cbValid (cbCreate path) conv us = some r ∧ CbList path val r ∧
      val "patience" ≠ .null ∧ val "lr_patience" ≠ .null) := by
  obtain ⟨h1, h2⟩ := made_core (opts := cbOpts) (valid := cbValid) (sig := cbSig) (t := cbTable) (by decide +kernel) (by decide +kernel) (by decide +kernel)
    (by decide +kernel) (by decide +kernel) (cbCreate path) (cbBody path) (fun kw => cb_create path kw) p conv us
  have hval : ∀ r ∈ cbTable, r.attr ∈ cbValid := by decide +kernel
  have num : ∀ (a : List (String × Val)) (k f : String) (d : Val), d ≠ .null → ∀ ty, (∀ s, conv ty s ≠ some .null) →
      (Row.at p ⟨k, [f], d, .value ty none⟩).Takes conv us (arg a k) → arg a k ≠ .null := by
    intro a k f d hd ty hty ht
    rcases ht with ⟨_, e⟩ | ⟨pre, u, post, _, ⟨_, s, _, e, _⟩, _⟩
    · rw [e]; exact hd
    · intro hn; rw [hn] at e; exact hty s e
  have inc : ∀ a : List (String × Val), (Row.at p ⟨"lr_inc_factor", ["lr-inc-factor"], .null, .value .float none⟩).Takes conv us (arg a "lr_inc_factor") →
      (arg a "lr_inc_factor" = .null ↔ ∀ u ∈ us, u.flag ≠ optName p "lr-inc-factor") := by
    intro a ht
    rcases ht with ⟨h, e⟩ | ⟨pre, u, post, hu, ⟨hf, s, _, e, _⟩, _⟩
    · refine ⟨fun _ u hu => ?_, fun _ => e⟩
      have := h u hu
      simpa [Row.at] using this
    · constructor
      · intro hn; rw [hn] at e; exact absurd e (hfl s)
      · intro h
        have := h u (by rw [hu]; simp)
        simp [Row.at] at hf
        exact absurd hf this
  refine ⟨h1, fun hc hu => ?_, fun hc hu => ?_⟩
  · obtain ⟨a, e1, e2, _⟩ := h2 hc
    have htk := fun r hr => e2 r hr (hval r hr)
    have q1 : arg a "lr_patience" ≠ .null := num a "lr_patience" "lr-patience" (.int 10) (by simp) .int hint (htk _ (by simp [cbTable]))
    have q2 : arg a "lr_inc_factor" ≠ .null := by
      rw [Ne, inc a (htk ⟨"lr_inc_factor", ["lr-inc-factor"], .null, .value .float none⟩ (by simp [cbTable]))]
      obtain ⟨u, hu1, hu2⟩ := hu
      exact fun h => h u hu1 hu2
    rw [e1]
    exact (cb_body path a).1 q1 q2
  · obtain ⟨a, e1, e2, _⟩ := h2 hc
    have htk := fun r hr => e2 r hr (hval r hr)
    have q1 : arg a "lr_patience" ≠ .null := num a "lr_patience" "lr-patience" (.int 10) (by simp) .int hint (htk _ (by simp [cbTable]))
    have q0 : arg a "patience" ≠ .null := num a "patience" "patience" (.int 100) (by simp) .int hint (htk _ (by simp [cbTable]))
    have q2 : arg a "lr_inc_factor" = .null := by
      rw [inc a (htk ⟨"lr_inc_factor", ["lr-inc-factor"], .null, .value .float none⟩ (by simp [cbTable]))]
      exact hu
    obtain ⟨r, g1, g2⟩ := (cb_body path a).2 (Or.inr q2)
    exact ⟨arg a, r, htk, by rw [e1, g1], g2, q0, q1⟩

theorem cbList_congr {path : String} {val val' : String → Val} {r : List Made} (h : ∀ k ∈ cbDefaults.map Prod.fst, val k = val' k) (hr : CbList path val r) :
    CbList path val' r := by
  simp only [cbDefaults, List.map_cons, List.map_nil, List.forall_mem_cons] at h
  obtain ⟨a1, a2, a3, a4, a5, a6, a7, a8, a9, a10, a11, a12, a13, a14, _⟩ := h
  unfold CbList at hr ⊢
  rw [a1, a2, a3, a4, a5, a6, a7, a8, a9, a10, a11, a13, a14] at hr
  exact hr

/-- C163: callbacks from keyword arguments: exactly the known arguments are accepted, except an increase factor together with a patience. -/
theorem C163_callbacks_create (path : String) (kw : List (String × Val)) :
    ((∃ q ∈ kw, q.1 ∉ cbDefaults.map Prod.fst) → cbCreate path kw = none) ∧
    ((∀ q ∈ kw, q.1 ∈ cbDefaults.map Prod.fst) →
      (given kw cbDefaults "lr_patience" ≠ .null → given kw cbDefaults "lr_inc_factor" ≠ .null → cbCreate path kw = none) ∧
      ((given kw cbDefaults "lr_patience" = .null ∨ given kw cbDefaults "lr_inc_factor" = .null) → ∃ r, cbCreate path kw = some r ∧ CbList path (given kw cbDefaults) r)) := by
  have hn : cbSig.map Prod.fst = cbDefaults.map Prod.fst := rfl
  rw [cb_create]
  constructor
  · rintro ⟨q, hq, hnot⟩
    cases hb : bindKw cbSig kw with
    | none => rfl
    | some a =>
      exfalso
      obtain ⟨h1, _⟩ := (bindKw_some _ _ _).1 hb
      obtain ⟨p, hp, e⟩ := h1 q hq
      exact hnot (by rw [← hn, ← e]; exact List.mem_map_of_mem hp)
  · intro h
    obtain ⟨a, ha⟩ : ∃ a, bindKw cbSig kw = some a := by
      refine ⟨_, (bindKw_some _ _ _).2 ⟨fun q hq => ?_, ?_, rfl⟩⟩
      · have := h q hq
        rw [← hn, List.mem_map] at this
        exact this
      · have : ∀ p ∈ cbSig, p.2 ≠ none := by decide +kernel
        intro p hp hd
        exact absurd hd (this p hp)
    have hg := arg_given ha (dflt := cbDefaults) (names := cbDefaults.map Prod.fst) (by decide +kernel)
    rw [ha, Option.bind_some, ← hg "lr_patience" (by decide +kernel), ← hg "lr_inc_factor" (by decide +kernel)]
    refine ⟨(cb_body path a).1, fun hh => ?_⟩
    obtain ⟨r, g1, g2⟩ := (cb_body path a).2 hh
    exact ⟨r, g1, cbList_congr hg g2⟩

/-- C163, not so: `--lr-steps` never changes the learning rate: its value is a list of texts, and an epoch number is in none. -/
theorem C163_lr_steps_no_effect (p : Option String) (conv : Ty → String → Option Val) (hw : ∀ s v, conv .words s = some v → ∃ l, v = .strs l) (us : List Use) (v : Val)
    (h : (Row.at p ⟨"lr_steps", ["lr-steps"], .null, .value .words none⟩).Takes conv us v) (e : Int) : epochIn v e = false := by
  rcases h with ⟨_, rfl⟩ | ⟨pre, u, post, _, ⟨_, s, _, hc, _⟩, _⟩
  · rfl
  · obtain ⟨l, rfl⟩ := hw s v hc
    rfl

example : (made (some "cb") cbOpts cbValid (cbCreate "exp") exConv [⟨"--cb-save-all-epochs", none⟩, ⟨"--cb-patience", some "4"⟩, ⟨"--cb-lr-red-factor", some "4"⟩]).map
    (fun r => r.map (fun m => m.cls)) = some ["HypModelCheckpoint", "CSVLogger", "EarlyStopping", "ReduceLROnPlateau"] := by decide +kernel

end Hyp.Cli
