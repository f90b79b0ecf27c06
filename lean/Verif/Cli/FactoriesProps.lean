import Mathlib.Data.Rat.Defs
import Mathlib.Algebra.Order.Field.Rat
import Mathlib.Tactic.FieldSimp
import Mathlib.Tactic.NormNum
import Mathlib.Algebra.Order.Field.Basic
import Mathlib.Data.Rat.Cast.Defs
import Verif.Cli.Factories
import Verif.Cli.EvalProps
import Verif.Cli.FeatsProps
import Verif.Tighten4

/-!
C162: optimisers and learning-rate schedulers from command lines and keyword arguments. C163: callbacks for Keras training.
-/

namespace Hyp.Cli

/-! ### Specification -/

/-- where an argument of an optimiser comes from: a parameter, or it is fixed -/
inductive Src where
  | of (k : String)
  | fixed (v : Val)

/-- the value of an argument, given those of the parameters -/
def Src.value (val : String → Val) : Src → Val
  | .of k => val k
  | .fixed v => v

/-- the object for a type: a table with the type, the class and its arguments -/
def Makes (spec : List (String × String × List (String × Src))) (type : Val) (val : String → Val) (m : Made) : Prop :=
  ∃ t ∈ spec, type = .str t.1 ∧ m = ⟨t.2.1, t.2.2.map (fun s => (s.1, s.2.value val))⟩

/-- the value of a parameter in a call with keyword arguments: the argument, or else the default -/
def given (kw : List (String × Val)) (dflt : List (String × Val)) (k : String) : Val := (dictGet kw k).getD ((dictGet dflt k).getD .null)

/-- the options of the torch optimisers -/
def optTable : List Row :=
  [⟨"opt_type", ["optimizer"], .str "adam", .value .lower (some [.str "sgd", .str "adam", .str "adadelta", .str "adagrad", .str "sparse_adam", .str "adamax",
      .str "asgd", .str "lbfgs", .str "rmsprop", .str "rprop"])⟩,
   ⟨"lr", ["lr"], .dec 1 3, .value .float none⟩, ⟨"momentum", ["momentum"], .dec 6 1, .value .float none⟩,
   ⟨"beta1", ["beta1"], .dec 9 1, .value .float none⟩, ⟨"beta2", ["beta2"], .dec 99 2, .value .float none⟩,
   ⟨"rho", ["rho"], .dec 9 1, .value .float none⟩, ⟨"eps", ["eps"], .dec 1 8, .value .float none⟩,
   ⟨"weight_decay", ["weight-decay"], .dec 1 6, .value .float none⟩, ⟨"amsgrad", ["amsgrad"], .bool false, .switch (.bool true)⟩,
   ⟨"nesterov", ["nesterov"], .bool false, .switch (.bool true)⟩, ⟨"lambd", ["lambd"], .dec 1 4, .value .float none⟩,
   ⟨"asgd_alpha", ["asgd-alpha"], .dec 75 2, .value .float none⟩, ⟨"t0", ["t0"], .int 1000000, .value .float none⟩,
   ⟨"rmsprop_alpha", ["rmsprop-alpha"], .dec 99 2, .value .float none⟩, ⟨"centered", ["centered"], .bool false, .switch (.bool true)⟩,
   ⟨"lr_decay", ["lr-decay"], .dec 1 6, .value .float none⟩, ⟨"init_acc_val", ["init-acc-val"], .int 0, .value .float none⟩,
   ⟨"max_iter", ["max-iter"], .int 20, .value .int none⟩]

/-- the torch optimisers and their arguments -/
def optSpec : List (String × String × List (String × Src)) :=
  [("sgd", "SGD", [("lr", .of "lr"), ("momentum", .of "momentum"), ("dampening", .fixed (.int 0)), ("weight_decay", .of "weight_decay"), ("nesterov", .of "nesterov")]),
   ("adam", "Adam", [("lr", .of "lr"), ("betas[0]", .of "beta1"), ("betas[1]", .of "beta2"), ("eps", .of "eps"), ("weight_decay", .of "weight_decay"),
     ("amsgrad", .of "amsgrad")]),
   ("adadelta", "Adadelta", [("lr", .of "lr"), ("rho", .of "rho"), ("eps", .of "eps"), ("weight_decay", .of "weight_decay")]),
   ("adagrad", "Adagrad", [("lr", .of "lr"), ("lr_decay", .of "lr_decay"), ("weight_decay", .of "weight_decay"), ("initial_accumulator_value", .of "init_acc_val")]),
   ("sparse_adam", "SparseAdam", [("lr", .of "lr"), ("betas[0]", .of "beta1"), ("betas[1]", .of "beta2"), ("eps", .of "eps")]),
   ("adamax", "Adamax", [("lr", .of "lr"), ("betas[0]", .of "beta1"), ("betas[1]", .of "beta2"), ("eps", .of "eps"), ("weight_decay", .of "weight_decay")]),
   ("asgd", "ASGD", [("lr", .of "lr"), ("lambd", .of "lambd"), ("alpha", .of "asgd_alpha"), ("t0", .of "t0"), ("weight_decay", .of "weight_decay")]),
   ("lbfgs", "LBFGS", [("lr", .of "lr"), ("max_iter", .of "max_iter")]),
   ("rmsprop", "RMSprop", [("lr", .of "lr"), ("alpha", .of "rmsprop_alpha"), ("eps", .of "eps"), ("weight_decay", .of "weight_decay"), ("momentum", .of "momentum"),
     ("centered", .of "centered")]),
   ("rprop", "Rprop", [("lr", .of "lr"), ("etas[0]", .fixed (.dec 5 1)), ("etas[1]", .fixed (.dec 12 1)), ("step_sizes[0]", .fixed (.dec 1 6)),
     ("step_sizes[1]", .fixed (.int 50))])]

/-- defaults of the torch optimisers without command line -/
def optDefaults : List (String × Val) :=
  [("momentum", .int 0), ("beta1", .dec 9 1), ("beta2", .dec 99 2), ("rho", .dec 9 1), ("eps", .dec 1 8), ("weight_decay", .int 0), ("amsgrad", .bool false),
   ("nesterov", .bool false), ("lambd", .dec 1 4), ("asgd_alpha", .dec 75 2), ("t0", .int 1000000), ("rmsprop_alpha", .dec 99 2), ("centered", .bool false),
   ("lr_decay", .int 0), ("init_acc_val", .int 0), ("max_iter", .int 20)]

/-- the options of the learning-rate schedulers -/
def schTable : List Row :=
  [⟨"lrsch_type", ["lrsch-type"], .str "none", .value .lower (some [.str "none", .str "exp_lr", .str "cos_lr", .str "adamcos_lr", .str "red_lr_on_plateau"])⟩,
   ⟨"decay_rate", ["decay-rate"], .dec 1 2, .value .float none⟩, ⟨"decay_steps", ["decay-steps"], .int 100, .value .int none⟩,
   ⟨"hold_steps", ["hold-steps"], .int 10, .value .int none⟩, ⟨"T", ["t"], .int 10, .value .int none⟩, ⟨"T_mul", ["t-mul"], .int 1, .value .int none⟩,
   ⟨"gamma", ["gamma"], .dec 1 2, .value .float none⟩, ⟨"warm_restarts", ["warm-restarts"], .bool false, .switch (.bool true)⟩,
   ⟨"monitor", ["monitor"], .str "val_loss", .value .str none⟩, ⟨"mode", ["mode"], .str "min", .value .str (some [.str "min", .str "max"])⟩,
   ⟨"factor", ["factor"], .dec 1 1, .value .float none⟩, ⟨"patience", ["patience"], .int 10, .value .int none⟩,
   ⟨"threshold", ["threshold"], .dec 1 4, .value .float none⟩, ⟨"threshold_mode", ["threshold_mode"], .str "rel", .value .str (some [.str "rel", .str "abs"])⟩,
   ⟨"cooldown", ["cooldown"], .int 0, .value .int none⟩, ⟨"eps", ["eps"], .dec 1 8, .value .float none⟩, ⟨"min_lr", ["min-lr"], .int 0, .value .float none⟩,
   ⟨"warmup_steps", ["warmup-steps"], .int 0, .value .int none⟩, ⟨"update_lr_on_batch", ["update-lr-on-batch"], .bool false, .switch (.bool true)⟩]

/-- the learning-rate schedulers that can be made -/
def schSpec : List (String × String × List (String × Src)) :=
  [("exp_lr", "ExponentialLR", [("decay_rate", .of "decay_rate"), ("decay_steps", .of "decay_steps"), ("hold_steps", .of "hold_steps"), ("min_lr", .of "min_lr"),
     ("warmup_steps", .of "warmup_steps"), ("update_lr_on_batch", .fixed (.bool false))]),
   ("cos_lr", "CosineLR", [("T", .of "T"), ("T_mul", .of "T_mul"), ("min_lr", .of "min_lr"), ("warmup_steps", .of "warmup_steps"),
     ("warm_restarts", .of "warm_restarts"), ("gamma", .of "gamma"), ("update_lr_on_batch", .of "update_lr_on_batch")]),
   ("red_lr_on_plateau", "ReduceLROnPlateau", [("monitor", .of "monitor"), ("mode", .of "mode"), ("factor", .of "factor"), ("patience", .of "patience"),
     ("threshold", .of "threshold"), ("threshold_mode", .of "threshold_mode"), ("cooldown", .of "cooldown"), ("min_lr", .of "min_lr"),
     ("warmup_steps", .of "warmup_steps"), ("eps", .of "eps")])]

/-- defaults of the schedulers without command line -/
def schDefaults : List (String × Val) :=
  [("decay_rate", .dec 1 2), ("decay_steps", .int 100), ("hold_steps", .int 10), ("T", .int 10), ("T_mul", .int 1), ("warm_restarts", .bool false), ("gamma", .int 1),
   ("monitor", .str "val_loss"), ("mode", .str "min"), ("factor", .dec 1 1), ("patience", .int 10), ("threshold", .dec 1 4), ("threshold_mode", .str "rel"),
   ("cooldown", .int 0), ("eps", .dec 1 8), ("min_lr", .int 0), ("warmup_steps", .int 0), ("update_lr_on_batch", .bool false)]

/-- the number a value stands for -/
def numOf : Val → Option ℚ
  | .int z => some z
  | .dec n k => some (n / 10 ^ k)
  | .bool b => some (if b then 1 else 0)
  | _ => none

/-- what the scheduler factory does for a type and parameters: nothing for `none`; an error for `adamcos_lr`, and for reduction on a plateau with a factor that is
no number below one -/
def SchOutcome (val : String → Val) (r : Option (Option Made)) : Prop :=
  (val "lrsch_type" = .str "adamcos_lr" → r = none) ∧
  (val "lrsch_type" = .str "red_lr_on_plateau" → (¬ ∃ x, numOf (val "factor") = some x ∧ x < 1) → r = none) ∧
  (val "lrsch_type" ≠ .str "adamcos_lr" → (val "lrsch_type" = .str "red_lr_on_plateau" → ∃ x, numOf (val "factor") = some x ∧ x < 1) →
    (∃ m, r = some (some m) ∧ Makes schSpec (val "lrsch_type") val m) ∨ (r = some none ∧ ∀ t ∈ schSpec, val "lrsch_type" ≠ .str t.1))

/-- the options of the Keras optimisers -/
def kofTable : List Row :=
  [⟨"opt_type", ["optimizer"], .str "adam", .value .lower (some [.str "sgd", .str "nsgd", .str "rmsprop", .str "adam", .str "nadam", .str "adamax"])⟩,
   ⟨"lr", ["lr"], .dec 2 3, .value .float none⟩, ⟨"momentum", ["momentum"], .dec 6 1, .value .float none⟩, ⟨"lr_decay", ["lr-decay"], .dec 1 6, .value .float none⟩,
   ⟨"rho", ["rho"], .dec 9 1, .value .float none⟩, ⟨"epsilon", ["epsilon"], .dec 1 8, .value .float none⟩,
   ⟨"amsgrad", ["amsgrad"], .bool false, .switch (.bool true)⟩,
   ⟨"beta_1", ["beta1"], .dec 9 1, .value .float none⟩, ⟨"beta_2", ["beta2"], .dec 999 3, .value .float none⟩,
   ⟨"clipnorm", ["clipnorm"], .int 10, .value .float none⟩, ⟨"clipvalue", ["clipvalue"], .int 100, .value .float none⟩]

/-- the Keras optimisers and their arguments; `ams` is where `amsgrad` comes from -/
def kofSpec (ams : Src) : List (String × String × List (String × Src)) :=
  [("sgd", "SGD", [("lr", .of "lr"), ("momentum", .of "momentum"), ("decay", .of "lr_decay"), ("nesterov", .fixed (.bool false)), ("clipnorm", .of "clipnorm"),
     ("clipvalue", .of "clipvalue")]),
   ("nsgd", "SGD", [("lr", .of "lr"), ("momentum", .of "momentum"), ("decay", .of "lr_decay"), ("nesterov", .fixed (.bool true)), ("clipnorm", .of "clipnorm"),
     ("clipvalue", .of "clipvalue")]),
   ("rmsprop", "RMSprop", [("lr", .of "lr"), ("rho", .of "rho"), ("epsilon", .of "epsilon"), ("decay", .of "lr_decay"), ("clipnorm", .of "clipnorm"),
     ("clipvalue", .of "clipvalue")]),
   ("adam", "Adam", [("lr", .of "lr"), ("beta_1", .of "beta_1"), ("beta_2", .of "beta_2"), ("epsilon", .of "epsilon"), ("decay", .of "lr_decay"), ("amsgrad", ams),
     ("clipnorm", .of "clipnorm"), ("clipvalue", .of "clipvalue")]),
   ("nadam", "Nadam", [("lr", .of "lr"), ("beta_1", .of "beta_1"), ("beta_2", .of "beta_2"), ("epsilon", .of "epsilon"), ("schedule_decay", .of "lr_decay"),
     ("clipnorm", .of "clipnorm"), ("clipvalue", .of "clipvalue")]),
   ("adamax", "Adamax", [("lr", .of "lr"), ("beta_1", .of "beta_1"), ("beta_2", .of "beta_2"), ("epsilon", .of "epsilon"), ("decay", .of "lr_decay"),
     ("clipnorm", .of "clipnorm"), ("clipvalue", .of "clipvalue")])]

/-- defaults of the Keras optimisers without command line -/
def kofDefaults : List (String × Val) :=
  [("momentum", .int 0), ("lr_decay", .int 0), ("rho", .dec 9 1), ("epsilon", .null), ("beta_1", .dec 9 1), ("beta_2", .dec 999 3), ("clipnorm", .int 10),
   ("clipvalue", .int 100), ("amsgrad", .bool false)]

/-! ### Proofs -/

theorem dictGet_mapv {β γ : Type} (l : List (String × β)) (g : String → β → γ) (k : String) :
    dictGet (l.map (fun p => (p.1, g p.1 p.2))) k = (dictGet l k).map (g k) := by
  induction l with
  | nil => rfl
  | cons q l ih =>
    obtain ⟨a, b⟩ := q
    rw [List.map_cons, dictGet, dictGet]
    by_cases h : a = k
    · subst h; simp
    · rw [if_neg h, if_neg h]; exact ih

/-- a call that is bound -/
theorem bindKw_some (sig : List (String × Option Val)) (kw a : List (String × Val)) :
    bindKw sig kw = some a ↔ (∀ q ∈ kw, ∃ p ∈ sig, p.1 = q.1) ∧ (∀ p ∈ sig, p.2 = none → ∃ v, dictGet kw p.1 = some v) ∧
      a = sig.map (fun p => (p.1, ((dictGet kw p.1).orElse (fun _ => p.2)).getD .null)) := by
  unfold bindKw
  have hk : (kw.all (fun q => sig.any (fun p => decide (p.1 = q.1)))) = true ↔ ∀ q ∈ kw, ∃ p ∈ sig, p.1 = q.1 := by simp
  by_cases h : (kw.all (fun q => sig.any (fun p => decide (p.1 = q.1)))) = true
  swap
  · rw [if_neg h]
    constructor
    · intro h'; cases h'
    · intro h'; exact absurd (hk.2 h'.1) h
  rw [if_pos h]
  have h' := hk.1 h
  clear h hk
  have key : ∀ l : List (String × Option Val), (∀ p ∈ l, p.2 = none → ∃ v, dictGet kw p.1 = some v) →
      l.mapM (fun p : String × Option Val => ((dictGet kw p.1).orElse (fun _ => p.2)).map (fun v : Val => (p.1, v))) =
        some (l.map (fun p => (p.1, ((dictGet kw p.1).orElse (fun _ => p.2)).getD .null))) := by
    intro l hl
    induction l with
    | nil => rfl
    | cons p l ih =>
      rw [List.mapM_cons, ih (fun p hp => hl p (by simp [hp])), List.map_cons]
      have := hl p (by simp)
      obtain ⟨k, d⟩ := p
      cases hd : dictGet kw k with
      | some v => simp [hd]
      | none =>
        cases d with
        | some w => simp [hd]
        | none => obtain ⟨v, hv⟩ := this rfl; rw [hd] at hv; cases hv
  constructor
  · intro hm
    have hr : ∀ p ∈ sig, p.2 = none → ∃ v, dictGet kw p.1 = some v := by
      intro p hp hn
      cases hd : dictGet kw p.1 with
      | some v => exact ⟨v, rfl⟩
      | none =>
        exfalso
        clear key h'
        induction sig generalizing a with
        | nil => cases hp
        | cons q l ih =>
          rw [List.mapM_cons] at hm
          rcases List.mem_cons.1 hp with rfl | hp
          · rw [hd, hn] at hm; simp at hm
          · cases hq : ((dictGet kw q.1).orElse (fun _ => q.2)).map (fun v : Val => (q.1, v)) with
            | none => rw [hq] at hm; simp at hm
            | some w =>
              rw [hq] at hm
              cases hl : l.mapM (fun p : String × Option Val => ((dictGet kw p.1).orElse (fun _ => p.2)).map (fun v : Val => (p.1, v))) with
              | none => rw [hl] at hm; simp at hm
              | some w' => exact ih w' hl hp
    rw [key sig hr] at hm
    exact ⟨h', hr, (Option.some.inj hm).symm⟩
  · rintro ⟨_, hr, rfl⟩
    exact key sig hr

/-- the variables of a bound call -/
theorem arg_bound {sig : List (String × Option Val)} {kw a : List (String × Val)} (h : bindKw sig kw = some a) {k : String} {d : Option Val}
    (hk : dictGet sig k = some d) : arg a k = ((dictGet kw k).orElse (fun _ => d)).getD .null := by
  obtain ⟨_, _, rfl⟩ := (bindKw_some sig kw a).1 h
  unfold arg
  rw [dictGet_mapv sig (fun k d => ((dictGet kw k).orElse (fun _ => d)).getD .null) k, hk]
  rfl

/-- the variables are the given arguments or the defaults -/
theorem arg_given {sig : List (String × Option Val)} {kw a : List (String × Val)} (h : bindKw sig kw = some a) {dflt : List (String × Val)}
    {names : List String} (hd : names.all (fun k => decide (((dictGet sig k).map (fun d => d.getD .null)) = some ((dictGet dflt k).getD .null))) = true) :
    ∀ k ∈ names, arg a k = given kw dflt k := by
  intro k hk
  rw [List.all_eq_true] at hd
  have := hd k hk
  rw [decide_eq_true_eq, Option.map_eq_some_iff] at this
  obtain ⟨d, h1, h2⟩ := this
  rw [arg_bound h h1]
  unfold given
  rw [← h2]
  cases dictGet kw k with
  | none => cases d <;> rfl
  | some v => rfl

/-- arguments from a parsed command line reach the call -/
theorem core_in {all opts : List Opt} {valid : List String} {sig : List (String × Option Val)} {t : List Row} (hall : Sep all) {p : Option String}
    (hsub : ∀ o ∈ opts, addPre p o ∈ all) (ht : tabled opts t = true) (hv : ∀ k ∈ valid, ∃ p ∈ sig, p.1 = k)
    (hq : ∀ p ∈ sig, p.2 = none → p.1 ∈ valid ∧ ∃ o ∈ opts, o.dest = p.1) {α : Type} (create : List (String × Val) → Option α)
    (f : List (String × Val) → Option α) (hc : ∀ kw, create kw = (bindKw sig kw).bind f) {conv : Ty → String → Option Val} {us : List Use}
    (hp : (parse conv all us).isSome) : ∃ a, madeIn all p valid create conv us = f a ∧
      (∀ r ∈ t, r.attr ∈ valid → (r.at p).Takes conv us (arg a r.attr)) ∧
      ∀ k d, dictGet sig k = some d → k ∉ valid → arg a k = d.getD .null := by
  unfold tabled at ht
  rw [Bool.and_eq_true] at ht
  have h2 : ∀ r ∈ t, ∃ o ∈ opts, fitsFull r o = true := by simpa using ht.2
  have hm : madeIn all p valid create conv us = (parse conv all us).bind (fun ns => create (pickP p valid ns)) := by
    unfold madeIn
    rw [build_some (sep_flags hall), Option.bind_some]
  rw [hm]
  cases hns : parse conv all us with
  | none => rw [hns] at hp; cases hp
  | some ns =>
    have has : Has conv us p opts ns := by
      intro o ho
      have := (parse_spec hall us).2 ns hns (addPre p o) (hsub o ho)
      rw [addPre_eq] at this
      exact this
    have hget : ∀ k ∈ valid, dictGet (pickP p valid ns) k = dictGet ns (p2 p ++ k) := by
      intro k hk; rw [dictGet_pickP, if_pos hk]
    have hb : ∃ a, bindKw sig (pickP p valid ns) = some a := by
      refine ⟨_, (bindKw_some _ _ _).2 ⟨?_, ?_, rfl⟩⟩
      · intro q hq
        unfold pickP at hq
        rw [List.mem_filterMap] at hq
        obtain ⟨k, hk, e⟩ := hq
        rw [Option.map_eq_some_iff] at e
        obtain ⟨v, _, rfl⟩ := e
        exact hv k hk
      · intro r hr hn
        obtain ⟨g1, o, ho, g2⟩ := hq r hr hn
        obtain ⟨v, e, _⟩ := has o ho
        exact ⟨v, by rw [hget _ g1, ← g2]; exact e⟩
    obtain ⟨a, ha⟩ := hb
    refine ⟨a, ?_, ?_, ?_⟩
    · rw [Option.bind_some, hc, ha, Option.bind_some]
    · intro r hr hrv
      obtain ⟨q, hq1, hq2⟩ := hv _ hrv
      obtain ⟨d, hd⟩ : ∃ d, dictGet sig r.attr = some d := by
        rw [← hq2]
        clear * - hq1
        induction sig with
        | nil => cases hq1
        | cons x l ih =>
          obtain ⟨x, y⟩ := x
          rw [dictGet]
          by_cases h : x = q.1
          · rw [if_pos h]; exact ⟨y, rfl⟩
          · rw [if_neg h]
            rcases List.mem_cons.1 hq1 with rfl | h'
            · exact absurd rfl h
            · exact ih h'
      obtain ⟨o, ho, hf⟩ := h2 r hr
      obtain ⟨v, e, htk⟩ := has o ho
      have hdest : r.attr = o.dest := by
        unfold fitsFull at hf
        simp only [Bool.and_eq_true, decide_eq_true_eq] at hf
        exact hf.1.1.1
      have hval : arg a r.attr = v := by
        rw [arg_bound ha hd, hget _ hrv, hdest, e]; rfl
      rw [hval]
      have hf' : fitsFull ⟨p2 p ++ o.dest, r.flags.map (optName p), r.unused, r.kind⟩ ⟨o.flags.map (optName p), p2 p ++ o.dest, o.act, o.dflt, o.required⟩ = true := by
        unfold fitsFull at hf ⊢
        rw [Bool.and_eq_true, Bool.and_eq_true, Bool.and_eq_true] at hf ⊢
        simp only [decide_eq_true_eq] at hf ⊢
        exact ⟨⟨⟨trivial, congrArg (List.map (optName p)) hf.1.1.2⟩, hf.1.2⟩, hf.2⟩
      have := (full_takes hf' htk).2
      exact this
    · intro k d hd hk
      rw [arg_bound ha hd]
      have : dictGet (pickP p valid ns) k = none := by rw [dictGet_pickP, if_neg hk]
      rw [this]
      cases d <;> rfl

/-- arguments from a command line reach the call -/
theorem made_core {opts : List Opt} {valid : List String} {sig : List (String × Option Val)} {t : List Row} (hs : sepB opts = true)
    (hr : ∀ o ∈ opts, o.required = false) (ht : tabled opts t = true) (hv : ∀ k ∈ valid, ∃ p ∈ sig, p.1 = k)
    (hq : ∀ p ∈ sig, p.2 = none → p.1 ∈ valid ∧ ∃ o ∈ opts, o.dest = p.1) {α : Type} (create : List (String × Val) → Option α)
    (f : List (String × Val) → Option α) (hc : ∀ kw, create kw = (bindKw sig kw).bind f) (p : Option String) (conv : Ty → String → Option Val) (us : List Use) :
    (¬ Correct conv us (t.map (Row.at p)) → made p opts valid create conv us = none) ∧
    (Correct conv us (t.map (Row.at p)) → ∃ a, made p opts valid create conv us = f a ∧
      (∀ r ∈ t, r.attr ∈ valid → (r.at p).Takes conv us (arg a r.attr)) ∧
      ∀ k d, dictGet sig k = some d → k ∉ valid → arg a k = d.getD .null) := by
  have hsep := sep_of hs
  have ht' := ht
  unfold tabled at ht
  rw [Bool.and_eq_true] at ht
  have h1 : ∀ o ∈ opts, ∃ r ∈ t, fitsFull r o = true := by simpa using ht.1
  have h2 : ∀ r ∈ t, ∃ o ∈ opts, fitsFull r o = true := by simpa using ht.2
  have hacc := accepts_prefixed (conv := conv) (t := t) hsep hr (fun o ho => by obtain ⟨r, a, b⟩ := h1 o ho; exact ⟨r, a, full_fits b⟩)
    (fun r hr => by obtain ⟨o, a, b⟩ := h2 r hr; exact ⟨o, a, full_fits b⟩) p us
  rw [← hacc]
  constructor
  · intro h
    unfold made madeIn
    rw [build_some (sep_flags (sep_pre hsep p)), Option.bind_some]
    cases hns : parse conv (opts.map (addPre p)) us with
    | none => rfl
    | some ns => rw [hns] at h; exact absurd rfl h
  · exact core_in (sep_pre hsep p) (fun o ho => List.mem_map_of_mem ho) ht' hv hq create f hc

/-- the value of an option with choices is one of them -/
theorem takes_choice {conv : Ty → String → Option Val} {us : List Use} {v : Val} {r : Row} {ty : Ty} {l : List Val} (hk : r.kind = .value ty (some l))
    (hd : r.unused ∈ l) (p : Option String) (h : (r.at p).Takes conv us v) : v ∈ l := by
  rcases h with ⟨_, rfl⟩ | ⟨pre, u, post, _, ⟨_, h⟩, _⟩
  · exact hd
  · simp only [Row.at, hk] at h
    obtain ⟨s, _, _, h⟩ := h
    exact h l rfl

/-- cases on the type -/
theorem makes_of {spec : List (String × String × List (String × Src))} {cases : List (Val × Made)} {val : String → Val}
    (h : cases = spec.map (fun t => (.str t.1, ⟨t.2.1, t.2.2.map (fun s => (s.1, s.2.value val))⟩))) (type : Val) :
    (∃ m, dictGet cases type = some m ∧ Makes spec type val m) ∨ (dictGet cases type = none ∧ ∀ t ∈ spec, type ≠ .str t.1) := by
  subst h
  induction spec with
  | nil => exact Or.inr ⟨rfl, by simp⟩
  | cons t l ih =>
    rw [List.map_cons, dictGet]
    by_cases he : Val.str t.1 = type
    · rw [if_pos he]
      exact Or.inl ⟨_, rfl, t, by simp, he.symm, rfl⟩
    · rw [if_neg he]
      rcases ih with ⟨m, h1, t', ht', h2⟩ | ⟨h1, h2⟩
      · exact Or.inl ⟨m, h1, t', by simp [ht'], h2⟩
      · refine Or.inr ⟨h1, fun t' ht' => ?_⟩
        rcases List.mem_cons.1 ht' with rfl | h
        · exact fun e => he e.symm
        · exact h2 t' h

theorem makes_congr {spec : List (String × String × List (String × Src))} {type : Val} {val val' : String → Val} {m : Made}
    (h : ∀ t ∈ spec, ∀ s ∈ t.2.2, s.2.value val = s.2.value val') (hm : Makes spec type val m) : Makes spec type val' m := by
  obtain ⟨t, ht, h1, rfl⟩ := hm
  refine ⟨t, ht, h1, ?_⟩
  congr 1
  apply List.map_congr_left
  intro s hs
  rw [h t ht s hs]

/-- a type from the command line is one of the table -/
theorem opt_made {a : List (String × Val)} {p : Option String} {conv : Ty → String → Option Val} {us : List Use} {l : List Val}
    (htk : (Row.at p ⟨"opt_type", ["optimizer"], .str "adam", .value .lower (some (.str "sgd" :: .str "adam" :: l))⟩).Takes conv us (arg a "opt_type"))
    (hl : l = [.str "adadelta", .str "adagrad", .str "sparse_adam", .str "adamax", .str "asgd", .str "lbfgs", .str "rmsprop", .str "rprop"] := by rfl) :
    ∃ m, dictGet (optCases a) (arg a "opt_type") = some m ∧ Makes optSpec (arg a "opt_type") (arg a) m := by
  subst hl
  have hch : arg a "opt_type" ∈ [Val.str "sgd", .str "adam", .str "adadelta", .str "adagrad", .str "sparse_adam", .str "adamax", .str "asgd", .str "lbfgs", .str "rmsprop",
      .str "rprop"] := takes_choice (r := ⟨"opt_type", ["optimizer"], .str "adam", .value .lower (some _)⟩) rfl (by decide) p htk
  rcases makes_of (spec := optSpec) (cases := optCases a) (val := arg a) rfl (arg a "opt_type") with ⟨m, g1, g2⟩ | ⟨g1, g2⟩
  · exact ⟨m, g1, g2⟩
  · exfalso
    have : ∀ v ∈ [Val.str "sgd", .str "adam", .str "adadelta", .str "adagrad", .str "sparse_adam", .str "adamax", .str "asgd", .str "lbfgs", .str "rmsprop",
      .str "rprop"], v ∈ (optSpec.map (fun t => Val.str t.1)) := by decide +kernel
    obtain ⟨t, ht, e⟩ := List.mem_map.1 (this _ hch)
    exact g2 t ht e.symm

/-- C162: a torch optimiser from a command line, with any prefix: exactly the correct command lines are accepted, and the optimiser of the chosen type gets the
documented parameters with the values of the last uses of their options, or the defaults. -/
theorem C162_torch_optimizer (p : Option String) (conv : Ty → String → Option Val) (us : List Use) :
    (¬ Correct conv us (optTable.map (Row.at p)) → made p optOpts optValid optCreate conv us = none) ∧
    (Correct conv us (optTable.map (Row.at p)) → ∃ val m, (∀ r ∈ optTable, (r.at p).Takes conv us (val r.attr)) ∧
      made p optOpts optValid optCreate conv us = some (some m) ∧ Makes optSpec (val "opt_type") val m) := by
  obtain ⟨h1, h2⟩ := made_core (opts := optOpts) (valid := optValid) (sig := optSig) (t := optTable) (by decide +kernel) (by decide +kernel) (by decide +kernel)
    (by decide +kernel) (by decide +kernel) optCreate (fun a => some (dictGet (optCases a) (arg a "opt_type")))
    (fun kw => by unfold optCreate; cases bindKw optSig kw <;> rfl) p conv us
  refine ⟨h1, fun hc => ?_⟩
  obtain ⟨a, e1, e2, _⟩ := h2 hc
  have hval : ∀ r ∈ optTable, r.attr ∈ optValid := by decide +kernel
  have htk := fun r hr => e2 r hr (hval r hr)
  obtain ⟨m, g1, g2⟩ := opt_made (htk _ (List.mem_cons_self ..))
  exact ⟨arg a, m, htk, by rw [e1, g1], g2⟩

/-- parameters used by a table -/
def usedBy (spec : List (String × String × List (String × Src))) : List String :=
  spec.flatMap (fun t => t.2.2.filterMap (fun s => match s.2 with | .of k => some k | .fixed _ => none))

theorem used_congr {spec : List (String × String × List (String × Src))} {val val' : String → Val} (h : ∀ k ∈ usedBy spec, val k = val' k) :
    ∀ t ∈ spec, ∀ s ∈ t.2.2, s.2.value val = s.2.value val' := by
  intro t ht s hs
  obtain ⟨n, s⟩ := s
  cases s with
  | fixed v => rfl
  | of k =>
    refine h k ?_
    unfold usedBy
    rw [List.mem_flatMap]
    refine ⟨t, ht, ?_⟩
    rw [List.mem_filterMap]
    exact ⟨_, hs, rfl⟩

/-- C162: a torch optimiser from keyword arguments: exactly the known arguments with type and learning rate are accepted; the function returns None for an unknown
type. -/
theorem C162_torch_optimizer_create (kw : List (String × Val)) :
    ((∃ r, optCreate kw = some r) ↔ (∀ q ∈ kw, q.1 ∈ ["opt_type", "lr"] ++ optDefaults.map Prod.fst) ∧ (∃ v, dictGet kw "opt_type" = some v) ∧
      ∃ v, dictGet kw "lr" = some v) ∧
    ∀ r, optCreate kw = some r → (∃ m, r = some m ∧ Makes optSpec (given kw optDefaults "opt_type") (given kw optDefaults) m) ∨
      (r = none ∧ ∀ t ∈ optSpec, given kw optDefaults "opt_type" ≠ .str t.1) := by
  constructor
  · unfold optCreate
    have hn : optSig.map Prod.fst = ["opt_type", "lr"] ++ optDefaults.map Prod.fst := rfl
    constructor
    · rintro ⟨r, h⟩
      rw [Option.map_eq_some_iff] at h
      obtain ⟨a, h, _⟩ := h
      obtain ⟨h1, h2, _⟩ := (bindKw_some _ _ _).1 h
      refine ⟨fun q hq => ?_, h2 ("opt_type", none) (by decide +kernel) rfl, h2 ("lr", none) (by decide +kernel) rfl⟩
      obtain ⟨p, hp, e⟩ := h1 q hq
      rw [← hn, ← e]; exact List.mem_map_of_mem hp
    · rintro ⟨h1, h2, h3⟩
      refine ⟨_, (Option.map_eq_some_iff).2 ⟨_, (bindKw_some _ _ _).2 ⟨fun q hq => ?_, ?_, rfl⟩, rfl⟩⟩
      · have := h1 q hq
        rw [← hn, List.mem_map] at this
        exact this
      · have : ∀ p ∈ optSig, p.2 = none → p.1 = "opt_type" ∨ p.1 = "lr" := by decide +kernel
        intro p hp hd
        rcases this p hp hd with e | e <;> rw [e] <;> assumption
  · intro r h
    unfold optCreate at h
    rw [Option.map_eq_some_iff] at h
    obtain ⟨a, h, rfl⟩ := h
    have hg := arg_given h (dflt := optDefaults) (names := "opt_type" :: usedBy optSpec) (by decide +kernel)
    rw [hg "opt_type" (List.mem_cons_self ..)]
    rcases makes_of (spec := optSpec) (cases := optCases a) (val := arg a) rfl (given kw optDefaults "opt_type") with ⟨m, g1, g2⟩ | ⟨g1, g2⟩
    · exact Or.inl ⟨m, g1, makes_congr (used_congr fun k hk => hg k (List.mem_cons_of_mem _ hk)) g2⟩
    · exact Or.inr ⟨g1, g2⟩

theorem belowOne_iff (v : Val) : belowOne v = true ↔ ∃ x, numOf v = some x ∧ x < 1 := by
  cases v with
  | int z => simp only [belowOne, numOf, decide_eq_true_eq, Option.some.injEq, exists_eq_left']; exact_mod_cast Iff.rfl
  | dec n k =>
    simp only [belowOne, numOf, decide_eq_true_eq, Option.some.injEq, exists_eq_left']
    rw [div_lt_one (by positivity)]
    constructor
    · intro h; exact_mod_cast h
    · intro h; exact_mod_cast h
  | bool b => cases b <;> simp [belowOne, numOf]
  | null => simp [belowOne, numOf]
  | str s => simp [belowOne, numOf]
  | ints l => simp [belowOne, numOf]
  | strs l => simp [belowOne, numOf]

/-- the scheduler for bound arguments -/
theorem sch_outcome (a : List (String × Val)) :
    SchOutcome (arg a) (if arg a "lrsch_type" = .str "none" then some none else match dictGet (schCases a) (arg a "lrsch_type") with
      | none => some none
      | some m => (schCtor m).map some) := by
  unfold SchOutcome
  rw [← belowOne_iff]
  by_cases h0 : arg a "lrsch_type" = .str "none"
  · rw [if_pos h0, h0]
    refine ⟨fun h => by simp at h, fun h => by simp at h, fun _ _ => Or.inr ⟨rfl, ?_⟩⟩
    have : ∀ s ∈ schSpec.map (fun t => t.1), s ≠ "none" := by decide +kernel
    intro t ht e
    exact this t.1 (List.mem_map_of_mem ht) (Val.str.inj e).symm
  rw [if_neg h0]
  by_cases h1 : arg a "lrsch_type" = .str "exp_lr"
  · rw [h1]
    exact ⟨fun h => by simp at h, fun h => by simp at h, fun _ _ => Or.inl ⟨_, rfl, schSpec[0], by simp [schSpec], rfl, rfl⟩⟩
  by_cases h2 : arg a "lrsch_type" = .str "cos_lr"
  · rw [h2]
    exact ⟨fun h => by simp at h, fun h => by simp at h, fun _ _ => Or.inl ⟨_, rfl, schSpec[1], by simp [schSpec], rfl, rfl⟩⟩
  by_cases h3 : arg a "lrsch_type" = .str "adamcos_lr"
  · rw [h3]
    exact ⟨fun _ => rfl, fun h => by simp at h, fun h => absurd rfl h⟩
  by_cases h4 : arg a "lrsch_type" = .str "red_lr_on_plateau"
  · rw [h4]
    have e : ∀ b, belowOne (arg a "factor") = b → schCtor ⟨"ReduceLROnPlateau", schSpec[2].2.2.map (fun s => (s.1, s.2.value (arg a)))⟩ =
        if b then some ⟨"ReduceLROnPlateau", schSpec[2].2.2.map (fun s => (s.1, s.2.value (arg a)))⟩ else none := by
      intro b hb
      unfold schCtor
      have : arg (schSpec[2].2.2.map (fun s => (s.1, s.2.value (arg a)))) "factor" = arg a "factor" := rfl
      simp only [this, hb]
      cases b <;> rfl
    refine ⟨fun h => by simp at h, fun _ hb => ?_, fun _ hb => ?_⟩
    · have hb : belowOne (arg a "factor") = false := by simpa using hb
      show (schCtor ⟨"ReduceLROnPlateau", schSpec[2].2.2.map (fun s => (s.1, s.2.value (arg a)))⟩).map some = none
      rw [e false hb]; rfl
    · left
      refine ⟨⟨"ReduceLROnPlateau", schSpec[2].2.2.map (fun s => (s.1, s.2.value (arg a)))⟩, ?_, schSpec[2], by simp [schSpec], rfl, rfl⟩
      show (schCtor ⟨"ReduceLROnPlateau", schSpec[2].2.2.map (fun s => (s.1, s.2.value (arg a)))⟩).map some = _
      rw [e true (hb rfl)]; rfl
  · have hn : dictGet (schCases a) (arg a "lrsch_type") = none := by
      unfold schCases
      rw [dictGet, if_neg (fun e => h1 e.symm), dictGet, if_neg (fun e => h2 e.symm), dictGet, if_neg (fun e => h3 e.symm), dictGet, if_neg (fun e => h4 e.symm)]
      rfl
    rw [hn]
    refine ⟨fun h => absurd h h3, fun h => absurd h h4, fun _ _ => Or.inr ⟨rfl, ?_⟩⟩
    unfold schSpec
    simp [h1, h2, h4]

/-- C162: a learning-rate scheduler from a command line, with any prefix -/
theorem C162_torch_scheduler (p : Option String) (conv : Ty → String → Option Val) (us : List Use) :
    (¬ Correct conv us (schTable.map (Row.at p)) → made p schOpts schValid schCreate conv us = none) ∧
    (Correct conv us (schTable.map (Row.at p)) → ∃ val, (∀ r ∈ schTable, (r.at p).Takes conv us (val r.attr)) ∧
      SchOutcome val (made p schOpts schValid schCreate conv us)) := by
  obtain ⟨h1, h2⟩ := made_core (opts := schOpts) (valid := schValid) (sig := schSig) (t := schTable) (by decide +kernel) (by decide +kernel) (by decide +kernel)
    (by decide +kernel) (by decide +kernel) schCreate _ (fun kw => rfl) p conv us
  refine ⟨h1, fun hc => ?_⟩
  obtain ⟨a, e1, e2, _⟩ := h2 hc
  have hval : ∀ r ∈ schTable, r.attr ∈ schValid := by decide +kernel
  refine ⟨arg a, fun r hr => e2 r hr (hval r hr), ?_⟩
  rw [e1]
  exact sch_outcome a

theorem outcome_congr {val val' : String → Val} {r : Option (Option Made)} (h : ∀ k ∈ "lrsch_type" :: "factor" :: usedBy schSpec, val k = val' k)
    (ho : SchOutcome val r) : SchOutcome val' r := by
  have e1 := h "lrsch_type" (by simp)
  have e2 := h "factor" (by simp)
  unfold SchOutcome at ho ⊢
  rw [e1, e2] at ho
  refine ⟨ho.1, ho.2.1, fun q1 q2 => ?_⟩
  rcases ho.2.2 q1 q2 with ⟨m, g1, g2⟩ | g
  · exact Or.inl ⟨m, g1, makes_congr (used_congr fun k hk => h k (List.mem_cons_of_mem _ (List.mem_cons_of_mem _ hk))) g2⟩
  · exact Or.inr g

/-- C162: a learning-rate scheduler from keyword arguments -/
theorem C162_torch_scheduler_create (kw : List (String × Val)) :
    ((¬ ((∀ q ∈ kw, q.1 ∈ "lrsch_type" :: schDefaults.map Prod.fst) ∧ ∃ v, dictGet kw "lrsch_type" = some v)) → schCreate kw = none) ∧
    ((∀ q ∈ kw, q.1 ∈ "lrsch_type" :: schDefaults.map Prod.fst) → (∃ v, dictGet kw "lrsch_type" = some v) → SchOutcome (given kw schDefaults) (schCreate kw)) := by
  have hn : schSig.map Prod.fst = "lrsch_type" :: schDefaults.map Prod.fst := rfl
  unfold schCreate
  constructor
  · intro h
    cases hb : bindKw schSig kw with
    | none => rfl
    | some a =>
      exfalso
      apply h
      obtain ⟨h1, h2, _⟩ := (bindKw_some _ _ _).1 hb
      refine ⟨fun q hq => ?_, h2 ("lrsch_type", none) (by decide +kernel) rfl⟩
      obtain ⟨p, hp, e⟩ := h1 q hq
      rw [← hn, ← e]; exact List.mem_map_of_mem hp
  · intro h1 h2
    obtain ⟨a, ha⟩ : ∃ a, bindKw schSig kw = some a := by
      refine ⟨_, (bindKw_some _ _ _).2 ⟨fun q hq => ?_, ?_, rfl⟩⟩
      · have := h1 q hq
        rw [← hn, List.mem_map] at this
        exact this
      · have : ∀ p ∈ schSig, p.2 = none → p.1 = "lrsch_type" := by decide +kernel
        intro p hp hd
        rw [this p hp hd]; exact h2
    rw [ha, Option.bind_some]
    exact outcome_congr (arg_given ha (by decide +kernel)) (sch_outcome a)

/-- C162: a Keras optimiser from a command line, with any prefix; the option `--amsgrad` is accepted and has no effect. -/
theorem C162_keras_optimizer (p : Option String) (conv : Ty → String → Option Val) (us : List Use) :
    (¬ Correct conv us (kofTable.map (Row.at p)) → made p kofOpts kofValid kofCreate conv us = none) ∧
    (Correct conv us (kofTable.map (Row.at p)) → ∃ val m, (∀ r ∈ kofTable, r.attr ≠ "amsgrad" → (r.at p).Takes conv us (val r.attr)) ∧
      made p kofOpts kofValid kofCreate conv us = some (some m) ∧ Makes (kofSpec (.fixed (.bool false))) (val "opt_type") val m) := by
  obtain ⟨h1, h2⟩ := made_core (opts := kofOpts) (valid := kofValid) (sig := kofSig) (t := kofTable) (by decide +kernel) (by decide +kernel) (by decide +kernel)
    (by decide +kernel) (by decide +kernel) kofCreate (fun a => some (dictGet (kofCases a) (arg a "opt_type")))
    (fun kw => by unfold kofCreate; cases bindKw kofSig kw <;> rfl) p conv us
  refine ⟨h1, fun hc => ?_⟩
  obtain ⟨a, e1, e2, e3⟩ := h2 hc
  have hval : ∀ r ∈ kofTable, r.attr ≠ "amsgrad" → r.attr ∈ kofValid := by decide +kernel
  have htk := fun r hr hn => e2 r hr (hval r hr hn)
  have hams : arg a "amsgrad" = .bool false := e3 "amsgrad" (some (.bool false)) (by decide +kernel) (by decide +kernel)
  have hch : arg a "opt_type" ∈ [Val.str "sgd", .str "nsgd", .str "rmsprop", .str "adam", .str "nadam", .str "adamax"] :=
    takes_choice (r := ⟨"opt_type", ["optimizer"], .str "adam", .value .lower (some _)⟩) rfl (by decide) p (htk _ (List.mem_cons_self ..) (by decide))
  have hcases : kofCases a = (kofSpec (.fixed (.bool false))).map (fun t => (.str t.1, ⟨t.2.1, t.2.2.map (fun s => (s.1, s.2.value (arg a)))⟩)) := by
    unfold kofCases
    rw [hams]
    rfl
  rcases makes_of hcases (arg a "opt_type") with ⟨m, g1, g2⟩ | ⟨g1, g2⟩
  · exact ⟨arg a, m, htk, by rw [e1, g1], g2⟩
  · exfalso
    have : ∀ v ∈ [Val.str "sgd", .str "nsgd", .str "rmsprop", .str "adam", .str "nadam", .str "adamax"], v ∈ ((kofSpec (.fixed (.bool false))).map (fun t => Val.str t.1)) := by
      decide +kernel
    obtain ⟨t, ht, e⟩ := List.mem_map.1 (this _ hch)
    exact g2 t ht e.symm

/-- C162: a Keras optimiser from keyword arguments -/
theorem C162_keras_optimizer_create (kw : List (String × Val)) :
    ((∃ r, kofCreate kw = some r) ↔ (∀ q ∈ kw, q.1 ∈ ["opt_type", "lr"] ++ kofDefaults.map Prod.fst) ∧ (∃ v, dictGet kw "opt_type" = some v) ∧
      ∃ v, dictGet kw "lr" = some v) ∧
    ∀ r, kofCreate kw = some r → (∃ m, r = some m ∧ Makes (kofSpec (.of "amsgrad")) (given kw kofDefaults "opt_type") (given kw kofDefaults) m) ∨
      (r = none ∧ ∀ t ∈ kofSpec (.of "amsgrad"), given kw kofDefaults "opt_type" ≠ .str t.1) := by
  constructor
  · unfold kofCreate
    have hn : kofSig.map Prod.fst = ["opt_type", "lr"] ++ kofDefaults.map Prod.fst := rfl
    constructor
    · rintro ⟨r, h⟩
      rw [Option.map_eq_some_iff] at h
      obtain ⟨a, h, _⟩ := h
      obtain ⟨h1, h2, _⟩ := (bindKw_some _ _ _).1 h
      refine ⟨fun q hq => ?_, h2 ("opt_type", none) (by decide +kernel) rfl, h2 ("lr", none) (by decide +kernel) rfl⟩
      obtain ⟨p, hp, e⟩ := h1 q hq
      rw [← hn, ← e]; exact List.mem_map_of_mem hp
    · rintro ⟨h1, h2, h3⟩
      refine ⟨_, (Option.map_eq_some_iff).2 ⟨_, (bindKw_some _ _ _).2 ⟨fun q hq => ?_, ?_, rfl⟩, rfl⟩⟩
      · have := h1 q hq
        rw [← hn, List.mem_map] at this
        exact this
      · have : ∀ p ∈ kofSig, p.2 = none → p.1 = "opt_type" ∨ p.1 = "lr" := by decide +kernel
        intro p hp hd
        rcases this p hp hd with e | e <;> rw [e] <;> assumption
  · intro r h
    unfold kofCreate at h
    rw [Option.map_eq_some_iff] at h
    obtain ⟨a, h, rfl⟩ := h
    have hg := arg_given h (dflt := kofDefaults) (names := "opt_type" :: usedBy (kofSpec (.of "amsgrad"))) (by decide +kernel)
    rw [hg "opt_type" (List.mem_cons_self ..)]
    rcases makes_of (spec := kofSpec (.of "amsgrad")) (cases := kofCases a) (val := arg a) rfl (given kw kofDefaults "opt_type") with ⟨m, g1, g2⟩ | ⟨g1, g2⟩
    · exact Or.inl ⟨m, g1, makes_congr (used_congr fun k hk => hg k (List.mem_cons_of_mem _ hk)) g2⟩
    · exact Or.inr ⟨g1, g2⟩

/-- C162, not so: optimiser and scheduler cannot share a parser without prefixes, or with the same prefix: both add an option `eps`. -/
theorem C162_conflict (p : Option String) : build (optOpts.map (addPre p) ++ schOpts.map (addPre p)) = none := by
  have hs : Sep optOpts := sep_of (by decide +kernel)
  unfold build
  rw [List.foldlM_append]
  have h1 := build_some (sep_flags (sep_pre hs p))
  unfold build at h1
  rw [h1]
  have hsplit : schOpts = schOpts.take 15 ++ ⟨["eps"], "eps", .store .float none, .dec 1 8, false⟩ :: schOpts.drop 16 := by decide +kernel
  show (schOpts.map (addPre p)).foldlM addOpt (optOpts.map (addPre p)) = none
  rw [hsplit, List.map_append, List.foldlM_append]
  have grow : ∀ (l q q' : List Opt), l.foldlM addOpt q = some q' → ∀ o ∈ q, o ∈ q' := by
    intro l
    induction l with
    | nil => intro q q' h o ho; cases h; exact ho
    | cons x l ih =>
      intro q q' h o ho
      rw [List.foldlM_cons] at h
      unfold addOpt at h
      split at h
      · cases h
      · exact ih _ _ h o (by simp [ho])
  cases hq : ((schOpts.take 15).map (addPre p)).foldlM addOpt (optOpts.map (addPre p)) with
  | none => rfl
  | some q =>
    have hm := grow _ _ _ hq (addPre p ⟨["eps"], "eps", .store .float none, .dec 1 8, false⟩) (List.mem_map_of_mem (by decide +kernel))
    show (List.foldlM addOpt q _) = none
    rw [List.map_cons, List.foldlM_cons]
    have : addOpt q (addPre p ⟨["eps"], "eps", .store .float none, .dec 1 8, false⟩) = none := by
      unfold addOpt
      rw [if_pos]
      rw [List.any_eq_true]
      refine ⟨p1 p ++ "eps", by simp [addPre], ?_⟩
      rw [List.any_eq_true]
      exact ⟨_, hm, by simp [addPre]⟩
    rw [this]; rfl

/-- two lists of options with different prefixes, one pair of names apart -/
theorem sep_two_except {os ns : List Opt} (h1 : Sep os) (h2 : Sep ns) {p q : Option String} (hpq : p ≠ q) (ex : Opt → Opt → Prop)
    (hex : ∀ a ∈ os, ∀ b ∈ ns, ex a b ∨ (noTail [a] [b] = true ∧ noTail [b] [a] = true))
    (hx : ∀ a ∈ os, ∀ b ∈ ns, ex a b → p2 p ++ a.dest ≠ p2 q ++ b.dest ∧ ∀ f ∈ a.flags, ∀ g ∈ b.flags, p1 p ++ f ≠ p1 q ++ g) :
    Sep (os.map (addPre p) ++ ns.map (addPre q)) := by
  unfold Sep
  rw [List.pairwise_append]
  refine ⟨sep_pre h1 p, sep_pre h2 q, fun a ha b hb => ?_⟩
  obtain ⟨a, ha', rfl⟩ := List.mem_map.1 ha
  obtain ⟨b, hb', rfl⟩ := List.mem_map.1 hb
  rcases hex a ha' b hb' with he | ⟨e1, e2⟩
  · obtain ⟨g1, g2⟩ := hx a ha' b hb' he
    refine ⟨g1, fun f hf hc => ?_⟩
    simp only [addPre, List.mem_map] at hf hc
    obtain ⟨f', hf', rfl⟩ := hf
    obtain ⟨g', hg', he⟩ := hc
    exact g2 f' hf' g' hg' he.symm
  · have one : ∀ x : Opt, Sep [x] := fun x => List.pairwise_singleton _ _
    have := sep_two (one a) (one b) e1 e2 hpq
    unfold Sep at this
    rw [List.pairwise_append] at this
    exact this.2.2 _ (by simp) _ (by simp)

/-- C162: optimiser and scheduler share a parser with different prefixes (a prefix of the optimiser may not end in `min`: `--min-lr` is an option of the scheduler):
each gets the values given with its own prefix. -/
theorem C162_two_prefixes (p q : Option String) (hpq : p ≠ q) (hmin : ∀ s, p = some s → ¬ "min".toList <:+ s.toList) (conv : Ty → String → Option Val) (us : List Use) :
    (build (optOpts.map (addPre p) ++ schOpts.map (addPre q))).isSome ∧
    ((parse conv (optOpts.map (addPre p) ++ schOpts.map (addPre q)) us).isSome → ∃ val m val',
      (∀ r ∈ optTable, (r.at p).Takes conv us (val r.attr)) ∧ (∀ r ∈ schTable, (r.at q).Takes conv us (val' r.attr)) ∧
      madeIn (optOpts.map (addPre p) ++ schOpts.map (addPre q)) p optValid optCreate conv us = some (some m) ∧ Makes optSpec (val "opt_type") val m ∧
      SchOutcome val' (madeIn (optOpts.map (addPre p) ++ schOpts.map (addPre q)) q schValid schCreate conv us)) := by
  have hsep : Sep (optOpts.map (addPre p) ++ schOpts.map (addPre q)) := by
    refine sep_two_except (sep_of (by decide +kernel)) (sep_of (by decide +kernel)) hpq
      (fun a b => a.dest = "lr" ∧ a.flags = ["lr"] ∧ b.dest = "min_lr" ∧ b.flags = ["min-lr"]) (by decide +kernel) ?_
    rintro a _ b _ ⟨h1, h2, h3, h4⟩
    rw [h1, h2, h3, h4]
    have key : ∀ (c : Char) (P Q : List Char), (P = [] ∨ ∃ s, P = s ++ [c] ∧ ¬ "min".toList <:+ s) → 
        P ++ "lr".toList ≠ Q ++ ("min".toList ++ c :: "lr".toList) := by
      intro c P Q hP h
      rcases hP with rfl | ⟨s, rfl, hs⟩
      · have := congrArg List.length h
        simp at this
      · have h' : s ++ (c :: "lr".toList) = (Q ++ "min".toList) ++ (c :: "lr".toList) := by simpa using h
        rw [List.append_cancel_right_eq] at h'
        exact hs ⟨Q, h'.symm⟩
    constructor
    · intro h
      refine key '_' (p2 p).toList (p2 q).toList ?_ ?_
      · cases hp : p with
        | none => exact Or.inl rfl
        | some s => exact Or.inr ⟨s.toList, by simp [p2], hmin s hp⟩
      · have := congrArg String.toList h
        simpa using this
    · intro f hf g hg h
      simp only [List.mem_singleton] at hf hg
      subst hf hg
      refine key '-' ((p1 p).toList.drop 2) ((p1 q).toList.drop 2) ?_ ?_
      · cases hp : p with
        | none => exact Or.inl rfl
        | some s => exact Or.inr ⟨s.toList, by simp [p1], hmin s hp⟩
      · have h2 : ∀ p, 2 ≤ (p1 p).toList.length := fun p => by cases p <;> simp [p1]
        have := congrArg (List.drop 2 ∘ String.toList) h
        have e : "min".toList ++ '-' :: "lr".toList = "min-lr".toList := by decide
        rw [e]
        simpa only [Function.comp, String.toList_append, List.drop_append_of_le_length (h2 _)] using this
  refine ⟨by rw [build_some (sep_flags hsep)]; rfl, fun hp => ?_⟩
  obtain ⟨a, e1, e2, _⟩ := core_in (opts := optOpts) (valid := optValid) (sig := optSig) (t := optTable) hsep
    (fun o ho => List.mem_append_left _ (List.mem_map_of_mem ho)) (by decide +kernel) (by decide +kernel) (by decide +kernel)
    optCreate (fun a => some (dictGet (optCases a) (arg a "opt_type"))) (fun kw => by unfold optCreate; cases bindKw optSig kw <;> rfl) hp
  obtain ⟨b, f1, f2, _⟩ := core_in (opts := schOpts) (valid := schValid) (sig := schSig) (t := schTable) hsep
    (fun o ho => List.mem_append_right _ (List.mem_map_of_mem ho)) (by decide +kernel) (by decide +kernel) (by decide +kernel)
    schCreate _ (fun kw => rfl) hp
  have hval : ∀ r ∈ optTable, r.attr ∈ optValid := by decide +kernel
  have hval' : ∀ r ∈ schTable, r.attr ∈ schValid := by decide +kernel
  have htk := fun r hr => e2 r hr (hval r hr)
  obtain ⟨m, g1, g2⟩ := opt_made (htk _ (List.mem_cons_self ..))
  refine ⟨arg a, m, arg b, htk, fun r hr => f2 r hr (hval' r hr), by rw [e1, g1], g2, ?_⟩
  rw [f1]
  exact sch_outcome b

/-- C162, not so: with the prefix `min` for the optimiser and none for the scheduler the parser cannot be built. -/
theorem C162_min_conflict : build (optOpts.map (addPre (some "min")) ++ schOpts.map (addPre none)) = none := by decide +kernel

/-- an optimiser with the prefix `opt`: the last learning rate counts -/
example : made (some "opt") optOpts optValid optCreate exConv [⟨"--opt-optimizer", some "sgd"⟩, ⟨"--opt-nesterov", none⟩, ⟨"--opt-lr", some "4"⟩] =
    some (some ⟨"SGD", [("lr", .int 4), ("momentum", .dec 6 1), ("dampening", .int 0), ("weight_decay", .dec 1 6), ("nesterov", .bool true)]⟩) := by decide +kernel

example : made none schOpts schValid schCreate exConv [⟨"--lrsch-type", some "adamcos_lr"⟩] = none := by decide +kernel

example : madeIn (optOpts.map (addPre (some "opt")) ++ schOpts.map (addPre (some "lrsch"))) (some "lrsch") schValid schCreate exConv
    [⟨"--lrsch-lrsch-type", some "exp_lr"⟩, ⟨"--lrsch-eps", some "4"⟩, ⟨"--lrsch-update-lr-on-batch", none⟩] =
    some (some ⟨"ExponentialLR", [("decay_rate", .dec 1 2), ("decay_steps", .int 100), ("hold_steps", .int 10), ("min_lr", .int 0), ("warmup_steps", .int 0),
      ("update_lr_on_batch", .bool false)]⟩) := by decide +kernel

end Hyp.Cli
