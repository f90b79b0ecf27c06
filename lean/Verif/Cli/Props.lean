import Verif.Cli.Model
import Mathlib.Data.List.Forall2
import Mathlib.Data.List.Pairwise

/-!
C154: the command lines of the training scripts.
-/

namespace Hyp.Cli

/-! ### Specification: a table with one row for each attribute -/

/-- what the option of a row does when it is used -/
inductive Kind where
  | switch (v : Val)
  | value (ty : Ty) (choices : Option (List Val))
deriving DecidableEq

/-- a row: the attribute, the option strings, the value without the option, and what the option does -/
structure Row where
  attr : String
  flags : List String
  unused : Val
  kind : Kind

/-- one use of the option of a row is correct and gives the value `v` -/
def Row.Gives (conv : Ty → String → Option Val) (r : Row) (u : Use) (v : Val) : Prop :=
  u.flag ∈ r.flags ∧ match r.kind with
    | .switch w => u.arg = none ∧ v = w
    | .value ty ch => ∃ s, u.arg = some s ∧ conv ty s = some v ∧ ∀ l, ch = some l → v ∈ l

/-- the value of a row after a command line: the last use counts -/
def Row.Takes (conv : Ty → String → Option Val) (r : Row) (us : List Use) (v : Val) : Prop :=
  ((∀ u ∈ us, u.flag ∉ r.flags) ∧ v = r.unused) ∨
    ∃ pre u post, us = pre ++ u :: post ∧ r.Gives conv u v ∧ ∀ w ∈ post, w.flag ∉ r.flags

/-- the reader of vectors and classes -/
def readerTable : List Row :=
  [⟨"vlist_sep", ["--vlist-sep"], .str " ", .value .str none⟩,
   ⟨"class2int_file", ["--class2int-file"], .null, .value .str none⟩,
   ⟨"min_spc", ["--min-spc"], .int 1, .value .int none⟩,
   ⟨"max_spc", ["--max-spc"], .null, .value .int none⟩,
   ⟨"spc_pruning_mode", ["--spc-pruning-mode"], .str "random", .value .str (some [.str "random", .str "first", .str "last"])⟩,
   ⟨"csplit_min_spc", ["--csplit-min-spc"], .null, .value .int none⟩,
   ⟨"csplit_max_spc", ["--csplit-max-spc"], .null, .value .int none⟩,
   ⟨"csplit_mode", ["--csplit-mode"], .str "random", .value .lower (some [.str "sequential", .str "random", .str "random_1subclass"])⟩,
   ⟨"csplit_overlap", ["--csplit-overlap"], .int 0, .value .float none⟩,
   ⟨"csplit_once", ["--no-csplit-once"], .bool true, .switch (.bool false)⟩,
   ⟨"vcr_seed", ["--vcr-seed"], .int 1024, .value .int none⟩]

/-- the linear Gaussian back-end -/
def gbeTable : List Row :=
  [⟨"update_mu", ["--no-update-mu"], .bool true, .switch (.bool false)⟩,
   ⟨"update_W", ["--no-update-W"], .bool true, .switch (.bool false)⟩,
   ⟨"balance_class_weight", ["--balance-class-weight"], .bool false, .switch (.bool true)⟩,
   ⟨"prior", ["--prior"], .null, .value .str none⟩,
   ⟨"prior_beta", ["--prior-beta"], .int 16, .value .float none⟩,
   ⟨"prior_nu", ["--prior-nu"], .int 16, .value .float none⟩,
   ⟨"post_beta", ["--post-beta"], .null, .value .float none⟩,
   ⟨"post_nu", ["--post-nu"], .null, .value .float none⟩,
   ⟨"name", ["--name"], .str "lgbe", .value .str none⟩]

/-- Q-scoring -/
def qsTable : List Row :=
  [⟨"balance_class_weight", ["--balance-class-weight"], .bool false, .switch (.bool true)⟩,
   ⟨"prior", ["--prior"], .null, .value .str none⟩,
   ⟨"prior_N", ["--prior-n"], .null, .value .float none⟩,
   ⟨"post_N", ["--post-n"], .null, .value .float none⟩,
   ⟨"name", ["--name"], .str "q_scoring", .value .str none⟩]

/-- logistic regression -/
def lrTable : List Row :=
  [⟨"penalty", ["--penalty"], .str "l2", .value .str (some [.str "l2", .str "l1"])⟩,
   ⟨"lambda_reg", ["--lambda-reg"], .dec 1 5, .value .float none⟩,
   ⟨"use_bias", ["--no-use-bias"], .bool true, .switch (.bool false)⟩,
   ⟨"bias_scaling", ["--bias-scaling"], .int 1, .value .float none⟩,
   ⟨"lr_seed", ["--lr-seed"], .int 1024, .value .int none⟩,
   ⟨"solver", ["--solver"], .str "lbfgs", .value .str (some [.str "newton-cg", .str "lbfgs", .str "liblinear", .str "sag", .str "saga"])⟩,
   ⟨"max_iter", ["--max-iter"], .int 100, .value .int none⟩,
   ⟨"dual", ["--dual"], .bool false, .switch (.bool true)⟩,
   ⟨"tol", ["--tol"], .dec 1 4, .value .float none⟩,
   ⟨"multi_class", ["--multi-class"], .str "ovr", .value .str (some [.str "ovr", .str "multinomial"])⟩,
   ⟨"verbose", ["--verbose"], .int 0, .value .int none⟩,
   ⟨"warm_start", ["--no-warm-start"], .bool true, .switch (.bool false)⟩,
   ⟨"num_jobs", ["--num-jobs"], .int 1, .value .int none⟩,
   ⟨"name", ["--name"], .str "lr", .value .str none⟩]

/-- linear SVM -/
def svmTable : List Row :=
  [⟨"penalty", ["--penalty"], .str "l2", .value .str (some [.str "l2", .str "l1"])⟩,
   ⟨"C", ["--c"], .int 1, .value .float none⟩,
   ⟨"loss", ["--loss"], .str "squared_hinge", .value .str (some [.str "hinge", .str "squared_hinge"])⟩,
   ⟨"use_bias", ["--no-use-bias"], .bool true, .switch (.bool false)⟩,
   ⟨"bias_scaling", ["--bias-scaling"], .int 1, .value .float none⟩,
   ⟨"lr_seed", ["--lr-seed"], .int 1024, .value .int none⟩,
   ⟨"max_iter", ["--max-iter"], .int 100, .value .int none⟩,
   ⟨"dual", ["--no-dual"], .bool true, .switch (.bool false)⟩,
   ⟨"tol", ["--tol"], .dec 1 4, .value .float none⟩,
   ⟨"multi_class", ["--multi-class"], .str "ovr", .value .str (some [.str "ovr", .str "crammer_singer"])⟩,
   ⟨"verbose", ["--verbose"], .int 0, .value .int none⟩,
   ⟨"class_weight", ["--balance-class-weight"], .null, .switch (.str "balanced")⟩,
   ⟨"name", ["--name"], .str "svc", .value .str none⟩]

/-- the arguments of the scripts themselves -/
def ioTable : List Row :=
  [⟨"iv_file", ["--iv-file"], .null, .value .str none⟩, ⟨"train_list", ["--train-list"], .null, .value .str none⟩,
   ⟨"preproc_file", ["--preproc-file"], .null, .value .str none⟩, ⟨"output_path", ["--output-path"], .null, .value .str none⟩,
   ⟨"verbose", ["-v", "--verbose"], .int 1, .value .int (some [.int 0, .int 1, .int 2, .int 3])⟩]

/-- a list of named values is what a table says -/
def Follows (conv : Ty → String → Option Val) (us : List Use) (t : List Row) (l : List (String × Val)) : Prop :=
  List.Forall₂ (fun r q => q.1 = r.attr ∧ r.Takes conv us q.2) t l

/-- every option on a command line is one of a table and is used correctly -/
def Correct (conv : Ty → String → Option Val) (us : List Use) (t : List Row) : Prop :=
  ∀ u ∈ us, ∃ r ∈ t, ∃ v, r.Gives conv u v

/-! ### The parser -/

theorem dictGet_filter (d : List (String × Val)) (P : String → Bool) (k : String) :
    dictGet (d.filter (fun q => P q.1)) k = if P k then dictGet d k else none := by
  induction d with
  | nil => simp [dictGet]
  | cons q d ih =>
    obtain ⟨a, b⟩ := q
    rw [List.filter_cons]
    by_cases hk : a = k
    · subst hk
      by_cases hp : P a = true
      · simp [hp, dictGet]
      · simp only [hp, if_false, Bool.false_eq_true] at ih ⊢
        exact ih
    · by_cases hp : P a = true
      · simp [hp, dictGet, hk, ih]
      · simp [hp, dictGet, hk, ih]

theorem dictGet_pick (valid : List String) (kw : List (String × Val)) (k : String) :
    dictGet (pick valid kw) k = if k ∈ valid then dictGet kw k else none := by
  unfold pick
  induction valid with
  | nil => simp [dictGet]
  | cons a l ih =>
    rw [List.filterMap_cons]
    by_cases hk : k = a
    · subst hk
      cases hg : dictGet kw k with
      | none =>
        simp only [Option.map_none, List.mem_cons, true_or, if_true]
        rw [ih, hg]; simp
      | some v => simp [dictGet]
    · cases hg : dictGet kw a with
      | none => simp only [Option.map_none, List.mem_cons, hk, false_or]; exact ih
      | some v => simp only [Option.map_some, List.mem_cons, hk, false_or, dictGet, if_neg (Ne.symm hk)]; exact ih

/-- no two options have the same destination or a common option string -/
def Sep (p : List Opt) : Prop := p.Pairwise (fun a b => a.dest ≠ b.dest ∧ ∀ f ∈ a.flags, f ∉ b.flags)

theorem build_some {os : List Opt} (h : os.Pairwise (fun a b => ∀ f ∈ a.flags, f ∉ b.flags)) : build os = some os := by
  have key : ∀ (l acc : List Opt), (acc ++ l).Pairwise (fun a b => ∀ f ∈ a.flags, f ∉ b.flags) → l.foldlM addOpt acc = some (acc ++ l) := by
    intro l
    induction l with
    | nil => intro acc _; simp
    | cons o l ih =>
      intro acc hp
      have h1 : addOpt acc o = some (acc ++ [o]) := by
        unfold addOpt
        rw [if_neg]
        simp only [List.any_eq_true, not_exists, not_and, List.contains_iff_mem]
        intro f hf q hq
        rw [List.pairwise_append] at hp
        exact fun hc => hp.2.2 q hq o (by simp) f hc hf
      simp only [List.foldlM_cons, h1, Option.bind_eq_bind, Option.bind_some]
      rw [ih (acc ++ [o]) (by simpa using hp)]; simp
  exact key os [] h

theorem sep_flags {p : List Opt} (h : Sep p) : p.Pairwise (fun a b => ∀ f ∈ a.flags, f ∉ b.flags) := h.imp (fun h => h.2)

theorem find_of {p : List Opt} (h : Sep p) {o : Opt} (ho : o ∈ p) {f : String} (hf : f ∈ o.flags) :
    p.find? (fun o => o.flags.contains f) = some o := by
  induction p with
  | nil => simp at ho
  | cons q p ih =>
    rw [Sep, List.pairwise_cons] at h
    rw [List.find?_cons]
    rcases List.mem_cons.1 ho with rfl | ho
    · simp [hf]
    · have : f ∉ q.flags := fun hc => (h.1 o ho).2 f hc hf
      have : q.flags.contains f = false := by simpa using this
      rw [this]
      exact ih h.2 ho

theorem defaults_of {p : List Opt} (h : Sep p) {o : Opt} (ho : o ∈ p) : dictGet (defaults p) o.dest = some o.dflt := by
  have keep : ∀ (l : List Opt) (ns : List (String × Val)) (k : String) (v : Val), dictGet ns k = some v →
      dictGet (l.foldl (fun ns o => if (dictGet ns o.dest).isSome then ns else dictSet ns o.dest o.dflt) ns) k = some v := by
    intro l
    induction l with
    | nil => intro ns k v h; exact h
    | cons q l ih =>
      intro ns k v h
      rw [List.foldl_cons]
      apply ih
      split
      · exact h
      · rename_i hn
        rw [dictGet_set, if_neg, h]
        rintro rfl
        simp [h] at hn
  have key : ∀ (l : List Opt) (ns : List (String × Val)), l.Pairwise (fun a b => a.dest ≠ b.dest) → o ∈ l →
      (∀ q ∈ l, dictGet ns q.dest = none) →
      dictGet (l.foldl (fun ns o => if (dictGet ns o.dest).isSome then ns else dictSet ns o.dest o.dflt) ns) o.dest = some o.dflt := by
    intro l
    induction l with
    | nil => intro ns _ ho; simp at ho
    | cons q l ih =>
      intro ns hp ho hn
      rw [List.pairwise_cons] at hp
      rw [List.foldl_cons]
      have hq : dictGet ns q.dest = none := hn q (by simp)
      simp only [hq, Option.isSome_none, Bool.false_eq_true, if_false]
      rcases List.mem_cons.1 ho with rfl | ho
      · exact keep _ _ _ _ (by rw [dictGet_set, if_pos rfl])
      · refine ih _ hp.2 ho (fun r hr => ?_)
        rw [dictGet_set, if_neg (hp.1 r hr)]
        exact hn r (by simp [hr])
  exact key p [] (h.imp (fun h => h.1)) ho (fun _ _ => rfl)

/-- an option takes a value from a command line -/
def OTakes (conv : Ty → String → Option Val) (o : Opt) (us : List Use) (v : Val) : Prop :=
  ((∀ u ∈ us, u.flag ∉ o.flags) ∧ v = o.dflt) ∨
    ∃ pre u post, us = pre ++ u :: post ∧ u.flag ∈ o.flags ∧ useVal conv o u = some v ∧ ∀ w ∈ post, w.flag ∉ o.flags

theorem step_some {conv : Ty → String → Option Val} {p : List Opt} {ns ns' : List (String × Val)} {u : Use} (h : useStep conv p ns u = some ns') :
    ∃ o ∈ p, u.flag ∈ o.flags ∧ ∃ v, useVal conv o u = some v ∧ ns' = dictSet ns o.dest v := by
  unfold useStep at h
  cases hf : p.find? (fun o => o.flags.contains u.flag) with
  | none => rw [hf] at h; simp at h
  | some o =>
    rw [hf] at h
    simp only [Option.map_eq_some_iff] at h
    obtain ⟨v, hv, rfl⟩ := h
    exact ⟨o, List.mem_of_find?_eq_some hf, by simpa using List.find?_some hf, v, hv, rfl⟩

theorem step_of {conv : Ty → String → Option Val} {p : List Opt} (hp : Sep p) (ns : List (String × Val)) {u : Use} {o : Opt} (ho : o ∈ p)
    (hf : u.flag ∈ o.flags) {v : Val} (hv : useVal conv o u = some v) : useStep conv p ns u = some (dictSet ns o.dest v) := by
  unfold useStep
  rw [find_of hp ho hf]
  simp [hv]

theorem mem_sep {p : List Opt} (h : Sep p) {a b : Opt} (ha : a ∈ p) (hb : b ∈ p) : a = b ∨ (a.dest ≠ b.dest ∧ ∀ f ∈ a.flags, f ∉ b.flags) := by
  by_cases he : a = b
  · exact .inl he
  · right
    have hs : Std.Symm (fun a b : Opt => a.dest ≠ b.dest ∧ ∀ f ∈ a.flags, f ∉ b.flags) :=
      ⟨fun _ _ h => ⟨h.1.symm, fun f hf hc => h.2 f hc hf⟩⟩
    exact List.Pairwise.forall h ha hb he

theorem fold_spec {conv : Ty → String → Option Val} {p : List Opt} (hp : Sep p) :
    ∀ (us : List Use) (ns : List (String × Val)), us.foldlM (useStep conv p) (defaults p) = some ns →
      ∀ o ∈ p, ∃ v, dictGet ns o.dest = some v ∧ OTakes conv o us v := by
  intro us
  induction us using List.reverseRecOn with
  | nil =>
    intro ns h o ho
    have e : defaults p = ns := by simpa using h
    exact ⟨o.dflt, by rw [← e]; exact defaults_of hp ho, .inl ⟨by simp, rfl⟩⟩
  | append_singleton us u ih =>
    intro ns h o ho
    rw [List.foldlM_append] at h
    simp only [Option.bind_eq_bind, Option.bind_eq_some_iff] at h
    obtain ⟨ns1, h1, h2⟩ := h
    have h2 : useStep conv p ns1 u = some ns := by simpa using h2
    obtain ⟨q, hq, hf, v, hv, rfl⟩ := step_some h2
    rcases mem_sep hp hq ho with rfl | ⟨hd, hfl⟩
    · exact ⟨v, by rw [dictGet_set, if_pos rfl], .inr ⟨us, u, [], rfl, hf, hv, by simp⟩⟩
    · obtain ⟨v', hv', ht⟩ := ih ns1 h1 o ho
      refine ⟨v', by rw [dictGet_set, if_neg hd, hv'], ?_⟩
      rcases ht with ⟨hn, rfl⟩ | ⟨pre, w, post, rfl, hw, hu, hpost⟩
      · left
        refine ⟨fun x hx => ?_, rfl⟩
        rcases List.mem_append.1 hx with hx | hx
        · exact hn x hx
        · rw [List.mem_singleton.1 hx]; exact hfl _ hf
      · right
        refine ⟨pre, w, post ++ [u], by simp, hw, hu, fun x hx => ?_⟩
        rcases List.mem_append.1 hx with hx | hx
        · exact hpost x hx
        · rw [List.mem_singleton.1 hx]; exact hfl _ hf

theorem fold_isSome {conv : Ty → String → Option Val} {p : List Opt} (hp : Sep p) (us : List Use) :
    ∀ ns, (us.foldlM (useStep conv p) ns).isSome ↔ ∀ u ∈ us, ∃ o ∈ p, u.flag ∈ o.flags ∧ ∃ v, useVal conv o u = some v := by
  induction us with
  | nil => intro ns; simp
  | cons u us ih =>
    intro ns
    rw [List.foldlM_cons]
    constructor
    · intro h
      cases hs : useStep conv p ns u with
      | none => rw [hs] at h; simp at h
      | some ns' =>
        rw [hs] at h
        have h := (ih ns').1 (by simpa using h)
        obtain ⟨o, ho, hf, v, hv, _⟩ := step_some hs
        intro w hw
        rcases List.mem_cons.1 hw with rfl | hw
        · exact ⟨o, ho, hf, v, hv⟩
        · exact h w hw
    · intro h
      obtain ⟨o, ho, hf, v, hv⟩ := h u (by simp)
      rw [step_of hp ns ho hf hv]
      have := (ih (dictSet ns o.dest v)).2 (fun w hw => h w (by simp [hw]))
      simpa using this

/-- the parser: which command lines it accepts, and the values -/
theorem parse_spec {conv : Ty → String → Option Val} {p : List Opt} (hp : Sep p) (us : List Use) :
    ((parse conv p us).isSome ↔ (∀ u ∈ us, ∃ o ∈ p, u.flag ∈ o.flags ∧ ∃ v, useVal conv o u = some v) ∧
      ∀ o ∈ p, o.required = true → ∃ u ∈ us, u.flag ∈ o.flags) ∧
    ∀ ns, parse conv p us = some ns → ∀ o ∈ p, ∃ v, dictGet ns o.dest = some v ∧ OTakes conv o us v := by
  have hreq : (p.all (fun o => !o.required || us.any (fun u => o.flags.contains u.flag))) = true ↔
      ∀ o ∈ p, o.required = true → ∃ u ∈ us, u.flag ∈ o.flags := by
    simp only [List.all_eq_true, Bool.or_eq_true, Bool.not_eq_true', List.any_eq_true, List.contains_iff_mem]
    constructor
    · intro h o ho hr
      rcases h o ho with h | h
      · rw [hr] at h; cases h
      · exact h
    · intro h o ho
      cases hr : o.required
      · exact .inl rfl
      · exact .inr (h o ho hr)
  constructor
  · rw [← fold_isSome hp us (defaults p), ← hreq]
    unfold parse
    cases us.foldlM (useStep conv p) (defaults p) with
    | none => simp
    | some ns =>
      simp only [Option.bind_some, Option.isSome_some, true_and]
      split <;> simp_all
  · intro ns h
    unfold parse at h
    rw [Option.bind_eq_some_iff] at h
    obtain ⟨ns', h1, h2⟩ := h
    have : ns' = ns := by
      split at h2
      · simpa using h2
      · simp at h2
    subst this
    exact fold_spec hp us ns' h1

/-! ### From options to rows -/

theorem useVal_switch {conv : Ty → String → Option Val} {fl : List String} {d : String} {b : Bool} {df : Val} {rq : Bool} {u : Use} {v : Val} :
    useVal conv ⟨fl, d, .const b, df, rq⟩ u = some v ↔ u.arg = none ∧ v = .bool b := by
  unfold useVal
  cases u.arg <;> simp [eq_comm]

theorem useVal_store {conv : Ty → String → Option Val} {fl : List String} {d : String} {ty : Ty} {ch : Option (List Val)} {df : Val} {rq : Bool}
    {u : Use} {v : Val} :
    useVal conv ⟨fl, d, .store ty ch, df, rq⟩ u = some v ↔ ∃ s, u.arg = some s ∧ conv ty s = some v ∧ ∀ l, ch = some l → v ∈ l := by
  unfold useVal
  cases hu : u.arg with
  | none => simp
  | some s =>
    simp only [Option.bind_eq_some_iff, Option.some.injEq, exists_eq_left']
    constructor
    · rintro ⟨w, hw, h⟩
      by_cases hc : ch.all (fun l => l.contains w) = true
      · rw [if_pos hc] at h
        obtain rfl : w = v := by simpa using h
        refine ⟨hw, fun l hl => ?_⟩
        subst hl
        simpa using hc
      · rw [if_neg hc] at h; simp at h
    · rintro ⟨hw, h⟩
      refine ⟨v, hw, ?_⟩
      rw [if_pos]
      cases ch with
      | none => simp
      | some l => simpa using h l rfl

/-- an option that stores a value, as a row -/
theorem row_value {conv : Ty → String → Option Val} {us : List Use} {fl : List String} {d a : String} {ty : Ty} {ch : Option (List Val)} {df : Val}
    {rq : Bool} {v : Val} (h : OTakes conv ⟨fl, d, .store ty ch, df, rq⟩ us v) : Row.Takes conv ⟨a, fl, df, .value ty ch⟩ us v := by
  rcases h with h | ⟨pre, u, post, h1, h2, h3, h4⟩
  · exact .inl h
  · exact .inr ⟨pre, u, post, h1, ⟨h2, useVal_store.1 h3⟩, h4⟩

/-- a switch, through a function of its value, as a row -/
theorem row_switch {conv : Ty → String → Option Val} {us : List Use} {fl : List String} {d a : String} {b : Bool} {df : Val} {rq : Bool} {v : Val}
    (f : Val → Val) (h : OTakes conv ⟨fl, d, .const b, df, rq⟩ us v) : Row.Takes conv ⟨a, fl, f df, .switch (f (.bool b))⟩ us (f v) := by
  rcases h with ⟨h, rfl⟩ | ⟨pre, u, post, h1, h2, h3, h4⟩
  · exact .inl ⟨h, rfl⟩
  · obtain ⟨h5, rfl⟩ := useVal_switch.1 h3
    exact .inr ⟨pre, u, post, h1, ⟨h2, h5, rfl⟩, h4⟩

/-- a switch takes a boolean -/
theorem switch_bool {conv : Ty → String → Option Val} {us : List Use} {fl : List String} {d : String} {b c : Bool} {rq : Bool} {v : Val}
    (h : OTakes conv ⟨fl, d, .const b, .bool c, rq⟩ us v) : ∃ x, v = .bool x := by
  rcases h with ⟨_, rfl⟩ | ⟨_, u, _, _, _, h3, _⟩
  · exact ⟨c, rfl⟩
  · exact ⟨b, (useVal_switch.1 h3).2⟩

theorem negate_eq {d : List (String × Val)} {n p : String} {b : Bool} (h : dictGet d n = some (.bool b)) : negate n p d = dictSet d p (.bool !b) := by
  unfold negate; rw [h]

/-- a row and an option belong together -/
def fits (r : Row) (o : Opt) : Bool :=
  decide (r.flags = o.flags) && match r.kind, o.act with
    | .switch _, .const _ => true
    | .value ty ch, .store ty' ch' => decide (ty = ty' ∧ ch = ch')
    | _, _ => false

theorem fits_gives {conv : Ty → String → Option Val} {r : Row} {o : Opt} (h : fits r o = true) (u : Use) :
    (∃ v, r.Gives conv u v) ↔ (u.flag ∈ o.flags ∧ ∃ v, useVal conv o u = some v) := by
  obtain ⟨a, fl, un, k⟩ := r
  obtain ⟨fl', d, act, df, rq⟩ := o
  unfold fits at h
  rw [Bool.and_eq_true] at h
  obtain ⟨h1, h2⟩ := h
  obtain rfl : fl = fl' := by simpa using h1
  cases k with
  | switch w =>
    cases act with
    | const b =>
      simp only [useVal_switch, Row.Gives]
      constructor
      · rintro ⟨v, h, h', _⟩; exact ⟨h, _, h', rfl⟩
      · rintro ⟨h, v, h', _⟩; exact ⟨_, h, h', rfl⟩
    | store ty ch => simp at h2
  | value ty ch =>
    cases act with
    | const b => simp at h2
    | store ty' ch' =>
      obtain ⟨rfl, rfl⟩ : ty = ty' ∧ ch = ch' := by simpa using h2
      simp only [useVal_store, Row.Gives, exists_and_left]

theorem accepts_of {conv : Ty → String → Option Val} {t : List Row} {opts : List Opt} (h1 : ∀ o ∈ opts, ∃ r ∈ t, fits r o = true)
    (h2 : ∀ r ∈ t, ∃ o ∈ opts, fits r o = true) (us : List Use) :
    (∀ u ∈ us, ∃ o ∈ opts, u.flag ∈ o.flags ∧ ∃ v, useVal conv o u = some v) ↔ Correct conv us t := by
  constructor
  · intro h u hu
    obtain ⟨o, ho, hf⟩ := h u hu
    obtain ⟨r, hr, hfit⟩ := h1 o ho
    exact ⟨r, hr, (fits_gives hfit u).2 hf⟩
  · intro h u hu
    obtain ⟨r, hr, hg⟩ := h u hu
    obtain ⟨o, ho, hfit⟩ := h2 r hr
    exact ⟨o, ho, (fits_gives hfit u).1 hg⟩

/-- separation as a computation -/
def sepB : List Opt → Bool
  | [] => true
  | a :: l => l.all (fun b => decide (a.dest ≠ b.dest) && a.flags.all (fun f => !b.flags.contains f)) && sepB l

theorem sep_of {p : List Opt} (h : sepB p = true) : Sep p := by
  induction p with
  | nil => exact List.Pairwise.nil
  | cons a l ih =>
    rw [sepB, Bool.and_eq_true, List.all_eq_true] at h
    refine List.Pairwise.cons (fun b hb => ?_) (ih h.2)
    have := h.1 b hb
    simp only [Bool.and_eq_true, decide_eq_true_eq, List.all_eq_true, Bool.not_eq_true'] at this
    exact ⟨this.1, fun f hf hc => by simpa [hc] using this.2 f hf⟩

theorem class_core {opts : List Opt} (hs : sepB opts = true) {t : List Row} (h1 : ∀ o ∈ opts, ∃ r ∈ t, fits r o = true)
    (h2 : ∀ r ∈ t, ∃ o ∈ opts, fits r o = true) (model : List (String × Val) → List (String × Val)) (conv : Ty → String → Option Val) (us : List Use) :
    ((classAttrs opts model conv us).isSome ↔ Correct conv us t ∧ ∀ o ∈ opts, o.required = true → ∃ u ∈ us, u.flag ∈ o.flags) ∧
    ∀ l, classAttrs opts model conv us = some l → ∃ ns, l = model ns ∧ ∀ o ∈ opts, ∃ v, dictGet ns o.dest = some v ∧ OTakes conv o us v := by
  have hsep := sep_of hs
  have hb := build_some (sep_flags hsep)
  unfold classAttrs
  rw [hb, Option.bind_some, Option.isSome_map, ← accepts_of h1 h2]
  refine ⟨(parse_spec hsep us).1, fun l hl => ?_⟩
  rw [Option.map_eq_some_iff] at hl
  obtain ⟨ns, hns, rfl⟩ := hl
  exact ⟨ns, rfl, (parse_spec hsep us).2 ns hns⟩

theorem script_core {opts : List Opt} (hs : sepB opts = true) {t : List Row} (h1 : ∀ o ∈ opts, ∃ r ∈ t, fits r o = true)
    (h2 : ∀ r ∈ t, ∃ o ∈ opts, fits r o = true) (own : List String) (model : List (String × Val) → List (String × Val))
    (conv : Ty → String → Option Val) (us : List Use) :
    ((script opts own (fun kw => some (model kw)) conv us).isSome ↔
      Correct conv us t ∧ ∀ o ∈ opts, o.required = true → ∃ u ∈ us, u.flag ∈ o.flags) ∧
    ∀ pl, script opts own (fun kw => some (model kw)) conv us = some pl → ∃ ns kw, (∀ o ∈ opts, ∃ v, dictGet ns o.dest = some v ∧ OTakes conv o us v) ∧
      (∀ k, k ≠ "verbose" → k ∉ own → dictGet kw k = dictGet ns k) ∧ pl.attrs = model kw ∧ pl.reader = vcrFilter kw ∧
      pl.ivFile = kwarg ns "iv_file" .null ∧ pl.trainList = kwarg ns "train_list" .null ∧ pl.preproc = kwarg ns "preproc_file" .null ∧
      pl.out = kwarg ns "output_path" .null := by
  have hsep := sep_of hs
  have hb := build_some (sep_flags hsep)
  unfold script
  rw [hb, Option.bind_some, ← accepts_of h1 h2]
  constructor
  · rw [← (parse_spec hsep us).1]
    cases parse conv opts us <;> simp
  · intro pl hpl
    rw [Option.bind_eq_some_iff] at hpl
    obtain ⟨ns, hns, hpl⟩ := hpl
    simp only [Option.map_some, Option.some.injEq] at hpl
    subst hpl
    refine ⟨ns, _, (parse_spec hsep us).2 ns hns, fun k hk ho => ?_, rfl, rfl, rfl, rfl, rfl, rfl⟩
    rw [dictGet_filter ns (fun k => decide (k ≠ "verbose") && !own.contains k) k, if_pos]
    simp [hk, ho]

/-! ### The scripts and classes -/

theorem reader_follows {conv : Ty → String → Option Val} {us : List Use} {kw : List (String × Val)}
    (h : ∀ o ∈ vcrOpts, ∃ v, dictGet kw o.dest = some v ∧ OTakes conv o us v) : Follows conv us readerTable (vcrFilter kw) := by
  simp only [vcrOpts, List.forall_mem_cons] at h
  obtain ⟨⟨v1, g1, t1⟩, ⟨v2, g2, t2⟩, ⟨v3, g3, t3⟩, ⟨v4, g4, t4⟩, ⟨v5, g5, t5⟩, ⟨v6, g6, t6⟩, ⟨v7, g7, t7⟩, ⟨v8, g8, t8⟩, ⟨v9, g9, t9⟩, ⟨v10, g10, t10⟩,
    ⟨v11, g11, t11⟩, _⟩ := h
  have e : vcrFilter kw = [("vlist_sep", v1), ("class2int_file", v2), ("min_spc", v3), ("max_spc", v4), ("spc_pruning_mode", v5), ("csplit_min_spc", v6),
      ("csplit_max_spc", v7), ("csplit_mode", v8), ("csplit_overlap", v9), ("csplit_once", v10), ("vcr_seed", v11)] := by
    simp only [vcrFilter, pick, List.filterMap_cons, List.filterMap_nil, g1, g2, g3, g4, g5, g6, g7, g8, g9, g10, g11, Option.map_some]
  rw [e]
  unfold Follows readerTable
  exact .cons ⟨rfl, row_value t1⟩ <| .cons ⟨rfl, row_value t2⟩ <| .cons ⟨rfl, row_value t3⟩ <| .cons ⟨rfl, row_value t4⟩ <| .cons ⟨rfl, row_value t5⟩ <| .cons ⟨rfl, row_value t6⟩ <| .cons ⟨rfl, row_value t7⟩ <| .cons ⟨rfl, row_value t8⟩ <| .cons ⟨rfl, row_value t9⟩ <| .cons ⟨rfl, row_switch id t10⟩ <| .cons ⟨rfl, row_value t11⟩ <| .nil

theorem not_row {conv : Ty → String → Option Val} {us : List Use} {fl : List String} {d a : String} {b c x : Bool} {rq : Bool}
    (h : OTakes conv ⟨fl, d, .const b, .bool c, rq⟩ us (.bool x)) : Row.Takes conv ⟨a, fl, .bool !c, .switch (.bool !b)⟩ us (.bool !x) :=
  row_switch (a := a) (fun v => match v with | .bool b => .bool !b | v => v) h

theorem gbe_follows {conv : Ty → String → Option Val} {us : List Use} {kw : List (String × Val)}
    (h : ∀ o ∈ gbeOpts, ∃ v, dictGet kw o.dest = some v ∧ OTakes conv o us v) : Follows conv us gbeTable (gbeAttrs (gbeFilter kw)) := by
  simp only [gbeOpts, List.forall_mem_cons] at h
  obtain ⟨⟨v1, g1, t1⟩, ⟨v2, g2, t2⟩, ⟨v3, g3, t3⟩, ⟨v4, g4, t4⟩, ⟨v5, g5, t5⟩, ⟨v6, g6, t6⟩, ⟨v7, g7, t7⟩, ⟨v8, g8, t8⟩, ⟨v9, g9, t9⟩, _⟩ := h
  obtain ⟨b1, rfl⟩ := switch_bool t1
  obtain ⟨b2, rfl⟩ := switch_bool t2
  have e : gbeAttrs (gbeFilter kw) = [("update_mu", .bool !b1), ("update_W", .bool !b2), ("balance_class_weight", v3), ("prior", v4), ("prior_beta", v5),
      ("prior_nu", v6), ("post_beta", v7), ("post_nu", v8), ("name", v9)] := by
    unfold gbeFilter
    rw [negate_eq (n := "no_update_mu") (b := b1) (by rw [dictGet_pick]; simpa using g1), negate_eq (n := "no_update_W") (b := b2) (by rw [dictGet_set, dictGet_pick]; simpa using g2)]
    simp [gbeAttrs, kwarg, dictGet_set, dictGet_pick, g3, g4, g5, g6, g7, g8, g9]
  rw [e]
  unfold Follows gbeTable
  exact .cons ⟨rfl, not_row t1⟩ <| .cons ⟨rfl, not_row t2⟩ <| .cons ⟨rfl, row_switch id t3⟩ <| .cons ⟨rfl, row_value t4⟩ <| .cons ⟨rfl, row_value t5⟩ <| .cons ⟨rfl, row_value t6⟩ <| .cons ⟨rfl, row_value t7⟩ <| .cons ⟨rfl, row_value t8⟩ <| .cons ⟨rfl, row_value t9⟩ <| .nil

theorem qs_follows {conv : Ty → String → Option Val} {us : List Use} {kw : List (String × Val)}
    (h : ∀ o ∈ qsOpts, ∃ v, dictGet kw o.dest = some v ∧ OTakes conv o us v) : Follows conv us qsTable (qsAttrs (qsFilter kw)) := by
  simp only [qsOpts, List.forall_mem_cons] at h
  obtain ⟨⟨v1, g1, t1⟩, ⟨v2, g2, t2⟩, ⟨v3, g3, t3⟩, ⟨v4, g4, t4⟩, ⟨v5, g5, t5⟩, _⟩ := h
  have e : qsAttrs (qsFilter kw) = [("balance_class_weight", v1), ("prior", v2), ("prior_N", v3), ("post_N", v4), ("name", v5)] := by
    simp [qsAttrs, qsFilter, kwarg, dictGet_pick, g1, g2, g3, g4, g5]
  rw [e]
  unfold Follows qsTable
  exact .cons ⟨rfl, row_switch id t1⟩ <| .cons ⟨rfl, row_value t2⟩ <| .cons ⟨rfl, row_value t3⟩ <| .cons ⟨rfl, row_value t4⟩ <| .cons ⟨rfl, row_value t5⟩ <| .nil

theorem lr_follows {conv : Ty → String → Option Val} {us : List Use} {kw : List (String × Val)}
    (h : ∀ o ∈ lrOpts, ∃ v, dictGet kw o.dest = some v ∧ OTakes conv o us v) : Follows conv us lrTable (lrAttrs (lrFilter kw)) := by
  simp only [lrOpts, List.forall_mem_cons] at h
  obtain ⟨⟨v1, g1, t1⟩, ⟨v2, g2, t2⟩, ⟨v3, g3, t3⟩, ⟨v4, g4, t4⟩, ⟨v5, g5, t5⟩, ⟨v6, g6, t6⟩, ⟨v7, g7, t7⟩, ⟨v8, g8, t8⟩, ⟨v9, g9, t9⟩, ⟨v10, g10, t10⟩,
    ⟨v11, g11, t11⟩, ⟨v12, g12, t12⟩, ⟨v13, g13, t13⟩, ⟨v14, g14, t14⟩, _⟩ := h
  obtain ⟨b3, rfl⟩ := switch_bool t3
  obtain ⟨b13, rfl⟩ := switch_bool t13
  have e : lrAttrs (lrFilter kw) = [("penalty", v1), ("lambda_reg", v2), ("use_bias", .bool !b3), ("bias_scaling", v4), ("lr_seed", v5), ("solver", v6),
      ("max_iter", v7), ("dual", v8), ("tol", v9), ("multi_class", v10), ("verbose", v11), ("warm_start", .bool !b13), ("num_jobs", v12), ("name", v14)] := by
    unfold lrFilter
    rw [negate_eq (n := "no_use_bias") (b := b3) (by rw [dictGet_pick]; simpa using g3), negate_eq (n := "no_warm_start") (b := b13) (by rw [dictGet_set, dictGet_pick]; simpa using g13)]
    simp [lrAttrs, kwarg, dictGet_set, dictGet_pick, g1, g2, g4, g5, g6, g7, g8, g9, g10, g11, g12, g14]
  rw [e]
  unfold Follows lrTable
  exact .cons ⟨rfl, row_value t1⟩ <| .cons ⟨rfl, row_value t2⟩ <| .cons ⟨rfl, not_row t3⟩ <| .cons ⟨rfl, row_value t4⟩ <| .cons ⟨rfl, row_value t5⟩ <| .cons ⟨rfl, row_value t6⟩ <| .cons ⟨rfl, row_value t7⟩ <| .cons ⟨rfl, row_switch id t8⟩ <| .cons ⟨rfl, row_value t9⟩ <| .cons ⟨rfl, row_value t10⟩ <| .cons ⟨rfl, row_value t11⟩ <| .cons ⟨rfl, not_row t13⟩ <| .cons ⟨rfl, row_value t12⟩ <| .cons ⟨rfl, row_value t14⟩ <| .nil

theorem svm_follows {conv : Ty → String → Option Val} {us : List Use} {kw : List (String × Val)} (hw : dictGet kw "class_weight" = none)
    (h : ∀ o ∈ svmOpts, ∃ v, dictGet kw o.dest = some v ∧ OTakes conv o us v) : Follows conv us svmTable (svmAttrs (svmFilter kw)) := by
  simp only [svmOpts, List.forall_mem_cons] at h
  obtain ⟨⟨v1, g1, t1⟩, ⟨v2, g2, t2⟩, ⟨v3, g3, t3⟩, ⟨v4, g4, t4⟩, ⟨v5, g5, t5⟩, ⟨v6, g6, t6⟩, ⟨v7, g7, t7⟩, ⟨v8, g8, t8⟩, ⟨v9, g9, t9⟩, ⟨v10, g10, t10⟩,
    ⟨v11, g11, t11⟩, ⟨v12, g12, t12⟩, ⟨v13, g13, t13⟩, _⟩ := h
  have e : svmAttrs (svmFilter kw) = [("penalty", v1), ("C", v2), ("loss", v3), ("use_bias", v4), ("bias_scaling", v5), ("lr_seed", v6),
      ("max_iter", v7), ("dual", v8), ("tol", v9), ("multi_class", v10), ("verbose", v11), ("class_weight", classWeight .null v12), ("name", v13)] := by
    simp [svmAttrs, svmFilter, kwarg, dictGet_pick, hw, g1, g2, g3, g4, g5, g6, g7, g8, g9, g10, g11, g12, g13]
  rw [e]
  unfold Follows svmTable
  exact .cons ⟨rfl, row_value t1⟩ <| .cons ⟨rfl, row_value t2⟩ <| .cons ⟨rfl, row_value t3⟩ <| .cons ⟨rfl, row_switch id t4⟩ <| .cons ⟨rfl, row_value t5⟩ <| .cons ⟨rfl, row_value t6⟩ <| .cons ⟨rfl, row_value t7⟩ <| .cons ⟨rfl, row_switch id t8⟩ <| .cons ⟨rfl, row_value t9⟩ <| .cons ⟨rfl, row_value t10⟩ <| .cons ⟨rfl, row_value t11⟩ <| .cons ⟨rfl, row_switch (classWeight .null) t12⟩ <| .cons ⟨rfl, row_value t13⟩ <| .nil


theorem io_follows {conv : Ty → String → Option Val} {us : List Use} {ns : List (String × Val)} {m : List Opt}
    (h : ∀ o ∈ scriptOpts m, ∃ v, dictGet ns o.dest = some v ∧ OTakes conv o us v) :
    ∃ w, Follows conv us ioTable [("iv_file", kwarg ns "iv_file" .null), ("train_list", kwarg ns "train_list" .null),
      ("preproc_file", kwarg ns "preproc_file" .null), ("output_path", kwarg ns "output_path" .null), ("verbose", w)] := by
  unfold scriptOpts at h
  simp only [List.forall_mem_append, List.forall_mem_cons] at h
  obtain ⟨⟨⟨⟨⟨v1, g1, t1⟩, ⟨v2, g2, t2⟩, ⟨v3, g3, t3⟩, _⟩, _⟩, _⟩, ⟨v4, g4, t4⟩, ⟨v5, g5, t5⟩, _⟩ := h
  refine ⟨v5, ?_⟩
  simp only [kwarg, g1, g2, g3, g4, Option.getD_some]
  exact .cons ⟨rfl, row_value t1⟩ <| .cons ⟨rfl, row_value t2⟩ <| .cons ⟨rfl, row_value t3⟩ <| .cons ⟨rfl, row_value t4⟩ <| .cons ⟨rfl, row_value t5⟩ .nil

/-- a name that is no destination is not in the result -/
theorem parse_other {conv : Ty → String → Option Val} {p : List Opt} {us : List Use} {ns : List (String × Val)} {k : String} (h : parse conv p us = some ns)
    (hk : ∀ o ∈ p, o.dest ≠ k) : dictGet ns k = none := by
  have hd : ∀ (l : List Opt) (d : List (String × Val)), (∀ o ∈ l, o.dest ≠ k) → dictGet d k = none →
      dictGet (l.foldl (fun ns o => if (dictGet ns o.dest).isSome then ns else dictSet ns o.dest o.dflt) d) k = none := by
    intro l
    induction l with
    | nil => intro d _ h; exact h
    | cons q l ih =>
      intro d hl h
      rw [List.foldl_cons]
      refine ih _ (fun o ho => hl o (by simp [ho])) ?_
      split
      · exact h
      · rw [dictGet_set, if_neg (hl q (by simp)), h]
  have hu : ∀ (us : List Use) (d d' : List (String × Val)), us.foldlM (useStep conv p) d = some d' → dictGet d k = none → dictGet d' k = none := by
    intro us
    induction us with
    | nil => intro d d' h h'; simp at h; rw [← h]; exact h'
    | cons u us ih =>
      intro d d' h h'
      rw [List.foldlM_cons] at h
      simp only [Option.bind_eq_bind, Option.bind_eq_some_iff] at h
      obtain ⟨d1, h1, h2⟩ := h
      obtain ⟨o, ho, _, v, _, rfl⟩ := step_some h1
      exact ih _ _ h2 (by rw [dictGet_set, if_neg (hk o ho), h'])
  unfold parse at h
  rw [Option.bind_eq_some_iff] at h
  obtain ⟨ns', h1, h2⟩ := h
  split at h2
  · simp only [Option.some.injEq] at h2
    subst h2
    exact hu us _ _ h1 (hd p [] hk rfl)
  · simp at h2

theorem swapNeg_eq {d : List (String × Val)} {a b' : String} {b : Bool} (h : dictGet d a = some (.bool b)) :
    swapNeg d (a, b') = some ((dictSet d b' (.bool !b)).filter (fun p => decide (p.1 ≠ a))) := by
  unfold swapNeg; dsimp only; rw [h]

theorem swapGet (d : List (String × Val)) (a b' k : String) (v : Val) :
    dictGet ((dictSet d b' v).filter (fun p => decide (p.1 ≠ a))) k = if k = a then none else if b' = k then some v else dictGet d k := by
  rw [dictGet_filter _ (fun k => decide (k ≠ a)), dictGet_set]
  by_cases h : k = a <;> simp [h]

/-- **C154**: `train-linear-gbe.py`: a command line is accepted exactly when each option is known and used correctly and the three required files
are given; then reader, model and files are what the tables say, the last use of an option counting. -/
theorem C154_gbe (conv : Ty → String → Option Val) (us : List Use) :
    ((trainGbe conv us).isSome ↔ Correct conv us (ioTable ++ readerTable ++ gbeTable) ∧
      ∀ f ∈ ["--iv-file", "--train-list", "--output-path"], ∃ u ∈ us, u.flag = f) ∧
    ∀ pl, trainGbe conv us = some pl → Follows conv us readerTable pl.reader ∧ Follows conv us gbeTable pl.attrs ∧
      ∃ w, Follows conv us ioTable [("iv_file", pl.ivFile), ("train_list", pl.trainList), ("preproc_file", pl.preproc), ("output_path", pl.out), ("verbose", w)] := by
  obtain ⟨h1, h2⟩ := script_core (opts := scriptOpts gbeOpts) (t := ioTable ++ readerTable ++ gbeTable) (by decide +kernel) (by decide +kernel) (by decide +kernel)
    ownArgs (fun kw => gbeAttrs (gbeFilter kw)) conv us
  constructor
  · refine h1.trans (and_congr_right fun _ => ?_)
    simp [scriptOpts, vcrOpts, gbeOpts]
  · intro pl hpl
    obtain ⟨ns, kw, ho, hk, ha, hr, hi, ht, hp, hout⟩ := h2 pl hpl
    rw [ha, hr, hi, ht, hp, hout]
    refine ⟨reader_follows fun o hm => ?_, gbe_follows fun o hm => ?_, ?_⟩
    · have hd : ∀ o ∈ vcrOpts, o.dest ≠ "verbose" ∧ o.dest ∉ ownArgs := by decide +kernel
      rw [hk _ (hd o hm).1 (hd o hm).2]
      exact ho o (by unfold scriptOpts; simp only [List.mem_append]; exact .inl (.inl (.inr hm)))
    · have hd : ∀ o ∈ gbeOpts, o.dest ≠ "verbose" ∧ o.dest ∉ ownArgs := by decide +kernel
      rw [hk _ (hd o hm).1 (hd o hm).2]
      exact ho o (by unfold scriptOpts; simp only [List.mem_append]; exact .inl (.inr hm))
    · exact io_follows ho

/-- **C154**: the same for `train-q-scoring-homo-gbe.py` -/
theorem C154_qs (conv : Ty → String → Option Val) (us : List Use) :
    ((trainQs conv us).isSome ↔ Correct conv us (ioTable ++ readerTable ++ qsTable) ∧
      ∀ f ∈ ["--iv-file", "--train-list", "--output-path"], ∃ u ∈ us, u.flag = f) ∧
    ∀ pl, trainQs conv us = some pl → Follows conv us readerTable pl.reader ∧ Follows conv us qsTable pl.attrs ∧
      ∃ w, Follows conv us ioTable [("iv_file", pl.ivFile), ("train_list", pl.trainList), ("preproc_file", pl.preproc), ("output_path", pl.out), ("verbose", w)] := by
  obtain ⟨h1, h2⟩ := script_core (opts := scriptOpts qsOpts) (t := ioTable ++ readerTable ++ qsTable) (by decide +kernel) (by decide +kernel) (by decide +kernel)
    ownArgs (fun kw => qsAttrs (qsFilter kw)) conv us
  constructor
  · refine h1.trans (and_congr_right fun _ => ?_)
    simp [scriptOpts, vcrOpts, qsOpts]
  · intro pl hpl
    obtain ⟨ns, kw, ho, hk, ha, hr, hi, ht, hp, hout⟩ := h2 pl hpl
    rw [ha, hr, hi, ht, hp, hout]
    refine ⟨reader_follows fun o hm => ?_, qs_follows fun o hm => ?_, ?_⟩
    · have hd : ∀ o ∈ vcrOpts, o.dest ≠ "verbose" ∧ o.dest ∉ ownArgs := by decide +kernel
      rw [hk _ (hd o hm).1 (hd o hm).2]
      exact ho o (by unfold scriptOpts; simp only [List.mem_append]; exact .inl (.inl (.inr hm)))
    · have hd : ∀ o ∈ qsOpts, o.dest ≠ "verbose" ∧ o.dest ∉ ownArgs := by decide +kernel
      rw [hk _ (hd o hm).1 (hd o hm).2]
      exact ho o (by unfold scriptOpts; simp only [List.mem_append]; exact .inl (.inr hm))
    · exact io_follows ho

/-- **C154**: a parser with the options of logistic regression only -/
theorem C154_lr (conv : Ty → String → Option Val) (us : List Use) :
    ((classAttrs lrOpts (fun kw => lrAttrs (lrFilter kw)) conv us).isSome ↔ Correct conv us lrTable) ∧
    ∀ l, classAttrs lrOpts (fun kw => lrAttrs (lrFilter kw)) conv us = some l → Follows conv us lrTable l := by
  obtain ⟨h1, h2⟩ := class_core (opts := lrOpts) (t := lrTable) (by decide +kernel) (by decide +kernel) (by decide +kernel)
    (fun kw => lrAttrs (lrFilter kw)) conv us
  refine ⟨h1.trans (and_iff_left ?_), fun l hl => ?_⟩
  · simp [lrOpts]
  · obtain ⟨ns, rfl, h⟩ := h2 l hl
    exact lr_follows h

/-- **C154**: a parser with the options of the linear SVM only -/
theorem C154_svm (conv : Ty → String → Option Val) (us : List Use) :
    ((classAttrs svmOpts (fun kw => svmAttrs (svmFilter kw)) conv us).isSome ↔ Correct conv us svmTable) ∧
    ∀ l, classAttrs svmOpts (fun kw => svmAttrs (svmFilter kw)) conv us = some l → Follows conv us svmTable l := by
  obtain ⟨h1, h2⟩ := class_core (opts := svmOpts) (t := svmTable) (by decide +kernel) (by decide +kernel) (by decide +kernel)
    (fun kw => svmAttrs (svmFilter kw)) conv us
  refine ⟨h1.trans (and_iff_left ?_), fun l hl => ?_⟩
  · simp [svmOpts]
  · unfold classAttrs at hl
    rw [build_some (sep_flags (sep_of (by decide +kernel)))] at hl
    simp only [Option.bind_some, Option.map_eq_some_iff] at hl
    obtain ⟨ns, hns, rfl⟩ := hl
    exact svm_follows (parse_other hns (by decide +kernel)) ((parse_spec (sep_of (by decide +kernel)) us).2 ns hns)

/-- **C154**: the scripts for logistic regression and the linear SVM stop with an error for every command line: the class and the script both
define `--verbose` -/
theorem C154_verbose_conflict (conv : Ty → String → Option Val) (us : List Use) : trainLr conv us = none ∧ trainSvm conv us = none := by
  have h1 : build (scriptOpts lrOpts) = none := by decide +kernel
  have h2 : build (scriptOpts svmOpts) = none := by decide +kernel
  unfold trainLr trainSvm script
  rw [h1, h2]; exact ⟨rfl, rfl⟩

/-- **C154**: `train-plda.py` stops with an error for every command line -/
theorem C154_plda_always_raises (conv : Ty → String → Option Val) (us : List Use) : trainPlda none conv us = none := by
  unfold trainPlda script
  cases build pldaScriptOpts with
  | none => rfl
  | some p =>
    simp only [Option.bind_some]
    cases parse conv p us with
    | none => rfl
    | some ns => simp [pldaFilter]

/-- the options of `train-plda.py` for the factory -/
def pldaTable : List Row :=
  [⟨"plda_type", ["--plda-type"], .str "splda", .value .str (some [.str "frplda", .str "splda", .str "plda"])⟩,
   ⟨"y_dim", ["--y-dim"], .int 150, .value .int none⟩,
   ⟨"z_dim", ["--z-dim"], .int 400, .value .int none⟩,
   ⟨"update_mu", ["--no-update-mu"], .bool true, .switch (.bool false)⟩,
   ⟨"update_V", ["--no-update-V"], .bool true, .switch (.bool false)⟩,
   ⟨"update_U", ["--no-update-U"], .bool true, .switch (.bool false)⟩,
   ⟨"update_B", ["--no-update-B"], .bool true, .switch (.bool false)⟩,
   ⟨"update_W", ["--no-update-w"], .bool true, .switch (.bool false)⟩,
   ⟨"update_D", ["--no-update-d"], .bool true, .switch (.bool false)⟩,
   ⟨"floor_iD", ["--floor-id"], .dec 1 5, .value .float none⟩,
   ⟨"name", ["--name"], .str "plda", .value .str none⟩]

/-- **C154**: with the name that the code misspells (`neg_args1`), `train-plda.py` follows its table — but `--diag-W` is a switch that stores the
default, so the covariance is full for every command line -/
theorem C154_plda_intended (conv : Ty → String → Option Val) (us : List Use) (pl : Plan)
    (h : trainPlda (some ["diag_W", "no_update_mu", "no_update_V", "no_update_U", "no_update_B", "no_update_W", "no_update_D"]) conv us = some pl) :
    Follows conv us readerTable pl.reader ∧ (∀ r ∈ pldaTable, ∃ v, dictGet pl.attrs r.attr = some v ∧ r.Takes conv us v) ∧
      dictGet pl.attrs "fullcov_W" = some (.bool true) := by
  have hs : sepB pldaScriptOpts = true := by decide +kernel
  have hsep := sep_of hs
  unfold trainPlda script at h
  rw [build_some (sep_flags hsep), Option.bind_some, Option.bind_eq_some_iff] at h
  obtain ⟨ns, hns, h⟩ := h
  have ho := (parse_spec hsep us).2 ns hns
  have hk : ∀ k, k ≠ "verbose" → k ∉ ownArgs ++ ["val_list", "epochs", "ml_md", "md_epochs"] →
      dictGet (ns.filter (fun q => decide (q.1 ≠ "verbose") && !(ownArgs ++ ["val_list", "epochs", "ml_md", "md_epochs"]).contains q.1)) k = dictGet ns k := by
    intro k h1 h2
    rw [dictGet_filter ns (fun k => decide (k ≠ "verbose") && !(ownArgs ++ ["val_list", "epochs", "ml_md", "md_epochs"]).contains k) k, if_pos]
    simp only [Bool.and_eq_true, decide_eq_true_eq, Bool.not_eq_true']
    exact ⟨h1, by simpa using h2⟩
  dsimp only at h
  generalize ns.filter (fun q => decide (q.1 ≠ "verbose") && !(ownArgs ++ ["val_list", "epochs", "ml_md", "md_epochs"]).contains q.1) = kw at h hk
  rw [Option.map_eq_some_iff] at h
  obtain ⟨a, ha, rfl⟩ := h
  refine ⟨reader_follows fun o hm => ?_, ?_⟩
  · have hd : ∀ o ∈ vcrOpts, o.dest ≠ "verbose" ∧ o.dest ∉ ownArgs ++ ["val_list", "epochs", "ml_md", "md_epochs"] := by decide +kernel
    rw [hk _ (hd o hm).1 (hd o hm).2]
    exact ho o (by unfold pldaScriptOpts; simp only [List.mem_append]; exact .inl (.inl (.inr hm)))
  · have hg : ∀ o ∈ pldaOpts, o.dest ∉ ["epochs", "ml_md", "md_epochs"] → ∃ v, dictGet kw o.dest = some v ∧ OTakes conv o us v := by
      intro o hm hn
      have hd : ∀ o ∈ pldaOpts, o.dest ∉ ["epochs", "ml_md", "md_epochs"] → o.dest ≠ "verbose" ∧ o.dest ∉ ownArgs ++ ["val_list", "epochs", "ml_md", "md_epochs"] := by
        decide +kernel
      rw [hk _ (hd o hm hn).1 (hd o hm hn).2]
      exact ho o (by unfold pldaScriptOpts; simp only [List.mem_append]; exact .inl (.inr hm))
    simp only [pldaOpts, List.forall_mem_cons] at hg
    obtain ⟨h1, h2, h3, h4, h5, h6, h7, h8, h9, h10, h11, _, _, _, h15, _⟩ := hg
    obtain ⟨v1, g1, t1⟩ := h1 (by decide)
    obtain ⟨v2, g2, t2⟩ := h2 (by decide)
    obtain ⟨v3, g3, t3⟩ := h3 (by decide)
    obtain ⟨v4, g4, t4⟩ := h4 (by decide)
    obtain ⟨v5, g5, t5⟩ := h5 (by decide)
    obtain ⟨v6, g6, t6⟩ := h6 (by decide)
    obtain ⟨v7, g7, t7⟩ := h7 (by decide)
    obtain ⟨v8, g8, t8⟩ := h8 (by decide)
    obtain ⟨v9, g9, t9⟩ := h9 (by decide)
    obtain ⟨v10, g10, t10⟩ := h10 (by decide)
    obtain ⟨v11, g11, t11⟩ := h11 (by decide)
    obtain ⟨v15, g15, t15⟩ := h15 (by decide)
    have e4 : v4 = .bool false := by
      rcases t4 with ⟨_, rfl⟩ | ⟨_, _, _, _, _, h3, _⟩
      · rfl
      · exact (useVal_switch.1 h3).2
    subst e4
    obtain ⟨b5, rfl⟩ := switch_bool t5
    obtain ⟨b6, rfl⟩ := switch_bool t6
    obtain ⟨b7, rfl⟩ := switch_bool t7
    obtain ⟨b8, rfl⟩ := switch_bool t8
    obtain ⟨b9, rfl⟩ := switch_bool t9
    obtain ⟨b10, rfl⟩ := switch_bool t10
    unfold pldaFilter at ha
    simp only [Option.bind_some, List.zip_cons_cons, List.zip_nil_left, List.foldlM_cons, List.foldlM_nil, Option.bind_eq_bind] at ha
    rw [swapNeg_eq (b := false) (by rw [dictGet_pick]; simpa using g4), Option.bind_some,
      swapNeg_eq (b := b5) (by rw [swapGet, dictGet_pick]; simpa using g5), Option.bind_some,
      swapNeg_eq (b := b6) (by rw [swapGet, swapGet, dictGet_pick]; simpa using g6), Option.bind_some,
      swapNeg_eq (b := b7) (by rw [swapGet, swapGet, swapGet, dictGet_pick]; simpa using g7), Option.bind_some,
      swapNeg_eq (b := b8) (by rw [swapGet, swapGet, swapGet, swapGet, dictGet_pick]; simpa using g8), Option.bind_some,
      swapNeg_eq (b := b9) (by rw [swapGet, swapGet, swapGet, swapGet, swapGet, dictGet_pick]; simpa using g9), Option.bind_some,
      swapNeg_eq (b := b10) (by rw [swapGet, swapGet, swapGet, swapGet, swapGet, swapGet, dictGet_pick]; simpa using g10), Option.bind_some] at ha
    have ha := Option.some.inj ha
    subst ha
    constructor
    · simp only [pldaTable, List.forall_mem_cons]
      refine ⟨⟨v1, ?_, row_value t1⟩, ⟨v2, ?_, row_value t2⟩, ⟨v3, ?_, row_value t3⟩, ⟨.bool !b5, ?_, not_row t5⟩, ⟨.bool !b6, ?_, not_row t6⟩,
        ⟨.bool !b7, ?_, not_row t7⟩, ⟨.bool !b8, ?_, not_row t8⟩, ⟨.bool !b9, ?_, not_row t9⟩, ⟨.bool !b10, ?_, not_row t10⟩, ⟨v11, ?_, row_value t11⟩,
        ⟨v15, ?_, row_value t15⟩, by simp⟩ <;> simp only [swapGet, dictGet_pick] <;> simp [g1, g2, g3, g11, g15]
    · simp only [swapGet]; simp

/-- a conversion of arguments for examples: texts, and the digit strings "4" and "16" -/
def exConv : Ty → String → Option Val
  | .str, s => some (.str s)
  | .lower, s => some (.str s)
  | .int, s => if s = "4" then some (.int 4) else if s = "2" then some (.int 2) else none
  | .float, s => if s = "4" then some (.int 4) else none
  | .many, _ => none
  | .bool, s => if s = "yes" then some (.bool true) else if s = "no" then some (.bool false) else none
  | .truth, s => some (.bool (decide (s ≠ "")))
  | .words, s => some (.strs [s])
  | .autoInt, s => if s = "auto" then some (.str "auto") else if s = "4" then some (.int 4) else none

/-- a command line with the required files, an option given twice and a switch: the last use of `--prior-beta` counts -/
example : (trainGbe exConv [⟨"--iv-file", some "iv"⟩, ⟨"--train-list", some "l"⟩, ⟨"--no-update-mu", none⟩, ⟨"--prior", some "p.h5"⟩,
    ⟨"--output-path", some "o.h5"⟩, ⟨"--prior", some "q.h5"⟩, ⟨"--prior-beta", some "4"⟩]).map (fun pl => pl.attrs.take 5) =
    some [("update_mu", .bool false), ("update_W", .bool true), ("balance_class_weight", .bool false), ("prior", .str "q.h5"), ("prior_beta", .int 4)] := by
  decide +kernel

/-- a missing required file, an unknown option and a bad argument -/
example : trainGbe exConv [⟨"--iv-file", some "iv"⟩, ⟨"--train-list", some "l"⟩] = none ∧
    trainQs exConv [⟨"--iv-file", some "iv"⟩, ⟨"--train-list", some "l"⟩, ⟨"--output-path", some "o.h5"⟩, ⟨"--no-update-mu", none⟩] = none ∧
    trainQs exConv [⟨"--iv-file", some "iv"⟩, ⟨"--train-list", some "l"⟩, ⟨"--output-path", some "o.h5"⟩, ⟨"--verbose", some "4"⟩] = none ∧
    (trainQs exConv [⟨"--iv-file", some "iv"⟩, ⟨"--train-list", some "l"⟩, ⟨"--output-path", some "o.h5"⟩, ⟨"--verbose", some "2"⟩]).isSome := by
  decide +kernel

/-- the classes for logistic regression and SVM accept command lines by themselves, and the intended PLDA script too -/
example : ((classAttrs lrOpts (fun kw => lrAttrs (lrFilter kw)) exConv [⟨"--no-use-bias", none⟩, ⟨"--solver", some "sag"⟩]).map (fun l => l.take 3) =
      some [("penalty", .str "l2"), ("lambda_reg", .dec 1 5), ("use_bias", .bool false)]) ∧
    ((classAttrs svmOpts (fun kw => svmAttrs (svmFilter kw)) exConv [⟨"--balance-class-weight", none⟩]).map (fun l => l.getLast?.map Prod.fst) = some (some "name")) ∧
    (trainPlda (some ["diag_W", "no_update_mu", "no_update_V", "no_update_U", "no_update_B", "no_update_W", "no_update_D"]) exConv
      [⟨"--iv-file", some "iv"⟩, ⟨"--train-list", some "l"⟩, ⟨"--output-path", some "o.h5"⟩, ⟨"--diag-W", none⟩]).isSome := by
  decide +kernel

end Hyp.Cli
