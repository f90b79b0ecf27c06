import Verif.Persist.Model
import Verif.H5.Lemmas
import Verif.NpLemmas
import Verif.TextLemmas

/-! Lemmas on the saving and loading of models. -/

namespace Hyp.Persist
open Hyp.Text Hyp.H5

theorem components_ne_nil (k : Str) : components k ≠ [] := by
  cases k with
  | nil => simp [components]
  | cons c cs =>
    simp only [components]
    split
    · simp
    · split <;> simp

theorem components_append (a b : Str) : components (a ++ '/' :: b) = components a ++ components b := by
  induction a with
  | nil => simp [components]
  | cons c cs ih =>
    simp only [List.cons_append, components, ih]
    by_cases hc : c = '/'
    · simp [hc]
    · simp only [if_neg hc]
      rcases h : components cs with _ | ⟨x, xs⟩
      · exact absurd h (components_ne_nil cs)
      · rfl

theorem h5path_append (a b : Str) : h5path (a ++ '/' :: b) = h5path a ++ h5path b := by
  simp [h5path, components_append]

theorem key_noslash (p : P) : '/' ∉ p.key := by cases p <;> decide

theorem key_ne_nil (p : P) : p.key ≠ [] := by cases p <;> decide

theorem key_ne_dot (p : P) : p.key ≠ ['.'] := by cases p <;> decide

theorem key_ne_config (p : P) : p.key ≠ configKey := by cases p <;> decide

/-- decoding of a parameter name. -/
def ofKey (k : Str) : Option P :=
  [P.mu, .T, .s, .U, .r, .B, .W, .V, .D, .beta, .nu, .N, .A, .b, .pi, .Lambda, .mu1, .mu2, .sigma2, .Sb, .Sw,
    .numClasses].find? (fun p => p.key == k)

theorem ofKey_key (p : P) : ofKey p.key = some p := by cases p <;> decide

theorem key_inj {p q : P} (h : p.key = q.key) : p = q := by
  have := ofKey_key p
  rw [h, ofKey_key q] at this
  exact (Option.some.inj this).symm

/-- the group of the parameters of a model of this name. -/
def base : Option Str → List Str
  | none => []
  | some n => h5path n

theorem h5path_key (p : P) : h5path p.key = [p.key] := by
  simp [h5path, components_noslash (key_noslash p), key_ne_nil p]

theorem path_par (n : Option Str) (p : P) : h5path (prefixOf n ++ p.key) = base n ++ [p.key] := by
  cases n with
  | none => simp [prefixOf, base, h5path_key]
  | some n => simp [prefixOf, base, h5path_append, h5path_key]

theorem path_config : h5path configKey = [configKey] := by decide

/-- the name has a component `.` -/
def DotFree : Option Str → Prop
  | none => True
  | some n => ['.'] ∉ components n

theorem odd_par (n : Option Str) (p : P) : oddKey (prefixOf n ++ p.key) = false ↔ DotFree n := by
  have h1 := components_noslash (key_noslash p)
  have h2 := key_ne_nil p
  have h3 := key_ne_dot p
  cases n with
  | none => simp [prefixOf, DotFree, oddKey, h1, h2, Ne.symm h3]
  | some n =>
    simp [prefixOf, DotFree, oddKey, components_append, h1, h2, Ne.symm h3]

/-- two names that cannot be in one file. -/
def Clash (p q : List Str) : Prop := p <+: q ∨ q <+: p

theorem create_some {f g : File} {e : Str × DS} :
    create f e = some g ↔ g = f ++ [(h5path e.1, e.2)] ∧ oddKey e.1 = false ∧ h5path e.1 ≠ [] ∧
      ∀ x ∈ f, ¬ Clash x.1 (h5path e.1) := by
  unfold create
  split
  · rename_i h
    simp only [Bool.or_eq_true, beq_iff_eq, List.any_eq_true, List.isPrefixOf_iff_prefix] at h
    constructor
    · intro h'; cases h'
    · rintro ⟨-, h1, h2, h3⟩
      rcases h with (h | h) | ⟨x, hx, h⟩
      · rw [h1] at h; cases h
      · exact absurd h h2
      · exact absurd h (h3 x hx)
  · rename_i h
    simp only [Bool.or_eq_true, beq_iff_eq, List.any_eq_true, List.isPrefixOf_iff_prefix, not_or, not_exists, not_and] at h
    constructor
    · intro h'
      refine ⟨(Option.some.inj h').symm, by simpa using h.1.1, h.1.2, fun x hx hc => ?_⟩
      rcases hc with hc | hc
      · exact (h.2 x hx).1 hc
      · exact (h.2 x hx).2 hc
    · rintro ⟨rfl, -⟩; rfl

theorem createAll_some (es : List (Str × DS)) : ∀ {f g : File},
    es.foldlM create f = some g ↔ g = f ++ es.map (fun e => (h5path e.1, e.2)) ∧
      (∀ e ∈ es, oddKey e.1 = false ∧ h5path e.1 ≠ []) ∧ (∀ x ∈ f, ∀ e ∈ es, ¬ Clash x.1 (h5path e.1)) ∧
      es.Pairwise (fun a b => ¬ Clash (h5path a.1) (h5path b.1)) := by
  induction es with
  | nil =>
    intro f g
    simp only [List.foldlM_nil, List.map_nil, List.append_nil]
    constructor
    · intro h; exact ⟨(Option.some.inj h).symm, by simp, by simp, by simp⟩
    · rintro ⟨rfl, -⟩; rfl
  | cons e es ih =>
    intro f g
    simp only [List.foldlM_cons, Option.bind_eq_bind, Option.bind_eq_some_iff, create_some, ih]
    constructor
    · rintro ⟨f1, ⟨rfl, h1, h2, h3⟩, rfl, h4, h5, h6⟩
      refine ⟨by simp, ?_, ?_, ?_⟩
      · intro x hx
        rcases List.mem_cons.1 hx with rfl | hx
        · exact ⟨h1, h2⟩
        · exact h4 x hx
      · intro x hx y hy
        rcases List.mem_cons.1 hy with rfl | hy
        · exact h3 x hx
        · exact h5 x (by simp [hx]) y hy
      · refine List.pairwise_cons.2 ⟨fun y hy => ?_, h6⟩
        exact h5 (h5path e.1, e.2) (by simp) y hy
    · rintro ⟨rfl, h1, h2, h3⟩
      have h3' := List.pairwise_cons.1 h3
      refine ⟨_, ⟨rfl, (h1 e (by simp)).1, (h1 e (by simp)).2, fun x hx => h2 x hx e (by simp)⟩, by simp, ?_, ?_, h3'.2⟩
      · exact fun x hx => h1 x (by simp [hx])
      · intro x hx y hy
        rcases List.mem_append.1 hx with hx | hx
        · exact h2 x hx y (by simp [hy])
        · rcases List.mem_singleton.1 hx with rfl
          exact h3'.1 y hy

theorem clash_par {b : List Str} {p q : P} : Clash (b ++ [p.key]) (b ++ [q.key]) ↔ p = q := by
  constructor
  · rintro (h | h)
    · have := (List.prefix_append_right_inj b).1 h
      simp only [List.cons_prefix_cons] at this
      exact key_inj this.1
    · have := (List.prefix_append_right_inj b).1 h
      simp only [List.cons_prefix_cons] at this
      exact key_inj this.1.symm
  · rintro rfl; exact Or.inl (List.prefix_refl _)

theorem clash_config {b : List Str} {p : P} : Clash [configKey] (b ++ [p.key]) ↔ b.head? = some configKey := by
  have hk := key_ne_config p
  cases b with
  | nil => simp [Clash, List.cons_prefix_cons, Ne.symm hk, hk]
  | cons x xs =>
    simp only [Clash, List.cons_append, List.cons_prefix_cons, List.nil_prefix, and_true, List.head?_cons,
      Option.some.injEq, List.prefix_nil, List.append_eq_nil_iff]
    constructor
    · rintro (h | h)
      · exact h.symm
      · exact absurd h.2.2 (by simp)
    · intro h; exact Or.inl h.symm

theorem config_notOdd : oddKey configKey = false := by decide

theorem create_config (c : DS) : create [] (configKey, c) = some [([configKey], c)] := by
  rw [create_some]
  refine ⟨by simp [path_config], config_notOdd, by simp [path_config], by simp⟩

theorem parSets_map (rd : ℚ → ℚ) (o : Obj) :
    (parSets rd o).map (fun e => (h5path e.1, e.2)) =
      (desc o.cls).pars.filterMap (fun p => (o.par p).map (fun a => (base o.name ++ [p.key], DS.arr (a.round rd)))) := by
  simp only [parSets, List.map_filterMap]
  refine congrArg (fun g => List.filterMap g _) (funext fun p => ?_)
  cases o.par p with
  | none => rfl
  | some a => simp [path_par]

theorem mem_parSets {rd : ℚ → ℚ} {o : Obj} {e : Str × DS} :
    e ∈ parSets rd o ↔ ∃ p ∈ (desc o.cls).pars, ∃ a, o.par p = some a ∧ e = (prefixOf o.name ++ p.key, DS.arr (a.round rd)) := by
  simp only [parSets, List.mem_filterMap, Option.map_eq_some_iff]
  constructor
  · rintro ⟨p, hp, a, ha, rfl⟩; exact ⟨p, hp, a, ha, rfl⟩
  · rintro ⟨p, hp, a, ha, rfl⟩; exact ⟨p, hp, a, ha, rfl⟩

theorem pars_nodup (k : Cls) : (desc k).pars.Nodup := by cases k <;> decide

theorem loadPars_eq (k : Cls) : (desc k).loadPars = (desc k).pars := by cases k <;> rfl

theorem parSets_pairwise (rd : ℚ → ℚ) (o : Obj) :
    (parSets rd o).Pairwise (fun a b => ¬ Clash (h5path a.1) (h5path b.1)) := by
  rw [parSets, List.pairwise_filterMap]
  refine (pars_nodup o.cls).imp ?_
  intro p q hpq x hx y hy
  obtain ⟨a, -, rfl⟩ := Option.map_eq_some_iff.1 hx
  obtain ⟨b, -, rfl⟩ := Option.map_eq_some_iff.1 hy
  simp only [path_par, clash_par]
  exact hpq

/-- the file of a model. -/
theorem save_some {rd : ℚ → ℚ} {path : Str} {o : Obj} {f : File} :
    save rd path o = some f ↔ '/' ∈ path ∧ (desc o.cls).cfgRaises = false ∧
      ((∃ p ∈ (desc o.cls).pars, o.par p ≠ none) → DotFree o.name ∧ (base o.name).head? ≠ some configKey) ∧
      f = ([configKey], DS.cfg ⟨o.cls, o.name, (desc o.cls).cfg.map (fun e => (e.1, (o.opt e.2).json))⟩) ::
        (desc o.cls).pars.filterMap (fun p => (o.par p).map (fun a => (base o.name ++ [p.key], DS.arr (a.round rd)))) := by
  unfold save
  by_cases hp : '/' ∈ path
  swap
  · rw [if_neg hp]; simp [hp]
  rw [if_pos hp]
  unfold config
  cases hc : (desc o.cls).cfgRaises
  swap
  · simp
  simp only [Bool.false_eq_true, if_false, Option.bind_eq_bind, Option.bind_some, create_config, saveParams,
    createAll_some, parSets_map]
  constructor
  · rintro ⟨rfl, h1, h2, -⟩
    refine ⟨hp, trivial, ?_, rfl⟩
    rintro ⟨p, hp, hne⟩
    obtain ⟨a, ha⟩ := Option.ne_none_iff_exists'.1 hne
    have hm : (prefixOf o.name ++ p.key, DS.arr (a.round rd)) ∈ parSets rd o := mem_parSets.2 ⟨p, hp, a, ha, rfl⟩
    refine ⟨(odd_par _ _).1 (h1 _ hm).1, ?_⟩
    have := h2 _ (List.mem_singleton.2 rfl) _ hm
    simp only [path_par, clash_config] at this
    exact this
  · rintro ⟨-, -, h1, rfl⟩
    refine ⟨rfl, ?_, ?_, parSets_pairwise rd o⟩
    · intro e he
      obtain ⟨p, hp, a, ha, rfl⟩ := mem_parSets.1 he
      exact ⟨(odd_par _ _).2 (h1 ⟨p, hp, by simp [ha]⟩).1, by simp [path_par]⟩
    · intro x hx e he
      rcases List.mem_singleton.1 hx with rfl
      obtain ⟨p, hp, a, ha, rfl⟩ := mem_parSets.1 he
      simp only [path_par, clash_config]
      exact (h1 ⟨p, hp, by simp [ha]⟩).2

/-- reading a dataset of a list of datasets with different names. -/
theorem lookup_mem {α β : Type} [BEq α] [LawfulBEq α] {l : List (α × β)} (hn : (l.map (·.1)).Nodup) {k : α} {v : β} :
    l.lookup k = some v ↔ (k, v) ∈ l := by
  induction l with
  | nil => simp
  | cons e l ih =>
    obtain ⟨a, b⟩ := e
    simp only [List.map_cons, List.nodup_cons] at hn
    by_cases hk : k = a
    · subst hk
      simp only [List.lookup_cons_self, Option.some.injEq, List.mem_cons, Prod.mk.injEq, true_and]
      constructor
      · rintro rfl; exact Or.inl rfl
      · rintro (h | h)
        · exact h.symm
        · exact absurd (List.mem_map.2 ⟨_, h, rfl⟩) hn.1
    · rw [List.lookup_cons, beq_false_of_ne hk]
      simp [ih hn.2, hk]

theorem lookup_none {α β : Type} [BEq α] [LawfulBEq α] {l : List (α × β)} {k : α} :
    l.lookup k = none ↔ ∀ e ∈ l, e.1 ≠ k := by
  rw [List.lookup_eq_none_iff]
  constructor
  · intro h e he e'; exact absurd e'.symm (by simpa using h e he)
  · intro h e he; simpa using fun e' => h e he (Eq.symm e')

theorem lookup_map {α β γ : Type} [BEq α] [LawfulBEq α] (l : List (α × β)) (g : β → γ) (k : α) :
    (l.map (fun e => (e.1, g e.2))).lookup k = (l.lookup k).map g := by
  induction l with
  | nil => rfl
  | cons e l ih =>
    obtain ⟨a, b⟩ := e
    by_cases hk : k = a
    · subst hk; simp
    · simp only [List.map_cons, List.lookup_cons, beq_false_of_ne hk, ih]

/-- arguments taken one by one. -/
theorem lookup_passed {passed : List (Nm × Nm)} {opts args : List (Nm × Opt)}
    (h : passed.mapM (fun e => (opts.lookup e.2).map (fun v => (e.1, v))) = some args) (n : Nm) :
    args.lookup n = (passed.lookup n).bind (fun k => opts.lookup k) := by
  rw [mapM_eq_some_iff] at h
  induction passed generalizing args with
  | nil => cases args with
    | nil => rfl
    | cons a as => simp at h
  | cons e l ih =>
    cases args with
    | nil => simp at h
    | cons a as =>
      simp only [List.map_cons, List.cons.injEq] at h
      obtain ⟨h1, h2⟩ := h
      obtain ⟨v, hv, rfl⟩ := Option.map_eq_some_iff.1 h1
      obtain ⟨x, y⟩ := e
      by_cases hk : n = x
      · subst hk; simpa using hv.symm
      · simp only [List.lookup_cons, beq_false_of_ne hk, ih h2]

/-- parameters read one by one. -/
theorem lookup_loaded {f : File} {nm : Option Str} {l : List P} {ps : List (P × Arr)}
    (h : l.mapM (loadPar f nm) = some ps) (p : P) :
    ps.lookup p = if p ∈ l then (get f (prefixOf nm ++ p.key)).bind DS.arr? else none := by
  rw [mapM_eq_some_iff] at h
  induction l generalizing ps with
  | nil => cases ps with
    | nil => rfl
    | cons a as => simp at h
  | cons e l ih =>
    cases ps with
    | nil => simp at h
    | cons a as =>
      simp only [List.map_cons, List.cons.injEq] at h
      obtain ⟨h1, h2⟩ := h
      have h3 := h1
      simp only [loadPar, Option.bind_eq_bind, Option.bind_eq_some_iff] at h3
      obtain ⟨d, hd, x, hx, hx2⟩ := h3
      cases hx2
      by_cases hk : p = e
      · subst hk; simp [hd, hx]
      · simp only [List.lookup_cons, beq_false_of_ne hk, ih h2, List.mem_cons, hk, false_or]

/-! ### loading -/

/-- the attribute from which `load_params` gets an argument. -/
def argSrc (d : Desc) (n : Nm) : Option Nm :=
  if d.kwargs then d.cfg.lookup n else (d.passed.lookup n).bind (fun k => d.cfg.lookup k)

/-- every argument is in the document. -/
def argsOk (d : Desc) : Bool := d.kwargs || d.passed.all (fun e => (d.cfg.lookup e.2).isSome)

/-- the document of a model. -/
def docOf (o : Obj) : Cfg := ⟨o.cls, o.name, (desc o.cls).cfg.map (fun e => (e.1, (o.opt e.2).json))⟩

theorem loadArgs_doc (o : Obj) :
    (argsOk (desc o.cls) = false → loadArgs (desc o.cls) (docOf o) = none) ∧
    (argsOk (desc o.cls) = true → ∃ args, loadArgs (desc o.cls) (docOf o) = some args ∧
      ∀ n, args.lookup n = (argSrc (desc o.cls) n).map (fun a => (o.opt a).json)) := by
  generalize hd : desc o.cls = d
  unfold loadArgs argsOk argSrc
  cases hk : d.kwargs
  · simp only [Bool.false_or, Bool.false_eq_true, if_false]
    constructor
    · intro h
      rw [← Bool.not_eq_true, List.all_eq_true, not_forall] at h
      obtain ⟨e, he⟩ := h
      rw [Classical.not_imp] at he
      rw [mapM_eq_none_iff]
      refine ⟨e, he.1, ?_⟩
      simp only [docOf, hd, lookup_map d.cfg (fun a => (o.opt a).json)]
      cases hl : d.cfg.lookup e.2 with
      | none => rfl
      | some v => exact absurd (by simp [hl]) he.2
    · intro h
      rw [List.all_eq_true] at h
      have : d.passed.mapM (fun e => ((docOf o).opts.lookup e.2).map (fun v => (e.1, v))) ≠ none := by
        rw [Ne, mapM_eq_none_iff]
        rintro ⟨e, he, h'⟩
        simp only [docOf, hd, lookup_map d.cfg (fun a => (o.opt a).json), Option.map_eq_none_iff] at h'
        have := h e he
        rw [h'] at this; cases this
      obtain ⟨args, ha⟩ := Option.ne_none_iff_exists'.1 this
      refine ⟨args, ha, fun n => ?_⟩
      rw [lookup_passed ha]
      cases d.passed.lookup n with
      | none => rfl
      | some k => simp only [Option.bind_some, docOf, hd, lookup_map d.cfg (fun a => (o.opt a).json)]
  · simp only [Bool.true_or, if_true, true_imp_iff, Bool.true_eq_false, false_imp_iff, true_and]
    refine ⟨_, rfl, fun n => ?_⟩
    simp only [docOf, hd, lookup_map d.cfg (fun a => (o.opt a).json)]

theorem dims_sub (k : Cls) : ∀ e ∈ (desc k).dims, e.2.1 ∈ (desc k).pars := by cases k <;> decide

theorem dims_nodup (k : Cls) : ((desc k).dims.map (·.1)).Nodup := by cases k <;> decide

/-- the options of a model that was saved and loaded. -/
def newOpt (o : Obj) (n : Nm) : Opt :=
  match (desc o.cls).dims.lookup n with
  | some (p, ax) => (((o.par p).bind (fun a => a.shape[ax]?)).map (fun k => Opt.num k)).getD .null
  | none => ((argSrc (desc o.cls) n).map (fun a => (o.opt a).json)).getD (((desc o.cls).dflt.lookup n).getD .null)

/-- a model that was saved and loaded. -/
def reload (rd : ℚ → ℚ) (o : Obj) : Obj :=
  ⟨o.cls, o.name, fun p => if p ∈ (desc o.cls).pars then (o.par p).map (fun a => a.round rd) else none, newOpt o⟩

/-- the constructor can take its dimensions from the parameters. -/
def DimsOk (o : Obj) : Prop := ∀ e ∈ (desc o.cls).dims, ∀ a, o.par e.2.1 = some a → e.2.2 < a.shape.length

theorem loadParams_eq {rd : ℚ → ℚ} {f : File} {o o' : Obj}
    (hget : ∀ p ∈ (desc o.cls).pars, get f (prefixOf o.name ++ p.key) = (o.par p).map (fun a => DS.arr (a.round rd))) :
    loadParams o.cls f (docOf o) = some o' ↔ (desc o.cls).loadRaises = false ∧ argsOk (desc o.cls) = true ∧
      (∀ p ∈ (desc o.cls).pars, o.par p ≠ none) ∧ DimsOk o ∧ o' = reload rd o := by
  unfold loadParams
  cases hr : (desc o.cls).loadRaises
  swap
  · simp
  simp only [Bool.false_eq_true, if_false, true_and, Option.bind_eq_bind, Option.bind_eq_some_iff]
  have hn : (docOf o).name = o.name := rfl
  rw [hn, loadPars_eq]
  have hone : ∀ p ∈ (desc o.cls).pars, loadPar f o.name p = (o.par p).map (fun a => (p, a.round rd)) := by
    intro p hp
    simp only [loadPar, Option.bind_eq_bind, hget p hp]
    cases o.par p <;> simp [DS.arr?]
  have hall : (∀ p ∈ (desc o.cls).pars, o.par p ≠ none) ↔ ∃ ps, (desc o.cls).pars.mapM (loadPar f o.name) = some ps := by
    rw [← Option.ne_none_iff_exists', Ne, mapM_eq_none_iff]
    constructor
    · rintro h ⟨p, hp, h'⟩
      rw [hone p hp, Option.map_eq_none_iff] at h'
      exact h p hp h'
    · intro h p hp h'
      exact h ⟨p, hp, by simp [hone p hp, h']⟩
  have hlk : ∀ ps, (desc o.cls).pars.mapM (loadPar f o.name) = some ps → (fun p => ps.lookup p) = (reload rd o).par := by
    intro ps hps
    funext p
    rw [lookup_loaded hps]
    simp only [reload]
    by_cases hp : p ∈ (desc o.cls).pars
    · simp only [if_pos hp, hget p hp]
      cases o.par p <;> simp [DS.arr?]
    · simp only [if_neg hp]
  cases ha : argsOk (desc o.cls)
  · simp [(loadArgs_doc o).1 ha]
  obtain ⟨args, hargs, hsrc⟩ := (loadArgs_doc o).2 ha
  have hct : ∀ n, (∀ p ∈ (desc o.cls).pars, o.par p ≠ none) →
      ctorOpt (desc o.cls) (reload rd o).par args n =
        match (desc o.cls).dims.lookup n with
        | some (p, ax) => ((o.par p).bind (fun a => a.shape[ax]?)).map (fun k => Opt.num k)
        | none => some (newOpt o n) := by
    intro n hset
    unfold ctorOpt newOpt
    cases hd : (desc o.cls).dims.lookup n with
    | none => simp only [Option.bind_none, hsrc]
    | some e =>
      have hm := (lookup_mem (dims_nodup o.cls)).1 hd
      have hp := dims_sub o.cls _ hm
      obtain ⟨p, ax⟩ := e
      obtain ⟨a, ha⟩ := Option.ne_none_iff_exists'.1 (hset p hp)
      simp only [reload, if_pos hp, ha, Option.map_some, Option.bind_some, Arr.round]
  constructor
  · rintro ⟨ps, hps, args', hargs', hc⟩
    rw [hargs] at hargs'
    cases hargs'
    have hset := hall.2 ⟨ps, hps⟩
    rw [hlk ps hps] at hc
    unfold ctor at hc
    split at hc
    · rename_i hd
      rw [List.all_eq_true] at hd
      have hdok : DimsOk o := by
        intro e he a hea
        have h1 := hd e he
        rw [hct _ hset, (lookup_mem (dims_nodup o.cls)).2 (show (e.1, e.2) ∈ _ from he)] at h1
        simp only [hea, Option.bind_some, Option.isSome_map] at h1
        rcases hlt : a.shape[e.2.2]? with _ | v
        · rw [hlt] at h1; cases h1
        · exact (List.getElem?_eq_some_iff.1 hlt).1
      refine ⟨rfl, hset, hdok, ?_⟩
      rw [← Option.some.inj hc]
      unfold reload
      congr 1
      funext n
      have := hct n hset
      unfold reload at this
      rw [this]
      unfold newOpt
      cases (desc o.cls).dims.lookup n with
      | none => rfl
      | some e => rfl
    · cases hc
  · rintro ⟨-, hset, hdok, rfl⟩
    obtain ⟨ps, hps⟩ := hall.1 hset
    refine ⟨ps, hps, args, hargs, ?_⟩
    rw [hlk ps hps]
    unfold ctor
    rw [if_pos]
    · unfold reload
      congr 2
      funext n
      have := hct n hset
      unfold reload at this
      rw [this]
      unfold newOpt
      cases (desc o.cls).dims.lookup n with
      | none => rfl
      | some e => rfl
    · rw [List.all_eq_true]
      intro e he
      rw [hct _ hset, (lookup_mem (dims_nodup o.cls)).2 (show (e.1, e.2) ∈ _ from he)]
      obtain ⟨a, ha⟩ := Option.ne_none_iff_exists'.1 (hset _ (dims_sub o.cls e he))
      have hlt := hdok e he a ha
      simp [ha, List.getElem?_eq_getElem hlt]

/-- paths of one file are different. -/
theorem nodup_of_noClash {l : List (List Str × DS)} (h : l.Pairwise (fun a b => ¬ Clash a.1 b.1)) :
    (l.map (·.1)).Nodup := by
  rw [List.Nodup, List.pairwise_map]
  refine h.imp ?_
  intro a b hab e
  exact hab (Or.inl (e ▸ List.prefix_refl _))

/-- what is in the file of a model. -/
theorem get_file {rd : ℚ → ℚ} {path : Str} {o : Obj} {f : File} (h : save rd path o = some f) :
    get f configKey = some (DS.cfg (docOf o)) ∧
    ∀ p ∈ (desc o.cls).pars, get f (prefixOf o.name ++ p.key) = (o.par p).map (fun a => DS.arr (a.round rd)) := by
  obtain ⟨-, -, hname, rfl⟩ := save_some.1 h
  refine ⟨by simp [get, path_config, docOf], fun p hp => ?_⟩
  have hne : base o.name ++ [p.key] ≠ [configKey] := by
    intro e
    rcases hb : base o.name with _ | ⟨x, xs⟩
    · rw [hb] at e
      exact key_ne_config p (by simpa using e)
    · rw [hb] at e; simp at e
  rw [get, path_par, List.lookup_cons, beq_false_of_ne hne]
  dsimp only
  have hnd : (((desc o.cls).pars.filterMap (fun p => (o.par p).map
      (fun a => (base o.name ++ [p.key], DS.arr (a.round rd))))).map (·.1)).Nodup := by
    apply nodup_of_noClash
    rw [← parSets_map, List.pairwise_map]
    exact parSets_pairwise rd o
  cases ha : o.par p with
  | some a =>
    simp only [Option.map_some]
    refine (lookup_mem hnd).2 (List.mem_filterMap.2 ⟨p, hp, ?_⟩)
    simp [ha]
  | none =>
    simp only [Option.map_none]
    refine lookup_none.2 ?_
    intro e he hee
    obtain ⟨q, hq, hq2⟩ := List.mem_filterMap.1 he
    obtain ⟨a, haq, rfl⟩ := Option.map_eq_some_iff.1 hq2
    have : q = p := key_inj (by simpa using hee)
    rw [this, ha] at haq; cases haq

/-- saving and loading. -/
theorem load_save {rd : ℚ → ℚ} {path : Str} {o o' : Obj} {f : File} (h : save rd path o = some f) :
    load o.cls f = some o' ↔ (desc o.cls).loadRaises = false ∧ argsOk (desc o.cls) = true ∧
      (∀ p ∈ (desc o.cls).pars, o.par p ≠ none) ∧ DimsOk o ∧ o' = reload rd o := by
  have hg := get_file h
  rw [← loadParams_eq hg.2]
  simp [load, hg.1, DS.cfg?]

end Hyp.Persist
