import Verif.Persist.Lemmas

/-!
C117: what a model file keeps of a model.

The specification is the three tables below: the parameters of a class, the options that come back, and the options
that do not.
-/

namespace Hyp.Persist
open Hyp.Text Hyp.H5

/-! ### specification -/

/-- the array parameters of a class. -/
def params : Cls → List P
  | .CentWhiten | .CentWhitenUP | .LNorm | .LNormUP | .PCA | .LDA | .NDA => [.mu, .T]
  | .NAP => [.U]
  | .MVN => [.mu, .s]
  | .Gaussianizer => [.r]
  | .SbSw | .NSbSw => [.mu, .Sb, .Sw, .numClasses]
  | .FRPLDA => [.mu, .B, .W]
  | .SPLDA => [.mu, .V, .W]
  | .PLDA => [.mu, .V, .U, .D]
  | .LinearGBE | .LinearGBEUP => [.mu, .W, .beta, .nu]
  | .QScoringHomoGBE => [.mu, .W, .N]
  | .LogisticRegression | .BinaryLogisticRegression | .LinearSVMC => [.A, .b]
  | .Normal | .NormalDiagCov => [.mu, .Lambda]
  | .GMM | .GMMDiagCov | .GMMTiedDiagCov => [.pi, .mu, .Lambda]
  | .GaussCalibration => [.mu1, .mu2, .sigma2]

/-- the classes that can be loaded. -/
def Loads : Cls → Prop
  | .SbSw | .NSbSw | .Normal | .NormalDiagCov | .GMM | .GMMDiagCov | .GMMTiedDiagCov | .GaussCalibration => False
  | _ => True

instance : DecidablePred Loads := fun k => by cases k <;> (unfold Loads; infer_instance)

/-- the options that come back as they were. -/
def kept : Cls → List Nm
  | .PCA => [.pcaDim]
  | .Gaussianizer => [.maxVectors]
  | .FRPLDA => [.updateMu, .updateB, .updateW, .fullcovW]
  | .SPLDA => [.updateMu, .updateV, .updateW, .fullcovW]
  | .PLDA => [.updateMu, .updateV, .updateU, .updateD, .floorID]
  | .LinearGBE | .LinearGBEUP => [.updateMu, .updateW, .balance, .priorBeta, .priorNu, .postBeta, .postNu]
  | .QScoringHomoGBE => [.balance, .priorN]
  | .LogisticRegression => [.useBias, .biasScaling, .priors]
  | .BinaryLogisticRegression => [.useBias, .biasScaling, .prior]
  | .LinearSVMC => [.useBias, .biasScaling, .balance]
  | _ => []

/-- the options that are read off a parameter: the size of an axis of it. -/
def fromShape : Cls → List (Nm × P × Nat)
  | .LDA => [(.ldaDim, .T, 1)]
  | .FRPLDA => [(.xDim, .mu, 0), (.yDim, .mu, 0)]
  | .SPLDA => [(.xDim, .mu, 0), (.yDim, .V, 0)]
  | .PLDA => [(.xDim, .mu, 0), (.yDim, .V, 0), (.zDim, .U, 0)]
  | .LinearGBE | .LinearGBEUP => [(.numClasses, .mu, 0), (.xDim, .mu, 1)]
  | _ => []

/-- the options that are forgotten, with the value that the loaded model has. -/
def forgotten : Cls → List (Nm × Opt)
  | .CentWhiten | .CentWhitenUP | .LNorm | .LNormUP | .PCA | .LDA => [(.updateMu, .bool true), (.updateT, .bool true)]
  | .LinearGBE | .LinearGBEUP => [(.prior, .null)]
  | .QScoringHomoGBE => [(.prior, .null), (.postN, .null)]
  | .LogisticRegression | .BinaryLogisticRegression => [(.lambdaReg, .num (1 / 100000))]
  | _ => []

/-- every dimension that the constructor reads off a parameter exists. -/
def Shaped (o : Obj) : Prop := ∀ n p ax, (n, p, ax) ∈ fromShape o.cls → ∀ a, o.par p = some a → ax < a.shape.length

/-- a name that HDF5 accepts beside the document: no component of it is `.` and the first one is not `config`. -/
def NameOk (name : Option Str) : Prop :=
  ∀ n, name = some n → ['.'] ∉ components n ∧ ((components n).filter (· ≠ [])).head? ≠ some ['c', 'o', 'n', 'f', 'i', 'g']

/-! ### proofs -/

theorem params_eq (k : Cls) : (desc k).pars = params k := by cases k <;> rfl

theorem loads_iff (k : Cls) : Loads k ↔
    (desc k).cfgRaises = false ∧ (desc k).loadRaises = false ∧ argsOk (desc k) = true := by
  cases k <;> decide

theorem dims_eq (k : Cls) : Loads k → (desc k).dims = fromShape k := by cases k <;> decide

theorem nameOk_iff (name : Option Str) : NameOk name ↔ (DotFree name ∧ (base name).head? ≠ some configKey) := by
  cases name with
  | none => simp [NameOk, DotFree, base]
  | some n =>
    simp only [NameOk, DotFree, base, h5path, configKey, Option.some.injEq, forall_eq']

theorem dimsOk_iff {o : Obj} (h : Loads o.cls) : DimsOk o ↔ Shaped o := by
  unfold DimsOk Shaped
  rw [dims_eq _ h]
  constructor
  · intro h n p ax hm a ha; exact h _ hm a ha
  · intro h e he a ha; exact h e.1 e.2.1 e.2.2 he a ha

/-! ### C117 -/

/-- **C117** a model file is written exactly when the path has a directory, the class has a readable configuration
(all but the full-covariance GMM), and, if there is a parameter to write, the name is one that HDF5 takes. -/
theorem C117_save_iff (rd : ℚ → ℚ) (path : Str) (o : Obj) :
    (∃ f, save rd path o = some f) ↔
      '/' ∈ path ∧ o.cls ≠ .GMM ∧ ((∃ p ∈ params o.cls, o.par p ≠ none) → NameOk o.name) := by
  have hg : (desc o.cls).cfgRaises = false ↔ o.cls ≠ .GMM := by cases o.cls <;> decide
  constructor
  · rintro ⟨f, hf⟩
    obtain ⟨h1, h2, h3, -⟩ := save_some.1 hf
    exact ⟨h1, hg.1 h2, fun h => (nameOk_iff _).2 (h3 (by rwa [params_eq]))⟩
  · rintro ⟨h1, h2, h3⟩
    exact ⟨_, save_some.2 ⟨h1, hg.2 h2, fun h => (nameOk_iff _).1 (h3 (by rwa [params_eq] at h)), rfl⟩⟩

/-- **C117** a path without a directory is refused: `model.save('model.h5')`. -/
theorem C117_bare_path_raises (rd : ℚ → ℚ) (path : Str) (o : Obj) (h : '/' ∉ path) : save rd path o = none := by
  rw [Option.eq_none_iff_forall_not_mem]
  intro f hf
  exact h (save_some.1 hf).1

/-- **C117** a saved model can be loaded exactly when its class can, every parameter was set, and the dimensions that
the constructor reads off the parameters exist. -/
theorem C117_load_iff (rd : ℚ → ℚ) (path : Str) (o : Obj) (f : File) (hs : save rd path o = some f) :
    (∃ o', load o.cls f = some o') ↔ Loads o.cls ∧ (∀ p ∈ params o.cls, o.par p ≠ none) ∧ Shaped o := by
  simp only [load_save hs, params_eq]
  have hc := (save_some.1 hs).2.1
  constructor
  · rintro ⟨o', h1, h2, h3, h4, -⟩
    have hl := (loads_iff o.cls).2 ⟨hc, h1, h2⟩
    exact ⟨hl, h3, (dimsOk_iff hl).1 h4⟩
  · rintro ⟨hl, h3, h4⟩
    obtain ⟨-, h1, h2⟩ := (loads_iff o.cls).1 hl
    exact ⟨_, h1, h2, h3, (dimsOk_iff hl).2 h4, rfl⟩

/-- **C117** a parameter that was not set is not written and is missed on loading. -/
theorem C117_missing_raises (rd : ℚ → ℚ) (path : Str) (o : Obj) (f : File) (hs : save rd path o = some f) (p : P)
    (hp : p ∈ params o.cls) (h : o.par p = none) : load o.cls f = none := by
  rw [Option.eq_none_iff_forall_not_mem]
  intro o' ho
  exact (((C117_load_iff rd path o f hs).1 ⟨o', ho⟩).2.1 p hp) h

/-- **C117** the Gaussian pdfs, the mixtures, SbSw and GaussCalibration never come back from a file. -/
theorem C117_broken_classes (rd : ℚ → ℚ) (path : Str) (o : Obj)
    (hc : o.cls ∈ [Cls.SbSw, .NSbSw, .Normal, .NormalDiagCov, .GMM, .GMMDiagCov, .GMMTiedDiagCov, .GaussCalibration])
    (f : File) (hs : save rd path o = some f) : load o.cls f = none := by
  rw [Option.eq_none_iff_forall_not_mem]
  intro o' ho
  have := ((C117_load_iff rd path o f hs).1 ⟨o', ho⟩).1
  revert this hc
  cases o.cls <;> decide

/-- what is saved and loaded, option by option. -/
theorem newOpt_kept (k : Cls) : ∀ n ∈ kept k, (desc k).dims.lookup n = none ∧ argSrc (desc k) n = some n := by
  cases k <;> decide

theorem newOpt_forgotten (k : Cls) : ∀ e ∈ forgotten k, (desc k).dims.lookup e.1 = none ∧
    argSrc (desc k) e.1 = none ∧ (desc k).dflt.lookup e.1 = some e.2 := by
  cases k <;> decide +kernel

theorem newOpt_shape (k : Cls) : ∀ e ∈ fromShape k, (desc k).dims.lookup e.1 = some e.2 := by
  cases k <;> decide

/-- **C117** what a loaded model is: the same class and name; every parameter, rounded to the precision of the file;
the kept options as they were (a dictionary class -> weight with the labels as strings); the dimensions of the
parameters; the forgotten options at the default of the constructor. -/
theorem C117_roundtrip (rd : ℚ → ℚ) (path : Str) (o o' : Obj) (f : File) (hs : save rd path o = some f)
    (hl : load o.cls f = some o') :
    o'.cls = o.cls ∧ o'.name = o.name ∧
    (∀ p ∈ params o.cls, ∃ a, o.par p = some a ∧ o'.par p = some ⟨a.shape, a.data.map rd⟩) ∧
    (∀ n ∈ kept o.cls, ((∀ w, o.opt n ≠ .weights w) → o'.opt n = o.opt n) ∧
      ∀ w, o.opt n = .weights w → o'.opt n = .sweights (w.map (fun e => (printNat e.1, e.2)))) ∧
    (∀ n p ax, (n, p, ax) ∈ fromShape o.cls → ∃ a k, o.par p = some a ∧ a.shape[ax]? = some k ∧ o'.opt n = .num k) ∧
    (∀ n v, (n, v) ∈ forgotten o.cls → o'.opt n = v) := by
  have hset := ((C117_load_iff rd path o f hs).1 ⟨o', hl⟩).2.1
  have hlo := ((C117_load_iff rd path o f hs).1 ⟨o', hl⟩).1
  obtain ⟨-, -, -, hd, rfl⟩ := (load_save hs).1 hl
  refine ⟨rfl, rfl, fun p hp => ?_, fun n hn => ?_, fun n p ax hm => ?_, fun n v hm => ?_⟩
  · obtain ⟨a, ha⟩ := Option.ne_none_iff_exists'.1 (hset p hp)
    refine ⟨a, ha, ?_⟩
    simp [reload, params_eq, hp, ha, Arr.round]
  · obtain ⟨h1, h2⟩ := newOpt_kept o.cls n hn
    have h3 : (reload rd o).opt n = (o.opt n).json := by
      simp only [reload, newOpt, h1, h2, Option.map_some, Option.getD_some]
    rw [h3]
    constructor
    · intro hw
      cases h : o.opt n with
      | weights w => exact absurd h (hw w)
      | _ => rfl
    · intro w hw; rw [hw]; rfl
  · have h1 := newOpt_shape o.cls _ hm
    have hp : p ∈ params o.cls := by
      rw [← params_eq]; exact dims_sub o.cls (n, p, ax) ((lookup_mem (dims_nodup o.cls)).1 h1)
    obtain ⟨a, ha⟩ := Option.ne_none_iff_exists'.1 (hset p hp)
    have hax := (dimsOk_iff hlo).1 hd n p ax hm a ha
    refine ⟨a, a.shape[ax], ha, List.getElem?_eq_getElem hax, ?_⟩
    simp [reload, newOpt, h1, ha, List.getElem?_eq_getElem hax]
  · obtain ⟨h1, h2, h3⟩ := newOpt_forgotten o.cls _ hm
    simp only at h1 h2 h3
    simp only [reload, newOpt, h1, h2, h3, Option.map_none, Option.getD_none, Option.getD_some]

/-- the tables cover the options of every class that can be loaded. -/
theorem C117_tables_cover (k : Cls) (h : Loads k) (n : Nm) :
    (∃ v, (n, v) ∈ (desc k).dflt) ↔ n ∈ kept k ∨ (∃ p ax, (n, p, ax) ∈ fromShape k) ∨ ∃ v, (n, v) ∈ forgotten k := by
  have h1 : (∃ v, (n, v) ∈ (desc k).dflt) ↔ n ∈ (desc k).dflt.map (·.1) := by simp
  have h2 : (∃ p ax, (n, p, ax) ∈ fromShape k) ↔ n ∈ (fromShape k).map (·.1) := by simp
  have h3 : (∃ v, (n, v) ∈ forgotten k) ↔ n ∈ (forgotten k).map (·.1) := by simp
  rw [h1, h2, h3]
  have h4 : (∀ x ∈ (desc k).dflt.map (·.1), x ∈ kept k ∨ x ∈ (fromShape k).map (·.1) ∨ x ∈ (forgotten k).map (·.1)) ∧
      (∀ x ∈ kept k, x ∈ (desc k).dflt.map (·.1)) ∧ (∀ x ∈ (fromShape k).map (·.1), x ∈ (desc k).dflt.map (·.1)) ∧
      (∀ x ∈ (forgotten k).map (·.1), x ∈ (desc k).dflt.map (·.1)) := by
    revert h
    cases k <;> decide
  exact ⟨h4.1 n, fun h => h.elim (h4.2.1 n) (fun h => h.elim (h4.2.2.1 n) (h4.2.2.2 n))⟩

theorem json_json (v : Opt) : v.json.json = v.json := by cases v <;> rfl

theorem round_round {rd : ℚ → ℚ} (hrd : ∀ x, rd (rd x) = rd x) (a : Arr) : (a.round rd).round rd = a.round rd := by
  simp [Arr.round, Function.comp_def, hrd]

theorem src_self (k : Cls) (h : Loads k) (n m : Nm) (hs : argSrc (desc k) n = some m) : m = n := by
  have h1 : ((desc k).kwargs = true → ∀ e ∈ (desc k).cfg, e.2 = e.1) ∧
      ((desc k).kwargs = false → ∀ e ∈ (desc k).passed, e.1 = e.2 ∧ (desc k).cfg.lookup e.2 = some e.2) := by
    revert h
    clear hs
    cases k <;> decide
  have hcfg : ((desc k).cfg.map (·.1)).Nodup := by clear hs h1 h; cases k <;> decide
  have hpas : ((desc k).passed.map (·.1)).Nodup := by clear hs h1 h hcfg; cases k <;> decide
  unfold argSrc at hs
  cases hk : (desc k).kwargs
  · simp only [hk, Bool.false_eq_true, if_false] at hs
    obtain ⟨q, hq, hq2⟩ := Option.bind_eq_some_iff.1 hs
    have := h1.2 hk _ ((lookup_mem hpas).1 hq)
    simp only at this
    rw [this.2] at hq2
    rw [this.1]
    exact (Option.some.inj hq2).symm
  · simp only [hk, if_true] at hs
    exact h1.1 hk _ ((lookup_mem hcfg).1 hs)

theorem reload_reload {rd : ℚ → ℚ} (hrd : ∀ x, rd (rd x) = rd x) {o : Obj} (hl : Loads o.cls) :
    reload rd (reload rd o) = reload rd o := by
  have hpar : (fun p => if p ∈ (desc o.cls).pars then ((reload rd o).par p).map (fun a => a.round rd) else none) =
      (reload rd o).par := by
    funext p
    simp only [reload]
    by_cases hp : p ∈ (desc o.cls).pars
    · simp only [if_pos hp]
      cases o.par p with
      | none => rfl
      | some a => simp [round_round hrd]
    · simp only [if_neg hp]
  have hopt : newOpt (reload rd o) = newOpt o := by
    funext n
    unfold newOpt
    show (match (desc o.cls).dims.lookup n with
      | some (p, ax) => ((((reload rd o).par p).bind (fun a => a.shape[ax]?)).map (fun k => Opt.num k)).getD .null
      | none => ((argSrc (desc o.cls) n).map (fun a => ((reload rd o).opt a).json)).getD
          (((desc o.cls).dflt.lookup n).getD .null)) = _
    cases hd : (desc o.cls).dims.lookup n with
    | some e =>
      obtain ⟨p, ax⟩ := e
      have hp := dims_sub o.cls _ ((lookup_mem (dims_nodup o.cls)).1 hd)
      simp only at hp ⊢
      simp only [reload, if_pos hp]
      cases o.par p <;> simp [Arr.round]
    | none =>
      simp only
      cases hs : argSrc (desc o.cls) n with
      | none => rfl
      | some m =>
        obtain rfl := src_self o.cls hl n m hs
        simp only [Option.map_some, Option.getD_some, reload, newOpt, hs, hd, json_json]
  have : reload rd (reload rd o) = ⟨o.cls, o.name,
      (fun p => if p ∈ (desc o.cls).pars then ((reload rd o).par p).map (fun a => a.round rd) else none),
      newOpt (reload rd o)⟩ := rfl
  rw [this, hpar, hopt]
  rfl

/-- **C117** after one cycle nothing changes any more: a loaded model is saved and loaded to an equal model. -/
theorem C117_second_cycle (rd : ℚ → ℚ) (hrd : ∀ x, rd (rd x) = rd x) (path path' : Str) (o o' : Obj) (f : File)
    (hs : save rd path o = some f) (hl : load o.cls f = some o') (hp : '/' ∈ path') :
    ∃ f', save rd path' o' = some f' ∧ load o'.cls f' = some o' := by
  have hlo := ((C117_load_iff rd path o f hs).1 ⟨o', hl⟩).1
  obtain ⟨h1, h2, h3, h4, rfl⟩ := (load_save hs).1 hl
  obtain ⟨-, hc, hn, -⟩ := save_some.1 hs
  have hs' : save rd path' (reload rd o) = some _ := save_some.2 ⟨hp, hc, (by
    rintro ⟨p, hp, -⟩
    exact hn ⟨p, hp, h3 p hp⟩), rfl⟩
  refine ⟨_, hs', (load_save hs').2 ⟨h1, h2, ?_, ?_, ?_⟩⟩
  · intro p hp
    obtain ⟨a, ha⟩ := Option.ne_none_iff_exists'.1 (h3 p hp)
    have hp' : p ∈ (desc o.cls).pars := hp
    simp [reload, hp', ha]
  · intro e he a ha
    have he' : e ∈ (desc o.cls).dims := he
    obtain ⟨b, hb⟩ := Option.ne_none_iff_exists'.1 (h3 _ (dims_sub o.cls e he'))
    simp only [reload, if_pos (dims_sub o.cls e he'), hb, Option.map_some, Option.some.injEq] at ha
    subst ha
    exact h4 e he' b hb
  · exact (reload_reload hrd hlo).symm

/-- **C117** the name of the class in the file is not looked at: the file of any of the classes with the parameters
`mu`, `T` and nothing else to read can be loaded as any other. -/
theorem C117_class_not_checked (rd : ℚ → ℚ) (path : Str) (o o' : Obj) (f : File) (k : Cls)
    (ho : o.cls ∈ [Cls.CentWhiten, .CentWhitenUP, .LNorm, .LNormUP, .NDA, .LDA])
    (hk : k ∈ [Cls.CentWhiten, .CentWhitenUP, .LNorm, .LNormUP, .NDA]) (hs : save rd path o = some f)
    (hl : load o.cls f = some o') :
    ∃ o'', load k f = some o'' ∧ o''.cls = k ∧ o''.name = o.name ∧ o''.par .mu = o'.par .mu ∧ o''.par .T = o'.par .T := by
  have hg := get_file hs
  have hset := ((C117_load_iff rd path o f hs).1 ⟨o', hl⟩).2.1
  obtain ⟨-, -, -, -, rfl⟩ := (load_save hs).1 hl
  have hpo : (desc o.cls).pars = [.mu, .T] := by revert ho; cases o.cls <;> decide
  have hpk : (desc k).loadPars = [.mu, .T] ∧ (desc k).loadRaises = false ∧ (desc k).kwargs = false ∧ (desc k).passed = [] ∧
      (desc k).dims = [] := by revert hk; cases k <;> decide
  obtain ⟨a, ha⟩ := Option.ne_none_iff_exists'.1 (hset .mu (by rw [← params_eq, hpo]; simp))
  obtain ⟨b, hb⟩ := Option.ne_none_iff_exists'.1 (hset .T (by rw [← params_eq, hpo]; simp))
  have h1 : loadPar f o.name .mu = some (.mu, a.round rd) := by
    simp [loadPar, hg.2 .mu (by simp [hpo]), ha, DS.arr?]
  have h2 : loadPar f o.name .T = some (.T, b.round rd) := by
    simp [loadPar, hg.2 .T (by simp [hpo]), hb, DS.arr?]
  refine ⟨⟨k, o.name, fun p => [(P.mu, a.round rd), (P.T, b.round rd)].lookup p,
    fun n => (ctorOpt (desc k) (fun p => [(P.mu, a.round rd), (P.T, b.round rd)].lookup p) [] n).getD .null⟩, ?_, rfl, rfl, ?_, ?_⟩
  · have hn : (docOf o).name = o.name := rfl
    simp [load, hg.1, DS.cfg?, loadParams, hpk, hn, h1, h2, loadArgs, ctor]
  · simp [reload, hpo, ha]
  · have : (P.T == P.mu) = false := by decide
    simp [reload, hpo, hb, List.lookup_cons, this]

/-! ### the hypotheses are met -/

/-- an LDA of 2 x 1, named `lda`. -/
def exLda : Obj where
  cls := .LDA
  name := some ['l', 'd', 'a']
  par := fun p => if p = .mu then some ⟨[2], [1, 2]⟩ else if p = .T then some ⟨[2, 1], [3, 4]⟩ else none
  opt := fun n => if n = .ldaDim then .num 1 else if n = .updateMu then .bool false else .bool true

/-- a logistic regression with class weights. -/
def exLr : Obj where
  cls := .LogisticRegression
  name := none
  par := fun p => if p = .A then some ⟨[2, 1], [1, 2]⟩ else if p = .b then some ⟨[1], [3]⟩ else none
  opt := fun n => if n = .priors then .weights [(0, 1 / 2), (1, 1 / 2)] else if n = .useBias then .bool true else .num 1

example : ((save id ['d', '/', 'm'] exLda).bind (load .LDA)).map
      (fun o' => (o'.name, o'.par .mu, o'.par .T, o'.opt .ldaDim, o'.opt .updateMu)) =
    some (some ['l', 'd', 'a'], some ⟨[2], [1, 2]⟩, some ⟨[2, 1], [3, 4]⟩, .num 1, .bool true) ∧
    exLda.opt .updateMu = .bool false := ⟨by decide +kernel, by decide +kernel⟩

example : (save id ['d', '/', 'm'] exLda).map (fun f => (get f ['l', 'd', 'a', '/', 'T'], get f ['T'])) =
    some (some (.arr ⟨[2, 1], [3, 4]⟩), none) := by decide +kernel

example : ((save id ['d', '/', 'm'] exLr).bind (load .LogisticRegression)).map
      (fun o' => (o'.opt .priors, o'.opt .useBias)) =
    some (.sweights [(['0'], 1 / 2), (['1'], 1 / 2)], .bool true) := by decide +kernel

example : (save id ['m'] exLda).isNone = true := by decide +kernel

/-- an LDA without `T`. -/
def exNoT : Obj := { exLda with par := fun p => if p = .mu then some ⟨[2], [1, 2]⟩ else none }

example : (save id ['d', '/', 'm'] exNoT).isSome = true ∧
    ((save id ['d', '/', 'm'] exNoT).bind (load .LDA)).isNone = true := ⟨by decide +kernel, by decide +kernel⟩

/-- a Normal. -/
def exNormal : Obj := { exLda with cls := .Normal, par := fun _ => some ⟨[], [1]⟩ }

example : (save id ['d', '/', 'm'] exNormal).isSome = true ∧
    ((save id ['d', '/', 'm'] exNormal).bind (load .Normal)).isNone = true := ⟨by decide +kernel, by decide +kernel⟩

example : (save id ['d', '/', 'm'] { exLda with name := some configKey }).isNone = true := by decide +kernel

end Hyp.Persist
