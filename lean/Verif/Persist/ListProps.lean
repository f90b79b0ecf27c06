import Verif.Persist.Props
import Verif.H5.MoreProps
import Mathlib.Data.List.Forall2

/-!
C118: lists of transforms (TransformList, Pipeline) in files.
-/

namespace Hyp.Persist
open Hyp.Text Hyp.H5

/-! ### specification -/

/-- the classes that a list of transforms can load. -/
def transformClasses : List Cls :=
  [.CentWhiten, .CentWhitenUP, .LNorm, .LNormUP, .PCA, .LDA, .NDA, .NAP, .MVN, .Gaussianizer]

/-- the path of a parameter of a transform in the file: the components of its name, then the parameter. -/
def parPath (name : Option Str) (p : P) : List Str :=
  (((name.map components).getD []).filter (· ≠ [])) ++ [p.key]

/-- one of the paths leads through the other. -/
def Through (p q : List Str) : Prop := (∃ r, q = p ++ r) ∨ ∃ r, p = q ++ r

/-- the parameters of a transform that are set. -/
def setPaths (t : Obj) : List (List Str) :=
  ((params t.cls).filter (fun p => (t.par p).isSome)).map (parPath t.name)

/-- a loaded transform `t'` is the saved transform `t` up to the precision of the file. -/
def SameTransform (rd : ℚ → ℚ) (t t' : Obj) : Prop :=
  t'.cls = t.cls ∧ ∀ p ∈ params t.cls, ∃ a, t.par p = some a ∧ t'.par p = some ⟨a.shape, a.data.map rd⟩

/-! ### proofs -/

theorem parPath_eq (name : Option Str) (p : P) : parPath name p = base name ++ [p.key] := by
  cases name with
  | none => simp [parPath, base]
  | some n => simp [parPath, base, h5path]

theorem through_iff (p q : List Str) : Through p q ↔ Clash p q := by
  unfold Through Clash List.IsPrefix
  simp [eq_comm]

theorem imported_iff (k : Cls) : imported k = true ↔ k ∈ transformClasses := by cases k <;> decide

theorem imported_loads (k : Cls) : imported k = true → Loads k := by cases k <;> decide

theorem foldlM_saveParams (rd : ℚ → ℚ) (ts : List Obj) : ∀ f : File,
    ts.foldlM (saveParams rd) f = (ts.flatMap (parSets rd)).foldlM create f := by
  induction ts with
  | nil => intro f; rfl
  | cons t ts ih =>
    intro f
    simp only [List.foldlM_cons, List.flatMap_cons, List.foldlM_append]
    refine congrArg _ (funext fun g => ih g)

theorem mapM_config {ts : List Obj} {cs : List Cfg} :
    ts.mapM config = some cs ↔ (∀ t ∈ ts, (desc t.cls).cfgRaises = false) ∧ cs = ts.map docOf := by
  rw [mapM_eq_some_iff]
  induction ts generalizing cs with
  | nil => cases cs <;> simp
  | cons t ts ih =>
    cases cs with
    | nil => simp
    | cons c cs =>
      simp only [List.map_cons, List.cons.injEq, ih, List.mem_cons, forall_eq_or_imp]
      unfold config
      cases (desc t.cls).cfgRaises
      · simp only [Bool.false_eq_true, if_false, Option.some.injEq, true_and]
        constructor
        · rintro ⟨rfl, h, rfl⟩; exact ⟨h, rfl, rfl⟩
        · rintro ⟨h, rfl, rfl⟩; exact ⟨rfl, h, rfl⟩
      · simp

/-- the document of a list. -/
def ldocOf (l : TList) : LCfg := ⟨l.name, (l.ts.map docOf).zipIdx.map (fun e => (printNat e.2, e.1))⟩

theorem lsave_some {rd : ℚ → ℚ} {path : Str} {l : TList} {f : File} :
    lsave rd path l = some f ↔ '/' ∈ path ∧ (∀ t ∈ l.ts, (desc t.cls).cfgRaises = false) ∧
      (∀ e ∈ l.ts.flatMap (parSets rd), oddKey e.1 = false ∧ h5path e.1 ≠ [] ∧ ¬ Clash [configKey] (h5path e.1)) ∧
      (l.ts.flatMap (parSets rd)).Pairwise (fun a b => ¬ Clash (h5path a.1) (h5path b.1)) ∧
      f = ([configKey], DS.lcfg (ldocOf l)) :: (l.ts.flatMap (parSets rd)).map (fun e => (h5path e.1, e.2)) := by
  unfold lsave
  by_cases hp : '/' ∈ path
  swap
  · rw [if_neg hp]; simp [hp]
  rw [if_pos hp]
  by_cases hc : ∀ t ∈ l.ts, (desc t.cls).cfgRaises = false
  swap
  · have : lconfig l = none := by
      rcases h : lconfig l with _ | c
      · rfl
      · simp only [lconfig, Option.bind_eq_bind, Option.bind_eq_some_iff] at h
        obtain ⟨cs, hcs, -⟩ := h
        exact absurd (mapM_config.1 hcs).1 hc
    rw [this]
    constructor
    · intro h; cases h
    · rintro ⟨-, h, -⟩; exact absurd h hc
  have : lconfig l = some (ldocOf l) := by
    simp [lconfig, mapM_config.2 ⟨hc, rfl⟩, ldocOf]
  rw [this]
  simp only [Option.bind_eq_bind, Option.bind_some, create_config, foldlM_saveParams, createAll_some]
  constructor
  · rintro ⟨rfl, h1, h2, h3⟩
    exact ⟨hp, hc, fun e he => ⟨(h1 e he).1, (h1 e he).2, h2 _ (List.mem_singleton.2 rfl) e he⟩, h3, rfl⟩
  · rintro ⟨-, -, h1, h2, rfl⟩
    refine ⟨rfl, fun e he => ⟨(h1 e he).1, (h1 e he).2.1⟩, ?_, h2⟩
    intro x hx e he
    rcases List.mem_singleton.1 hx with rfl
    exact (h1 e he).2.2

theorem get_lfile {rd : ℚ → ℚ} {path : Str} {l : TList} {f : File} (h : lsave rd path l = some f) :
    get f configKey = some (DS.lcfg (ldocOf l)) ∧
    ∀ t ∈ l.ts, ∀ p ∈ (desc t.cls).pars, ∀ a, t.par p = some a →
      get f (prefixOf t.name ++ p.key) = some (DS.arr (a.round rd)) := by
  obtain ⟨-, -, h1, h2, rfl⟩ := lsave_some.1 h
  refine ⟨by simp [get, path_config], fun t ht p hp a ha => ?_⟩
  have hm : (prefixOf t.name ++ p.key, DS.arr (a.round rd)) ∈ l.ts.flatMap (parSets rd) :=
    List.mem_flatMap.2 ⟨t, ht, mem_parSets.2 ⟨p, hp, a, ha, rfl⟩⟩
  refine (lookup_mem ?_).2 ?_
  · apply nodup_of_noClash
    refine List.pairwise_cons.2 ⟨?_, ?_⟩
    · intro e he
      obtain ⟨e', he', rfl⟩ := List.mem_map.1 he
      exact (h1 e' he').2.2
    · rw [List.pairwise_map]; exact h2
  · exact List.mem_cons_of_mem _ (List.mem_map.2 ⟨_, hm, rfl⟩)

theorem printNat_inj {a b : Nat} (h : printNat a = printNat b) : a = b := by
  have := parseNat_printNat a
  rw [h, parseNat_printNat] at this
  exact (Option.some.inj this).symm

theorem lookup_zipIdx {α : Type} (l : List α) : ∀ (i k : Nat), (∀ _ : i < l.length, True) →
    ((l.zipIdx k).map (fun e => (printNat e.2, e.1))).lookup (printNat (k + i)) = l[i]? := by
  induction l with
  | nil => intro i k _; rfl
  | cons a l ih =>
    intro i k _
    cases i with
    | zero => simp
    | succ i =>
      have hne : printNat (k + (i + 1)) ≠ printNat k := fun e => by have := printNat_inj e; omega
      simp only [List.zipIdx_cons, List.map_cons, List.lookup_cons, beq_false_of_ne hne, List.getElem?_cons_succ]
      have := ih i (k + 1) (fun _ => trivial)
      rw [← this]
      congr 2
      omega

theorem doc_lookup (l : TList) (i : Nat) : (ldocOf l).ts.lookup (printNat i) = (l.ts[i]?).map docOf := by
  have := lookup_zipIdx (l.ts.map docOf) i 0 (fun _ => trivial)
  simpa [ldocOf] using this

theorem doc_length (l : TList) : (ldocOf l).ts.length = l.ts.length := by simp [ldocOf]

/-- loading a list of transforms that was saved: all must be loadable. -/
theorem lload_lsave {rd : ℚ → ℚ} {path : Str} {l l' : TList} {f : File} (hs : lsave rd path l = some f) :
    lload f = some l' ↔ (∀ t ∈ l.ts, imported t.cls = true ∧ (∀ p ∈ (desc t.cls).pars, t.par p ≠ none) ∧ DimsOk t ∧
        (∀ p ∈ (desc t.cls).pars, ∀ a, t.par p = some a →
          get f (prefixOf t.name ++ p.key) = some (DS.arr (a.round rd)))) ∧
      TList.mk' l.name (l.ts.map (reload rd)) = some l' ∨
      (∃ t ∈ l.ts, ∃ p ∈ (desc t.cls).pars, t.par p = none) ∧ lload f = some l' := by
  obtain ⟨h1, h2⟩ := get_lfile hs
  by_cases hset : ∃ t ∈ l.ts, ∃ p ∈ (desc t.cls).pars, t.par p = none
  · constructor
    · intro h; exact Or.inr ⟨hset, h⟩
    · rintro (⟨h, -⟩ | ⟨-, h⟩)
      · obtain ⟨t, ht, p, hp, hn⟩ := hset
        exact absurd hn ((h t ht).2.1 p hp)
      · exact h
  push Not at hset
  have hone : ∀ t ∈ l.ts, ∀ o', loadParams t.cls f (docOf t) = some o' ↔ (desc t.cls).loadRaises = false ∧
      argsOk (desc t.cls) = true ∧ (∀ p ∈ (desc t.cls).pars, t.par p ≠ none) ∧ DimsOk t ∧ o' = reload rd t := by
    intro t ht o'
    refine loadParams_eq ?_
    intro p hp
    obtain ⟨a, ha⟩ := Option.ne_none_iff_exists'.1 (hset t ht p hp)
    rw [h2 t ht p hp a ha, ha]; rfl
  have hload : lload f = (List.range l.ts.length).mapM (loadOne f (ldocOf l)) >>= fun ts => TList.mk' l.name ts := by
    have hn : (ldocOf l).name = l.name := rfl
    simp only [lload, Option.bind_eq_bind, h1, Option.bind_some, DS.lcfg?, doc_length, hn]
  have hi : ∀ i (hi : i < l.ts.length), loadOne f (ldocOf l) i =
      if imported l.ts[i].cls then loadParams l.ts[i].cls f (docOf l.ts[i]) else none := by
    intro i hi
    simp only [loadOne, doc_lookup, List.getElem?_eq_getElem hi, Option.map_some, Option.bind_eq_bind, Option.bind_some]
    rfl
  have key : ∀ ts, (List.range l.ts.length).mapM (loadOne f (ldocOf l)) = some ts ↔
      (∀ t ∈ l.ts, imported t.cls = true ∧ DimsOk t) ∧ ts = l.ts.map (reload rd) := by
    intro ts
    rw [mapM_eq_some_iff]
    constructor
    · intro h
      have hlen : ts.length = l.ts.length := by
        have := congrArg List.length h
        simpa using this.symm
      have hat : ∀ i (hi : i < l.ts.length), imported l.ts[i].cls = true ∧ DimsOk l.ts[i] ∧
          ts[i]'(hlen ▸ hi) = reload rd l.ts[i] := by
        intro i hi'
        have h3 := congrArg (fun q => q[i]?) h
        simp only [List.getElem?_map, List.getElem?_range hi', Option.map_some,
          List.getElem?_eq_getElem (show i < ts.length from hlen ▸ hi'), hi i hi', Option.some.injEq] at h3
        by_cases him : imported l.ts[i].cls = true
        · rw [if_pos him] at h3
          obtain ⟨-, -, -, hd, e⟩ := (hone _ (List.getElem_mem hi') _).1 h3
          exact ⟨him, hd, e⟩
        · rw [if_neg him] at h3; cases h3
      constructor
      · intro t ht
        obtain ⟨i, hi', rfl⟩ := List.getElem_of_mem ht
        exact ⟨(hat i hi').1, (hat i hi').2.1⟩
      · apply List.ext_getElem
        · simp [hlen]
        · intro i hi1 hi2
          simp only [List.getElem_map]
          exact (hat i (by simpa using hi2)).2.2
    · rintro ⟨hall, rfl⟩
      apply List.ext_getElem
      · simp
      · intro i hi1 hi2
        have hi' : i < l.ts.length := by simpa using hi1
        simp only [List.getElem_map, List.getElem_range, hi i hi']
        have hm := List.getElem_mem hi'
        rw [if_pos (hall _ hm).1]
        obtain ⟨-, hl1, hl2⟩ := (loads_iff _).1 (imported_loads _ (hall _ hm).1)
        exact (hone _ hm _).2 ⟨hl1, hl2, hset _ hm, (hall _ hm).2, rfl⟩
  rw [hload]
  simp only [Option.bind_eq_bind, Option.bind_eq_some_iff, key]
  constructor
  · rintro ⟨ts, ⟨ha, rfl⟩, hmk⟩
    exact Or.inl ⟨fun t ht => ⟨(ha t ht).1, hset t ht, (ha t ht).2, h2 t ht⟩, hmk⟩
  · rintro (⟨ha, hmk⟩ | ⟨⟨t, ht, p, hp, hn⟩, -⟩)
    · exact ⟨_, ⟨fun t ht => ⟨(ha t ht).1, (ha t ht).2.2.1⟩, rfl⟩, hmk⟩
    · exact absurd hn (hset t ht p hp)

theorem mk'_some {name : Option Str} {ts : List Obj} {l : TList} :
    TList.mk' name ts = some l ↔ l.name = name ∧ (∀ n, name = some n → ∀ t ∈ ts, t.name ≠ none) ∧
      l.ts = ts.map (fun t => { t with name := match name with
        | none => t.name
        | some n => t.name.map (fun m => n ++ '/' :: m) }) := by
  cases name with
  | none =>
    obtain ⟨a, b⟩ := l
    simp [TList.mk', eq_comm]
  | some n =>
    obtain ⟨a, b⟩ := l
    simp only [TList.mk', Option.map_eq_some_iff, mapM_eq_some_iff, Option.some.injEq, forall_eq', TList.mk.injEq]
    constructor
    · rintro ⟨rs, h, rfl, rfl⟩
      refine ⟨rfl, ?_, ?_⟩
      · intro t ht hn
        have : rename n t ∈ ts.map (rename n) := List.mem_map.2 ⟨t, ht, rfl⟩
        rw [h] at this
        obtain ⟨r, -, hr⟩ := List.mem_map.1 this
        simp [rename, hn] at hr
      · have : ∀ (ts rs : List Obj), ts.map (rename n) = rs.map some →
            rs = ts.map (fun t => { t with name := t.name.map (fun m => n ++ '/' :: m) }) := by
          intro ts
          induction ts with
          | nil => intro rs h; cases rs <;> simp_all
          | cons t ts ih =>
            intro rs h
            cases rs with
            | nil => simp at h
            | cons r rs =>
              simp only [List.map_cons, List.cons.injEq] at h ⊢
              refine ⟨?_, ih rs h.2⟩
              obtain ⟨m, hm, rfl⟩ := Option.map_eq_some_iff.1 h.1
              simp [hm]
        exact this ts rs h
    · rintro ⟨rfl, h, rfl⟩
      refine ⟨_, ?_, rfl, rfl⟩
      rw [List.map_map]
      refine List.map_congr_left fun t ht => ?_
      obtain ⟨m, hm⟩ := Option.ne_none_iff_exists'.1 (h t ht)
      simp [rename, hm]

theorem pairwise_flatMap_map {α β γ : Type} (f : α → List β) (g : β → γ) (R : γ → γ → Prop) (l : List α) :
    (l.flatMap f).Pairwise (fun a b => R (g a) (g b)) ↔ (l.flatMap (fun a => (f a).map g)).Pairwise R := by
  rw [← List.map_flatMap, List.pairwise_map]

theorem parSets_paths (rd : ℚ → ℚ) (t : Obj) : (parSets rd t).map (fun e => h5path e.1) = setPaths t := by
  have h1 : (parSets rd t).map (fun e => h5path e.1) = ((parSets rd t).map (fun e => (h5path e.1, e.2))).map (·.1) := by
    rw [List.map_map]; rfl
  rw [h1, parSets_map, setPaths, params_eq]
  induction params t.cls with
  | nil => rfl
  | cons p ps ih =>
    rw [List.filterMap_cons, List.filter_cons]
    cases t.par p with
    | none => simpa using ih
    | some a => simpa [parPath_eq] using ih

/-! ### C118 -/

/-- **C118** the constructor of a list gives every transform a name under the name of the list, and raises when the
list has a name and a transform has none; an unnamed list changes nothing. -/
theorem C118_construct (name : Option Str) (ts : List Obj) :
    (name = none → TList.mk' name ts = some ⟨none, ts⟩) ∧
    (∀ n, name = some n → (∃ t ∈ ts, t.name = none) → TList.mk' name ts = none) ∧
    (∀ n, name = some n → (∀ t ∈ ts, t.name ≠ none) → ∃ l, TList.mk' name ts = some l ∧ l.name = some n ∧
      l.ts.map (·.name) = ts.map (fun t => t.name.map (fun m => n ++ '/' :: m)) ∧
      l.ts.map (·.cls) = ts.map (·.cls) ∧ l.ts.map (·.par) = ts.map (·.par) ∧ l.ts.map (·.opt) = ts.map (·.opt)) := by
  refine ⟨?_, ?_, ?_⟩
  · rintro rfl; rfl
  · rintro n rfl ⟨t, ht, hn⟩
    rw [Option.eq_none_iff_forall_not_mem]
    intro l hl
    exact (mk'_some.1 hl).2.1 n rfl t ht hn
  · rintro n rfl h
    refine ⟨⟨some n, ts.map (fun t => { t with name := t.name.map (fun m => n ++ '/' :: m) })⟩,
      mk'_some.2 ⟨rfl, fun m hm t ht => h t ht, rfl⟩, rfl, ?_, ?_, ?_, ?_⟩ <;>
      (rw [List.map_map]; exact List.map_congr_left fun t _ => rfl)

/-- **C118** appending a transform to a list gives the list constructed with it. -/
theorem C118_append (name : Option Str) (ts : List Obj) (t : Obj) (l : TList) (hl : TList.mk' name ts = some l) :
    l.append t = TList.mk' name (ts ++ [t]) := by
  obtain ⟨h1, h2, h3⟩ := mk'_some.1 hl
  obtain ⟨a, b⟩ := l
  simp only at h1 h3
  subst h1 h3
  cases a with
  | none => simp [TList.append, TList.mk']
  | some n =>
    cases ht : t.name with
    | none =>
      have : TList.mk' (some n) (ts ++ [t]) = none := (C118_construct _ _).2.1 n rfl ⟨t, by simp, ht⟩
      rw [this]
      simp [TList.append, rename, ht]
    | some m =>
      have : TList.mk' (some n) (ts ++ [t]) = some ⟨some n, (ts ++ [t]).map (fun t => { t with name := t.name.map (fun m => n ++ '/' :: m) })⟩ := by
        refine mk'_some.2 ⟨rfl, fun k hk u hu => ?_, rfl⟩
        rcases List.mem_append.1 hu with hu | hu
        · exact h2 n rfl u hu
        · rw [List.mem_singleton.1 hu, ht]; simp
      rw [this]
      simp [TList.append, rename, ht]

/-- **C118** a list of transforms is written exactly when the path has a directory, no member is a full-covariance GMM,
no parameter is stored through `config` and no two parameters are stored one through the other (the same name, or a
name that leads through a parameter). -/
theorem C118_save_iff (rd : ℚ → ℚ) (path : Str) (l : TList)
    (hdot : ∀ t ∈ l.ts, ∀ n, t.name = some n → ['.'] ∉ components n) :
    (∃ f, lsave rd path l = some f) ↔ '/' ∈ path ∧ (∀ t ∈ l.ts, t.cls ≠ .GMM) ∧
      (∀ q ∈ l.ts.flatMap setPaths, ¬ Through [['c', 'o', 'n', 'f', 'i', 'g']] q) ∧
      (l.ts.flatMap setPaths).Pairwise (fun p q => ¬ Through p q) := by
  have hg : ∀ k : Cls, (desc k).cfgRaises = false ↔ k ≠ .GMM := fun k => by cases k <;> decide
  have hpw : (l.ts.flatMap (parSets rd)).Pairwise (fun a b => ¬ Clash (h5path a.1) (h5path b.1)) ↔
      (l.ts.flatMap setPaths).Pairwise (fun p q => ¬ Through p q) := by
    rw [pairwise_flatMap_map (parSets rd) (fun e => h5path e.1) (fun p q => ¬ Clash p q)]
    simp only [parSets_paths, through_iff]
  have hcf : (∀ e ∈ l.ts.flatMap (parSets rd), oddKey e.1 = false ∧ h5path e.1 ≠ [] ∧ ¬ Clash [configKey] (h5path e.1)) ↔
      ∀ q ∈ l.ts.flatMap setPaths, ¬ Through [['c', 'o', 'n', 'f', 'i', 'g']] q := by
    simp only [List.mem_flatMap, through_iff]
    constructor
    · rintro h q ⟨t, ht, hq⟩
      rw [← parSets_paths rd] at hq
      obtain ⟨e, he, rfl⟩ := List.mem_map.1 hq
      exact (h e ⟨t, ht, he⟩).2.2
    · rintro h e ⟨t, ht, he⟩
      have h1 := h (h5path e.1) ⟨t, ht, by rw [← parSets_paths rd]; exact List.mem_map.2 ⟨e, he, rfl⟩⟩
      obtain ⟨p, hp, a, ha, rfl⟩ := mem_parSets.1 he
      refine ⟨(odd_par _ _).2 ?_, by simp [path_par], h1⟩
      rcases hn : t.name with _ | n
      · trivial
      · exact hdot t ht n hn
  constructor
  · rintro ⟨f, hf⟩
    obtain ⟨h1, h2, h3, h4, -⟩ := lsave_some.1 hf
    exact ⟨h1, fun t ht => (hg _).1 (h2 t ht), hcf.1 h3, hpw.1 h4⟩
  · rintro ⟨h1, h2, h3, h4⟩
    exact ⟨_, lsave_some.2 ⟨h1, fun t ht => (hg _).2 (h2 t ht), hcf.2 h3, hpw.2 h4, rfl⟩⟩

/-- **C118** two transforms of the same name that both have a parameter `p` cannot be saved in one list: in particular
two unnamed transforms with a mean. -/
theorem C118_same_name_raises (rd : ℚ → ℚ) (path : Str) (l : TList) (pre mid post : List Obj) (t u : Obj) (p : P)
    (hl : l.ts = pre ++ t :: mid ++ u :: post) (hn : t.name = u.name) (ht : p ∈ params t.cls) (hu : p ∈ params u.cls)
    (hat : t.par p ≠ none) (hau : u.par p ≠ none) : lsave rd path l = none := by
  rw [Option.eq_none_iff_forall_not_mem]
  intro f hf
  obtain ⟨-, -, -, h4, -⟩ := lsave_some.1 hf
  rw [pairwise_flatMap_map (parSets rd) (fun e => h5path e.1) (fun p q => ¬ Clash p q)] at h4
  simp only [parSets_paths, hl, List.flatMap_append, List.flatMap_cons, List.pairwise_append] at h4
  have h5 := h4.2.2 (parPath t.name p) (by
    refine List.mem_append_right _ (List.mem_append_left _ ?_)
    exact List.mem_map.2 ⟨p, List.mem_filter.2 ⟨ht, by simpa [Option.isSome_iff_ne_none] using hat⟩, rfl⟩)
    (parPath u.name p) (by
    refine List.mem_append_left _ ?_
    exact List.mem_map.2 ⟨p, List.mem_filter.2 ⟨hu, by simpa [Option.isSome_iff_ne_none] using hau⟩, rfl⟩)
  rw [hn] at h5
  exact h5 (Or.inl (List.prefix_refl _))

/-- **C118** a saved list whose parameters were all set can be loaded exactly when its members are transforms (of the
ten classes that the module knows), of the dimensions they need, and have names if the list has one. -/
theorem C118_load_iff (rd : ℚ → ℚ) (path : Str) (l : TList) (f : File) (hs : lsave rd path l = some f)
    (hset : ∀ t ∈ l.ts, ∀ p ∈ params t.cls, t.par p ≠ none) :
    (∃ l', lload f = some l') ↔ ∀ t ∈ l.ts, t.cls ∈ transformClasses ∧ Shaped t ∧ (l.name ≠ none → t.name ≠ none) := by
  have hno : ¬ ∃ t ∈ l.ts, ∃ p ∈ (desc t.cls).pars, t.par p = none := by
    rintro ⟨t, ht, p, hp, hn⟩
    rw [params_eq] at hp
    exact hset t ht p hp hn
  constructor
  · rintro ⟨l', hl⟩
    rcases (lload_lsave hs).1 hl with ⟨h, hmk⟩ | ⟨h, -⟩
    · intro t ht
      obtain ⟨h1, -, h3, -⟩ := h t ht
      refine ⟨(imported_iff _).1 h1, (dimsOk_iff (imported_loads _ h1)).1 h3, fun hn => ?_⟩
      obtain ⟨n, hn⟩ := Option.ne_none_iff_exists'.1 hn
      exact (mk'_some.1 hmk).2.1 n hn (reload rd t) (List.mem_map.2 ⟨t, ht, rfl⟩)
    · exact absurd h hno
  · intro h
    refine ⟨⟨l.name, (l.ts.map (reload rd)).map (fun t => { t with name := match l.name with
        | none => t.name
        | some n => t.name.map (fun m => n ++ '/' :: m) })⟩, (lload_lsave hs).2 (Or.inl ⟨fun t ht => ⟨(imported_iff _).2 (h t ht).1, ?_, ?_, ?_⟩,
      mk'_some.2 ⟨rfl, ?_, rfl⟩⟩)⟩
    · intro p hp; rw [params_eq] at hp; exact hset t ht p hp
    · exact (dimsOk_iff (imported_loads _ ((imported_iff _).2 (h t ht).1))).2 (h t ht).2.1
    · exact (get_lfile hs).2 t ht
    · intro n hn t ht
      obtain ⟨u, hu, rfl⟩ := List.mem_map.1 ht
      exact (h u hu).2.2 (by simp [hn])

/-- **C118** what comes back: the same transforms in the same order, with the same parameters rounded to the precision
of the file; but the name of the list has been put before their names once more. -/
theorem C118_roundtrip (rd : ℚ → ℚ) (path : Str) (l l' : TList) (f : File) (hs : lsave rd path l = some f)
    (hset : ∀ t ∈ l.ts, ∀ p ∈ params t.cls, t.par p ≠ none) (hl : lload f = some l') :
    l'.name = l.name ∧ List.Forall₂ (SameTransform rd) l.ts l'.ts ∧
    (l.name = none → l'.ts.map (·.name) = l.ts.map (·.name)) ∧
    (∀ n, l.name = some n → l'.ts.map (·.name) = l.ts.map (fun t => t.name.map (fun m => n ++ '/' :: m))) := by
  have hno : ¬ ∃ t ∈ l.ts, ∃ p ∈ (desc t.cls).pars, t.par p = none := by
    rintro ⟨t, ht, p, hp, hn⟩
    rw [params_eq] at hp
    exact hset t ht p hp hn
  rcases (lload_lsave hs).1 hl with ⟨h, hmk⟩ | ⟨h, -⟩
  swap
  · exact absurd h hno
  obtain ⟨h1, h2, h3⟩ := mk'_some.1 hmk
  refine ⟨h1, ?_, ?_, ?_⟩
  · rw [h3, List.map_map, List.forall₂_map_right_iff, List.forall₂_same]
    intro t ht
    refine ⟨rfl, fun p hp => ?_⟩
    obtain ⟨a, ha⟩ := Option.ne_none_iff_exists'.1 (hset t ht p hp)
    refine ⟨a, ha, ?_⟩
    simp [reload, params_eq, hp, ha, Arr.round]
  · intro hn
    rw [h3, hn, List.map_map, List.map_map]
    exact List.map_congr_left fun t _ => rfl
  · intro n hn
    rw [h3, hn, List.map_map, List.map_map]
    exact List.map_congr_left fun t _ => rfl

/-- **C118** the list that comes back does the same: for parameters that the file holds exactly, and transforms that
are functions of their parameters, every prediction is the one of the list that was saved. -/
theorem C118_predict {X : Type} (pr : Cls → (P → Option Arr) → X → Option X)
    (hpr : ∀ k par par', (∀ p ∈ params k, par p = par' p) → pr k par = pr k par')
    (rd : ℚ → ℚ) (path : Str) (l l' : TList) (f : File) (hs : lsave rd path l = some f)
    (hset : ∀ t ∈ l.ts, ∀ p ∈ params t.cls, ∃ a, t.par p = some a ∧ ∀ x ∈ a.data, rd x = x) (hl : lload f = some l')
    (x : X) : l'.predict pr x = l.predict pr x := by
  have h := (C118_roundtrip rd path l l' f hs (fun t ht p hp => by
    obtain ⟨a, ha, -⟩ := hset t ht p hp
    simp [ha]) hl).2.1
  unfold TList.predict
  clear hs hl
  generalize l.ts = A at h hset
  generalize l'.ts = B at h
  induction h generalizing x with
  | nil => rfl
  | @cons t t' ts ts' h1 h2 ih =>
    have he : pr t'.cls t'.par = pr t.cls t.par := by
      rw [h1.1]
      refine hpr _ _ _ fun p hp => ?_
      obtain ⟨a, ha, ha'⟩ := h1.2 p hp
      obtain ⟨b, hb, hb'⟩ := hset t (by simp) p hp
      rw [ha] at hb
      cases hb
      rw [ha', ha]
      obtain ⟨sh, da⟩ := a
      have : da.map rd = da := by
        conv_rhs => rw [← List.map_id da]
        exact List.map_congr_left hb'
      simp [this]
    simp only [List.foldlM_cons, he]
    refine congrArg _ (funext fun y => ?_)
    exact ih y (fun t ht => hset t (by simp [ht]))

/-- **C118** the names grow: after `i` cycles of saving and loading, the name of the list stands `i` times more before
the name of every transform. -/
theorem C118_names_grow (rd : ℚ → ℚ) (n : Str) (ls : Nat → TList) (paths : Nat → Str) (fs : Nat → File)
    (hn : (ls 0).name = some n) (hset : ∀ t ∈ (ls 0).ts, ∀ p ∈ params t.cls, t.par p ≠ none)
    (hs : ∀ i, lsave rd (paths i) (ls i) = some (fs i)) (hl : ∀ i, lload (fs i) = some (ls (i + 1))) (i : Nat) :
    (ls i).ts.map (·.name) =
      (ls 0).ts.map (fun t => t.name.map (fun m => (List.replicate i (n ++ ['/'])).flatten ++ m)) := by
  have key : ∀ i, (ls i).name = some n ∧ (∀ t ∈ (ls i).ts, ∀ p ∈ params t.cls, t.par p ≠ none) ∧
      (ls i).ts.map (·.name) =
        (ls 0).ts.map (fun t => t.name.map (fun m => (List.replicate i (n ++ ['/'])).flatten ++ m)) := by
    intro i
    induction i with
    | zero => exact ⟨hn, hset, by simp⟩
    | succ i ih =>
      obtain ⟨h1, h2, h3⟩ := ih
      obtain ⟨g1, g2, -, g3⟩ := C118_roundtrip rd _ _ _ _ (hs i) h2 (hl i)
      refine ⟨g1.trans h1, ?_, ?_⟩
      · intro t ht p hp
        obtain ⟨u, -, hu⟩ := Hyp.H5.forall₂_mem_right g2 ht
        rw [hu.1] at hp
        obtain ⟨a, -, ha⟩ := hu.2 p hp
        simp [ha]
      · rw [g3 n h1]
        have : (ls i).ts.map (fun t => t.name.map (fun m => n ++ '/' :: m)) =
            ((ls i).ts.map (·.name)).map (fun o => o.map (fun m => n ++ '/' :: m)) := by
          rw [List.map_map]; rfl
        rw [this, h3, List.map_map]
        refine List.map_congr_left fun t _ => ?_
        simp only [Function.comp_apply, Option.map_map]
        congr 1
        funext m
        simp [List.replicate_succ]
  exact (key i).2.2

theorem clash_append (b p q : List Str) : Clash (b ++ p) (b ++ q) ↔ Clash p q := by
  simp [Clash, List.prefix_append_right_inj]

/-- **C118** the longer names do no harm: a loaded list can be saved and loaded again, with the same parameters. -/
theorem C118_second_cycle (rd : ℚ → ℚ) (hrd : ∀ x, rd (rd x) = rd x) (path path' : Str) (name : Option Str)
    (ts : List Obj) (l l' : TList) (f : File) (hmk : TList.mk' name ts = some l) (hs : lsave rd path l = some f)
    (hset : ∀ t ∈ l.ts, ∀ p ∈ params t.cls, t.par p ≠ none) (hl : lload f = some l') (hp : '/' ∈ path') :
    ∃ f' l'', lsave rd path' l' = some f' ∧ lload f' = some l'' ∧ l''.ts.map (·.par) = l'.ts.map (·.par) ∧
      l''.ts.map (·.cls) = l.ts.map (·.cls) := by
  obtain ⟨hm1, hm2, hm3⟩ := mk'_some.1 hmk
  have hno : ¬ ∃ t ∈ l.ts, ∃ p ∈ (desc t.cls).pars, t.par p = none := by
    rintro ⟨t, ht, p, hp, hn⟩
    rw [params_eq] at hp
    exact hset t ht p hp hn
  obtain ⟨h, hmk'⟩ : (∀ t ∈ l.ts, imported t.cls = true ∧ (∀ p ∈ (desc t.cls).pars, t.par p ≠ none) ∧ DimsOk t ∧ _) ∧ _ := by
    rcases (lload_lsave hs).1 hl with h | ⟨h, -⟩
    · exact h
    · exact absurd h hno
  obtain ⟨k1, k2, k3⟩ := mk'_some.1 hmk'
  obtain ⟨-, s2, s3, s4, -⟩ := lsave_some.1 hs
  -- the new name of a member
  let nn : Obj → Option Str := fun t => match l.name with
    | none => t.name
    | some n => t.name.map (fun m => n ++ '/' :: m)
  let nt : Obj → Obj := fun t => { reload rd t with name := nn t }
  have k3' : l'.ts = l.ts.map nt := by rw [k3, List.map_map]; rfl
  have hb : ∀ t ∈ l.ts, base (nn t) = base l.name ++ base t.name := by
    intro t ht
    rcases hln : l.name with _ | n
    · simp only [nn, hln]; rfl
    · obtain ⟨m, hm⟩ := Option.ne_none_iff_exists'.1 (k2 n hln (reload rd t) (List.mem_map.2 ⟨t, ht, rfl⟩))
      have hm' : t.name = some m := hm
      simp only [nn, hln, hm', Option.map_some, base, h5path_append]
  have hpre : ∀ t ∈ l.ts, ∃ c, base t.name = base l.name ++ c ∧ (DotFree t.name → DotFree (nn t)) := by
    intro t ht
    rw [hm3] at ht
    obtain ⟨u, hu, rfl⟩ := List.mem_map.1 ht
    rcases hn : name with _ | n
    · have hln : l.name = none := by rw [hm1, hn]
      refine ⟨base u.name, by simp [hln, base], ?_⟩
      simp only [nn, hln]; exact id
    · obtain ⟨m, hm⟩ := Option.ne_none_iff_exists'.1 (hm2 n hn u hu)
      have hln : l.name = some n := by rw [hm1, hn]
      refine ⟨h5path m, by simp [hm, base, h5path_append, hln], ?_⟩
      simp only [nn, hln, hm, Option.map_some, DotFree, components_append, List.mem_append]
      tauto
  have hsp : ∀ t ∈ l.ts, (parSets rd (nt t)).map (fun e => h5path e.1) =
      ((parSets rd t).map (fun e => h5path e.1)).map (base l.name ++ ·) := by
    intro t ht
    rw [parSets_paths, parSets_paths, setPaths, setPaths, List.map_map]
    have hc : (nt t).cls = t.cls := rfl
    have hf : (params t.cls).filter (fun p => ((nt t).par p).isSome) = (params t.cls).filter (fun p => (t.par p).isSome) := by
      refine List.filter_congr fun p hp => ?_
      show ((reload rd t).par p).isSome = _
      simp [reload, params_eq, hp]
    rw [hc, hf]
    refine List.map_congr_left fun p _ => ?_
    show parPath (nn t) p = base l.name ++ parPath t.name p
    rw [parPath_eq, parPath_eq, hb t ht, List.append_assoc]
  have hs' : lsave rd path' l' = some _ := lsave_some.2 ⟨hp, (by
      intro t ht
      rw [k3'] at ht
      obtain ⟨u, hu, rfl⟩ := List.mem_map.1 ht
      exact s2 u hu), (by
      intro e he
      rw [k3'] at he
      obtain ⟨t, ht, he⟩ := List.mem_flatMap.1 he
      obtain ⟨u, hu, rfl⟩ := List.mem_map.1 ht
      obtain ⟨p, hp, a, ha, rfl⟩ := mem_parSets.1 he
      have hp' : p ∈ (desc u.cls).pars := hp
      obtain ⟨b, hb'⟩ := Option.ne_none_iff_exists'.1 ((h u hu).2.1 p hp')
      have hmem : (prefixOf u.name ++ p.key, DS.arr (b.round rd)) ∈ l.ts.flatMap (parSets rd) :=
        List.mem_flatMap.2 ⟨u, hu, mem_parSets.2 ⟨p, hp', b, hb', rfl⟩⟩
      obtain ⟨q1, -, q3⟩ := s3 _ hmem
      obtain ⟨c, hc1, hc2⟩ := hpre u hu
      refine ⟨(odd_par _ _).2 (hc2 ((odd_par _ _).1 q1)), by simp [path_par], ?_⟩
      simp only [path_par, clash_config] at q3 ⊢
      show ¬ (base (nn u)).head? = _
      rw [hb u hu, hc1]
      rw [hc1] at q3
      cases hbl : base l.name with
      | nil => rw [hbl] at q3; simpa using q3
      | cons x xs => rw [hbl] at q3; simpa using q3), (by
      rw [pairwise_flatMap_map (parSets rd) (fun e => h5path e.1) (fun p q => ¬ Clash p q)] at s4 ⊢
      have : l'.ts.flatMap (fun a => (parSets rd a).map (fun e => h5path e.1)) =
          (l.ts.flatMap (fun a => (parSets rd a).map (fun e => h5path e.1))).map (base l.name ++ ·) := by
        rw [k3', List.flatMap_map, List.map_flatMap]
        simp only [List.flatMap_def]
        refine congrArg List.flatten (List.map_congr_left fun t ht => ?_)
        exact hsp t ht
      rw [this, List.pairwise_map]
      simpa only [clash_append] using s4), rfl⟩
  have hset' : ∀ t ∈ l'.ts, ∀ p ∈ params t.cls, t.par p ≠ none := by
    intro t ht p hpp
    rw [k3'] at ht
    obtain ⟨u, hu, rfl⟩ := List.mem_map.1 ht
    have hpp' : p ∈ params u.cls := hpp
    obtain ⟨a, ha⟩ := Option.ne_none_iff_exists'.1 (hset u hu p hpp')
    show (reload rd u).par p ≠ none
    simp [reload, params_eq, hpp', ha]
  have hall' : ∀ t ∈ l'.ts, t.cls ∈ transformClasses ∧ Shaped t ∧ (l'.name ≠ none → t.name ≠ none) := by
    intro t ht
    rw [k3'] at ht
    obtain ⟨u, hu, rfl⟩ := List.mem_map.1 ht
    have hcu : imported u.cls = true := (h u hu).1
    have hsu := (dimsOk_iff (imported_loads _ hcu)).1 (h u hu).2.2.1
    refine ⟨(imported_iff _).1 hcu, ?_, ?_⟩
    · intro m p ax hm a ha
      have ha' : (reload rd u).par p = some a := ha
      have hpp : p ∈ params u.cls := by
        rw [← params_eq]
        exact dims_sub u.cls (m, p, ax) ((lookup_mem (dims_nodup u.cls)).1 (newOpt_shape u.cls _ hm))
      obtain ⟨b, hb'⟩ := Option.ne_none_iff_exists'.1 (hset u hu p hpp)
      simp only [reload, params_eq, hpp, if_true, hb', Option.map_some, Option.some.injEq] at ha'
      subst ha'
      exact hsu m p ax hm b hb'
    · intro hn
      rw [k1] at hn
      obtain ⟨n, hn⟩ := Option.ne_none_iff_exists'.1 hn
      obtain ⟨m, hm⟩ := Option.ne_none_iff_exists'.1 (k2 n hn (reload rd u) (List.mem_map.2 ⟨u, hu, rfl⟩))
      have hm' : u.name = some m := hm
      show nn u ≠ none
      simp [nn, hn, hm']
  obtain ⟨l'', hl''⟩ := (C118_load_iff rd path' l' _ hs' hset').2 hall'
  refine ⟨_, l'', hs', hl'', ?_, ?_⟩
  · have hno' : ¬ ∃ t ∈ l'.ts, ∃ p ∈ (desc t.cls).pars, t.par p = none := by
      rintro ⟨t, ht, p, hp, hn⟩
      rw [params_eq] at hp
      exact hset' t ht p hp hn
    rcases (lload_lsave hs').1 hl'' with ⟨-, hmk''⟩ | ⟨h, -⟩
    · obtain ⟨-, -, e3⟩ := mk'_some.1 hmk''
      rw [e3, k3', List.map_map, List.map_map, List.map_map, List.map_map]
      refine List.map_congr_left fun t _ => ?_
      funext p
      show (reload rd (nt t)).par p = (reload rd t).par p
      simp only [reload, nt]
      by_cases hpp : p ∈ (desc t.cls).pars
      · simp only [if_pos hpp]
        cases t.par p with
        | none => rfl
        | some a => simp [round_round hrd]
      · simp only [if_neg hpp]
    · exact absurd h hno'
  · have g2 := (C118_roundtrip rd path' l' l'' _ hs' hset' hl'').2.1
    have g1 := (C118_roundtrip rd path l l' _ hs hset hl).2.1
    have hc : ∀ {A B : List Obj}, List.Forall₂ (SameTransform rd) A B → B.map (·.cls) = A.map (·.cls) := by
      intro A B hAB
      induction hAB with
      | nil => rfl
      | cons h1 _ ih => simp [h1.1, ih]
    rw [hc g2, hc g1]

/-! ### the hypotheses are met -/

/-- a whitening named `w`. -/
def exW : Obj where
  cls := .CentWhiten
  name := some ['w']
  par := fun p => if p = .mu then some ⟨[2], [1, 2]⟩ else if p = .T then some ⟨[2, 2], [3, 4, 5, 6]⟩ else none
  opt := fun _ => .bool true

/-- an unnamed whitening without a mean. -/
def exNoMu : Obj := { exW with name := none, par := fun p => if p = .T then some ⟨[2, 2], [3, 4, 5, 6]⟩ else none }

/-- an unnamed mean and variance normalisation. -/
def exMvn : Obj where
  cls := .MVN
  name := none
  par := fun p => if p = .mu then some ⟨[2], [7, 8]⟩ else if p = .s then some ⟨[2], [1, 1]⟩ else none
  opt := fun _ => .null

/-- a named list of two transforms: the constructor, a file, and two cycles. -/
def exCycle (l : TList) : Option TList := (lsave id ['d', '/', 'm'] l).bind lload

example : ((TList.mk' (some ['L']) [exW, exLda]).bind exCycle).map
      (fun l => (l.ts.map (fun t => (t.cls, t.name, t.par .T)))) =
    some [(.CentWhiten, some ['L', '/', 'L', '/', 'w'], some ⟨[2, 2], [3, 4, 5, 6]⟩),
      (.LDA, some ['L', '/', 'L', '/', 'l', 'd', 'a'], some ⟨[2, 1], [3, 4]⟩)] := by decide +kernel

example : (((TList.mk' (some ['L']) [exW]).bind exCycle).bind exCycle).map
      (fun l => (l.ts.map (·.name), l.ts.map (·.par .T))) =
    some ([some ['L', '/', 'L', '/', 'L', '/', 'w']], [some ⟨[2, 2], [3, 4, 5, 6]⟩]) := by decide +kernel

example : (TList.mk' (some ['L']) [exW, exMvn]).isNone = true := by decide +kernel

/-- **C118** an unnamed list of unnamed transforms shares its datasets: a parameter that a transform does not have is
filled in, on loading, with the one of another transform. -/
theorem C118_borrowed_parameter : ∃ l f l', TList.mk' none [exNoMu, exMvn] = some l ∧ l.ts.map (·.par .mu) = [none, exMvn.par .mu] ∧
    lsave id ['d', '/', 'm'] l = some f ∧ lload f = some l' ∧ l'.ts.map (·.par .mu) = [exMvn.par .mu, exMvn.par .mu] := by
  have h : ((TList.mk' none [exNoMu, exMvn]).bind exCycle).map (fun l => l.ts.map (·.par .mu)) =
      some [exMvn.par .mu, exMvn.par .mu] := by decide +kernel
  obtain ⟨l', h1, h2⟩ := Option.map_eq_some_iff.1 h
  obtain ⟨l, h3, h4⟩ := Option.bind_eq_some_iff.1 h1
  obtain ⟨f, h5, h6⟩ := Option.bind_eq_some_iff.1 h4
  refine ⟨l, f, l', h3, ?_, h5, h6, h2⟩
  have h7 : (TList.mk' none [exNoMu, exMvn]).map (fun l => l.ts.map (·.par .mu)) = some [none, exMvn.par .mu] := by
    decide +kernel
  rw [h3] at h7
  exact Option.some.inj h7

/-- a list with a PLDA model is written but cannot be loaded. -/
example : ((TList.mk' none [{ exW with cls := .PLDA, par := fun _ => some ⟨[2, 2], [3, 4, 5, 6]⟩ }]).bind (lsave id ['d', '/', 'm'])).isSome = true ∧
    ((TList.mk' none [{ exW with cls := .PLDA, par := fun _ => some ⟨[2, 2], [3, 4, 5, 6]⟩ }]).bind exCycle).isNone = true :=
  ⟨by decide +kernel, by decide +kernel⟩

example : ((TList.mk' none [exMvn, { exW with name := none }]).bind (lsave id ['d', '/', 'm'])).isNone = true := by decide +kernel

end Hyp.Persist
