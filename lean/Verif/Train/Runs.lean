import Verif.Train.Props

/-! C136 (continued): when a chain runs, what is written without a list, and where the model to train comes from. -/

namespace Hyp.Train
open Hyp.Text Hyp.H5 Hyp.Persist

/-! ### specification -/

/-- a plain name: not empty, not `.`, not `config`, no slash. -/
structure Plain (n : Str) : Prop where
  ne : n ≠ []
  slash : '/' ∉ n
  dot : n ≠ ['.']
  config : n ≠ ['c', 'o', 'n', 'f', 'i', 'g']

/-! ### proofs -/

theorem parPath_plain {n : Str} (h : Plain n) (p : P) : parPath (some n) p = [n, p.key] := by
  unfold parPath
  rw [Option.map_some, Option.getD_some, components_noslash h.slash]
  simp [h.ne]

theorem setPaths_plain {t : Obj} {n : Str} (hn : t.name = some n) (h : Plain n) {q : List Str} (hq : q ∈ setPaths t) :
    ∃ p ∈ params t.cls, q = [n, p.key] := by
  unfold setPaths at hq
  obtain ⟨p, hp, rfl⟩ := List.mem_map.1 hq
  exact ⟨p, (List.mem_filter.1 hp).1, by rw [hn, parPath_plain h]⟩

theorem through_two {a b c d : Str} (h : Through [a, b] [c, d]) : a = c ∧ b = d := by
  rcases h with ⟨r, hr⟩ | ⟨r, hr⟩ <;> simp at hr
  · exact ⟨hr.1.symm, hr.2.1.symm⟩
  · exact ⟨hr.1, hr.2.1⟩

theorem key_inj {p q : P} (h : p.key = q.key) : p = q := by
  revert h; cases p <;> cases q <;> simp [P.key]

theorem params_nodup (k : Cls) : (params k).Nodup := by cases k <;> simp [params]

/-- a list of fitted transforms with distinct plain names is saved. -/
theorem lsave_plain (rd : ℚ → ℚ) (path : Str) (hp : '/' ∈ path) (ts : List Obj) (hf : ∀ t ∈ ts, Fitted t) (ns : List Str)
    (hn : ts.map (·.name) = ns.map some) (hpl : ∀ n ∈ ns, Plain n) (hnd : ns.Nodup) : ∃ f, lsave rd path ⟨none, ts⟩ = some f := by
  have hname : ∀ t ∈ ts, ∃ n, t.name = some n ∧ Plain n := by
    intro t ht
    have : t.name ∈ ns.map some := by rw [← hn]; exact List.mem_map.2 ⟨t, ht, rfl⟩
    obtain ⟨n, h1, h2⟩ := List.mem_map.1 this
    exact ⟨n, h2.symm, hpl n h1⟩
  rw [C118_save_iff]
  · refine ⟨hp, ?_, ?_, ?_⟩
    · intro t ht hg
      have := (hf t ht).cls
      rw [hg] at this
      revert this
      decide
    · intro q hq hthr
      obtain ⟨t, ht, hq⟩ := List.mem_flatMap.1 hq
      obtain ⟨n, h1, h2⟩ := hname t ht
      obtain ⟨p, _, rfl⟩ := setPaths_plain h1 h2 hq
      rcases hthr with ⟨r, hr⟩ | ⟨r, hr⟩ <;> simp at hr
      exact h2.config hr.1
    · rw [List.pairwise_flatMap]
      constructor
      · intro t ht
        obtain ⟨n, h1, h2⟩ := hname t ht
        unfold setPaths
        rw [List.pairwise_map]
        refine ((params_nodup t.cls).filter _).imp ?_
        intro p q hpq hthr
        rw [h1, parPath_plain h2, parPath_plain h2] at hthr
        exact hpq (key_inj (through_two hthr).2)
      · have hd : (ts.map (·.name)).Nodup := by
          rw [hn]
          exact hnd.map (Option.some_injective _)
        rw [List.Nodup, List.pairwise_map] at hd
        refine hd.imp_of_mem ?_
        intro t u ht hu hne q hq q' hq' hthr
        obtain ⟨n, h1, h2⟩ := hname t ht
        obtain ⟨m, h3, h4⟩ := hname u hu
        obtain ⟨p, _, rfl⟩ := setPaths_plain h1 h2 hq
        obtain ⟨p', _, rfl⟩ := setPaths_plain h3 h4 hq'
        apply hne
        rw [h1, h3, (through_two hthr).1]
  · intro t ht n hn' hc
    obtain ⟨m, h1, h2⟩ := hname t ht
    rw [h1] at hn'
    cases hn'
    rw [components_noslash h2.slash] at hc
    exact h2.dot (List.mem_singleton.1 hc).symm

theorem applyAll_some {X : Type} {pr : Cls → (P → Option Arr) → X → Option X} (hpr : ∀ t x, Fitted t → ∃ y, pr t.cls t.par x = some y)
    (ts : List Obj) (h : ∀ t ∈ ts, Fitted t) (x : X) : ∃ y, applyAll pr ts x = some y := by
  induction ts generalizing x with
  | nil => exact ⟨x, rfl⟩
  | cons t ts ih =>
    obtain ⟨y, hy⟩ := hpr t x (h t (by simp))
    obtain ⟨z, hz⟩ := ih (fun t ht => h t (List.mem_cons_of_mem _ ht)) y
    exact ⟨z, by unfold applyAll; rw [hy, Option.bind_some]; exact hz⟩

theorem trained_names {X : Type} {E : Env X} {js : List (Job X)} {ts : List Obj} (n : Job X → Str)
    (hn : ∀ i ∈ js, ∀ x m, i.fit i.fresh x = some m → m.name = some (n i)) (h : Trained E js ts) : ts.map (·.name) = (js.map n).map some := by
  apply List.ext_getElem?
  intro k
  rcases Nat.lt_or_ge k js.length with hk | hk
  · have hk' : k < ts.length := by rw [h.1]; exact hk
    obtain ⟨x, m, _, h2, _, h4⟩ := h.2 k js[k] ts[k] (List.getElem?_eq_getElem hk) (List.getElem?_eq_getElem hk')
    simp only [List.getElem?_map, List.getElem?_eq_getElem hk, List.getElem?_eq_getElem hk', Option.map_some]
    rw [h4, hn _ (List.getElem_mem hk) x m h2]
  · rw [List.getElem?_eq_none (by simp; rw [h.1]; exact hk), List.getElem?_eq_none (by simp; exact hk)]

/-- the state before a script of a chain, and what the script then does. -/
theorem run_eq {X : Type} (E : Env X) (js : List (Job X)) (j : Job X) (hc : Chain (js ++ [j])) (d : Disk) (hst : State E js d) :
    ∃ ts, Trained E js ts ∧ (∀ t ∈ ts, Fitted t) ∧ run E d j = (applyAll E.pr ts j.data).bind (fun x => (j.fit j.fresh x).bind (fun m =>
      (lsave E.rd j.out ⟨none, ts ++ [m]⟩).map (fun f => fun p => if p = j.out then some f else d p))) := by
  have hin := hc.input j (by simp)
  obtain ⟨hs, ha⟩ := hc.append j (by simp)
  have hm : loadModel d j = some j.fresh := by unfold loadModel; rw [hin]
  rcases List.eq_nil_or_concat js with rfl | ⟨js', i, rfl⟩
  · have hp : j.preproc = none := hc.first j rfl
    refine ⟨[], ⟨rfl, by intro k j t h; simp at h⟩, by simp, ?_⟩
    unfold run
    rw [hp]
    have h0 : loadPre d none = some none := rfl
    have h1 : preprocess E none j.data = some j.data := rfl
    have h2 : applyAll E.pr [] j.data = some j.data := rfl
    rw [h0, Option.bind_some, h1, h2]
    simp only [Option.bind_some, hm]
    apply congrArg
    funext m
    unfold output
    rw [if_pos hs, if_pos ha]
    rfl
  · rw [List.concat_eq_append] at hc hst ⊢
    have hp : j.preproc = some i.out := hc.next js'.length i j (by simp) (by simp)
    obtain ⟨f, ts, h1, h2, h3, h4⟩ := hst i (by simp)
    refine ⟨ts, h3, h4, ?_⟩
    unfold run
    have : loadPre d j.preproc = some (some ⟨none, ts⟩) := by
      rw [hp]
      unfold loadPre
      simp only [h1, Option.bind_some, h2, Option.map_some]
    rw [this]
    have hpp : preprocess E (some ⟨none, ts⟩) j.data = applyAll E.pr ts j.data := predict_applyAll E.pr none ts j.data
    simp only [Option.bind_some, hm, hpp]
    apply congrArg
    funext x
    apply congrArg
    funext m
    unfold output
    rw [if_pos hs, if_pos ha]
    rfl

theorem state_of_chain {X : Type} (E : Env X) (hrd : ∀ x, E.rd (E.rd x) = E.rd x)
    (hpr : ∀ k par par', (∀ p ∈ params k, par p = par' p) → E.pr k par = E.pr k par') (d : Disk) (js : List (Job X))
    (hc : Chain js) (hfit : ∀ i ∈ js, ∀ x m, i.fit i.fresh x = some m → Fitted m) (d' : Disk) (hr : runAll E d js = some d') : State E js d' := by
  induction js using List.reverseRecOn generalizing d' with
  | nil => intro j hj; cases hj
  | append_singleton js i ih =>
    rw [runAll_snoc] at hr
    obtain ⟨d1, h1, h2⟩ := Option.bind_eq_some_iff.1 hr
    exact run_step E hrd hpr js i hc (hfit i (by simp)) d1 d' (ih hc.init (fun i hi => hfit i (List.mem_append_left _ hi)) d1 h1) h2

/-! ## C136 -/

/-- **C136** a chain of any length runs to the end, when the fits and the transforms work, the output paths have a directory, and the models have
distinct plain names. -/
theorem C136_chain_runs {X : Type} (E : Env X) (hrd : ∀ x, E.rd (E.rd x) = E.rd x)
    (hpr : ∀ k par par', (∀ p ∈ params k, par p = par' p) → E.pr k par = E.pr k par')
    (htot : ∀ t x, Fitted t → ∃ y, E.pr t.cls t.par x = some y) (d : Disk) (js : List (Job X)) (hc : Chain js) (n : Job X → Str)
    (hfit : ∀ i ∈ js, ∀ x, ∃ m, i.fit i.fresh x = some m ∧ Fitted m ∧ m.name = some (n i))
    (hout : ∀ i ∈ js, '/' ∈ i.out) (hpl : ∀ i ∈ js, Plain (n i)) (hnd : (js.map n).Nodup) : ∃ d', runAll E d js = some d' := by
  induction js using List.reverseRecOn with
  | nil => exact ⟨d, rfl⟩
  | append_singleton js j ih =>
    obtain ⟨d1, h1⟩ := ih hc.init (fun i hi => hfit i (List.mem_append_left _ hi)) (fun i hi => hout i (List.mem_append_left _ hi))
      (fun i hi => hpl i (List.mem_append_left _ hi)) (by rw [List.map_append] at hnd; exact (List.nodup_append.1 hnd).1)
    have hst := state_of_chain E hrd hpr d js hc.init (fun i hi x m h => by
      obtain ⟨m', h', h2, _⟩ := hfit i (List.mem_append_left _ hi) x
      rw [h] at h'
      cases h'
      exact h2) d1 h1
    obtain ⟨ts, ht, hf, hr⟩ := run_eq E js j hc d1 hst
    rw [runAll_snoc, h1, Option.bind_some, hr]
    obtain ⟨x, hx⟩ := applyAll_some htot ts hf j.data
    obtain ⟨m, hm, hfm, hmn⟩ := hfit j (by simp) x
    rw [hx, Option.bind_some, hm, Option.bind_some]
    have hn := trained_names n (fun i hi x m h => by
      obtain ⟨m', h', _, h2⟩ := hfit i (List.mem_append_left _ hi) x
      rw [h] at h'
      cases h'
      exact h2) ht
    obtain ⟨f, hsv⟩ := lsave_plain E.rd j.out (hout j (by simp)) (ts ++ [m]) (by
      intro t ht
      rcases List.mem_append.1 ht with ht | ht
      · exact hf t ht
      · rw [List.mem_singleton.1 ht]; exact hfm) ((js ++ [j]).map n) (by simp [hn, hmn]) (by
      intro a ha
      obtain ⟨i, hi, rfl⟩ := List.mem_map.1 ha
      exact hpl i hi) hnd
    exact ⟨_, by rw [hsv]; rfl⟩

/-- **C136** a name may be used only once along a chain: if the last model has the name of an earlier one and a parameter in common with it (two
train-cw.py with the same `--name`, say), the run raises. -/
theorem C136_same_name_raises {X : Type} (E : Env X) (hrd : ∀ x, E.rd (E.rd x) = E.rd x)
    (hpr : ∀ k par par', (∀ p ∈ params k, par p = par' p) → E.pr k par = E.pr k par') (d : Disk) (js : List (Job X)) (j : Job X)
    (hc : Chain (js ++ [j])) (hfit : ∀ i ∈ js ++ [j], ∀ x m, i.fit i.fresh x = some m → Fitted m) (i : Job X) (hi : i ∈ js)
    (hsame : ∀ x y m m', i.fit i.fresh x = some m → j.fit j.fresh y = some m' → m.name = m'.name ∧ ∃ p, p ∈ params m.cls ∧ p ∈ params m'.cls) :
    runAll E d (js ++ [j]) = none := by
  rw [runAll_snoc]
  cases h1 : runAll E d js with
  | none => rfl
  | some d1 =>
    have hst := state_of_chain E hrd hpr d js hc.init (fun i hi => hfit i (List.mem_append_left _ hi)) d1 h1
    obtain ⟨ts, ht, hf, hr⟩ := run_eq E js j hc d1 hst
    rw [Option.bind_some, hr]
    cases hx : applyAll E.pr ts j.data with
    | none => rfl
    | some x =>
      rw [Option.bind_some]
      cases hm : j.fit j.fresh x with
      | none => rfl
      | some m' =>
        rw [Option.bind_some]
        obtain ⟨k, hk, rfl⟩ := List.getElem_of_mem hi
        have hk' : k < ts.length := by rw [ht.1]; exact hk
        obtain ⟨y, m, _, h2, h3, h4⟩ := ht.2 k js[k] ts[k] (List.getElem?_eq_getElem hk) (List.getElem?_eq_getElem hk')
        obtain ⟨e1, p, hp, hp'⟩ := hsame y x m m' h2 hm
        have hfm : Fitted m' := hfit j (by simp) x m' hm
        have hcls : p ∈ params ts[k].cls := by rw [h3.1]; exact hp
        have hspl : ts = ts.take k ++ ts[k] :: ts.drop (k + 1) := by
          conv_lhs => rw [← List.take_append_drop k ts, List.drop_eq_getElem_cons hk']
        rw [C118_same_name_raises E.rd j.out ⟨none, ts ++ [m']⟩ (ts.take k) (ts.drop (k + 1)) [] ts[k] m' p
          (by
            show ts ++ [m'] = _
            conv_lhs => rw [hspl]) (h4.trans e1) hcls hp' ((hf _ (List.getElem_mem hk')).set p hcls) (hfm.set p hp')]
        rfl

/-- **C136** with `--no-append-tlist` the file holds the new model alone, whatever the pre-processing. -/
theorem C136_no_append {X : Type} (E : Env X) (d d' : Disk) (j : Job X) (hi : j.input = none) (hs : j.saveTlist = true) (ha : j.appendTlist = false)
    (hfit : ∀ x m, j.fit j.fresh x = some m → Fitted m) (hr : run E d j = some d') :
    ∃ f t x m, d' j.out = some f ∧ lload f = some ⟨none, [t]⟩ ∧ j.fit j.fresh x = some m ∧ SameTransform E.rd m t ∧ t.name = m.name := by
  unfold run at hr
  simp only [Option.bind_eq_some_iff, Option.map_eq_some_iff] at hr
  obtain ⟨pre, hp, x, hx, m0, hm0, m, hm, f, hf, rfl⟩ := hr
  have : m0 = j.fresh := by
    unfold loadModel at hm0
    rw [hi] at hm0
    exact (Option.some.inj hm0).symm
  subst this
  unfold output at hf
  rw [if_pos hs, ha] at hf
  have hf' : lsave E.rd j.out ⟨none, [m]⟩ = some f := hf
  have hfm := hfit x m hm
  obtain ⟨ts', hl, hsm, hnm⟩ := lload_of hf' (by intro t ht; rw [List.mem_singleton.1 ht]; exact hfm)
  cases hsm with
  | cons h1 h2 =>
    cases h2
    exact ⟨f, _, x, m, if_pos rfl, hl, hm, h1, by simpa using hnm⟩

/-- **C136** with `--no-save-tlist` the file is that of the model: its class loads it; it is not a list, so no later script takes it as
pre-processing. -/
theorem C136_no_tlist {X : Type} (E : Env X) (d d' : Disk) (j : Job X) (hi : j.input = none) (hs : j.saveTlist = false)
    (hfit : ∀ x m, j.fit j.fresh x = some m → Fitted m) (hr : run E d j = some d') :
    ∃ f t x m, d' j.out = some f ∧ j.fit j.fresh x = some m ∧ load m.cls f = some t ∧ SameTransform E.rd m t ∧ t.name = m.name ∧ lload f = none ∧
      ∀ i : Job X, i.preproc = some j.out → run E d' i = none := by
  unfold run at hr
  simp only [Option.bind_eq_some_iff, Option.map_eq_some_iff] at hr
  obtain ⟨pre, hp, x, hx, m0, hm0, m, hm, f, hf, rfl⟩ := hr
  have : m0 = j.fresh := by
    unfold loadModel at hm0
    rw [hi] at hm0
    exact (Option.some.inj hm0).symm
  subst this
  unfold output at hf
  rw [hs] at hf
  have hf' : save E.rd j.out m = some f := hf
  have hfm := hfit x m hm
  have hl : Loads m.cls := by
    have := hfm.cls
    revert this
    cases m.cls <;> simp [transformClasses, Loads]
  obtain ⟨t, ht⟩ := (C117_load_iff E.rd j.out m f hf').2 ⟨hl, hfm.set, hfm.shaped⟩
  obtain ⟨h1, h2, h3, -⟩ := C117_roundtrip E.rd j.out m t f hf' ht
  have hll : lload f = none := by
    unfold lload
    rw [(get_file hf').1]
    rfl
  refine ⟨f, t, x, m, if_pos rfl, hm, ht, ⟨h1, h3⟩, h2, hll, ?_⟩
  intro i hpi
  unfold run loadPre
  simp only [hpi, if_pos, Option.bind_some, hll, Option.map_none, Option.bind_none]

/-! ### where the model to train comes from -/

/-- the class that a script with `--input-path` loads. -/
def scriptClass : Script → Option Cls
  | .cwLnorm => some .LNorm
  | .pca => some .PCA
  | .gauss => some .Gaussianizer
  | _ => none

theorem loadAs_load (k : Cls) (f : Persist.File) (o : Obj) (h : load k f = some o) : loadAs k f = some o := by
  unfold load at h
  unfold loadAs
  cases hg : Persist.get f configKey with
  | none => rw [hg] at h; cases h
  | some ds =>
    rw [hg] at h
    cases ds with
    | cfg c => exact h
    | lcfg c => cases h
    | arr a => cases h

/-- **C136** `--input-path` with the file of one model of the class: training starts from that model, up to the precision of the file. -/
theorem C136_input_model {X : Type} (rd : ℚ → ℚ) (d : Disk) (j : Job X) (k : Cls) (hk : scriptClass j.script = some k) (path : Str)
    (hi : j.input = some path) (o : Obj) (ho : o.cls = k) (hf : Fitted o) (f : Persist.File) (hs : save rd path o = some f) (hd : d path = some f) :
    ∃ t, loadModel d j = some t ∧ SameTransform rd o t ∧ t.name = o.name := by
  have hl : Loads o.cls := by
    have := hf.cls
    revert this
    cases o.cls <;> simp [transformClasses, Loads]
  obtain ⟨t, ht⟩ := (C117_load_iff rd path o f hs).2 ⟨hl, hf.set, hf.shaped⟩
  obtain ⟨h1, h2, h3, -⟩ := C117_roundtrip rd path o t f hs ht
  rw [ho] at ht
  have hl' := loadAs_load k f t ht
  refine ⟨t, ?_, ⟨h1, h3⟩, h2⟩
  unfold loadModel
  rw [hi]
  dsimp only
  cases hsc : j.script <;> rw [hsc] at hk <;> simp [scriptClass] at hk <;> subst hk <;> simp [hd, hl']

theorem get_none {rd : ℚ → ℚ} {path : Str} {ts : List Obj} {f : Persist.File} (hs : lsave rd path ⟨none, ts⟩ = some f)
    (hpl : ∀ t ∈ ts, ∃ n, t.name = some n ∧ Plain n) (p : P) : Persist.get f (prefixOf none ++ p.key) = none := by
  obtain ⟨-, -, -, -, rfl⟩ := lsave_some.1 hs
  have hpath : h5path (prefixOf none ++ p.key) = [p.key] := by rw [path_par]; rfl
  unfold Persist.get
  rw [hpath, List.lookup_eq_none_iff]
  intro e he
  rw [List.mem_cons] at he
  rcases he with rfl | he
  · show ([p.key] != [configKey]) = true
    have hall : ∀ p : P, ([p.key] != [configKey]) = true := fun p => by cases p <;> decide
    exact hall p
  · obtain ⟨e', he', rfl⟩ := List.mem_map.1 he
    obtain ⟨t, ht, he'⟩ := List.mem_flatMap.1 he'
    obtain ⟨q, _, a, _, rfl⟩ := mem_parSets.1 he'
    obtain ⟨n, hn, hp⟩ := hpl t ht
    dsimp only
    rw [path_par, hn]
    simp [base, h5path, components_noslash hp.slash, hp.ne]

theorem loadAs_list {rd : ℚ → ℚ} {path : Str} {ts : List Obj} {f : Persist.File} (hs : lsave rd path ⟨none, ts⟩ = some f)
    (hpl : ∀ t ∈ ts, ∃ n, t.name = some n ∧ Plain n) (k : Cls) (hk : k = .LNorm ∨ k = .PCA ∨ k = .Gaussianizer) : loadAs k f = none := by
  unfold loadAs
  rw [(get_lfile hs).1]
  dsimp only
  unfold loadParams
  have h1 : ∀ p, loadPar f (ldocOf ⟨none, ts⟩).name p = none := by
    intro p
    unfold loadPar
    have := get_none hs hpl p
    show (Persist.get f (prefixOf none ++ p.key)).bind _ = none
    rw [this]; rfl
  have h2 : ∀ p ps, (p :: ps).mapM (loadPar f (ldocOf ⟨none, ts⟩).name) = none := by
    intro p ps
    rw [List.mapM_cons, h1]; rfl
  rcases hk with rfl | rfl | rfl
  · show (if _ then none else ([P.mu, P.T].mapM (loadPar f (ldocOf ⟨none, ts⟩).name)).bind _) = none
    rw [h2]; simp
  · show (if _ then none else ([P.mu, P.T].mapM (loadPar f (ldocOf ⟨none, ts⟩).name)).bind _) = none
    rw [h2]; simp
  · show (if _ then none else ([P.r].mapM (loadPar f (ldocOf ⟨none, ts⟩).name)).bind _) = none
    rw [h2]; simp

/-- **C136** `--input-path` with the file of a list (of transforms with plain names): train-cw.py and train-pca.py go on from the first transform with
the `--name`, whatever its class, and raise when there is none. -/
theorem C136_input_list {X : Type} (rd : ℚ → ℚ) (d : Disk) (j : Job X) (hk : j.script = .cwLnorm ∨ j.script = .pca) (path : Str)
    (hi : j.input = some path) (ts : List Obj) (hf : ∀ t ∈ ts, Fitted t) (hpl : ∀ t ∈ ts, ∃ n, t.name = some n ∧ Plain n) (f : Persist.File)
    (hs : lsave rd path ⟨none, ts⟩ = some f) (hd : d path = some f) :
    (∀ pre t post, ts = pre ++ t :: post → (∀ u ∈ pre, u.name ≠ j.name) → t.name = j.name →
      ∃ t', loadModel d j = some t' ∧ SameTransform rd t t' ∧ t'.name = j.name) ∧
    ((∀ t ∈ ts, t.name ≠ j.name) → loadModel d j = none) := by
  obtain ⟨ts', hl, hsm, hnm⟩ := lload_of hs hf
  have hm : loadModel d j = ts'.find? (fun t => decide (t.name = j.name)) := by
    unfold loadModel
    rw [hi]
    dsimp only
    rcases hk with hk | hk <;> rw [hk] <;> dsimp only <;>
      rw [hd, Option.bind_some, loadAs_list hs hpl _ (by simp), Option.none_or, fromList, hl, Option.bind_some]
  constructor
  · rintro pre t post rfl hpre ht
    obtain ⟨a, b, h1, h2, rfl⟩ : ∃ a b, List.Forall₂ (SameTransform rd) pre a ∧ List.Forall₂ (SameTransform rd) (t :: post) b ∧ ts' = a ++ b := by
      refine ⟨ts'.take pre.length, ts'.drop pre.length, ?_, ?_, (List.take_append_drop _ _).symm⟩
      · have := List.forall₂_take_append ts' pre (t :: post) hsm.flip
        exact this.flip
      · have := List.forall₂_drop_append ts' pre (t :: post) hsm.flip
        exact this.flip
    cases h2 with
    | cons h3 h4 =>
      rename_i t' b'
      rw [List.map_append, List.map_append] at hnm
      obtain ⟨e1, e2⟩ := List.append_inj hnm (by simp [h1.length_eq])
      have e3 : t'.name = t.name := by simpa using congrArg List.head? e2
      refine ⟨t', ?_, h3, e3.trans ht⟩
      rw [hm, List.find?_append, List.find?_eq_none.2, Option.none_or, List.find?_cons_of_pos]
      · simp [e3, ht]
      · intro u hu
        have : u.name ∈ pre.map (·.name) := by rw [← e1]; exact List.mem_map.2 ⟨u, hu, rfl⟩
        obtain ⟨v, hv, hv'⟩ := List.mem_map.1 this
        simp only [decide_eq_true_eq]
        rw [← hv']
        exact hpre v hv
  · intro h
    rw [hm, List.find?_eq_none]
    intro u hu
    have : u.name ∈ ts.map (·.name) := by rw [← hnm]; exact List.mem_map.2 ⟨u, hu, rfl⟩
    obtain ⟨v, hv, hv'⟩ := List.mem_map.1 this
    simp only [decide_eq_true_eq]
    rw [← hv']
    exact h v hv

/-- **C136, defect** train-gaussianizer.py cannot go on from a list (`name` is not defined there). -/
theorem C136_gauss_list_raises {X : Type} (E : Env X) (rd : ℚ → ℚ) (d : Disk) (j : Job X) (hk : j.script = .gauss) (path : Str)
    (hi : j.input = some path) (ts : List Obj) (hpl : ∀ t ∈ ts, ∃ n, t.name = some n ∧ Plain n) (f : Persist.File)
    (hs : lsave rd path ⟨none, ts⟩ = some f) (hd : d path = some f) : run E d j = none := by
  have : loadModel d j = none := by
    unfold loadModel
    rw [hi, hk]
    dsimp only
    rw [hd, Option.bind_some, loadAs_list hs hpl _ (by simp)]
  unfold run
  rw [this]
  cases loadPre d j.preproc with
  | none => rfl
  | some pre =>
    rw [Option.bind_some]
    cases preprocess E pre j.data <;> rfl

/-- **C136, defect** train-cw.py `--no-lnorm --input-path`: the file is not read. Whatever it holds, and even when it does not exist, the script starts
from a new model without a name, with every default (so `--name`, `--update-mu`, `--update-T` are lost too). -/
theorem C136_no_lnorm_ignores_input {X : Type} (d : Disk) (j : Job X) (hk : j.script = .cw) (path : Str) (hi : j.input = some path) :
    ∃ t, loadModel d j = some t ∧ t.cls = .CentWhiten ∧ t.name = none ∧ (∀ p, t.par p = none) ∧ t.opt .updateMu = .bool true ∧
      t.opt .updateT = .bool true := by
  unfold loadModel
  rw [hi, hk]
  exact ⟨_, rfl, rfl, rfl, fun _ => rfl, rfl, rfl⟩

/-- **C136, defect** the class of the file is not looked at: train-cw.py goes on from the file of a `CentWhiten` (or `NDA`, ..) as if it were an
`LNorm`, with the same mean and matrix: the new transform normalises the length although the old one did not. -/
theorem C136_input_class_ignored {X : Type} (rd : ℚ → ℚ) (d : Disk) (j : Job X) (hk : j.script = .cwLnorm) (path : Str)
    (hi : j.input = some path) (o : Obj) (ho : o.cls = .CentWhiten ∨ o.cls = .NDA) (hf : Fitted o) (f : Persist.File)
    (hs : save rd path o = some f) (hd : d path = some f) :
    ∃ t, loadModel d j = some t ∧ t.cls = .LNorm ∧ t.name = o.name ∧
      ∀ p ∈ [P.mu, P.T], ∃ a, o.par p = some a ∧ t.par p = some ⟨a.shape, a.data.map rd⟩ := by
  have hp : params o.cls = [.mu, .T] := by rcases ho with h | h <;> rw [h] <;> rfl
  have hset := hf.set
  rw [hp] at hset
  obtain ⟨a, ha⟩ := Option.ne_none_iff_exists'.1 (hset .mu (by simp))
  obtain ⟨b, hb⟩ := Option.ne_none_iff_exists'.1 (hset .T (by simp))
  have hg := get_file hs
  have g1 := hg.2 .mu (by rw [params_eq, hp]; simp)
  have g2 := hg.2 .T (by rw [params_eq, hp]; simp)
  rw [ha, Option.map_some] at g1
  rw [hb, Option.map_some] at g2
  have l1 : loadPar f o.name .mu = some (.mu, a.round rd) := by unfold loadPar; rw [g1]; rfl
  have l2 : loadPar f o.name .T = some (.T, b.round rd) := by unfold loadPar; rw [g2]; rfl
  have hm : ∃ t, loadAs .LNorm f = some t ∧ t.cls = .LNorm ∧ t.name = o.name ∧ t.par .mu = some (a.round rd) ∧ t.par .T = some (b.round rd) := by
    unfold loadAs
    rw [hg.1]
    dsimp only
    unfold loadParams
    have e : (desc .LNorm).loadPars.mapM (loadPar f (docOf o).name) = some [(.mu, a.round rd), (.T, b.round rd)] := by
      show [P.mu, P.T].mapM (loadPar f o.name) = _
      simp [l1, l2]
    rw [if_neg (by decide), e]
    exact ⟨_, rfl, rfl, rfl, rfl, rfl⟩
  obtain ⟨t, h1, h2, h3, h4, h5⟩ := hm
  refine ⟨t, ?_, h2, h3, ?_⟩
  · unfold loadModel
    rw [hi, hk]
    dsimp only
    rw [hd, Option.bind_some, h1]
    rfl
  · intro p hp
    simp at hp
    rcases hp with rfl | rfl
    · exact ⟨a, ha, h4⟩
    · exact ⟨b, hb, h5⟩

end Hyp.Train
