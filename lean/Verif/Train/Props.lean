import Verif.Train.Model

/-! C136: training a chain of transforms. -/

namespace Hyp.Train
open Hyp.Text Hyp.H5 Hyp.Persist

/-! ### specification -/

/-- a fitted transform: one of the transform classes, all its parameters set, with the dimensions its constructor needs. -/
structure Fitted (m : Obj) : Prop where
  cls : m.cls ∈ transformClasses
  set : ∀ p ∈ params m.cls, m.par p ≠ none
  shaped : Shaped m

/-- the usual chain: every script starts from a fresh model, takes as pre-processing the output of the previous one (the first takes none), and
appends its model to the list. -/
structure Chain {X : Type} (js : List (Job X)) : Prop where
  input : ∀ j ∈ js, j.input = none
  append : ∀ j ∈ js, j.saveTlist = true ∧ j.appendTlist = true
  first : ∀ j, js[0]? = some j → j.preproc = none
  next : ∀ k i j, js[k]? = some i → js[k + 1]? = some j → j.preproc = some i.out

/-- apply transforms one after the other. -/
def applyAll {X : Type} (pr : Cls → (P → Option Arr) → X → Option X) : List Obj → X → Option X
  | [], x => some x
  | t :: ts, x => (pr t.cls t.par x).bind (applyAll pr ts)

/-- the outcome of a chain: `ts` are the transforms in the last file. The k-th was fitted on the data of the k-th script transformed by the transforms
before it *in this file*, and is what the fit gave up to the precision of the file. -/
def Trained {X : Type} (E : Env X) (js : List (Job X)) (ts : List Obj) : Prop :=
  ts.length = js.length ∧ ∀ k j t, js[k]? = some j → ts[k]? = some t →
    ∃ x m, applyAll E.pr (ts.take k) j.data = some x ∧ j.fit j.fresh x = some m ∧ SameTransform E.rd m t ∧ t.name = m.name

/-! ### proofs -/

theorem predict_applyAll {X : Type} (pr : Cls → (P → Option Arr) → X → Option X) (n : Option Str) (ts : List Obj) (x : X) :
    (TList.mk n ts).predict pr x = applyAll pr ts x := by
  unfold TList.predict
  show ts.foldlM _ x = _
  induction ts generalizing x with
  | nil => rfl
  | cons t ts ih =>
    rw [List.foldlM_cons]
    show (pr t.cls t.par x).bind _ = (pr t.cls t.par x).bind _
    exact congrArg _ (funext fun y => ih y)

theorem applyAll_congr {X : Type} {pr : Cls → (P → Option Arr) → X → Option X}
    (hpr : ∀ k par par', (∀ p ∈ params k, par p = par' p) → pr k par = pr k par') {ts ts' : List Obj}
    (h : List.Forall₂ (fun t t' => t'.cls = t.cls ∧ ∀ p ∈ params t.cls, t'.par p = t.par p) ts ts') (x : X) :
    applyAll pr ts' x = applyAll pr ts x := by
  induction h generalizing x with
  | nil => rfl
  | cons h1 _ ih =>
    unfold applyAll
    rw [h1.1, hpr _ _ _ h1.2]
    exact congrArg _ (funext fun y => ih y)

/-- reloading a transform that came from a file changes nothing. -/
theorem reload_fixed {rd : ℚ → ℚ} (hrd : ∀ x, rd (rd x) = rd x) {m t t' : Obj} (h : SameTransform rd m t) (h' : SameTransform rd t t') :
    (t'.cls = t.cls ∧ ∀ p ∈ params t.cls, t'.par p = t.par p) ∧ SameTransform rd m t' := by
  have hp : ∀ p ∈ params t.cls, t'.par p = t.par p := by
    intro p hp
    obtain ⟨b, hb, hb'⟩ := h'.2 p hp
    obtain ⟨a, _, ha'⟩ := h.2 p (by rw [← h.1]; exact hp)
    rw [ha'] at hb
    rw [hb', ha', ← Option.some.inj hb]
    simp [hrd]
  refine ⟨⟨h'.1, hp⟩, h'.1.trans h.1, fun p hpm => ?_⟩
  rw [hp p (by rw [h.1]; exact hpm)]
  exact h.2 p hpm

theorem fitted_of_same {rd : ℚ → ℚ} {m t : Obj} (hm : Fitted m) (h : SameTransform rd m t) : Fitted t := by
  refine ⟨by rw [h.1]; exact hm.cls, ?_, ?_⟩
  · intro p hp
    rw [h.1] at hp
    obtain ⟨a, _, ha⟩ := h.2 p hp
    rw [ha]; simp
  · intro n p ax hmem a ha
    rw [h.1] at hmem
    by_cases hp : p ∈ params m.cls
    · obtain ⟨b, hb, hb'⟩ := h.2 p hp
      rw [ha] at hb'
      have := hm.shaped n p ax hmem b hb
      rw [Option.some.inj hb']
      exact this
    · exfalso
      revert hmem hp
      have : m.cls ∈ transformClasses := hm.cls
      revert this
      cases m.cls <;> simp [transformClasses, fromShape, params] <;> aesop

theorem lload_of {rd : ℚ → ℚ} {path : Str} {ts : List Obj} {f : Persist.File} (hs : lsave rd path ⟨none, ts⟩ = some f) (hf : ∀ t ∈ ts, Fitted t) :
    ∃ ts', lload f = some ⟨none, ts'⟩ ∧ List.Forall₂ (SameTransform rd) ts ts' ∧ ts'.map (·.name) = ts.map (·.name) := by
  have hset : ∀ t ∈ (TList.mk none ts).ts, ∀ p ∈ params t.cls, t.par p ≠ none := fun t ht => (hf t ht).set
  obtain ⟨l', hl⟩ := (C118_load_iff rd path ⟨none, ts⟩ f hs hset).2 (fun t ht => ⟨(hf t ht).cls, (hf t ht).shaped, fun h => absurd rfl h⟩)
  obtain ⟨h1, h2, h3, _⟩ := C118_roundtrip rd path ⟨none, ts⟩ l' f hs hset hl
  obtain ⟨n, ts'⟩ := l'
  simp only at h1
  subst h1
  exact ⟨ts', hl, h2, h3 rfl⟩

/-- the state after a chain: what the last file holds. -/
def State {X : Type} (E : Env X) (js : List (Job X)) (d : Disk) : Prop :=
  ∀ j, js.getLast? = some j → ∃ f ts, d j.out = some f ∧ lload f = some ⟨none, ts⟩ ∧ Trained E js ts ∧ ∀ t ∈ ts, Fitted t

theorem Chain.init {X : Type} {js : List (Job X)} {j : Job X} (h : Chain (js ++ [j])) : Chain js := by
  refine ⟨fun i hi => h.input i (List.mem_append_left _ hi), fun i hi => h.append i (List.mem_append_left _ hi), ?_, ?_⟩
  · intro i hi
    apply h.first
    rw [List.getElem?_append_left (by
      by_contra hl
      rw [List.getElem?_eq_none (by omega)] at hi
      cases hi)]
    exact hi
  · intro k i i' hi hi'
    have hl : k + 1 < js.length := by
      by_contra hl
      rw [List.getElem?_eq_none (by omega)] at hi'
      cases hi'
    apply h.next k
    · rw [List.getElem?_append_left (by omega)]; exact hi
    · rw [List.getElem?_append_left hl]; exact hi'

theorem runAll_snoc {X : Type} (E : Env X) (d : Disk) (js : List (Job X)) (j : Job X) :
    runAll E d (js ++ [j]) = (runAll E d js).bind (fun d => run E d j) := by
  unfold runAll
  rw [List.foldlM_append]
  cases List.foldlM (run E) d js with
  | none => rfl
  | some d' =>
    show List.foldlM (run E) d' [j] = run E d' j
    rw [List.foldlM_cons]
    show (run E d' j).bind _ = _
    cases run E d' j <;> rfl

theorem forall₂_snoc {α β : Type} {R : α → β → Prop} {l : List α} {x : α} {l' : List β} (h : List.Forall₂ R (l ++ [x]) l') :
    ∃ a b, l' = a ++ [b] ∧ List.Forall₂ R l a ∧ R x b := by
  induction l generalizing l' with
  | nil =>
    cases h with
    | cons h1 h2 => cases h2; exact ⟨[], _, rfl, List.Forall₂.nil, h1⟩
  | cons y l ih =>
    cases h with
    | cons h1 h2 =>
      obtain ⟨a, b, rfl, h3, h4⟩ := ih h2
      exact ⟨_ :: a, b, rfl, List.Forall₂.cons h1 h3, h4⟩

/-- one step of a chain. -/
theorem run_step {X : Type} (E : Env X) (hrd : ∀ x, E.rd (E.rd x) = E.rd x)
    (hpr : ∀ k par par', (∀ p ∈ params k, par p = par' p) → E.pr k par = E.pr k par') (js : List (Job X)) (j : Job X)
    (hc : Chain (js ++ [j])) (hfit : ∀ x m, j.fit j.fresh x = some m → Fitted m) (d d' : Disk) (hst : State E js d) (hr : run E d j = some d') :
    State E (js ++ [j]) d' := by
  have hin := hc.input j (by simp)
  obtain ⟨hs, ha⟩ := hc.append j (by simp)
  -- the pre-processing and the transforms before
  have hpre : ∃ pre ts, loadPre d j.preproc = some pre ∧ Trained E js ts ∧ (∀ t ∈ ts, Fitted t) ∧ (pre = none ∧ ts = [] ∨ pre = some ⟨none, ts⟩) := by
    rcases List.eq_nil_or_concat js with rfl | ⟨js', i, rfl⟩
    · have : j.preproc = none := hc.first j rfl
      rw [this]
      exact ⟨none, [], rfl, ⟨rfl, by intro k j t h; simp at h⟩, by simp, Or.inl ⟨rfl, rfl⟩⟩
    · rw [List.concat_eq_append] at hc hst ⊢
      have : j.preproc = some i.out := hc.next js'.length i j (by simp) (by simp)
      obtain ⟨f, ts, h1, h2, h3, h4⟩ := hst i (by simp)
      refine ⟨some ⟨none, ts⟩, ts, ?_, h3, h4, Or.inr rfl⟩
      rw [this]
      unfold loadPre
      simp only [h1, Option.bind_some, h2, Option.map_some]
  obtain ⟨pre, ts, hp, htr, hft, hpt⟩ := hpre
  unfold run at hr
  rw [hp] at hr
  simp only [Option.bind_some, Option.bind_eq_some_iff, Option.map_eq_some_iff] at hr
  obtain ⟨x, hx, m0, hm0, m, hm, f, hf, rfl⟩ := hr
  have hm0' : m0 = j.fresh := by
    unfold loadModel at hm0
    rw [hin] at hm0
    exact (Option.some.inj hm0).symm
  subst hm0'
  have hx' : applyAll E.pr ts j.data = some x := by
    rcases hpt with ⟨rfl, rfl⟩ | rfl
    · exact hx
    · rw [← predict_applyAll E.pr none]; exact hx
  have hf' : lsave E.rd j.out ⟨none, ts ++ [m]⟩ = some f := by
    unfold output at hf
    rw [if_pos hs, if_pos ha] at hf
    rcases hpt with ⟨rfl, rfl⟩ | rfl
    · exact hf
    · exact hf
  have hfm := hfit x m hm
  obtain ⟨ts', hl, hsame, hname⟩ := lload_of hf' (by
    intro t ht
    rcases List.mem_append.1 ht with ht | ht
    · exact hft t ht
    · rw [List.mem_singleton.1 ht]; exact hfm)
  obtain ⟨a, b, hab, hsa, hsb⟩ : ∃ a b, ts' = a ++ [b] ∧ List.Forall₂ (SameTransform E.rd) ts a ∧ SameTransform E.rd m b := by
    exact forall₂_snoc hsame
  subst hab
  have hlen : a.length = ts.length := hsa.length_eq.symm
  have hnm : a.map (·.name) = ts.map (·.name) ∧ b.name = m.name := by
    rw [List.map_append, List.map_append] at hname
    have := List.append_inj hname (by simp [hlen])
    exact ⟨this.1, by simpa using this.2⟩
  -- the reloaded transforms are the same
  have hfix : ∀ (k : Nat) (t t' : Obj), ts[k]? = some t → a[k]? = some t' → SameTransform E.rd t t' := by
    intro k t t' h1 h2
    have hk : k < ts.length := by
      by_contra hl
      rw [List.getElem?_eq_none (by omega)] at h1
      cases h1
    have := (List.forall₂_iff_get.1 hsa).2 k hk (by omega)
    rw [List.getElem?_eq_getElem hk] at h1
    rw [List.getElem?_eq_getElem (by omega)] at h2
    rw [← Option.some.inj h1, ← Option.some.inj h2]
    exact this
  have hsamep : List.Forall₂ (fun t t' => t'.cls = t.cls ∧ ∀ p ∈ params t.cls, t'.par p = t.par p) ts a := by
    rw [List.forall₂_iff_get]
    refine ⟨hlen.symm, fun k h1 h2 => ?_⟩
    have hk : k < js.length := by rw [← htr.1]; exact h1
    obtain ⟨x, m, _, _, h3, _⟩ := htr.2 k js[k] (ts.get ⟨k, h1⟩) (List.getElem?_eq_getElem hk) (List.getElem?_eq_getElem h1)
    exact (reload_fixed hrd h3 (hfix k _ (a.get ⟨k, h2⟩) (List.getElem?_eq_getElem h1) (List.getElem?_eq_getElem h2))).1
  intro j' hj'
  rw [List.getLast?_append, List.getLast?_singleton, Option.some_or] at hj'
  have := Option.some.inj hj'
  subst this
  refine ⟨f, a ++ [b], if_pos rfl, hl, ⟨by simp [hlen, htr.1], ?_⟩, ?_⟩
  · intro k jk t hk ht
    rcases Nat.lt_or_ge k js.length with hlt | hge
    · rw [List.getElem?_append_left hlt] at hk
      have hka : k < a.length := by rw [hlen, htr.1]; exact hlt
      rw [List.getElem?_append_left hka] at ht
      have hkt : k < ts.length := by omega
      obtain ⟨y, mk, h1, h2, h3, h4⟩ := htr.2 k jk ts[k] hk (List.getElem?_eq_getElem hkt)
      refine ⟨y, mk, ?_, h2, (reload_fixed hrd h3 (hfix k _ t (List.getElem?_eq_getElem hkt) ht)).2, ?_⟩
      · rw [List.take_append_of_le_length (by omega), applyAll_congr hpr (List.forall₂_take k hsamep)]
        exact h1
      · rw [← h4]
        have := congrArg (fun l => l[k]?) hnm.1
        simp only [List.getElem?_map, ht, List.getElem?_eq_getElem hkt, Option.map_some] at this
        exact Option.some.inj this
    · have hk0 : k = js.length := by
        by_contra hne
        rw [List.getElem?_eq_none (by simp; omega)] at hk
        cases hk
      subst hk0
      rw [List.getElem?_append_right (le_refl _), Nat.sub_self] at hk
      have hal : a.length = js.length := by rw [hlen, htr.1]
      rw [List.getElem?_append_right (by omega), hal, Nat.sub_self] at ht
      have e1 := Option.some.inj hk
      have e2 := Option.some.inj ht
      subst e1 e2
      refine ⟨x, m, ?_, hm, hsb, hnm.2⟩
      rw [← hal, List.take_left' rfl, applyAll_congr hpr hsamep]
      exact hx'
  · intro t ht
    rcases List.mem_append.1 ht with ht | ht
    · obtain ⟨k, hk, rfl⟩ := List.getElem_of_mem ht
      exact fitted_of_same (hft ts[k] (List.getElem_mem _)) (hfix k _ _ (List.getElem?_eq_getElem (by omega)) (List.getElem?_eq_getElem hk))
    · rw [List.mem_singleton.1 ht]
      exact fitted_of_same hfm hsb

/-! ## C136 -/

/-- **C136.** Training a chain of transforms, of any length: after the scripts have run, the last file loads as a list with one transform per script, in
order; and for every k the k-th transform was fitted on exactly the data that this list, applied up to its k-th transform, makes of the raw data of
script k - so what is trained is what is used, although every file was rounded to its precision and rewritten by every later script. -/
theorem C136_training_chain {X : Type} (E : Env X) (hrd : ∀ x, E.rd (E.rd x) = E.rd x)
    (hpr : ∀ k par par', (∀ p ∈ params k, par p = par' p) → E.pr k par = E.pr k par') (js : List (Job X)) (j : Job X)
    (hc : Chain (js ++ [j])) (hfit : ∀ i ∈ js ++ [j], ∀ x m, i.fit i.fresh x = some m → Fitted m) (d d' : Disk) (hr : runAll E d (js ++ [j]) = some d') :
    ∃ f ts, d' j.out = some f ∧ lload f = some ⟨none, ts⟩ ∧ Trained E (js ++ [j]) ts := by
  have key : ∀ (js : List (Job X)), Chain js → (∀ i ∈ js, ∀ x m, i.fit i.fresh x = some m → Fitted m) → ∀ d', runAll E d js = some d' → State E js d' := by
    intro js
    induction js using List.reverseRecOn with
    | nil => intro _ _ d' _ j hj; cases hj
    | append_singleton js i ih =>
      intro hc hfit d' hr
      rw [runAll_snoc] at hr
      obtain ⟨d1, h1, h2⟩ := Option.bind_eq_some_iff.1 hr
      exact run_step E hrd hpr js i hc (hfit i (by simp)) d1 d' (ih hc.init (fun i hi => hfit i (List.mem_append_left _ hi)) d1 h1) h2
  obtain ⟨f, ts, h1, h2, h3, _⟩ := key _ hc hfit d' hr j (by simp)
  exact ⟨f, ts, h1, h2, h3⟩

end Hyp.Train
