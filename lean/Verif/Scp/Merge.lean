import Verif.Scp.Lemmas

namespace Hyp.Scp
open Hyp.ListUtils Hyp.Text

variable {κ π α β : Type}

theorem zip_flatMap {γ : Type} (xs : List γ) (f : γ → List α) (g : γ → List β)
    (h : ∀ x ∈ xs, (f x).length = (g x).length) :
    (xs.flatMap f).zip (xs.flatMap g) = xs.flatMap (fun x => (f x).zip (g x)) := by
  induction xs with
  | nil => rfl
  | cons x xs ih =>
    simp only [List.flatMap_cons]
    rw [List.zip_append (h x (by simp)), ih (fun y hy => h y (by simp [hy]))]

/-- `x` with the columns absent from `y` removed. -/
def Scp.strip (y x : Scp κ π) : Scp κ π :=
  { x with offset := if y.offset = none then none else x.offset
           range := if y.range = none then none else x.range }

theorem col_none_flatMap {xs : List (Scp κ π)} :
    col (none : Option (List α)) (xs.flatMap (·.key)).length =
      xs.flatMap (fun x => col (none : Option (List α)) x.key.length) := by
  simp only [col]
  induction xs with
  | nil => rfl
  | cons x xs ih => simp only [List.flatMap_cons, List.length_append, ← ih, List.replicate_append_replicate]

theorem concat_col {xs : List (Scp κ π)} {f : Scp κ π → Option (List α)} {c : Option (List α)}
    (h : concatOpt (xs.map f) = some c) :
    col c (xs.flatMap (·.key)).length =
      xs.flatMap (fun x => col (if c = none then none else f x) x.key.length) ∧
    (c ≠ none → ∀ x ∈ xs, f x ≠ none) := by
  rcases concatOpt_some h with ⟨rfl, _⟩ | ⟨ls, h1, hne, rfl⟩
  · simp only [if_true]
    exact ⟨col_none_flatMap, by simp⟩
  · constructor
    · simp only [reduceCtorEq, if_false]
      clear h hne
      show ls.flatten.map some = _
      induction xs generalizing ls with
      | nil => simp at h1; subst h1; rfl
      | cons x xs ih =>
        cases ls with
        | nil => simp at h1
        | cons l ls =>
          simp only [List.map_cons, List.cons.injEq] at h1
          simp only [List.flatten_cons, List.map_append, List.flatMap_cons, h1.1]
          rw [ih ls h1.2]; rfl
    · intro _ x hx hn
      have : f x ∈ ls.map some := by rw [← h1]; exact List.mem_map_of_mem hx
      rw [hn] at this; simp at this

theorem concat_len {xs : List (Scp κ π)} {f : Scp κ π → Option (List α)} {c : Option (List α)}
    (h : concatOpt (xs.map f) = some c) (hf : ∀ x ∈ xs, ∀ l, f x = some l → l.length = x.key.length) :
    ∀ l, c = some l → l.length = (xs.flatMap (·.key)).length := by
  intro l hl
  obtain ⟨h1, h2⟩ := concat_col h
  subst hl
  have := congrArg List.length h1
  simp only [col, List.length_map] at this
  rw [this]
  simp only [reduceCtorEq, if_false]
  clear this h1 h2 h
  induction xs with
  | nil => rfl
  | cons x xs ih =>
    simp only [List.flatMap_cons, List.length_append]
    rw [ih (fun y hy => hf y (by simp [hy]))]
    congr 1
    cases hx : f x with
    | none => simp
    | some m => simp [hf x (by simp) m hx]

theorem merge_some {xs : List (Scp κ π)} {y : Scp κ π} (hx : ∀ x ∈ xs, x.WF) (h : merge xs = some y) :
    y.WF ∧ y.cache = none ∧ y.entries = xs.flatMap (fun x => (y.strip x).entries) ∧
    concatOpt (xs.map (·.offset)) = some y.offset ∧ concatOpt (xs.map (·.range)) = some y.range ∧
    y.key = xs.flatMap (·.key) := by
  unfold merge at h
  simp only [Option.bind_eq_bind, Option.bind_eq_some_iff] at h
  obtain ⟨o, ho, r, hr, h⟩ := h
  have hw := create_wf h
  obtain ⟨hp, h2, h3, rfl⟩ := create_iff.1 h
  obtain ⟨hc1, hn1⟩ := concat_col ho
  obtain ⟨hc2, hn2⟩ := concat_col hr
  have hl2 := concat_len hr (fun x hxx l hl => ((hx x hxx).range l hl).1)
  have hre : r ≠ some [] := by
    rintro rfl
    have e := hl2 [] rfl
    rcases concatOpt_some hr with ⟨h, _⟩ | ⟨ls, h1, hne, h⟩
    · simp at h
    · cases xs with
      | nil => simp at h1; exact hne (by simpa using h1)
      | cons x xs =>
        have hxn := hn2 (by simp) x (by simp)
        cases hxr : x.range with
        | none => exact hxn hxr
        | some l =>
          obtain ⟨h4, h5⟩ := (hx x (by simp)).range l hxr
          simp only [List.flatMap_cons, List.length_append, List.length_nil] at e
          exact h5 (List.length_eq_zero_iff.1 (by omega))
  have hr' : (if r = some [] then none else r) = r := by simp [hre]
  refine ⟨hw, rfl, ?_, ho, by rw [hr', hr], rfl⟩
  unfold Scp.entries Scp.strip
  simp only [hr']
  rw [hc1, hc2]
  have lcol : ∀ {γ : Type} (c : Option (List γ)) (d : Option (List γ)) (n : Nat), (∀ l, d = some l → l.length = n) →
      (col (if c = none then none else d) n).length = n := by
    intro γ c d n hh
    split
    · simp [col]
    · cases d with
      | none => simp [col]
      | some l => simp [col, hh l rfl]
  have e1 : ∀ x ∈ xs, (col (if o = none then none else x.offset) x.key.length).length = x.key.length :=
    fun x hxx => lcol _ _ _ (hx x hxx).offset
  have e2 : ∀ x ∈ xs, (col (if r = none then none else x.range) x.key.length).length = x.key.length :=
    fun x hxx => lcol _ _ _ (fun l hl => ((hx x hxx).range l hl).1)
  rw [zip_flatMap xs _ _ (fun x hxx => by rw [e1 x hxx, e2 x hxx]),
    zip_flatMap xs _ _ (fun x hxx => by simp [e1 x hxx, e2 x hxx, (hx x hxx).path]),
    zip_flatMap xs _ _ (fun x hxx => by simp [e1 x hxx, e2 x hxx, (hx x hxx).path])]

/-- parts cut out of one list with `select`, merged again. -/
theorem merge_parts {x : Scp κ π} (hx : x.WF) {idxs : List (List Nat)} (hne : idxs ≠ [])
    (hlt : ∀ idx ∈ idxs, ∀ i ∈ idx, i < x.key.length)
    (hr : x.range = none ∨ ∀ idx ∈ idxs, idx ≠ []) :
    ∃ parts y, idxs.mapM x.select = some parts ∧ merge parts = some y ∧ y.WF ∧ y.cache = none ∧
      gather x.entries idxs.flatten = some y.entries ∧
      (y.offset = none ↔ x.offset = none) ∧ (y.range = none ↔ x.range = none) := by
  have hsel : ∀ idx ∈ idxs, ∃ p, x.select idx = some p ∧ (p.offset = none ↔ x.offset = none) ∧
      (p.range = none ↔ x.range = none) := by
    intro idx hi
    obtain ⟨p, hp⟩ := select_total hx (hlt idx hi)
    refine ⟨p, hp, ?_⟩
    unfold Scp.select at hp
    simp only [Option.bind_eq_bind, Option.bind_eq_some_iff] at hp
    obtain ⟨k, hk, q, hq, o, ho, r, hrr, h⟩ := hp
    obtain ⟨_, _, _, rfl⟩ := create_iff.1 h
    have go : ∀ {γ : Type} {c c' : Option (List γ)}, gatherOpt c idx = some c' → (c' = none ↔ c = none) := by
      intro γ c c' h
      cases c with
      | none => simp [gatherOpt] at h; simp [← h]
      | some l =>
        simp only [gatherOpt, Option.map_eq_some_iff] at h
        obtain ⟨_, _, rfl⟩ := h; simp
    refine ⟨go ho, ?_⟩
    have := go hrr
    simp only
    rcases hr with h0 | h0
    · rw [h0] at hrr; simp [gatherOpt] at hrr; simp [← hrr, h0]
    · have : r ≠ some [] := by
        rintro rfl
        have := gatherOpt_length hrr [] rfl
        exact h0 idx hi (List.length_eq_zero_iff.1 this.symm)
      simp [this, go hrr]
  cases hm : idxs.mapM x.select with
  | none =>
    obtain ⟨idx, hi, hn⟩ := mapM_eq_none_iff.1 hm
    obtain ⟨p, hp, _⟩ := hsel idx hi
    rw [hp] at hn; simp at hn
  | some parts =>
    have hmap := mapM_eq_some_iff.1 hm
    have hparts : ∀ p ∈ parts, ∃ idx ∈ idxs, x.select idx = some p := by
      intro p hp
      have : some p ∈ parts.map some := List.mem_map_of_mem hp
      rw [← hmap, List.mem_map] at this
      exact this
    have hpw : ∀ p ∈ parts, p.WF := by
      intro p hp; obtain ⟨idx, _, h⟩ := hparts p hp; exact (select_some h).1
    have hpo : ∀ p ∈ parts, (p.offset = none ↔ x.offset = none) ∧ (p.range = none ↔ x.range = none) := by
      intro p hp; obtain ⟨idx, hi, h⟩ := hparts p hp
      obtain ⟨p', hp', h2⟩ := hsel idx hi
      rw [h] at hp'; rw [Option.some.inj hp']; exact h2
    have hpne : parts ≠ [] := by
      rintro rfl; simp at hmap; exact hne hmap
    have hcat : ∀ {γ : Type} (f : Scp κ π → Option (List γ)) (c : Option (List γ)),
        (∀ p ∈ parts, (f p = none ↔ c = none)) →
        ∃ o, concatOpt (parts.map f) = some o ∧ (o = none ↔ c = none) := by
      intro γ f c hf
      cases c with
      | none =>
        cases parts with
        | nil => exact absurd rfl hpne
        | cons p ps =>
          refine ⟨none, ?_, by simp⟩
          have := (hf p (by simp)).2 rfl
          simp [this, concatOpt]
      | some l =>
        have : parts.map f = (parts.map (fun p => (f p).getD [])).map some := by
          rw [List.map_map]
          apply List.map_congr_left
          intro p hp
          have := hf p hp
          cases h : f p with
          | none => rw [h] at this; simp at this
          | some m => simp [h]
        rw [this, concatOpt_map_some (by simpa using hpne)]
        exact ⟨_, rfl, by simp⟩
    obtain ⟨o, ho, hon⟩ := hcat (·.offset) x.offset (fun p hp => (hpo p hp).1)
    obtain ⟨r, hrr, hrn⟩ := hcat (·.range) x.range (fun p hp => (hpo p hp).2)
    have hmerge : ∃ y, merge parts = some y := by
      unfold merge
      rw [ho, hrr]
      refine ⟨_, create_iff.2 ⟨?_, ?_, ?_, rfl⟩⟩
      · clear hm hmap hparts hpo hpne hcat ho hrr
        induction parts with
        | nil => rfl
        | cons p ps ih =>
          simp only [List.flatMap_cons, List.length_append]
          rw [(hpw p (by simp)).path, ih (fun q hq => hpw q (by simp [hq]))]
      · exact concat_len ho (fun p hp => (hpw p hp).offset)
      · intro l hl _; exact concat_len hrr (fun p hp l hl => ((hpw p hp).range l hl).1) l hl
    obtain ⟨y, hy⟩ := hmerge
    obtain ⟨yw, yc, ye, yo, yr, yk⟩ := merge_some hpw hy
    rw [ho] at yo; rw [hrr] at yr
    have yo := Option.some.inj yo
    have yr := Option.some.inj yr
    subst yo yr
    refine ⟨parts, y, rfl, hy, yw, yc, ?_, hon, hrn⟩
    rw [ye]
    have hstrip : ∀ p ∈ parts, y.strip p = p := by
      intro p hp
      unfold Scp.strip
      obtain ⟨h1, h2⟩ := hpo p hp
      rw [← hon] at h1; rw [← hrn] at h2
      have e1 : (if y.offset = none then none else p.offset) = p.offset := by
        split
        · rename_i h; exact (h1.2 h).symm
        · rfl
      have e2 : (if y.range = none then none else p.range) = p.range := by
        split
        · rename_i h; exact (h2.2 h).symm
        · rfl
      rw [e1, e2]
    have : parts.flatMap (fun p => (y.strip p).entries) = parts.flatMap (·.entries) := by
      simp only [List.flatMap]
      congr 1
      apply List.map_congr_left
      intro p hp; rw [hstrip p hp]
    rw [this]
    clear this hstrip yk ye hy yw yc hrn hon ho hrr hcat hpne hpo hpw hparts hm hr hsel
    induction idxs generalizing parts with
    | nil => simp at hmap; subst hmap; simp [gather]
    | cons i is ih =>
      cases parts with
      | nil => simp at hmap
      | cons p ps =>
        simp only [List.map_cons, List.cons.injEq] at hmap
        simp only [List.flatten_cons, List.flatMap_cons]
        rw [gather_append, (select_some hmap.1).2.2.1]
        cases is with
        | nil =>
          cases ps with
          | nil => simp [gather]
          | cons _ _ => simp at hmap
        | cons j js =>
          rw [ih (by simp) (fun a ha => hlt a (by simp [ha])) ps hmap.2]
          simp

end Hyp.Scp
