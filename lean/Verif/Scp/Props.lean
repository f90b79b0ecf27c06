import Verif.Scp.Merge
import Verif.ListUtils.Props

/-! Properties C05, C06, C07 of SCPList. -/

namespace Hyp.Scp
open Hyp.ListUtils Hyp.Text

variable {κ π : Type}

/-! ## C05 -/

section
variable [LinearOrder κ] [LinearOrder π]

theorem getByKey_snd (x : Scp κ π) (k : κ) : (x.getByKey k).2 = (x.getIndex k).2 := rfl

theorem getIndex_snd (x : Scp κ π) (k : κ) :
    (x.getIndex k).2 = x ∨ (x.cache = none ∧ (x.getIndex k).2 = { x with cache := some (enumDict x.key) }) := by
  unfold Scp.getIndex; split
  · left; rfl
  · right; rename_i h; exact ⟨h, rfl⟩

theorem contains_snd (x : Scp κ π) (k : κ) :
    (x.contains k).2 = x ∨ (x.cache = none ∧ (x.contains k).2 = { x with cache := some (enumDict x.key) }) := by
  unfold Scp.contains; split
  · left; rfl
  · right; rename_i h; exact ⟨h, rfl⟩

/-- the relation between an entry of a result and the entry of the source it comes from: same key and path;
offset and range the same unless the whole column is absent from the result (dropped by `merge`). -/
def Comes (y : Scp κ π) (e e' : κ × π × Option Nat × Option (Nat × Int)) : Prop :=
  e.1 = e'.1 ∧ e.2.1 = e'.2.1 ∧ (e.2.2.1 = e'.2.2.1 ∨ y.offset = none ∧ e.2.2.1 = none) ∧
  (e.2.2.2 = e'.2.2.2 ∨ y.range = none ∧ e.2.2.2 = none)

theorem mem_zip_col {α β : Type} {l : List α} {c : Option (List β)} {n : Nat} {a : α} {b : Option β}
    (h : (a, b) ∈ l.zip (col c n)) (hc : c = none) : b = none := by
  subst hc
  have := List.of_mem_zip h
  simp [col] at this; exact this.2.2

theorem entries_none {x : Scp κ π} {e : κ × π × Option Nat × Option (Nat × Int)} (he : e ∈ x.entries) :
    (x.offset = none → e.2.2.1 = none) ∧ (x.range = none → e.2.2.2 = none) := by
  obtain ⟨a, b, c, d⟩ := e
  unfold Scp.entries at he
  have h1 := (List.of_mem_zip he).2
  have h2 := (List.of_mem_zip h1).2
  have h3 := List.of_mem_zip h2
  refine ⟨?_, ?_⟩
  · intro h; rw [h] at h3; have := h3.1; simp [col] at this; exact this.2
  · intro h; rw [h] at h3; have := h3.2; simp [col] at this; exact this.2

theorem mem_entries_iff {x : Scp κ π} (hx : x.WF) {a : κ} {b : π} {c : Option Nat} {d : Option (Nat × Int)} :
    (a, b, c, d) ∈ x.entries ↔ ∃ i : Nat, x.key[i]? = some a ∧ x.path[i]? = some b ∧
      optCol x.offset i = some c ∧ optCol x.range i = some d := by
  have hcol : ∀ {γ : Type} (cc : Option (List γ)) (i : Nat) (v : Option γ), i < x.key.length →
      ((col cc x.key.length)[i]? = some v ↔ optCol cc i = some v) := by
    intro γ cc i v hi
    cases cc with
    | none => simp [col, optCol, hi]
    | some l => simp [col, optCol]
  constructor
  · intro h
    obtain ⟨i, hi⟩ := List.getElem?_of_mem h
    unfold Scp.entries at hi
    rw [List.getElem?_zip_eq_some, List.getElem?_zip_eq_some, List.getElem?_zip_eq_some] at hi
    obtain ⟨h1, h2, h3, h4⟩ := hi
    have hl : i < x.key.length := (List.getElem?_eq_some_iff.1 h1).1
    exact ⟨i, h1, h2, (hcol _ _ _ hl).1 h3, (hcol _ _ _ hl).1 h4⟩
  · rintro ⟨i, h1, h2, h3, h4⟩
    have hl : i < x.key.length := (List.getElem?_eq_some_iff.1 h1).1
    apply List.mem_of_getElem? (i := i)
    unfold Scp.entries
    rw [List.getElem?_zip_eq_some, List.getElem?_zip_eq_some, List.getElem?_zip_eq_some]
    exact ⟨h1, h2, (hcol _ _ _ hl).2 h3, (hcol _ _ _ hl).2 h4⟩

theorem strip_entries {y x : Scp κ π} (hx : x.WF) {e : κ × π × Option Nat × Option (Nat × Int)}
    (he : e ∈ (y.strip x).entries) : ∃ e' ∈ x.entries, Comes y e e' := by
  obtain ⟨a, b, c, d⟩ := e
  have hw : (y.strip x).WF := by
    refine ⟨hx.path, ?_, ?_⟩
    · intro l hl; simp only [Scp.strip] at hl ⊢; split at hl
      · simp at hl
      · exact hx.offset l hl
    · intro l hl; simp only [Scp.strip] at hl ⊢; split at hl
      · simp at hl
      · exact hx.range l hl
  obtain ⟨i, h1, h2, h3, h4⟩ := (mem_entries_iff hw).1 he
  have hi : i < x.key.length := (List.getElem?_eq_some_iff.1 h1).1
  have ex : ∀ {γ : Type} (cc : Option (List γ)), (∀ l, cc = some l → l.length = x.key.length) →
      ∃ v, optCol cc i = some v := by
    intro γ cc hh
    cases cc with
    | none => exact ⟨none, rfl⟩
    | some l => have := hh l rfl; exact ⟨some (l[i]), by simp [optCol]⟩
  obtain ⟨c', hc'⟩ := ex x.offset hx.offset
  obtain ⟨d', hd'⟩ := ex x.range (fun l hl => (hx.range l hl).1)
  refine ⟨(a, b, c', d'), (mem_entries_iff hx).2 ⟨i, h1, h2, hc', hd'⟩, rfl, rfl, ?_, ?_⟩
  · by_cases h : y.offset = none
    · right; refine ⟨h, ?_⟩; simp [Scp.strip, h, optCol] at h3; exact h3.symm
    · left; simp only [Scp.strip, h, if_false] at h3; rw [hc'] at h3; exact (Option.some.inj h3).symm
  · by_cases h : y.range = none
    · right; refine ⟨h, ?_⟩; simp [Scp.strip, h, optCol] at h4; exact h4.symm
    · left; simp only [Scp.strip, h, if_false] at h4; rw [hd'] at h4; exact (Option.some.inj h4).symm

/-- Every reachable list is well formed, its cache describes it, and its entries come from the sources. -/
theorem reach_inv {src : List (Scp κ π)} (hs : ∀ s ∈ src, s.WF ∧ s.CacheOK) {x : Scp κ π} (h : Reach src x) :
    x.WF ∧ x.CacheOK ∧ ∀ e ∈ x.entries, ∃ s ∈ src, ∃ e' ∈ s.entries, Comes x e e' := by
  have selCase : ∀ {x y : Scp κ π} {idx : List Nat},
      (x.WF ∧ x.CacheOK ∧ ∀ e ∈ x.entries, ∃ s ∈ src, ∃ e' ∈ s.entries, Comes x e e') →
      x.select idx = some y →
      y.WF ∧ y.CacheOK ∧ ∀ e ∈ y.entries, ∃ s ∈ src, ∃ e' ∈ s.entries, Comes y e e' := by
    intro x y idx ih hsel
    obtain ⟨hw, hc, he, _, _⟩ := select_some hsel
    refine ⟨hw, Or.inl hc, ?_⟩
    intro e hee
    obtain ⟨i, _, hi⟩ := (gather_mem he).1 hee
    obtain ⟨s, hss, e', he', h1, h2, h3, h4⟩ := ih.2.2 e (List.mem_of_getElem? hi)
    have hn : (x.offset = none → y.offset = none) ∧ (x.range = none → y.range = none) := by
      unfold Scp.select at hsel
      simp only [Option.bind_eq_bind, Option.bind_eq_some_iff] at hsel
      obtain ⟨k, hk, q, hq, o, ho, r, hrr, hcr⟩ := hsel
      obtain ⟨_, _, _, rfl⟩ := create_iff.1 hcr
      refine ⟨?_, ?_⟩
      · intro h0; rw [h0] at ho; simp [gatherOpt] at ho; exact ho.symm
      · intro h0; rw [h0] at hrr; simp [gatherOpt] at hrr; simp [← hrr]
    refine ⟨s, hss, e', he', h1, h2, ?_, ?_⟩
    · rcases h3 with h3 | h3
      · exact Or.inl h3
      · exact Or.inr ⟨hn.1 h3.1, h3.2⟩
    · rcases h4 with h4 | h4
      · exact Or.inl h4
      · exact Or.inr ⟨hn.2 h4.1, h4.2⟩
  have permCase : ∀ {x y : Scp κ π} {idx : List Nat}, idx.Perm (List.range x.key.length) →
      (x.WF ∧ x.CacheOK ∧ ∀ e ∈ x.entries, ∃ s ∈ src, ∃ e' ∈ s.entries, Comes x e e') →
      x.permute idx = some y →
      y.WF ∧ y.CacheOK ∧ ∀ e ∈ y.entries, ∃ s ∈ src, ∃ e' ∈ s.entries, Comes y e e' := by
    intro x y idx hperm ih hsel
    obtain ⟨hc, he, hk, hp, ho, hr⟩ := permute_some hsel
    refine ⟨permute_wf ih.1 hperm hsel, Or.inl hc, ?_⟩
    intro e hee
    obtain ⟨i, _, hi⟩ := (gather_mem he).1 hee
    obtain ⟨s, hss, e', he', h1, h2, h3, h4⟩ := ih.2.2 e (List.mem_of_getElem? hi)
    refine ⟨s, hss, e', he', h1, h2, ?_, ?_⟩
    · rcases h3 with h3 | h3
      · exact Or.inl h3
      · right; refine ⟨?_, h3.2⟩; rw [h3.1] at ho; simp [gatherOpt] at ho; exact ho.symm
    · rcases h4 with h4 | h4
      · exact Or.inl h4
      · right; refine ⟨?_, h4.2⟩; rw [h4.1] at hr; simp [gatherOpt] at hr; exact hr.symm
  have cacheCase : ∀ {x y : Scp κ π}, (y = x ∨ x.cache = none ∧ y = { x with cache := some (enumDict x.key) }) →
      (x.WF ∧ x.CacheOK ∧ ∀ e ∈ x.entries, ∃ s ∈ src, ∃ e' ∈ s.entries, Comes x e e') →
      y.WF ∧ y.CacheOK ∧ ∀ e ∈ y.entries, ∃ s ∈ src, ∃ e' ∈ s.entries, Comes y e e' := by
    intro x y h ih
    rcases h with rfl | ⟨_, rfl⟩
    · exact ih
    · exact ⟨⟨ih.1.path, ih.1.offset, ih.1.range⟩, Or.inr rfl, ih.2.2⟩
  induction h with
  | source hx =>
    obtain ⟨h1, h2⟩ := hs _ hx
    exact ⟨h1, h2, fun e he => ⟨_, hx, e, he, rfl, rfl, Or.inl rfl, Or.inl rfl⟩⟩
  | lookup k _ ih => rw [getByKey_snd]; exact cacheCase (getIndex_snd _ k) ih
  | contains k _ ih => exact cacheCase (contains_snd _ k) ih
  | sort _ hp h ih => exact permCase hp.1 ih h
  | shuffle _ hp h ih => exact permCase hp ih h
  | filter ks keep _ h ih =>
    unfold Scp.filter at h
    generalize (if keep = true then _ else _) = fk at h
    simp only at h
    split at h
    · exact selCase ih h
    · simp at h
  | filterPaths ps keep _ h ih =>
    unfold Scp.filterPaths at h
    generalize (if keep = true then _ else _) = fk at h
    simp only at h
    split at h
    · exact selCase ih h
    · simp at h
  | filterIndex idx keep _ h ih => unfold Scp.filterIndex at h; exact selCase ih h
  | split i n g _ h ih =>
    unfold Scp.split at h
    cases g
    · simp only [Bool.false_eq_true, if_false, Option.bind_eq_bind, Option.bind_eq_some_iff] at h
      obtain ⟨r, _, h⟩ := h
      exact selCase ih h
    · simp only [if_true, Option.bind_eq_bind, Option.bind_eq_some_iff] at h
      obtain ⟨r, _, h⟩ := h
      exact selCase ih h
  | merge hx h ih =>
    obtain ⟨hw, hc, he, _, _, _⟩ := merge_some (fun x hxx => (ih x hxx).1) h
    refine ⟨hw, Or.inl hc, ?_⟩
    intro e hee
    rw [he, List.mem_flatMap] at hee
    obtain ⟨x, hxx, hex⟩ := hee
    obtain ⟨e1, he1, a1, a2, a3, a4⟩ := strip_entries (ih x hxx).1 hex
    obtain ⟨s, hss, e2, he2, b1, b2, b3, b4⟩ := (ih x hxx).2.2 e1 he1
    refine ⟨s, hss, e2, he2, a1.trans b1, a2.trans b2, ?_, ?_⟩
    · have hcat := concat_col (f := (·.offset)) (merge_some (fun x hxx => (ih x hxx).1) h).2.2.2.1
      rcases a3 with a3 | a3
      · rcases b3 with b3 | b3
        · exact Or.inl (a3.trans b3)
        · right
          refine ⟨?_, a3.trans b3.2⟩
          by_contra hno
          exact hcat.2 hno x hxx b3.1
      · exact Or.inr a3
    · have hcat := concat_col (f := (·.range)) (merge_some (fun x hxx => (ih x hxx).1) h).2.2.2.2.1
      rcases a4 with a4 | a4
      · rcases b4 with b4 | b4
        · exact Or.inl (a4.trans b4)
        · right
          refine ⟨?_, a4.trans b4.2⟩
          by_contra hno
          exact hcat.2 hno x hxx b4.1
      · exact Or.inr a4

/-- **C05 (entries).** Whatever sequence of operations produced a list, each of its entries is an entry of one
of the sources: key, path, offset and range still belong together (an offset or range can only disappear,
and then for the whole list). -/
theorem C05_entries_stay_together (src : List (Scp κ π)) (hs : ∀ s ∈ src, s.WF ∧ s.CacheOK) (x : Scp κ π)
    (h : Reach src x) : ∀ e ∈ x.entries, ∃ s ∈ src, ∃ e' ∈ s.entries,
      e.1 = e'.1 ∧ e.2.1 = e'.2.1 ∧ (e.2.2.1 = e'.2.2.1 ∨ (x.offset = none ∧ e.2.2.1 = none)) ∧
      (e.2.2.2 = e'.2.2.2 ∨ (x.range = none ∧ e.2.2.2 = none)) :=
  (reach_inv hs h).2.2

/-- **C05 (look-up).** In every state reachable by any history, looking a key up raises iff the key is not in
the list, otherwise it returns the path, offset and range of an entry with that key; `in` answers
membership; neither changes the entries. -/
theorem C05_lookup (src : List (Scp κ π)) (hs : ∀ s ∈ src, s.WF ∧ s.CacheOK) (x : Scp κ π) (h : Reach src x)
    (k : κ) :
    ((x.getByKey k).1 = none ↔ k ∉ x.key) ∧
    (∀ v, (x.getByKey k).1 = some v → (k, v) ∈ x.entries) ∧
    ((x.contains k).1 = true ↔ k ∈ x.key) ∧
    (x.getByKey k).2.entries = x.entries ∧ (x.contains k).2.entries = x.entries := by
  obtain ⟨hw, hc, _⟩ := reach_inv hs h
  have hidx : (x.getIndex k).1 = dictGet (enumDict x.key) k := by
    unfold Scp.getIndex
    rcases hc with hc | hc <;> rw [hc]
  have hcol : ∀ {γ : Type} (cc : Option (List γ)) (i : Nat), i < x.key.length →
      (∀ l, cc = some l → l.length = x.key.length) → ∃ v, optCol cc i = some v := by
    intro γ cc i hi hh
    cases cc with
    | none => exact ⟨none, rfl⟩
    | some l => have := hh l rfl; exact ⟨some (l[i]), by simp [optCol]⟩
  have hfst : (x.getByKey k).1 = (dictGet (enumDict x.key) k).bind (fun i =>
      (optCol x.offset i).bind fun o => (optCol x.range i).bind fun r => x.path[i]?.bind fun p => some (p, o, r)) := by
    unfold Scp.getByKey
    have e : (x.getIndex k).2.offset = x.offset ∧ (x.getIndex k).2.range = x.range ∧
        (x.getIndex k).2.path = x.path := by
      rcases getIndex_snd x k with h | ⟨_, h⟩ <;> rw [h] <;> exact ⟨rfl, rfl, rfl⟩
    simp only [← hidx, e.1, e.2.1, e.2.2, Option.bind_eq_bind, Option.pure_def]
  have hval : ∀ i, dictGet (enumDict x.key) k = some i → ∃ v, (x.getByKey k).1 = some v ∧ (k, v) ∈ x.entries := by
    intro i hi
    have hk := enumDict_some hi
    have hl : i < x.key.length := (List.getElem?_eq_some_iff.1 hk).1
    obtain ⟨o, ho⟩ := hcol x.offset i hl hw.offset
    obtain ⟨r, hr⟩ := hcol x.range i hl (fun l hl => (hw.range l hl).1)
    have hp : x.path[i]? = some (x.path[i]'(by rw [hw.path]; exact hl)) := by
      rw [List.getElem?_eq_getElem]
    refine ⟨(_, o, r), ?_, (mem_entries_iff hw).2 ⟨i, hk, hp, ho, hr⟩⟩
    rw [hfst, hi]; simp only [Option.bind_some]; rw [ho, hr, hp]; rfl
  refine ⟨?_, ?_, ?_, ?_, ?_⟩
  · rw [← enumDict_isSome (keys := x.key)]
    cases hd : dictGet (enumDict x.key) k with
    | none => rw [hfst, hd]; simp
    | some i => obtain ⟨v, hv, _⟩ := hval i hd; rw [hv]; simp
  · intro v hv
    cases hd : dictGet (enumDict x.key) k with
    | none => rw [hfst, hd] at hv; simp at hv
    | some i => obtain ⟨v', hv', h2⟩ := hval i hd; rw [hv] at hv'; rw [Option.some.inj hv']; exact h2
  · rw [← enumDict_isSome (keys := x.key)]
    unfold Scp.contains
    rcases hc with hc | hc <;> rw [hc]
  · rw [getByKey_snd]
    rcases getIndex_snd x k with h | ⟨_, h⟩ <;> rw [h]; rfl
  · rcases contains_snd x k with h | ⟨_, h⟩ <;> rw [h]; rfl

/-- **C05 (sort, shuffle).** `sort` succeeds and returns the same entries in key order, for every outcome of
the unstable argsort; `shuffle` returns the same entries in some order. -/
theorem C05_sort_shuffle (x : Scp κ π) (hx : x.WF) (perm : List Nat) (hp : perm.Perm (List.range x.key.length)) :
    ∃ y, x.permute perm = some y ∧ y.entries.Perm x.entries ∧
      (IsArgsort x.key perm → y.key.Pairwise (· ≤ ·)) := by
  obtain ⟨y, hy⟩ := permute_total hx (idx := perm) (fun i hi => List.mem_range.1 (hp.mem_iff.1 hi))
  obtain ⟨_, he, hk, _⟩ := permute_some hy
  refine ⟨y, hy, ?_, ?_⟩
  · exact gather_perm (by rw [entries_length hx]; exact hp) he
  · intro ha
    obtain ⟨s, idx, h1, _, h3, h4⟩ := C03_sort x.key perm ha false
    unfold sortWith at h1
    simp only [Bool.false_eq_true, if_false, Option.map_eq_some_iff] at h1
    obtain ⟨s', h5, h6⟩ := h1
    rw [hk] at h5
    have := (Prod.mk.inj h6).1
    rw [← this, ← Option.some.inj h5] at h4
    simpa using h4

/-- **C05 (merge).** If all lists have offsets (or none has) and likewise ranges, `merge` is concatenation. -/
theorem C05_merge_concat (xs : List (Scp κ π)) (hx : ∀ x ∈ xs, x.WF) (hne : xs ≠ [])
    (ho : (∀ x ∈ xs, x.offset = none) ∨ ∀ x ∈ xs, x.offset ≠ none)
    (hr : (∀ x ∈ xs, x.range = none) ∨ ∀ x ∈ xs, x.range ≠ none) :
    ∃ y, merge xs = some y ∧ y.WF ∧ y.entries = xs.flatMap (·.entries) := by
  have hcat : ∀ {γ : Type} (f : Scp κ π → Option (List γ)),
      ((∀ x ∈ xs, f x = none) ∨ ∀ x ∈ xs, f x ≠ none) →
      ∃ o, concatOpt (xs.map f) = some o ∧ ∀ x ∈ xs, (o = none → f x = none) := by
    intro γ f hf
    rcases hf with hf | hf
    · cases xs with
      | nil => exact absurd rfl hne
      | cons p ps =>
        refine ⟨none, ?_, fun x hxx _ => hf x hxx⟩
        simp [hf p (by simp), concatOpt]
    · have : xs.map f = (xs.map (fun p => (f p).getD [])).map some := by
        rw [List.map_map]
        apply List.map_congr_left
        intro p hp
        have := hf p hp
        cases h : f p with
        | none => exact absurd h this
        | some m => simp [h]
      rw [this, concatOpt_map_some (by simpa using hne)]
      exact ⟨_, rfl, by simp⟩
  obtain ⟨o, h1, h1'⟩ := hcat (·.offset) ho
  obtain ⟨r, h2, h2'⟩ := hcat (·.range) hr
  have hm : ∃ y, merge xs = some y := by
    unfold merge
    rw [h1, h2]
    refine ⟨_, create_iff.2 ⟨?_, ?_, ?_, rfl⟩⟩
    · clear h1 h2 h1' h2' hcat ho hr hne
      induction xs with
      | nil => rfl
      | cons p ps ih =>
        simp only [List.flatMap_cons, List.length_append]
        rw [(hx p (by simp)).path, ih (fun q hq => hx q (by simp [hq]))]
    · exact concat_len h1 (fun p hp => (hx p hp).offset)
    · intro l hl _; exact concat_len h2 (fun p hp l hl => ((hx p hp).range l hl).1) l hl
  obtain ⟨y, hy⟩ := hm
  obtain ⟨yw, _, ye, yo, yr, _⟩ := merge_some hx hy
  rw [h1] at yo; rw [h2] at yr
  have yo := Option.some.inj yo
  have yr := Option.some.inj yr
  refine ⟨y, hy, yw, ?_⟩
  rw [ye]
  simp only [List.flatMap]
  congr 1
  apply List.map_congr_left
  intro p hp
  have : y.strip p = p := by
    unfold Scp.strip
    have e1 : (if y.offset = none then none else p.offset) = p.offset := by
      split
      · rename_i h; exact (h1' p hp (yo.trans h)).symm
      · rfl
    have e2 : (if y.range = none then none else p.range) = p.range := by
      split
      · rename_i h; exact (h2' p hp (yr.trans h)).symm
      · rfl
    rw [e1, e2]
  rw [this]

/-! ## C06 -/

theorem gather_nonzero {α : Type} (l : List α) (p : α → Bool) :
    gather l (nonzero (l.map p)) = some (l.filter p) := by
  have key : ∀ (pre l : List α), gather (pre ++ l) (((List.range' pre.length l.length)).filter
      (fun i => ((pre ++ l).map p).getD i false)) = some (l.filter p) := by
    intro pre l
    induction l generalizing pre with
    | nil => simp [gather]
    | cons a as ih =>
      have h := ih (pre ++ [a])
      simp only [List.append_assoc, List.singleton_append, List.length_append, List.length_singleton] at h
      simp only [List.length_cons, List.range'_succ]
      have ha : ((pre ++ a :: as).map p).getD pre.length false = p a := by simp
      by_cases hp : p a = true
      · rw [List.filter_cons_of_pos (by rw [ha]; exact hp), List.filter_cons_of_pos hp]
        unfold gather at h ⊢
        rw [List.mapM_cons, h]
        simp
      · rw [List.filter_cons_of_neg (by rw [ha]; exact hp), List.filter_cons_of_neg hp]
        exact h
  have := key [] l
  simpa [nonzero, List.range_eq_range'] using this

theorem nonzero_col {α β : Type} (l : List α) (m : List β) (f : β → α) (p : α → Bool) (h : l = m.map f) :
    gather m (nonzero (l.map p)) = some (m.filter (fun b => p (f b))) := by
  subst h
  have := gather_nonzero m (fun b => p (f b))
  rw [List.map_map]; exact this

theorem entries_key {x : Scp κ π} (hx : x.WF) : x.key = x.entries.map (fun e => e.1) := by
  unfold Scp.entries
  rw [List.map_fst_zip]
  have := entries_length hx
  unfold Scp.entries at this
  rw [List.length_zip] at this
  omega

theorem entries_path {x : Scp κ π} (hx : x.WF) : x.path = x.entries.map (fun e => e.2.1) := by
  have hl := entries_length hx
  apply List.ext_getElem?
  intro i
  rw [List.getElem?_map]
  cases h : x.entries[i]? with
  | none =>
    rw [List.getElem?_eq_none_iff, hl, ← hx.path] at h
    simp [h]
  | some e =>
    unfold Scp.entries at h
    obtain ⟨a, b, c, d⟩ := e
    rw [List.getElem?_zip_eq_some, List.getElem?_zip_eq_some] at h
    simp [h.2.1]

/-- **C06 (keep).** `filter(keys)` raises iff a requested key is absent; otherwise the result has exactly the
entries whose key was requested, in the order of the list. -/
theorem C06_filter_keep (x : Scp κ π) (hx : x.WF) (ks : List κ) :
    (x.filter ks true = none ↔ ∃ k ∈ ks, k ∉ x.key) ∧
    ∀ y, x.filter ks true = some y → y.WF ∧ y.entries = x.entries.filter (fun e => decide (e.1 ∈ ks)) := by
  unfold Scp.filter
  simp only [if_true, ismember_flag]
  have hall : ((ks.map (fun k => decide (k ∈ x.key))).all id = true) ↔ ∀ k ∈ ks, k ∈ x.key := by simp
  have hlt : ∀ i ∈ nonzero (x.key.map (fun k => decide (k ∈ ks))), i < x.key.length := by
    intro i hi; simpa using nonzero_lt hi
  obtain ⟨y, hy⟩ := select_total hx hlt
  by_cases h : ∀ k ∈ ks, k ∈ x.key
  · rw [if_pos (hall.2 h), hy]
    refine ⟨?_, ?_⟩
    · constructor
      · intro hh; simp at hh
      · rintro ⟨k, h1, h2⟩; exact absurd (h k h1) h2
    · intro y' hy'
      rw [← Option.some.inj hy']
      obtain ⟨hw, _, he, _⟩ := select_some hy
      refine ⟨hw, ?_⟩
      rw [nonzero_col x.key x.entries (fun e => e.1) _ (entries_key hx)] at he
      exact (Option.some.inj he).symm
  · rw [if_neg (fun hh => h (hall.1 hh))]
    refine ⟨?_, by simp⟩
    push_neg at h
    simpa using h

/-- **C06 (drop).** `filter(keys, keep=False)` never raises and returns exactly the other entries, in order. -/
theorem C06_filter_drop (x : Scp κ π) (hx : x.WF) (ks : List κ) :
    ∃ y, x.filter ks false = some y ∧ y.WF ∧ y.entries = x.entries.filter (fun e => decide (e.1 ∉ ks)) := by
  unfold Scp.filter
  simp only [Bool.false_eq_true, if_false, ismember_flag]
  have hall : (((npSetdiff x.key ks).map (fun k => decide (k ∈ x.key))).all id = true) := by
    rw [List.all_eq_true]
    intro b hb
    obtain ⟨k, hk, rfl⟩ := List.mem_map.1 hb
    simp [(mem_npSetdiff.1 hk).1]
  rw [if_pos hall]
  have hlt : ∀ i ∈ nonzero (x.key.map (fun k => decide (k ∈ npSetdiff x.key ks))), i < x.key.length := by
    intro i hi; simpa using nonzero_lt hi
  obtain ⟨y, hy⟩ := select_total hx hlt
  obtain ⟨hw, _, he, _⟩ := select_some hy
  refine ⟨y, hy, hw, ?_⟩
  rw [nonzero_col x.key x.entries (fun e => e.1) _ (entries_key hx)] at he
  rw [← Option.some.inj he]
  apply List.filter_congr
  intro e he
  have : e.1 ∈ x.key := by rw [entries_key hx]; exact List.mem_map_of_mem he
  simp [this]

/-- **C06 (paths).** The same for `filter_paths`. -/
theorem C06_filter_paths (x : Scp κ π) (hx : x.WF) (ps : List π) :
    (x.filterPaths ps true = none ↔ ∃ k ∈ ps, k ∉ x.path) ∧
    (∀ y, x.filterPaths ps true = some y → y.entries = x.entries.filter (fun e => decide (e.2.1 ∈ ps))) ∧
    ∃ y, x.filterPaths ps false = some y ∧ y.entries = x.entries.filter (fun e => decide (e.2.1 ∉ ps)) := by
  unfold Scp.filterPaths
  simp only [if_true, ismember_flag, Bool.false_eq_true, if_false]
  refine ⟨?_, ?_, ?_⟩
  · have hall : ((ps.map (fun k => decide (k ∈ x.path))).all id = true) ↔ ∀ k ∈ ps, k ∈ x.path := by simp
    have hlt : ∀ i ∈ nonzero (x.path.map (fun k => decide (k ∈ ps))), i < x.key.length := by
      intro i hi; simpa [hx.path] using nonzero_lt hi
    obtain ⟨y, hy⟩ := select_total hx hlt
    by_cases h : ∀ k ∈ ps, k ∈ x.path
    · rw [if_pos (hall.2 h), hy]
      constructor
      · intro hh; simp at hh
      · rintro ⟨k, h1, h2⟩; exact absurd (h k h1) h2
    · rw [if_neg (fun hh => h (hall.1 hh))]
      push_neg at h
      simpa using h
  · intro y hy
    split at hy
    · obtain ⟨_, _, he, _⟩ := select_some hy
      rw [nonzero_col x.path x.entries (fun e => e.2.1) _ (entries_path hx)] at he
      exact (Option.some.inj he).symm
    · simp at hy
  · have hall : (((npSetdiff x.path ps).map (fun k => decide (k ∈ x.path))).all id = true) := by
      rw [List.all_eq_true]
      intro b hb
      obtain ⟨k, hk, rfl⟩ := List.mem_map.1 hb
      simp [(mem_npSetdiff.1 hk).1]
    rw [if_pos hall]
    have hlt : ∀ i ∈ nonzero (x.path.map (fun k => decide (k ∈ npSetdiff x.path ps))), i < x.key.length := by
      intro i hi; simpa [hx.path] using nonzero_lt hi
    obtain ⟨y, hy⟩ := select_total hx hlt
    obtain ⟨_, _, he, _⟩ := select_some hy
    refine ⟨y, hy, ?_⟩
    rw [nonzero_col x.path x.entries (fun e => e.2.1) _ (entries_path hx)] at he
    rw [← Option.some.inj he]
    apply List.filter_congr
    intro e he
    have : e.2.1 ∈ x.path := by rw [entries_path hx]; exact List.mem_map_of_mem he
    simp [this]

/-- **C06 (positions).** `filter_index(index)` returns the entries at the given positions, in the given order,
and raises iff a position is out of range; with `keep=False` it returns the entries at the other positions,
in order. -/
theorem C06_filter_index (x : Scp κ π) (hx : x.WF) (idx : List Nat) :
    (x.filterIndex idx true = none ↔ ∃ i ∈ idx, x.key.length ≤ i) ∧
    (∀ y, x.filterIndex idx true = some y → y.entries.map some = idx.map (fun i => x.entries[i]?)) ∧
    ∃ y, x.filterIndex idx false = some y ∧
      y.entries.map some = ((List.range x.key.length).filter (fun i => decide (i ∉ idx))).map (fun i => x.entries[i]?) := by
  unfold Scp.filterIndex
  simp only [if_true, Bool.false_eq_true, if_false]
  refine ⟨?_, ?_, ?_⟩
  · constructor
    · intro h
      by_contra hc
      push_neg at hc
      obtain ⟨y, hy⟩ := select_total hx hc
      rw [h] at hy; simp at hy
    · rintro ⟨i, hi, hle⟩
      cases h : x.select idx with
      | none => rfl
      | some y => have := gather_lt (select_some h).2.2.2.1 i hi; omega
  · intro y hy
    exact (mapM_eq_some_iff.1 (select_some hy).2.2.1).symm
  · have hlt : ∀ i ∈ npSetdiff (List.range x.key.length) idx, i < x.key.length := by
      intro i hi; exact List.mem_range.1 (mem_npSetdiff.1 hi).1
    obtain ⟨y, hy⟩ := select_total hx hlt
    refine ⟨y, hy, ?_⟩
    rw [← mapM_eq_some_iff.1 (select_some hy).2.2.1]
    congr 1
    exact npUnique_of_sorted (List.Pairwise.filter _ List.pairwise_lt_range)

/-! ## C07 -/

/-- **C07 (split/merge).** Splitting into `P` parts and merging the parts gives back the list, with offsets,
and with ranges provided no part is empty (`P ≤` number of entries). -/
theorem C07_split_merge_partial (x : Scp κ π) (hx : x.WF) (P : Nat) (hP : 1 ≤ P)
    (hr : x.range = none ∨ P ≤ x.key.length) :
    ∃ parts y, (List.range' 1 P).mapM (fun i => x.split i P false) = some parts ∧ merge parts = some y ∧
      y.entries = x.entries ∧ (y.offset = none ↔ x.offset = none) ∧ (y.range = none ↔ x.range = none) := by
  obtain ⟨sp, h1, h2, h3, h4⟩ := C01_split_list_partition x.key P hP
  have hmap := mapM_eq_some_iff.1 h1
  have hm : (List.range' 1 P).mapM (fun i => x.split i P false) = (sp.map Prod.snd).mapM x.select := by
    have : ∀ (l : List Nat) (sp : List (List κ × List Nat)), l.map (fun i => splitList x.key i P) = sp.map some →
        l.mapM (fun i => x.split i P false) = (sp.map Prod.snd).mapM x.select := by
      intro l
      induction l with
      | nil => intro sp h; simp at h; subst h; rfl
      | cons i is ih =>
        intro sp h
        cases sp with
        | nil => simp at h
        | cons s ss =>
          simp only [List.map_cons, List.cons.injEq] at h
          simp only [List.mapM_cons, List.map_cons]
          rw [ih ss h.2]
          simp [Scp.split, h.1]
    exact this _ _ hmap
  rw [hm]
  have hne : sp.map Prod.snd ≠ [] := by
    intro h
    have : sp = [] := by simpa using h
    subst this
    have := congrArg List.length hmap
    simp at this; omega
  have hlt : ∀ idx ∈ sp.map Prod.snd, ∀ i ∈ idx, i < x.key.length := by
    intro idx hi i hii
    have : i ∈ (sp.map Prod.snd).flatten := List.mem_flatten.2 ⟨idx, hi, hii⟩
    rw [h3] at this; exact List.mem_range.1 this
  have hrr : x.range = none ∨ ∀ idx ∈ sp.map Prod.snd, idx ≠ [] := by
    rcases hr with hr | hr
    · exact Or.inl hr
    · right
      intro idx hi
      obtain ⟨p, hp, rfl⟩ := List.mem_map.1 hi
      have : some p ∈ sp.map some := List.mem_map_of_mem hp
      rw [← hmap, List.mem_map] at this
      obtain ⟨j, hj, hpj⟩ := this
      rw [List.mem_range'_1] at hj
      have hb := C01_split_list_balanced x.key P j hj.1 (by omega) p hpj
      have hg := gather_length (h4 p hp)
      have : 1 ≤ x.key.length / P := (Nat.one_le_div_iff (by omega)).2 hr
      intro he
      rw [he] at hg; simp only [List.length_nil] at hg; omega
  obtain ⟨parts, y, g1, g2, _, _, g3, g4, g5⟩ := merge_parts hx hne hlt hrr
  refine ⟨parts, y, g1, g2, ?_, g4, g5⟩
  rw [h3] at g3
  have := gather_range x.entries
  rw [entries_length hx, g3] at this
  exact Option.some.inj this

/-- **C07 (split by key).** With `group_by_key` the parts, taken together, have exactly the entries of the
list, and the entries of one key are all in one part. -/
theorem C07_group_split (x : Scp κ π) (hx : x.WF) (hne : x.key ≠ []) (P : Nat) (hP : 1 ≤ P) :
    ∃ parts : List (Scp κ π), (List.range' 1 P).mapM (fun i => x.split i P true) = some parts ∧
      (parts.flatMap (·.entries)).Perm x.entries ∧
      ∀ p ∈ parts, ∀ k ∈ p.key, p.entries.filter (fun e => decide (e.1 = k)) =
        x.entries.filter (fun e => decide (e.1 = k)) := by
  obtain ⟨sp, h1, h2, h3, h4⟩ := C02_group_split_partition x.key x.key rfl hne P hP
  have hmap := mapM_eq_some_iff.1 h1
  have hm : (List.range' 1 P).mapM (fun i => x.split i P true) = (sp.map Prod.snd).mapM x.select := by
    have : ∀ (l : List Nat) (sp : List (List κ × List Nat)),
        l.map (fun i => splitListGroupByKey x.key i P x.key) = sp.map some →
        l.mapM (fun i => x.split i P true) = (sp.map Prod.snd).mapM x.select := by
      intro l
      induction l with
      | nil => intro sp h; simp at h; subst h; rfl
      | cons i is ih =>
        intro sp h
        cases sp with
        | nil => simp at h
        | cons s ss =>
          simp only [List.map_cons, List.cons.injEq] at h
          simp only [List.mapM_cons, List.map_cons]
          rw [ih ss h.2]
          simp [Scp.split, h.1]
    exact this _ _ hmap
  rw [hm]
  have hlt : ∀ idx ∈ sp.map Prod.snd, ∀ i ∈ idx, i < x.key.length := by
    intro idx hi i hii
    have : i ∈ (sp.map Prod.snd).flatten := List.mem_flatten.2 ⟨idx, hi, hii⟩
    exact List.mem_range.1 (h2.mem_iff.1 this)
  cases hp : (sp.map Prod.snd).mapM x.select with
  | none =>
    obtain ⟨idx, hi, hn⟩ := mapM_eq_none_iff.1 hp
    obtain ⟨y, hy⟩ := select_total hx (hlt idx hi)
    rw [hy] at hn; simp at hn
  | some parts =>
    have hpm := mapM_eq_some_iff.1 hp
    refine ⟨parts, rfl, ?_, ?_⟩
    · have : gather x.entries (sp.map Prod.snd).flatten = some (parts.flatMap (·.entries)) := by
        clear h1 h2 h3 h4 hmap hm hlt hp
        generalize sp.map Prod.snd = idxs at hpm
        induction idxs generalizing parts with
        | nil => simp at hpm; subst hpm; simp [gather]
        | cons i is ih =>
          cases parts with
          | nil => simp at hpm
          | cons p ps =>
            simp only [List.map_cons, List.cons.injEq] at hpm
            simp only [List.flatten_cons, List.flatMap_cons]
            rw [gather_append, (select_some hpm.1).2.2.1, ih ps hpm.2]
            simp
      exact gather_perm (by rw [entries_length hx]; exact h2) this
    · intro p hpp k hk
      have : some p ∈ parts.map some := List.mem_map_of_mem hpp
      rw [← hpm, List.mem_map] at this
      obtain ⟨idx, hidx, hsel⟩ := this
      obtain ⟨q, hq, rfl⟩ := List.mem_map.1 hidx
      have : some q ∈ sp.map some := List.mem_map_of_mem hq
      rw [← hmap, List.mem_map] at this
      obtain ⟨j, hj, hqj⟩ := this
      rw [List.mem_range'_1] at hj
      obtain ⟨qr, ql⟩ := q
      have hgroups := C02_group_split_keeps_groups x.key x.key rfl hne P j hj.1 (by omega) qr ql hqj
      have horder := C02_group_split_order x.key x.key rfl hne P j hj.1 (by omega) qr ql hqj
      obtain ⟨hw, _, he, hkk, _⟩ := select_some hsel
      simp only at he hkk hsel
      obtain ⟨i0, hi0, hki0⟩ := (gather_mem hkk).1 hk
      -- positions of key k
      let posk : Nat → Bool := fun i => decide (x.key[i]? = some k)
      have hsub : ql.filter posk = (List.range x.key.length).filter posk := by
        apply sorted_ext
        · have := List.Pairwise.filter posk horder
          refine List.Pairwise.imp_of_mem ?_ this
          intro a b ha hb hab
          have ha := (List.mem_filter.1 ha).2
          have hb := (List.mem_filter.1 hb).2
          simp only [posk, decide_eq_true_eq] at ha hb
          exact hab (by rw [ha, hb])
        · exact List.Pairwise.filter _ List.pairwise_lt_range
        · intro i
          rw [List.mem_filter, List.mem_filter, List.mem_range]
          constructor
          · rintro ⟨a, b⟩
            exact ⟨hlt ql hidx i a, b⟩
          · rintro ⟨a, b⟩
            refine ⟨hgroups i0 i ?_ hi0, b⟩
            simp only [posk, decide_eq_true_eq] at b
            rw [b, hki0]
      have hfilt : ∀ (l : List Nat) (es : List (κ × π × Option Nat × Option (Nat × Int))),
          gather x.entries l = some es →
          gather x.entries (l.filter posk) = some (es.filter (fun e => decide (e.1 = k))) := by
        intro l
        induction l with
        | nil => intro es h; simp [gather] at h; subst h; simp [gather]
        | cons a as ih =>
          intro es h
          simp only [gather, List.mapM_cons, Option.bind_eq_bind, Option.bind_eq_some_iff, Option.pure_def,
            Option.some.injEq] at h
          obtain ⟨e, hea, es', hes', rfl⟩ := h
          have ihh := ih es' hes'
          have hkey : x.key[a]? = some e.1 := by
            rw [entries_key hx, List.getElem?_map, hea]; rfl
          by_cases hek : e.1 = k
          · rw [List.filter_cons_of_pos (by simp only [posk]; rw [hkey, hek]; simp),
              List.filter_cons_of_pos (by simp [hek])]
            unfold gather at ihh ⊢
            rw [List.mapM_cons, ihh, hea]; rfl
          · rw [List.filter_cons_of_neg (by simp only [posk]; rw [hkey]; simp [hek]),
              List.filter_cons_of_neg (by simp [hek])]
            exact ihh
      have a1 := hfilt ql p.entries he
      have a2 := hfilt (List.range x.key.length) x.entries (by
        have := gather_range x.entries
        rw [entries_length hx] at this; exact this)
      rw [hsub, a2] at a1
      exact (Option.some.inj a1).symm

end

/-- one entry with a range -/
def oneEntry : Scp Nat Nat := ⟨[1], [10], none, some [(3, 5)], none⟩

/-- The full round trip is false: with more parts than entries an empty first part makes `merge`
drop the ranges of the whole list. -/
theorem C07_split_merge_loses_ranges :
    oneEntry.WF ∧ ∃ p1 p2 y, oneEntry.split 1 2 false = some p1 ∧ oneEntry.split 2 2 false = some p2 ∧
      merge [p1, p2] = some y ∧ y.entries ≠ oneEntry.entries ∧ y.range = none := by
  refine ⟨⟨rfl, by simp [oneEntry], by simp [oneEntry]⟩, ⟨[], [], none, none, none⟩,
    ⟨[1], [10], none, some [(3, 5)], none⟩, ⟨[1], [10], none, none, none⟩, ?_, ?_, ?_, ?_, rfl⟩
  · decide
  · decide
  · decide
  · decide

/-- a list with repeated keys, offsets and ranges meets the hypotheses -/
def demo : Scp Nat Nat := ⟨[2, 1, 2, 3], [7, 7, 8, 9], some [0, 50, 0, 4], some [(0, 0), (2, 0), (3, 5), (0, 9)], none⟩

example : demo.WF ∧ demo.CacheOK := ⟨⟨rfl, by simp [demo], by simp [demo]⟩, Or.inl rfl⟩
example : demo.filter [3, 2] true =
    some ⟨[2, 2, 3], [7, 8, 9], some [0, 0, 4], some [(0, 0), (3, 5), (0, 9)], none⟩ := by decide
example : demo.filter [3, 5] true = none := by decide
example : (demo.getByKey 2).1 = some (8, some 0, some (3, 5)) := by decide
example : Reach [demo] ((demo.getByKey 2).2) := Reach.lookup 2 (Reach.source (by simp))

end Hyp.Scp
