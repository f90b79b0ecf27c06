import Verif.Trials.Spec
import Verif.ListUtils.Lemmas
import Mathlib.Data.List.ReduceOption

namespace Hyp.Trials
open Hyp.ListUtils
variable {ν : Type} [LinearOrder ν] {α : Type}

theorem getElem?_idxOf {l : List ν} {m : ν} (h : m ∈ l) : l[l.idxOf m]? = some m := by
  have := List.idxOf_lt_length_of_mem h
  simp [this]

theorem idxOf_of_getElem? {l : List ν} (hn : l.Nodup) {i : Nat} {m : ν} (h : l[i]? = some m) :
    l.idxOf m = i := by
  obtain ⟨h1, h2⟩ := List.getElem?_eq_some_iff.1 h
  rw [← h2]; exact hn.idxOf_getElem i h1

theorem trueAt_iff {models segs : List ν} (hm : models.Nodup) (hs : segs.Nodup) {A : Mat Bool} {m s : ν} :
    TrueAt models segs A m s ↔
      m ∈ models ∧ s ∈ segs ∧ A.entry (models.idxOf m) (segs.idxOf s) = true := by
  constructor
  · rintro ⟨i, j, hi, hj, h⟩
    refine ⟨List.mem_of_getElem? hi, List.mem_of_getElem? hj, ?_⟩
    rw [idxOf_of_getElem? hm hi, idxOf_of_getElem? hs hj]; exact h
  · rintro ⟨h1, h2, h3⟩
    exact ⟨_, _, getElem?_idxOf h1, getElem?_idxOf h2, h3⟩

theorem hasScore_iff {x : Scores ν α} (h : x.WF) {m s : ν} {v : α} :
    x.HasScore m s v ↔ m ∈ x.models ∧ s ∈ x.segs ∧
      x.mask.entry (x.models.idxOf m) (x.segs.idxOf s) = true ∧
      x.scores.entry (x.models.idxOf m) (x.segs.idxOf s) = v := by
  constructor
  · rintro ⟨i, j, hi, hj, h1, h2⟩
    refine ⟨List.mem_of_getElem? hi, List.mem_of_getElem? hj, ?_⟩
    rw [idxOf_of_getElem? h.models hi, idxOf_of_getElem? h.segs hj]; exact ⟨h1, h2⟩
  · rintro ⟨h1, h2, h3⟩
    exact ⟨_, _, getElem?_idxOf h1, getElem?_idxOf h2, h3⟩

theorem nodup_insU {x : ν} {l : List ν} : (insU x l).length ≤ l.length + 1 := by
  induction l with
  | nil => simp [insU]
  | cons y ys ih =>
    unfold insU
    split
    · simp
    · split
      · simp
      · simp; omega

theorem insU_perm {x : ν} {l : List ν} (h : x ∉ l) : (insU x l).Perm (x :: l) := by
  induction l with
  | nil => simp [insU]
  | cons y ys ih =>
    unfold insU
    split
    · exact List.Perm.refl _
    · split
      · next h1 h2 => subst h2; simp at h
      · have h' : x ∉ ys := fun hh => h (by simp [hh])
        exact ((ih h').cons y).trans (List.Perm.swap x y ys)

theorem npUnique_perm_of_nodup {l : List ν} (h : l.Nodup) : (npUnique l).Perm l := by
  induction l with
  | nil => simp [npUnique]
  | cons x xs ih =>
    rw [List.nodup_cons] at h
    have : npUnique (x :: xs) = insU x (npUnique xs) := rfl
    rw [this]
    exact (insU_perm (by simpa using h.1)).trans ((ih h.2).cons x)

theorem uniqueOk_iff {l : List ν} : uniqueOk l = true ↔ l.Nodup := by
  unfold uniqueOk
  rw [decide_eq_true_iff]
  constructor
  · intro h
    have hsub : (npUnique l) ⊆ l := fun x hx => by simpa using hx
    have hsp := List.subperm_of_subset (npUnique_nodup l) hsub
    have := hsp.perm_of_length_le (by omega)
    exact this.nodup_iff.1 (npUnique_nodup l)
  · intro h; exact (npUnique_perm_of_nodup h).length_eq

theorem Ndx.create_some {models segs : List ν} {M : Mat Bool} (hm : models.Nodup) (hs : segs.Nodup)
    (hr : M.rows = models.length) (hc : M.cols = segs.length) :
    Ndx.create models segs (some M) = some ⟨models, segs, M⟩ := by
  unfold Ndx.create
  simp [uniqueOk_iff.2 hm, uniqueOk_iff.2 hs, hr, hc]

theorem Ndx.create_eq_some {models segs : List ν} {M : Mat Bool} {r : Ndx ν}
    (h : Ndx.create models segs (some M) = some r) : r = ⟨models, segs, M⟩ ∧ r.WF := by
  unfold Ndx.create at h
  split at h
  · next h1 =>
    simp only [Bool.and_eq_true, uniqueOk_iff] at h1
    simp only at h
    split at h
    · next h2 =>
      have h := (Option.some.inj h).symm
      subst h
      exact ⟨rfl, ⟨h1.1, h1.2, h2.1, h2.2⟩⟩
    · cases h
  · cases h

theorem Key.create_some {models segs : List ν} {T N : Mat Bool} (hm : models.Nodup) (hs : segs.Nodup)
    (hr : T.rows = models.length) (hc : T.cols = segs.length)
    (hr' : N.rows = models.length) (hc' : N.cols = segs.length) :
    Key.create models segs (some (T, N)) = some ⟨models, segs, T, N⟩ := by
  unfold Key.create
  simp [uniqueOk_iff.2 hm, uniqueOk_iff.2 hs, hr, hc, hr', hc']

theorem Key.create_eq_some {models segs : List ν} {T N : Mat Bool} {r : Key ν}
    (h : Key.create models segs (some (T, N)) = some r) : r = ⟨models, segs, T, N⟩ ∧ r.WF := by
  unfold Key.create at h
  split at h
  · next h1 =>
    simp only [Bool.and_eq_true, uniqueOk_iff] at h1
    simp only at h
    split at h
    · next h2 =>
      have h := (Option.some.inj h).symm
      subst h
      exact ⟨rfl, ⟨h1.1, h1.2, h2.1, h2.2.1, h2.2.2.1, h2.2.2.2⟩⟩
    · cases h
  · cases h

theorem Scores.create_some {models segs : List ν} {S : Mat α} {M : Mat Bool} (hm : models.Nodup)
    (hs : segs.Nodup) (hsr : S.rows = models.length) (hsc : S.cols = segs.length)
    (hr : M.rows = models.length) (hc : M.cols = segs.length) :
    Scores.create models segs S (some M) = some ⟨models, segs, S, M⟩ := by
  unfold Scores.create
  simp [uniqueOk_iff.2 hm, uniqueOk_iff.2 hs, hr, hc, hsr, hsc]

theorem Scores.create_eq_some {models segs : List ν} {S : Mat α} {M : Mat Bool} {r : Scores ν α}
    (h : Scores.create models segs S (some M) = some r) : r = ⟨models, segs, S, M⟩ ∧ r.WF := by
  unfold Scores.create at h
  split at h
  · next h1 =>
    simp only [Bool.and_eq_true, uniqueOk_iff] at h1
    split at h
    · next h3 =>
      simp only at h
      split at h
      · next h2 =>
        have h := (Option.some.inj h).symm
        subst h
        exact ⟨rfl, ⟨h1.1, h1.2, h3.1, h3.2, h2.1, h2.2⟩⟩
      · cases h
    · cases h
  · cases h

theorem reduceOption_map_some {β γ : Type} (l : List β) (f : β → γ) :
    (l.map (fun x => some (f x))).reduceOption = l.map f := by
  induction l with
  | nil => rfl
  | cons x xs ih => simp [ih]

/-- index outputs of `ismember` when everything is found -/
theorem ismember_reduce {c l : List ν} (h : ∀ x ∈ c, x ∈ l) :
    (ismember c l).2.reduceOption = c.map l.idxOf := by
  rw [ismember_loc]
  refine Eq.trans ?_ (reduceOption_map_some c l.idxOf)
  congr 1
  apply List.map_congr_left
  intro x hx
  rw [if_pos (h x hx)]

theorem idxOf_inj {l : List ν} {x y : ν} (hx : x ∈ l) (h : l.idxOf x = l.idxOf y) : x = y := by
  have h1 := getElem?_idxOf hx
  by_cases hy : y ∈ l
  · have h2 := getElem?_idxOf hy
    rw [h] at h1; rw [h1] at h2; exact Option.some.inj h2
  · have := List.idxOf_lt_length_of_mem hx
    have h3 : l.idxOf y = l.length := List.idxOf_eq_length hy
    omega

theorem idxOf_map_idxOf {c l : List ν} (hc : ∀ x ∈ c, x ∈ l) {m : ν} (hm : m ∈ l) :
    (c.map l.idxOf).idxOf (l.idxOf m) = c.idxOf m := by
  induction c with
  | nil => simp
  | cons y ys ih =>
    have ih := ih (fun x hx => hc x (by simp [hx]))
    rw [List.map_cons]
    by_cases hym : y = m
    · subst hym; simp
    · have : l.idxOf y ≠ l.idxOf m := fun hh => hym (idxOf_inj (hc y (by simp)) hh)
      rw [List.idxOf_cons_ne _ this, List.idxOf_cons_ne _ hym, ih]

theorem mem_map_idxOf {c l : List ν} (hc : ∀ x ∈ c, x ∈ l) {m : ν} (hm : m ∈ l) :
    l.idxOf m ∈ c.map l.idxOf ↔ m ∈ c := by
  rw [List.mem_map]
  constructor
  · rintro ⟨x, hx, hxm⟩
    rw [← idxOf_inj (hc x hx) hxm]; exact hx
  · intro h; exact ⟨m, h, rfl⟩

theorem getD_map_idxOf {c l : List ν} {m : ν} (hm : m ∈ c) :
    (c.map l.idxOf).getD (c.idxOf m) 0 = l.idxOf m := by
  have := getElem?_idxOf hm
  simp [List.getD_eq_getElem?_getD, this]

theorem scatter_entry (z : α) {newM newS oldM oldS : List ν}
    (A : Mat α) {m s : ν} (hm : m ∈ newM) (hs : s ∈ newS) :
    (scatter z newM newS oldM oldS A).entry (newM.idxOf m) (newS.idxOf s) =
      if m ∈ oldM ∧ s ∈ oldS then A.entry (oldM.idxOf m) (oldS.idxOf s) else z := by
  have e1 : ∀ x ∈ npIntersect newM oldM, x ∈ newM := fun x hx => (mem_npIntersect.1 hx).1
  have e2 : ∀ x ∈ npIntersect newM oldM, x ∈ oldM := fun x hx => (mem_npIntersect.1 hx).2
  have e3 : ∀ x ∈ npIntersect newS oldS, x ∈ newS := fun x hx => (mem_npIntersect.1 hx).1
  have e4 : ∀ x ∈ npIntersect newS oldS, x ∈ oldS := fun x hx => (mem_npIntersect.1 hx).2
  unfold scatter intersect
  simp only [Mat.setIx, Mat.ix, Mat.full]
  rw [ismember_reduce e1, ismember_reduce e2, ismember_reduce e3, ismember_reduce e4]
  simp only [mem_map_idxOf e1 hm, mem_map_idxOf e3 hs]
  rw [idxOf_map_idxOf e1 hm, idxOf_map_idxOf e3 hs]
  simp only [mem_npIntersect, hm, hs, true_and]
  by_cases h : m ∈ oldM ∧ s ∈ oldS
  · rw [if_pos h, if_pos h, getD_map_idxOf (mem_npIntersect.2 ⟨hm, h.1⟩),
      getD_map_idxOf (mem_npIntersect.2 ⟨hs, h.2⟩)]
  · rw [if_neg h, if_neg h]

@[simp] theorem scatter_rows (z : α) (newM newS oldM oldS : List ν) (A : Mat α) :
    (scatter z newM newS oldM oldS A).rows = newM.length := rfl
@[simp] theorem scatter_cols (z : α) (newM newS oldM oldS : List ν) (A : Mat α) :
    (scatter z newM newS oldM oldS A).cols = newS.length := rfl

theorem npUnion_nodup (a b : List ν) : (npUnion a b).Nodup := npUnique_nodup _

/-- union of two labelled boolean arrays -/
theorem trueAt_merge {M1 S1 M2 S2 : List ν} (h1 : M1.Nodup) (h2 : S1.Nodup) (h3 : M2.Nodup) (h4 : S2.Nodup)
    (A B : Mat Bool) (m s : ν) :
    TrueAt (npUnion M1 M2) (npUnion S1 S2)
      (Mat.zip (· || ·) (scatter false (npUnion M1 M2) (npUnion S1 S2) M1 S1 A)
        (scatter false (npUnion M1 M2) (npUnion S1 S2) M2 S2 B)) m s ↔
      TrueAt M1 S1 A m s ∨ TrueAt M2 S2 B m s := by
  rw [trueAt_iff (npUnion_nodup _ _) (npUnion_nodup _ _), trueAt_iff h1 h2, trueAt_iff h3 h4]
  by_cases hm : m ∈ npUnion M1 M2
  · by_cases hs : s ∈ npUnion S1 S2
    · simp only [Mat.zip]
      rw [scatter_entry false A hm hs, scatter_entry false B hm hs]
      simp only [hm, hs, true_and, Bool.or_eq_true]
      constructor
      · rintro (h | h)
        · split at h
          · next hc => exact Or.inl ⟨hc.1, hc.2, h⟩
          · cases h
        · split at h
          · next hc => exact Or.inr ⟨hc.1, hc.2, h⟩
          · cases h
      · rintro (⟨a, b, c⟩ | ⟨a, b, c⟩)
        · left; rw [if_pos ⟨a, b⟩]; exact c
        · right; rw [if_pos ⟨a, b⟩]; exact c
    · simp only [hs, false_and, and_false, false_iff]
      rw [mem_npUnion] at hs
      tauto
  · simp only [hm, false_and, false_iff]
    rw [mem_npUnion] at hm
    tauto

theorem requireAll_eq {names own : List ν} :
    requireAll names own = if (∀ x ∈ names, x ∈ own) then some (names.map own.idxOf) else none := by
  unfold requireAll
  simp only
  rw [ismember_flag]
  by_cases h : ∀ x ∈ names, x ∈ own
  · rw [if_pos h, ismember_reduce h, if_pos]
    simpa using h
  · rw [if_neg h, if_neg]
    simpa using h

theorem gather_idxOf {names own : List ν} (h : ∀ x ∈ names, x ∈ own) :
    gather own (names.map own.idxOf) = some names := by
  unfold gather
  rw [List.mapM_map]
  have := mapM_eq_some_map (l := names) (f := fun x => own[own.idxOf x]?) (g := id)
    (fun x hx => getElem?_idxOf (h x hx))
  simpa [Function.comp_def] using this

/-- restriction of a labelled boolean array to sub-lists of names -/
theorem trueAt_ix {M S M' S' : List ν} (hM : M.Nodup) (hS : S.Nodup)
    (h1 : ∀ x ∈ M', x ∈ M) (h2 : ∀ x ∈ S', x ∈ S)
    (A : Mat Bool) (m s : ν) :
    TrueAt M' S' (A.ix (M'.map M.idxOf) (S'.map S.idxOf)) m s ↔
      m ∈ M' ∧ s ∈ S' ∧ TrueAt M S A m s := by
  rw [trueAt_iff hM hS]
  constructor
  · rintro ⟨i, j, hi, hj, h⟩
    refine ⟨List.mem_of_getElem? hi, List.mem_of_getElem? hj, h1 m (List.mem_of_getElem? hi),
      h2 s (List.mem_of_getElem? hj), ?_⟩
    simpa [Mat.ix, List.getD_eq_getElem?_getD, hi, hj] using h
  · rintro ⟨a, b, _, _, h⟩
    refine ⟨_, _, getElem?_idxOf a, getElem?_idxOf b, ?_⟩
    simp only [Mat.ix]
    rw [getD_map_idxOf a, getD_map_idxOf b]; exact h

theorem hasScore_ix {M S M' S' : List ν} (hM : M.Nodup) (hS : S.Nodup)
    (h1 : ∀ x ∈ M', x ∈ M) (h2 : ∀ x ∈ S', x ∈ S)
    (A : Mat α) (B : Mat Bool) (m s : ν) (v : α) :
    Scores.HasScore ⟨M', S', A.ix (M'.map M.idxOf) (S'.map S.idxOf), B.ix (M'.map M.idxOf) (S'.map S.idxOf)⟩ m s v ↔
      m ∈ M' ∧ s ∈ S' ∧ Scores.HasScore ⟨M, S, A, B⟩ m s v := by
  constructor
  · rintro ⟨i, j, hi, hj, h, h'⟩
    dsimp only at hi hj h h'
    have hm := List.mem_of_getElem? hi
    have hs := List.mem_of_getElem? hj
    refine ⟨hm, hs, M.idxOf m, S.idxOf s, getElem?_idxOf (h1 _ hm), getElem?_idxOf (h2 _ hs), ?_, ?_⟩
    · simpa [Mat.ix, List.getD_eq_getElem?_getD, hi, hj] using h
    · simpa [Mat.ix, List.getD_eq_getElem?_getD, hi, hj] using h'
  · rintro ⟨a, b, i, j, hi, hj, h, h'⟩
    dsimp only at hi hj h h'
    refine ⟨_, _, getElem?_idxOf a, getElem?_idxOf b, ?_, ?_⟩
    · simp only [Mat.ix]
      rw [getD_map_idxOf a, getD_map_idxOf b, idxOf_of_getElem? hM hi, idxOf_of_getElem? hS hj]; exact h
    · simp only [Mat.ix]
      rw [getD_map_idxOf a, getD_map_idxOf b, idxOf_of_getElem? hM hi, idxOf_of_getElem? hS hj]; exact h'

/-- index lists given by positions select the named rows -/
theorem map_idxOf_of_gather {M M' : List ν} {idx : List Nat} (hM : M.Nodup) (h : gather M idx = some M') :
    M'.map M.idxOf = idx := by
  have h2 := mapM_eq_some_iff.1 h
  apply List.ext_getElem?
  intro i
  have := congrArg (fun z => z[i]?) h2
  simp only [List.getElem?_map] at this ⊢
  cases hM' : M'[i]? with
  | none => rw [hM'] at this; simp at this; simp [this]
  | some m =>
    rw [hM'] at this
    cases hi : idx[i]? with
    | none => rw [hi] at this; simp at this
    | some k =>
      rw [hi] at this
      simp at this
      simp [idxOf_of_getElem? hM this]

theorem gather_subset {M M' : List ν} {idx : List Nat} (h : gather M idx = some M') : ∀ x ∈ M', x ∈ M := by
  intro x hx
  obtain ⟨i, _, hi⟩ := (gather_mem h).1 hx
  exact List.mem_of_getElem? hi

end Hyp.Trials
