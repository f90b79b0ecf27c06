import Verif.ListUtils.Lemmas

/-! # Properties C01, C02, C03: list_utils -/

namespace Hyp.ListUtils

variable {α : Type _}

/-- **C01 (partition).** Running all `P` jobs and concatenating their parts gives the list back, in order;
and each job's index array selects exactly the returned elements. -/
theorem C01_split_list_partition (a : List α) (P : Nat) (hP : 1 ≤ P) :
    ∃ parts : List (List α × List Nat),
      (List.range' 1 P).mapM (fun idx => splitList a idx P) = some parts ∧
      (parts.map Prod.fst).flatten = a ∧
      (parts.map Prod.snd).flatten = List.range a.length ∧
      ∀ p ∈ parts, gather a p.2 = some p.1 := by
  have hc0 : cut 0 a.length P = 0 := cut_zero
  have hm : ∀ k, cut k a.length P ≤ cut (k + 1) a.length P := fun k => cut_mono (by omega)
  let f : Nat → List α × List Nat := fun idx =>
    ((a.drop (cut (idx - 1) a.length P)).take (cut idx a.length P - cut (idx - 1) a.length P),
        List.range' (cut (idx - 1) a.length P) (cut idx a.length P - cut (idx - 1) a.length P))
  refine ⟨(List.range' 1 P).map f, ?_, ?_, ?_, ?_⟩
  · apply mapM_eq_some_map
    intro idx hi
    rw [List.mem_range'_1] at hi
    exact splitList_eq hi.1 (by omega)
  · rw [List.map_map, range'_one_map]
    have := flatten_slices a (fun k => cut k a.length P) hc0 hm P
    simp only [cut_top hP, List.take_length] at this
    exact this
  · rw [List.map_map, range'_one_map]
    have := flatten_slices (List.range a.length) (fun k => cut k a.length P) hc0 hm P
    simp only [cut_top hP, List.take_of_length_le (Nat.le_of_eq List.length_range)] at this
    rw [← this]
    congr 1
    apply List.map_congr_left
    intro k hk
    have hk := List.mem_range.1 hk
    have hle : cut (k + 1) a.length P ≤ a.length := cut_le (by omega) (by omega)
    simp only [Function.comp, f, Nat.add_sub_cancel]
    exact (slice_range _ _ _ hle).symm
  · intro p hp
    obtain ⟨idx, hi, rfl⟩ := List.mem_map.1 hp
    rw [List.mem_range'_1] at hi
    have hle : cut idx a.length P ≤ a.length := cut_le (by omega) (by omega)
    have hmm : cut (idx - 1) a.length P ≤ cut idx a.length P := cut_mono (by omega)
    exact gather_range' _ _ _ (by omega)

/-- **C01 (balance).** Every part has `⌊n/P⌋` or `⌊n/P⌋+1` elements. -/
theorem C01_split_list_balanced (a : List α) (P idx : Nat) (h1 : 1 ≤ idx) (h2 : idx ≤ P)
    (r : List α × List Nat) (h : splitList a idx P = some r) :
    a.length / P ≤ r.1.length ∧ r.1.length ≤ a.length / P + 1 := by
  rw [splitList_eq h1 h2] at h
  have h := (Option.some.inj h).symm
  subst h
  have hle : cut idx a.length P ≤ a.length := cut_le h2 (by omega)
  have hs := cut_step (k := idx - 1) (n := a.length) (P := P) (by omega)
  rw [show idx - 1 + 1 = idx by omega] at hs
  simp only [List.length_take, List.length_drop]
  have hmm : cut (idx - 1) a.length P ≤ cut idx a.length P := cut_mono (by omega)
  omega

/-- **C01 (bad arguments).** A part number beyond the number of parts does not silently return data
of a nonempty tail: if it returns at all, it returns nothing. -/
theorem C01_split_list_out_of_range (a : List α) (P idx : Nat) (h2 : P < idx)
    (r : List α × List Nat) (h : splitList a idx P = some r) : r.1 = [] := by
  unfold splitList at h
  by_cases hP : P = 0
  · simp [hP] at h
  · rw [if_neg hP] at h
    simp only [Option.map_eq_some_iff] at h
    obtain ⟨x, hx, rfl⟩ := h
    have h3 : a.length ≤ cut (idx - 1) a.length P :=
      calc a.length = cut P a.length P := (cut_top (by omega)).symm
        _ ≤ _ := cut_mono (by omega)
    have hl := gather_length hx
    rw [List.length_range'] at hl
    cases x with
    | nil => rfl
    | cons y ys =>
      have := (gather_mem hx (x := y)).1 (by simp)
      obtain ⟨i, hi, hy⟩ := this
      rw [List.mem_range'_1] at hi
      have := (List.getElem?_eq_some_iff.1 hy).1
      omega

example : splitList [10, 20, 30, 40, 50, 60, 70] 2 3 = some ([30, 40], [2, 3]) := by decide
example : splitList [10, 20, 30] 4 3 = none := by decide

section group
variable {κ : Type _} [LinearOrder κ]

theorem splitGroup_eq {a : List α} {key : List κ} (hk : key.length = a.length) (ha : a ≠ [])
    {idx P : Nat} (h1 : 1 ≤ idx) (h2 : idx ≤ P) :
    ∃ r, splitListGroupByKey a idx P key = some (r,
        (List.range' (cut (idx - 1) (npUnique key).length P)
          (cut idx (npUnique key).length P - cut (idx - 1) (npUnique key).length P)).flatMap
            (idsEq (npInverse key))) ∧
      gather a ((List.range' (cut (idx - 1) (npUnique key).length P)
          (cut idx (npUnique key).length P - cut (idx - 1) (npUnique key).length P)).flatMap
            (idsEq (npInverse key))) = some r := by
  have hkey : key ≠ [] := by
    intro h; apply ha; rw [h] at hk; simpa using hk.symm
  have hp := npUnique_length_pos hkey
  unfold splitListGroupByKey
  rw [if_neg (by omega)]
  simp only [npInverse_max hkey, show (npUnique key).length - 1 + 1 = (npUnique key).length by omega]
  generalize cut (idx - 1) (npUnique key).length P = c1
  generalize cut idx (npUnique key).length P - c1 = c2
  set loc := (List.range' c1 c2).flatMap (idsEq (npInverse key)) with hloc
  have hlt : ∀ i ∈ loc, i < a.length := by
    intro i hi
    rw [hloc, List.mem_flatMap] at hi
    obtain ⟨g, _, hg⟩ := hi
    rw [mem_idsEq] at hg
    have := (List.getElem?_eq_some_iff.1 hg).1
    rw [npInverse_length] at this; omega
  have hnd : loc.Nodup := by
    rw [hloc, List.nodup_flatMap]
    refine ⟨fun x _ => nonzero_nodup _, ?_⟩
    apply List.Pairwise.imp _ (List.nodup_range' (s := c1) (n := c2))
    intro g g' hgg
    show List.Disjoint _ _
    intro i hi hi'
    rw [mem_idsEq] at hi hi'
    rw [hi] at hi'
    exact hgg (Option.some.inj hi')
  have hlen : loc.length ≤ a.length := by
    have : loc ⊆ List.range a.length := fun i hi => List.mem_range.2 (hlt i hi)
    have := (List.subperm_of_subset hnd this).length_le
    simpa using this
  rw [if_neg (by omega)]
  obtain ⟨r, hr, _⟩ := gather_eq_some hlt
  exact ⟨r, by simp [hr], hr⟩

/-- **C02 (partition).** The index arrays of the `P` parts together are a permutation of all positions of
the list: no element is lost and none appears twice; each part is what its index array selects. -/
theorem C02_group_split_partition (a : List α) (key : List κ) (hk : key.length = a.length)
    (ha : a ≠ []) (P : Nat) (hP : 1 ≤ P) :
    ∃ parts : List (List α × List Nat),
      (List.range' 1 P).mapM (fun idx => splitListGroupByKey a idx P key) = some parts ∧
      (parts.map Prod.snd).flatten.Perm (List.range a.length) ∧
      (parts.map Prod.fst).flatten.Perm a ∧
      ∀ p ∈ parts, gather a p.2 = some p.1 := by
  let c : Nat → Nat := fun k => cut k (npUnique key).length P
  have hm : ∀ k, c k ≤ c (k + 1) := fun k => cut_mono (by omega)
  have hall : ∀ idx ∈ List.range' 1 P, ∃ r : List α × List Nat,
      splitListGroupByKey a idx P key = some r ∧ gather a r.2 = some r.1 ∧
      r.2 = (List.range' (c (idx - 1)) (c idx - c (idx - 1))).flatMap (idsEq (npInverse key)) := by
    intro idx hi
    rw [List.mem_range'_1] at hi
    obtain ⟨r, hr, hg⟩ := splitGroup_eq hk ha (idx := idx) (P := P) hi.1 (by omega)
    exact ⟨_, hr, hg, rfl⟩
  cases hM : (List.range' 1 P).mapM (fun idx => splitListGroupByKey a idx P key) with
  | none =>
    obtain ⟨i, hi, hn⟩ := mapM_eq_none_iff.1 hM
    obtain ⟨r, hr, _⟩ := hall i hi
    rw [hr] at hn; simp at hn
  | some parts =>
    have hmap := mapM_eq_some_iff.1 hM
    have hmem : ∀ p ∈ parts, gather a p.2 = some p.1 := by
      intro p hp
      have : some p ∈ parts.map some := by simpa using hp
      rw [← hmap] at this
      obtain ⟨i, hi, hpi⟩ := List.mem_map.1 this
      obtain ⟨r, hr, hg, _⟩ := hall i hi
      rw [hr] at hpi
      rw [← Option.some.inj hpi]; exact hg
    have hsnd : parts.map Prod.snd = (List.range' 1 P).map
        (fun idx => (List.range' (c (idx - 1)) (c idx - c (idx - 1))).flatMap (idsEq (npInverse key))) := by
      have h1 : (parts.map some).map (Option.map Prod.snd) = (parts.map Prod.snd).map some := by
        simp
      rw [← hmap, List.map_map] at h1
      apply List.map_injective_iff.2 (Option.some_injective _)
      rw [← h1, List.map_map]
      apply List.map_congr_left
      intro i hi
      obtain ⟨r, hr, _, h2⟩ := hall i hi
      simp [Function.comp, hr, h2]
    have hflat : (parts.map Prod.snd).flatten =
        (List.range (npUnique key).length).flatMap (idsEq (npInverse key)) := by
      rw [hsnd, range'_one_map]
      have := flatten_slices (List.range (npUnique key).length) c cut_zero hm P
      rw [show c P = (npUnique key).length from cut_top hP,
        List.take_of_length_le (Nat.le_of_eq List.length_range)] at this
      conv_rhs => rw [← this]
      rw [List.flatMap_def, List.map_flatten, List.flatten_flatten, List.map_map, List.map_map]
      congr 1
      apply List.map_congr_left
      intro k hk
      have hk := List.mem_range.1 hk
      simp only [Function.comp, Nat.add_sub_cancel]
      rw [← List.flatMap_def]
      congr 1
      have h4 : c (k + 1) ≤ (npUnique key).length := cut_le (by omega) (by omega)
      exact (slice_range _ _ _ h4).symm
    have hperm : (parts.map Prod.snd).flatten.Perm (List.range a.length) := by
      rw [hflat, List.perm_ext_iff_of_nodup]
      · intro j
        rw [List.mem_flatMap, List.mem_range]
        constructor
        · rintro ⟨g, _, hg⟩
          rw [mem_idsEq] at hg
          have := (List.getElem?_eq_some_iff.1 hg).1
          rw [npInverse_length] at this; omega
        · intro hj
          have hj' : j < (npInverse key).length := by rw [npInverse_length]; omega
          refine ⟨(npInverse key)[j], ?_, ?_⟩
          · exact List.mem_range.2 (npInverse_lt (List.getElem_mem _))
          · rw [mem_idsEq]; simp [hj']
      · rw [List.nodup_flatMap]
        refine ⟨fun x _ => nonzero_nodup _, ?_⟩
        apply List.Pairwise.imp _ List.nodup_range
        intro g g' hgg
        show List.Disjoint _ _
        intro i hi hi'
        rw [mem_idsEq] at hi hi'
        rw [hi] at hi'
        exact hgg (Option.some.inj hi')
      · exact List.nodup_range
    refine ⟨parts, rfl, hperm, ?_, hmem⟩
    have hgall : ∀ ps : List (List α × List Nat), (∀ p ∈ ps, gather a p.2 = some p.1) →
        gather a (ps.map Prod.snd).flatten = some (ps.map Prod.fst).flatten := by
      intro ps
      induction ps with
      | nil => intro _; simp [gather]
      | cons p ps ih =>
        intro hh
        simp only [List.map_cons, List.flatten_cons]
        rw [gather_append, hh p (by simp), ih (fun q hq => hh q (by simp [hq]))]
        simp
    exact gather_perm hperm (hgall parts hmem)

/-- **C02 (groups stay whole).** If two positions carry the same key and one is in a part, so is the other. -/
theorem C02_group_split_keeps_groups (a : List α) (key : List κ) (hk : key.length = a.length)
    (ha : a ≠ []) (P idx : Nat) (h1 : 1 ≤ idx) (h2 : idx ≤ P) (r : List α) (loc : List Nat)
    (h : splitListGroupByKey a idx P key = some (r, loc))
    (i j : Nat) (hij : key[i]? = key[j]?) (hi : i ∈ loc) : j ∈ loc := by
  obtain ⟨r', hr, _⟩ := splitGroup_eq hk ha (idx := idx) (P := P) h1 h2
  rw [hr] at h
  have h := Option.some.inj h
  have hl := (Prod.mk.inj h).2
  subst hl
  rw [List.mem_flatMap] at hi ⊢
  obtain ⟨g, hg, hgi⟩ := hi
  refine ⟨g, hg, ?_⟩
  rw [mem_idsEq, npInverse_getElem?] at hgi ⊢
  rw [← hij]; exact hgi

/-- **C02 (order within a group).** Inside a part, the members of one group keep their original order. -/
theorem C02_group_split_order (a : List α) (key : List κ) (hk : key.length = a.length)
    (ha : a ≠ []) (P idx : Nat) (h1 : 1 ≤ idx) (h2 : idx ≤ P) (r : List α) (loc : List Nat)
    (h : splitListGroupByKey a idx P key = some (r, loc)) :
    loc.Pairwise (fun i j => key[i]? = key[j]? → i < j) := by
  obtain ⟨r', hr, _⟩ := splitGroup_eq hk ha (idx := idx) (P := P) h1 h2
  rw [hr] at h
  have h := Option.some.inj h
  have hl := (Prod.mk.inj h).2
  subst hl
  rw [List.pairwise_flatMap]
  constructor
  · intro g _
    apply List.Pairwise.imp _ (nonzero_sorted _)
    intro i j h _; exact h
  · apply List.Pairwise.imp _ List.nodup_range'
    intro g g' hgg i hi j hj he
    rw [mem_idsEq, npInverse_getElem?] at hi hj
    rw [he, hj] at hi
    exact absurd (Option.some.inj hi).symm hgg

/-- **C02 (error).** An empty list raises (`ids.max()` of an empty array). -/
theorem C02_group_split_empty_raises (idx P : Nat) :
    splitListGroupByKey ([] : List α) idx P ([] : List κ) = none := by
  unfold splitListGroupByKey
  split
  · rfl
  · simp [npInverse]

example : splitListGroupByKey [10, 20, 30, 40, 50] 1 2 [7, 3, 7, 3, 9] = some ([20, 40], [1, 3]) := by
  decide
end group

/-- **C03 (ismember).** The flag of `a[i]` says whether it occurs in `b`; the index is that of its first
occurrence (and absent iff it does not occur). -/
theorem C03_ismember [DecidableEq α] (a b : List α) :
    (ismember a b).1.length = a.length ∧ (ismember a b).2.length = a.length ∧
    ∀ (i : Nat) (x : α), a[i]? = some x →
      (ismember a b).1[i]? = some (decide (x ∈ b)) ∧
      ∃ loc, (ismember a b).2[i]? = some loc ∧ (loc = none ↔ x ∉ b) ∧
        ∀ j : Nat, loc = some j ↔ (b[j]? = some x ∧ ∀ k < j, b[k]? ≠ some x) := by
  rw [ismember_flag, ismember_loc]
  refine ⟨by simp, by simp, ?_⟩
  intro i x hx
  refine ⟨by simp [hx], _, by simp only [List.getElem?_map, hx, Option.map_some]; rfl, ?_, ?_⟩
  · by_cases h : x ∈ b <;> simp [h]
  · intro j
    by_cases h : x ∈ b
    · rw [if_pos h]
      have hlt := List.idxOf_lt_length_of_mem h
      have hget : b[b.idxOf x]? = some x := by simp [hlt]
      have hfirst : ∀ k < b.idxOf x, b[k]? ≠ some x := by
        intro k hk hkx
        have := idxOf_le_of_getElem? hkx
        omega
      constructor
      · intro he; have he := Option.some.inj he; subst he; exact ⟨hget, hfirst⟩
      · rintro ⟨h1, h2⟩
        rcases lt_trichotomy (b.idxOf x) j with h3 | h3 | h3
        · exact absurd hget (h2 _ h3)
        · rw [h3]
        · exact absurd h1 (hfirst _ h3)
    · rw [if_neg h]
      constructor
      · intro he; simp at he
      · rintro ⟨h1, _⟩; exact absurd (List.mem_of_getElem? h1) h

/-- **C03 (intersect).** Sorted duplicate-free common elements, with positions at which they are found in
each list. -/
theorem C03_intersect [LinearOrder α] (a b : List α) :
    (intersect a b).1.Pairwise (· < ·) ∧ (∀ x, x ∈ (intersect a b).1 ↔ x ∈ a ∧ x ∈ b) ∧
    (∀ (i : Nat) (x : α), (intersect a b).1[i]? = some x →
      ∃ p q, (intersect a b).2.1[i]? = some (some p) ∧ a[p]? = some x ∧
             (intersect a b).2.2[i]? = some (some q) ∧ b[q]? = some x) := by
  refine ⟨npUnique_sorted _, fun x => by simp [intersect], ?_⟩
  intro i x hx
  have hx' : (npIntersect a b)[i]? = some x := hx
  have hmem : x ∈ npIntersect a b := List.mem_of_getElem? hx'
  rw [mem_npIntersect] at hmem
  have h1 := List.idxOf_lt_length_of_mem hmem.1
  have h2 := List.idxOf_lt_length_of_mem hmem.2
  refine ⟨a.idxOf x, b.idxOf x, ?_, by simp [h1], ?_, by simp [h2]⟩
  · simp [intersect, ismember_loc, hx', hmem.1]
  · simp [intersect, ismember_loc, hx', hmem.2]

/-- **C03 (sort).** For every tie-breaking of argsort, the result is sorted, is a permutation of the
input and is what the returned index selects. -/
theorem C03_sort [LinearOrder α] (a : List α) (perm : List Nat) (hp : IsArgsort a perm) (rev : Bool) :
    ∃ s idx, sortWith a rev perm = some (s, idx) ∧ s.Perm a ∧ gather a idx = some s ∧
      (if rev then s.Pairwise (· ≥ ·) else s.Pairwise (· ≤ ·)) := by
  have hlt : ∀ i ∈ perm, i < a.length := fun i hi => List.mem_range.1 ((hp.1.mem_iff).1 hi)
  have hfm : ∀ l : List Nat, (∀ i ∈ l, i < a.length) →
      gather a l = some (l.filterMap (fun i => a[i]?)) := by
    intro l
    induction l with
    | nil => intro _; simp [gather]
    | cons x xs ih =>
      intro h
      have hx := h x (by simp)
      have := ih (fun i hi => h i (by simp [hi]))
      unfold gather at *
      rw [List.mapM_cons, this]
      simp [hx]
  cases rev with
  | false =>
    have := hfm perm hlt
    exact ⟨_, perm, by simp [sortWith, this], gather_perm hp.1 this, this, by simpa using hp.2⟩
  | true =>
    have := hfm perm.reverse (by simpa using hlt)
    refine ⟨_, perm.reverse, by simp [sortWith, this], gather_perm ((List.reverse_perm _).trans hp.1) this, this, ?_⟩
    simp only [if_true]
    rw [List.filterMap_reverse, List.pairwise_reverse]
    exact hp.2

example : ismember [3, 9, 1] [1, 3, 3] = ([true, false, true], [some 1, none, some 0]) := by decide
example : IsArgsort [5, 1, 5] [1, 2, 0] := by unfold IsArgsort; decide
example : intersect [5, 1, 5, 2] [2, 7, 5] = ([2, 5], [some 3, some 0], [some 0, some 2]) := by decide

end Hyp.ListUtils
