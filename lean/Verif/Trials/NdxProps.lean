import Verif.Trials.Lemmas
import Verif.ListUtils.Props

/-! # Properties C08-C11: TrialNdx -/

namespace Hyp.Trials
open Hyp.ListUtils
variable {ν : Type} [LinearOrder ν]

/-! ## C08 merge -/

theorem Ndx.mergeStep_wf {a b : Ndx ν} : (Ndx.mergeStep a b).WF :=
  ⟨npUnion_nodup _ _, npUnion_nodup _ _, rfl, rfl⟩

theorem Ndx.mergeStep_trial {a b : Ndx ν} (ha : a.WF) (hb : b.WF) (m s : ν) :
    (Ndx.mergeStep a b).IsTrial m s ↔ a.IsTrial m s ∨ b.IsTrial m s :=
  trueAt_merge ha.models ha.segs hb.models hb.segs a.mask b.mask m s

theorem Ndx.foldl_merge (xs : List (Ndx ν)) (a : Ndx ν) (ha : a.WF) (hx : ∀ x ∈ xs, x.WF) :
    (xs.foldl Ndx.mergeStep a).WF ∧
    (∀ m s, (xs.foldl Ndx.mergeStep a).IsTrial m s ↔ ∃ x ∈ a :: xs, x.IsTrial m s) ∧
    (∀ m, m ∈ (xs.foldl Ndx.mergeStep a).models ↔ ∃ x ∈ a :: xs, m ∈ x.models) ∧
    (∀ s, s ∈ (xs.foldl Ndx.mergeStep a).segs ↔ ∃ x ∈ a :: xs, s ∈ x.segs) ∧
    (xs ≠ [] → (xs.foldl Ndx.mergeStep a).models.Pairwise (· < ·) ∧
               (xs.foldl Ndx.mergeStep a).segs.Pairwise (· < ·)) := by
  induction xs generalizing a with
  | nil => exact ⟨ha, by simp, by simp, by simp, by simp⟩
  | cons y ys ih =>
    have hy := hx y (by simp)
    obtain ⟨h1, h2, h3, h4, h5⟩ := ih (Ndx.mergeStep a y) Ndx.mergeStep_wf (fun x hh => hx x (by simp [hh]))
    rw [List.foldl_cons]
    refine ⟨h1, ?_, ?_, ?_, ?_⟩
    · intro m s
      rw [h2]; simp [Ndx.mergeStep_trial ha hy, or_assoc]
    · intro m; rw [h3]; simp [Ndx.mergeStep, or_assoc]
    · intro m; rw [h4]; simp [Ndx.mergeStep, or_assoc]
    · intro _
      cases ys with
      | nil => exact ⟨npUnique_sorted _, npUnique_sorted _⟩
      | cons z zs => exact h5 (by simp)

/-- **C08.** Merging valid trial indexes never fails, and a pair is a trial of the result iff it is a
trial of one of the inputs; the name lists are the unions, sorted when two or more indexes are merged. -/
theorem C08_merge_is_union (xs : List (Ndx ν)) (hne : xs ≠ []) (hx : ∀ x ∈ xs, x.WF) :
    ∃ r, Ndx.merge xs = some r ∧ r.WF ∧
      (∀ m s, r.IsTrial m s ↔ ∃ x ∈ xs, x.IsTrial m s) ∧
      (∀ m, m ∈ r.models ↔ ∃ x ∈ xs, m ∈ x.models) ∧
      (∀ s, s ∈ r.segs ↔ ∃ x ∈ xs, s ∈ x.segs) ∧
      (2 ≤ xs.length → r.models.Pairwise (· < ·) ∧ r.segs.Pairwise (· < ·)) := by
  cases xs with
  | nil => exact absurd rfl hne
  | cons a as =>
    obtain ⟨h1, h2, h3, h4, h5⟩ := Ndx.foldl_merge as a (hx a (by simp)) (fun x hh => hx x (by simp [hh]))
    refine ⟨as.foldl Ndx.mergeStep a, ?_, h1, h2, h3, h4, ?_⟩
    · unfold Ndx.merge
      exact Ndx.create_some h1.models h1.segs h1.rows h1.cols
    · intro hl
      apply h5
      intro h; subst h; simp at hl

/-- equality of trial indexes as `TrialNdx.__eq__` sees it (trial_ndx.py:329-336): same names, same
mask entries. -/
def Ndx.Same (a b : Ndx ν) : Prop :=
  a.models = b.models ∧ a.segs = b.segs ∧
    ∀ i j, i < a.models.length → j < a.segs.length → a.mask.entry i j = b.mask.entry i j

theorem Ndx.same_of_trials {a b : Ndx ν} (ha : a.WF) (hb : b.WF) (hm : a.models = b.models)
    (hs : a.segs = b.segs) (h : ∀ m s, a.IsTrial m s ↔ b.IsTrial m s) : Ndx.Same a b := by
  refine ⟨hm, hs, ?_⟩
  intro i j hi hj
  have h1 := h a.models[i] a.segs[j]
  unfold Ndx.IsTrial at h1
  rw [trueAt_iff ha.models ha.segs, trueAt_iff hb.models hb.segs, ← hm, ← hs] at h1
  rw [ha.models.idxOf_getElem i hi, ha.segs.idxOf_getElem j hj] at h1
  simp only [List.getElem_mem, true_and] at h1
  exact Bool.eq_iff_iff.2 h1

/-- **C08 (order and repetition do not matter).** Two lists of at least two valid indexes with the same
members (in any order, with any repetition) merge to equal objects. -/
theorem C08_merge_comm_idem (xs ys : List (Ndx ν)) (hx2 : 2 ≤ xs.length) (hy2 : 2 ≤ ys.length)
    (hx : ∀ x ∈ xs, x.WF) (hsame : ∀ x, x ∈ xs ↔ x ∈ ys) :
    ∃ r r', Ndx.merge xs = some r ∧ Ndx.merge ys = some r' ∧ Ndx.Same r r' := by
  obtain ⟨r, h1, h2, h3, h4, h5, h6⟩ := C08_merge_is_union xs (by intro h; subst h; simp at hx2) hx
  obtain ⟨r', k1, k2, k3, k4, k5, k6⟩ := C08_merge_is_union ys (by intro h; subst h; simp at hy2)
    (fun y hy => hx y ((hsame y).2 hy))
  refine ⟨r, r', h1, k1, Ndx.same_of_trials h2 k2 ?_ ?_ ?_⟩
  · exact sorted_ext (h6 hx2).1 (k6 hy2).1 (fun m => by rw [h4, k4]; simp [hsame])
  · exact sorted_ext (h6 hx2).2 (k6 hy2).2 (fun m => by rw [h5, k5]; simp [hsame])
  · intro m s; rw [h3, k3]; simp [hsame]

/-- **C08 (associativity).** Merging in two stages gives the same trials and names as merging at once. -/
theorem C08_merge_assoc (xs ys : List (Ndx ν)) (hxn : xs ≠ []) (hyn : ys ≠ [])
    (hx : ∀ x ∈ xs, x.WF) (hy : ∀ y ∈ ys, y.WF) :
    ∃ a b c r, Ndx.merge xs = some a ∧ Ndx.merge ys = some b ∧ Ndx.merge [a, b] = some c ∧
      Ndx.merge (xs ++ ys) = some r ∧ Ndx.Same c r := by
  obtain ⟨a, a1, a2, a3, a4, a5, _⟩ := C08_merge_is_union xs hxn hx
  obtain ⟨b, b1, b2, b3, b4, b5, _⟩ := C08_merge_is_union ys hyn hy
  obtain ⟨c, c1, c2, c3, c4, c5, c6⟩ := C08_merge_is_union [a, b] (by simp) (by simp [a2, b2])
  obtain ⟨r, r1, r2, r3, r4, r5, r6⟩ := C08_merge_is_union (xs ++ ys) (by simp [hxn])
    (fun z hz => by rcases List.mem_append.1 hz with h | h; exacts [hx z h, hy z h])
  have hl : 2 ≤ (xs ++ ys).length := by
    have := List.length_pos_of_ne_nil hxn
    have := List.length_pos_of_ne_nil hyn
    simp; omega
  refine ⟨a, b, c, r, a1, b1, c1, r1, Ndx.same_of_trials c2 r2 ?_ ?_ ?_⟩
  · refine sorted_ext (c6 (by simp)).1 (r6 hl).1 (fun m => ?_)
    rw [c4, r4]; simp [a4, b4, or_and_right, exists_or]
  · refine sorted_ext (c6 (by simp)).2 (r6 hl).2 (fun m => ?_)
    rw [c5, r5]; simp [a5, b5, or_and_right, exists_or]
  · intro m s; rw [c3, r3]; simp [a3, b3, or_and_right, exists_or]

/-- two overlapping, differently ordered indexes -/
def exA : Ndx Nat := ⟨[2, 1], [10, 11], ⟨2, 2, fun i j => i = 0 && j = 1⟩⟩
def exB : Ndx Nat := ⟨[3, 2], [11, 12, 10], ⟨2, 3, fun i j => i = 1 || j = 1⟩⟩

theorem exA_wf : exA.WF := ⟨by decide, by decide, rfl, rfl⟩
theorem exB_wf : exB.WF := ⟨by decide, by decide, rfl, rfl⟩

example : ∃ r, Ndx.merge [exA, exB] = some r ∧ r.models = [1, 2, 3] ∧ r.segs = [10, 11, 12] ∧
    r.IsTrial 2 11 ∧ r.IsTrial 3 12 ∧ ¬ r.IsTrial 1 10 := by
  obtain ⟨r, h1, h2, h3, _⟩ := C08_merge_is_union [exA, exB] (by simp) (by simp [exA_wf, exB_wf])
  have e : Ndx.merge [exA, exB] = some (Ndx.mergeStep exA exB) := rfl
  rw [e] at h1
  have h1 := Option.some.inj h1; subst h1
  refine ⟨_, e, by decide, by decide, ?_, ?_, ?_⟩
  · rw [h3]; exact ⟨exA, by simp, 0, 1, rfl, rfl, by decide⟩
  · rw [h3]; exact ⟨exB, by simp, 0, 1, rfl, rfl, by decide⟩
  · rw [h3]
    have ha := trueAt_iff exA_wf.models exA_wf.segs (A := exA.mask) (m := 1) (s := 10)
    have hb := trueAt_iff exB_wf.models exB_wf.segs (A := exB.mask) (m := 1) (s := 10)
    simp only [List.mem_cons, List.not_mem_nil, or_false, exists_eq_or_imp, exists_eq_left, Ndx.IsTrial, ha, hb]
    decide

/-! ## C09 filter -/

/-- **C09 (keep).** `filter(models, segs)` succeeds exactly when every requested name exists (and the
request has no repeated names, which the constructor refuses); the result lists the requested names in
the requested order and its trials are exactly the trials of the input among them. -/
theorem C09_filter_keep (x : Ndx ν) (hx : x.WF) (M S : List ν) :
    ((∃ r, x.filter M S true = some r) ↔
      (∀ m ∈ M, m ∈ x.models) ∧ (∀ s ∈ S, s ∈ x.segs) ∧ M.Nodup ∧ S.Nodup) ∧
    (∀ r, x.filter M S true = some r → r.WF ∧ r.models = M ∧ r.segs = S ∧
      ∀ m s, r.IsTrial m s ↔ m ∈ M ∧ s ∈ S ∧ x.IsTrial m s) := by
  by_cases h1 : ∀ m ∈ M, m ∈ x.models
  · by_cases h2 : ∀ s ∈ S, s ∈ x.segs
    · have e : x.filter M S true = Ndx.create M S (some (x.mask.ix (M.map x.models.idxOf) (S.map x.segs.idxOf))) := by
        simp only [Ndx.filter, requireAll_eq, if_pos h1, if_pos h2, if_true]
        simp [gather_idxOf h1]
      rw [e]
      constructor
      · constructor
        · rintro ⟨r, hr⟩
          obtain ⟨he, hw⟩ := Ndx.create_eq_some hr
          have hm := hw.models
          have hs := hw.segs
          rw [he] at hm hs
          exact ⟨h1, h2, hm, hs⟩
        · rintro ⟨_, _, hm, hs⟩
          exact ⟨_, Ndx.create_some hm hs (by simp [Mat.ix]) (by simp [Mat.ix])⟩
      · intro r hr
        obtain ⟨he, hw⟩ := Ndx.create_eq_some hr
        refine ⟨hw, by rw [he], by rw [he], ?_⟩
        intro m s
        rw [he]
        exact trueAt_ix hx.models hx.segs h1 h2 x.mask m s
    · have e : x.filter M S true = none := by
        simp [Ndx.filter, requireAll_eq, h2]
      rw [e]; simp [h2]
  · have e : x.filter M S true = none := by
      simp [Ndx.filter, requireAll_eq, h1]
    rw [e]; simp [h1]

/-- **C09 (drop).** `filter(models, segs, keep=False)` always succeeds and its trials are exactly those of
the input whose model and segment are both not listed. -/
theorem C09_filter_drop (x : Ndx ν) (hx : x.WF) (M S : List ν) :
    ∃ r, x.filter M S false = some r ∧ r.WF ∧
      (∀ m, m ∈ r.models ↔ m ∈ x.models ∧ m ∉ M) ∧ (∀ s, s ∈ r.segs ↔ s ∈ x.segs ∧ s ∉ S) ∧
      ∀ m s, r.IsTrial m s ↔ x.IsTrial m s ∧ m ∉ M ∧ s ∉ S := by
  have e : x.filter M S false = x.filter (npSetdiff x.models M) (npSetdiff x.segs S) true := by
    simp [Ndx.filter]
  obtain ⟨h1, h2⟩ := C09_filter_keep x hx (npSetdiff x.models M) (npSetdiff x.segs S)
  obtain ⟨r, hr⟩ := h1.2 ⟨by simp +contextual, by simp +contextual, npUnique_nodup _, npUnique_nodup _⟩
  obtain ⟨hw, hm, hs, ht⟩ := h2 r hr
  refine ⟨r, by rw [e]; exact hr, hw, by simp [hm], by simp [hs], ?_⟩
  intro m s
  rw [ht]
  have := trueAt_iff hx.models hx.segs (A := x.mask) (m := m) (s := s)
  unfold Ndx.IsTrial
  simp only [mem_npSetdiff, this]
  tauto

example : (∃ r, exB.filter [2] [10, 11] true = some r) := by
  rw [(C09_filter_keep exB exB_wf _ _).1]; decide
example : ¬ (∃ r, exB.filter [7] [10, 11] true = some r) := by
  rw [(C09_filter_keep exB exB_wf _ _).1]; decide

/-! ## C10 split -/

theorem Ndx.split_eq (x : Ndx ν) (hx : x.WF) {i P j Q : Nat} (hi : 1 ≤ i) (hiP : i ≤ P) (hj : 1 ≤ j) (hjQ : j ≤ Q) :
    ∃ M mi S si r, splitList x.models i P = some (M, mi) ∧ splitList x.segs j Q = some (S, si) ∧
      x.split i P j Q = some r ∧ r.WF ∧ r.models = M ∧ r.segs = S ∧
      ∀ m s, r.IsTrial m s ↔ m ∈ M ∧ s ∈ S ∧ x.IsTrial m s := by
  obtain ⟨M, mi, hM, hMg⟩ : ∃ M mi, splitList x.models i P = some (M, mi) ∧ gather x.models mi = some M := by
    refine ⟨_, _, splitList_eq hi hiP, ?_⟩
    have : cut (i - 1) x.models.length P ≤ cut i x.models.length P := cut_mono (by omega)
    have : cut i x.models.length P ≤ x.models.length := cut_le hiP (by omega)
    exact gather_range' _ _ _ (by omega)
  obtain ⟨S, si, hS, hSg⟩ : ∃ S si, splitList x.segs j Q = some (S, si) ∧ gather x.segs si = some S := by
    refine ⟨_, _, splitList_eq hj hjQ, ?_⟩
    have : cut (j - 1) x.segs.length Q ≤ cut j x.segs.length Q := cut_mono (by omega)
    have : cut j x.segs.length Q ≤ x.segs.length := cut_le hjQ (by omega)
    exact gather_range' _ _ _ (by omega)
  have hMn : M.Nodup := by
    have := splitList_eq (a := x.models) hi hiP
    rw [hM] at this
    have := (Prod.mk.inj (Option.some.inj this)).1
    rw [this]
    exact (hx.models.sublist (List.drop_sublist _ _)).sublist (List.take_sublist _ _)
  have hSn : S.Nodup := by
    have := splitList_eq (a := x.segs) hj hjQ
    rw [hS] at this
    have := (Prod.mk.inj (Option.some.inj this)).1
    rw [this]
    exact (hx.segs.sublist (List.drop_sublist _ _)).sublist (List.take_sublist _ _)
  have hc := Ndx.create_some (M := x.mask.ix mi si) hMn hSn
    (by simp [Mat.ix, gather_length hMg]) (by simp [Mat.ix, gather_length hSg])
  refine ⟨M, mi, S, si, ⟨M, S, x.mask.ix mi si⟩, hM, hS, ?_, (Ndx.create_eq_some hc).2, rfl, rfl, ?_⟩
  · simp [Ndx.split, hM, hS, hc]
  · intro m s
    have h := trueAt_ix hx.models hx.segs (gather_subset hMg) (gather_subset hSg) x.mask m s
    rw [map_idxOf_of_gather hx.models hMg, map_idxOf_of_gather hx.segs hSg] at h
    exact h

/-- each element of a duplicate-free list is in exactly one part of `split_list` -/
theorem splitList_unique_part (l : List ν) (hn : l.Nodup) (P : Nat) (hP : 1 ≤ P) (x : ν) (hx : x ∈ l) :
    ∃ i, (1 ≤ i ∧ i ≤ P) ∧ (∃ r, splitList l i P = some r ∧ x ∈ r.1) ∧
      ∀ i', 1 ≤ i' → i' ≤ P → (∃ r, splitList l i' P = some r ∧ x ∈ r.1) → i' = i := by
  obtain ⟨parts, h1, h2, h3, h4⟩ := C01_split_list_partition l P hP
  have hmem : x ∈ (parts.map Prod.fst).flatten := by rw [h2]; exact hx
  obtain ⟨q, hq, hxq⟩ := List.mem_flatten.1 hmem
  obtain ⟨p, hp, rfl⟩ := List.mem_map.1 hq
  have hmap := mapM_eq_some_iff.1 h1
  have : some p ∈ parts.map some := by simpa using hp
  rw [← hmap] at this
  obtain ⟨i, hi, hpi⟩ := List.mem_map.1 this
  rw [List.mem_range'_1] at hi
  refine ⟨i, ⟨hi.1, by omega⟩, ⟨p, hpi, hxq⟩, ?_⟩
  rintro i' hi1 hi2 ⟨r, hr, hxr⟩
  -- position of x determines the part
  have key : ∀ k, 1 ≤ k → k ≤ P → ∀ r : List ν × List Nat, splitList l k P = some r → x ∈ r.1 →
      cut (k - 1) l.length P ≤ l.idxOf x ∧ l.idxOf x < cut k l.length P := by
    intro k hk1 hk2 r hr hxr
    rw [splitList_eq hk1 hk2] at hr
    have hr := Option.some.inj hr
    have hm1 : cut (k - 1) l.length P ≤ cut k l.length P := cut_mono (by omega)
    rw [← hr] at hxr
    obtain ⟨n, hn1, hn2⟩ := List.mem_iff_getElem.1 hxr
    have hlen : n < cut k l.length P - cut (k - 1) l.length P := by
      simp at hn1; omega
    simp only [List.getElem_take, List.getElem_drop] at hn2
    have hlt : cut (k - 1) l.length P + n < l.length := by
      simp at hn1; omega
    have := hn.idxOf_getElem _ hlt
    rw [hn2] at this
    omega
  have a := key i hi.1 (by omega) p hpi hxq
  have b := key i' hi1 hi2 r hr hxr
  rcases lt_trichotomy i i' with h | h | h
  · have : cut i l.length P ≤ cut (i' - 1) l.length P := cut_mono (by omega)
    omega
  · exact h.symm
  · have : cut i' l.length P ≤ cut (i - 1) l.length P := cut_mono (by omega)
    omega

/-- **C10 (partition).** Every part of the P×Q grid exists; every trial of the whole is in exactly one
part, and parts contain nothing else. -/
theorem C10_split_partition (x : Ndx ν) (hx : x.WF) (P Q : Nat) (hP : 1 ≤ P) (hQ : 1 ≤ Q) :
    (∀ i j, 1 ≤ i → i ≤ P → 1 ≤ j → j ≤ Q → ∃ r, x.split i P j Q = some r ∧ r.WF) ∧
    (∀ i j r m s, x.split i P j Q = some r → 1 ≤ i → i ≤ P → 1 ≤ j → j ≤ Q →
      r.IsTrial m s → x.IsTrial m s) ∧
    (∀ m s, x.IsTrial m s → ∃ i j, (1 ≤ i ∧ i ≤ P ∧ 1 ≤ j ∧ j ≤ Q) ∧
      (∃ r, x.split i P j Q = some r ∧ r.IsTrial m s) ∧
      ∀ i' j', 1 ≤ i' → i' ≤ P → 1 ≤ j' → j' ≤ Q →
        (∃ r, x.split i' P j' Q = some r ∧ r.IsTrial m s) → i' = i ∧ j' = j) := by
  refine ⟨?_, ?_, ?_⟩
  · intro i j h1 h2 h3 h4
    obtain ⟨M, mi, S, si, r, hM, hS, hr, hw, _⟩ := Ndx.split_eq x hx h1 h2 h3 h4
    exact ⟨r, hr, hw⟩
  · intro i j r m s hr h1 h2 h3 h4 ht
    obtain ⟨M, mi, S, si, r', hM, hS, hr', hw, _, _, h⟩ := Ndx.split_eq x hx h1 h2 h3 h4
    rw [hr] at hr'
    rw [Option.some.inj hr'] at ht
    exact ((h m s).1 ht).2.2
  · intro m s ht
    have hms := (trueAt_iff hx.models hx.segs).1 ht
    obtain ⟨i, hi, ⟨ri, hri, hmi⟩, hui⟩ := splitList_unique_part x.models hx.models P hP m hms.1
    obtain ⟨j, hj, ⟨rj, hrj, hmj⟩, huj⟩ := splitList_unique_part x.segs hx.segs Q hQ s hms.2.1
    refine ⟨i, j, ⟨hi.1, hi.2, hj.1, hj.2⟩, ?_, ?_⟩
    · obtain ⟨M, mi, S, si, r', hM, hS, hr', hw, _, _, h⟩ := Ndx.split_eq x hx hi.1 hi.2 hj.1 hj.2
      refine ⟨r', hr', (h m s).2 ⟨?_, ?_, ht⟩⟩
      · rw [hM] at hri; rw [← Option.some.inj hri] at hmi; exact hmi
      · rw [hS] at hrj; rw [← Option.some.inj hrj] at hmj; exact hmj
    · rintro i' j' h1 h2 h3 h4 ⟨r, hr, hrt⟩
      obtain ⟨M, mi, S, si, r', hM, hS, hr', hw, _, _, h⟩ := Ndx.split_eq x hx h1 h2 h3 h4
      rw [hr] at hr'
      rw [Option.some.inj hr'] at hrt
      have := (h m s).1 hrt
      exact ⟨hui i' h1 h2 ⟨_, hM, this.1⟩, huj j' h3 h4 ⟨_, hS, this.2.1⟩⟩

/-- all `(i, j)` part numbers of a P×Q grid, in the loop order of the repository's own test
(trial_ndx.py:385-388) -/
def gridIdx (P Q : Nat) : List (Nat × Nat) :=
  (List.range' 1 P).flatMap (fun i => (List.range' 1 Q).map (fun j => (i, j)))

/-- **C10 (split then merge).** Merging all parts restores the trials and the names; if the names were
sorted (what `sort()` gives) the merged object equals the original. -/
theorem C10_split_merge (x : Ndx ν) (hx : x.WF) (P Q : Nat) (hP : 1 ≤ P) (hQ : 1 ≤ Q) :
    ∃ parts r, (gridIdx P Q).mapM (fun p => x.split p.1 P p.2 Q) = some parts ∧
      Ndx.merge parts = some r ∧ r.WF ∧
      (∀ m s, r.IsTrial m s ↔ x.IsTrial m s) ∧
      (∀ m, m ∈ r.models ↔ m ∈ x.models) ∧ (∀ s, s ∈ r.segs ↔ s ∈ x.segs) ∧
      (x.models.Pairwise (· < ·) → x.segs.Pairwise (· < ·) → Ndx.Same r x) := by
  obtain ⟨h1, h2, h3⟩ := C10_split_partition x hx P Q hP hQ
  have hgrid : ∀ p, p ∈ gridIdx P Q ↔ (1 ≤ p.1 ∧ p.1 ≤ P ∧ 1 ≤ p.2 ∧ p.2 ≤ Q) := by
    rintro ⟨i, j⟩
    simp only [gridIdx, List.mem_flatMap, List.mem_map, List.mem_range'_1, Prod.mk.injEq]
    constructor
    · rintro ⟨a, ha, b, hb, rfl, rfl⟩; omega
    · intro h; exact ⟨i, by omega, j, by omega, rfl, rfl⟩
  cases hM : (gridIdx P Q).mapM (fun p => x.split p.1 P p.2 Q) with
  | none =>
    obtain ⟨p, hp, hn⟩ := mapM_eq_none_iff.1 hM
    have := (hgrid p).1 hp
    obtain ⟨r, hr, _⟩ := h1 p.1 p.2 this.1 this.2.1 this.2.2.1 this.2.2.2
    rw [hr] at hn; cases hn
  | some parts =>
    have hmap := mapM_eq_some_iff.1 hM
    have hmem : ∀ r, r ∈ parts ↔ ∃ p ∈ gridIdx P Q, x.split p.1 P p.2 Q = some r := by
      intro r
      have : r ∈ parts ↔ some r ∈ parts.map some := by simp
      rw [this, ← hmap, List.mem_map]
    have hw : ∀ r ∈ parts, r.WF := by
      intro r hr
      obtain ⟨p, hp, he⟩ := (hmem r).1 hr
      have := (hgrid p).1 hp
      obtain ⟨r', hr', hw'⟩ := h1 p.1 p.2 this.1 this.2.1 this.2.2.1 this.2.2.2
      rw [he] at hr'; rw [Option.some.inj hr']; exact hw'
    have hne : parts ≠ [] := by
      intro hh
      subst hh
      have := congrArg List.length hmap
      simp [gridIdx] at this
      omega
    obtain ⟨r, r1, r2, r3, r4, r5, r6⟩ := C08_merge_is_union parts hne hw
    have htr : ∀ m s, r.IsTrial m s ↔ x.IsTrial m s := by
      intro m s
      rw [r3]
      constructor
      · rintro ⟨q, hq, hqt⟩
        obtain ⟨p, hp, he⟩ := (hmem q).1 hq
        have := (hgrid p).1 hp
        exact h2 p.1 p.2 q m s he this.1 this.2.1 this.2.2.1 this.2.2.2 hqt
      · intro ht
        obtain ⟨i, j, hij, ⟨q, hq, hqt⟩, _⟩ := h3 m s ht
        exact ⟨q, (hmem q).2 ⟨(i, j), (hgrid _).2 hij, hq⟩, hqt⟩
    have hmod : ∀ m, m ∈ r.models ↔ m ∈ x.models := by
      intro m
      rw [r4]
      constructor
      · rintro ⟨q, hq, hqm⟩
        obtain ⟨p, hp, he⟩ := (hmem q).1 hq
        have := (hgrid p).1 hp
        obtain ⟨M, mi, S, si, r', hM, hS, hr', _, hm', _⟩ := Ndx.split_eq x hx this.1 this.2.1 this.2.2.1 this.2.2.2
        rw [he] at hr'
        rw [Option.some.inj hr', hm'] at hqm
        have := splitList_eq (a := x.models) this.1 this.2.1
        rw [hM] at this
        rw [(Prod.mk.inj (Option.some.inj this)).1] at hqm
        exact List.mem_of_mem_drop (List.mem_of_mem_take hqm)
      · intro hm
        obtain ⟨i, hi, ⟨ri, hri, hmi⟩, _⟩ := splitList_unique_part x.models hx.models P hP m hm
        obtain ⟨M, mi, S, si, r', hM, hS, hr', _, hm', _⟩ := Ndx.split_eq x hx hi.1 hi.2 (le_refl 1) hQ
        refine ⟨r', (hmem _).2 ⟨(i, 1), (hgrid _).2 ⟨hi.1, hi.2, le_refl 1, hQ⟩, hr'⟩, ?_⟩
        rw [hm']; rw [hM] at hri; rw [← Option.some.inj hri] at hmi; exact hmi
    have hseg : ∀ s, s ∈ r.segs ↔ s ∈ x.segs := by
      intro m
      rw [r5]
      constructor
      · rintro ⟨q, hq, hqm⟩
        obtain ⟨p, hp, he⟩ := (hmem q).1 hq
        have := (hgrid p).1 hp
        obtain ⟨M, mi, S, si, r', hM, hS, hr', _, _, hm', _⟩ := Ndx.split_eq x hx this.1 this.2.1 this.2.2.1 this.2.2.2
        rw [he] at hr'
        rw [Option.some.inj hr', hm'] at hqm
        have := splitList_eq (a := x.segs) this.2.2.1 this.2.2.2
        rw [hS] at this
        rw [(Prod.mk.inj (Option.some.inj this)).1] at hqm
        exact List.mem_of_mem_drop (List.mem_of_mem_take hqm)
      · intro hm
        obtain ⟨i, hi, ⟨ri, hri, hmi⟩, _⟩ := splitList_unique_part x.segs hx.segs Q hQ m hm
        obtain ⟨M, mi, S, si, r', hM, hS, hr', _, _, hm', _⟩ := Ndx.split_eq x hx (le_refl 1) hP hi.1 hi.2
        refine ⟨r', (hmem _).2 ⟨(1, i), (hgrid _).2 ⟨le_refl 1, hP, hi.1, hi.2⟩, hr'⟩, ?_⟩
        rw [hm']; rw [hS] at hri; rw [← Option.some.inj hri] at hmi; exact hmi
    refine ⟨parts, r, rfl, r1, r2, htr, hmod, hseg, ?_⟩
    intro hsm hss
    by_cases hl : 2 ≤ parts.length
    · exact Ndx.same_of_trials r2 hx (sorted_ext (r6 hl).1 hsm hmod) (sorted_ext (r6 hl).2 hss hseg) htr
    · -- a single part: P = Q = 1
      have hlen : parts.length = P * Q := by
        have := congrArg List.length hmap
        rw [List.length_map, List.length_map] at this
        rw [← this]; simp [gridIdx]
      have hpq : P * Q = 1 := by
        have : 1 ≤ P * Q := Nat.mul_pos hP hQ
        omega
      have hP1 : P = 1 := Nat.eq_one_of_mul_eq_one_right hpq
      have hQ1 : Q = 1 := Nat.eq_one_of_mul_eq_one_left hpq
      subst hP1; subst hQ1
      obtain ⟨M, mi, S, si, r', hM', hS', hr', _, hm', hs', _⟩ := Ndx.split_eq x hx (le_refl 1) (le_refl 1) (le_refl 1) (le_refl 1)
      have hparts : parts = [r'] := by
        have hg : gridIdx 1 1 = [(1, 1)] := by decide
        rw [hg] at hmap
        simp only [List.map_cons, List.map_nil, hr'] at hmap
        cases parts with
        | nil => simp at hmap
        | cons a as =>
          simp at hmap
          simp [hmap]
      have hmodels : r'.models = x.models := by
        rw [hm']
        have := splitList_eq (a := x.models) (le_refl 1) (le_refl 1)
        rw [hM'] at this
        rw [(Prod.mk.inj (Option.some.inj this)).1]
        simp [cut]
      have hsegs : r'.segs = x.segs := by
        rw [hs']
        have := splitList_eq (a := x.segs) (le_refl 1) (le_refl 1)
        rw [hS'] at this
        rw [(Prod.mk.inj (Option.some.inj this)).1]
        simp [cut]
      have hr : r = r' := by
        rw [hparts] at r1
        have := Ndx.create_eq_some (models := r'.models) (segs := r'.segs) (M := r'.mask) (r := r) r1
        rw [this.1]
      exact Ndx.same_of_trials r2 hx (by rw [hr]; exact hmodels) (by rw [hr]; exact hsegs) htr

example : exB.WF ∧ ∃ r, exB.split 1 2 2 3 = some r := ⟨exB_wf, _, rfl⟩

/-! ## C11 text round trip -/

theorem mem_nonzeroT {M : Mat Bool} {j i : Nat} :
    (j, i) ∈ M.nonzeroT ↔ j < M.cols ∧ i < M.rows ∧ M.entry i j = true := by
  simp only [Mat.nonzeroT, List.mem_flatMap, List.mem_range, List.mem_map, List.mem_filter, Prod.mk.injEq]
  constructor
  · rintro ⟨a, ha, b, hb, rfl, rfl⟩; exact ⟨ha, hb⟩
  · rintro ⟨h1, h2, h3⟩; exact ⟨j, h1, i, ⟨h2, h3⟩, rfl, rfl⟩

theorem Ndx.saveRecords_spec (x : Ndx ν) (hx : x.WF) :
    ∃ recs, x.saveRecords = some recs ∧ ∀ m s, (m, s) ∈ recs ↔ x.IsTrial m s := by
  have hok : ∀ p ∈ x.mask.nonzeroT, p.1 < x.segs.length ∧ p.2 < x.models.length ∧ x.mask.entry p.2 p.1 = true := by
    rintro ⟨j, i⟩ hp
    have := mem_nonzeroT.1 hp
    rw [hx.cols, hx.rows] at this
    exact this
  cases h : x.saveRecords with
  | none =>
    obtain ⟨p, hp, hn⟩ := mapM_eq_none_iff.1 h
    obtain ⟨h1, h2, _⟩ := hok p hp
    simp [h1, h2] at hn
  | some recs =>
    refine ⟨recs, rfl, ?_⟩
    intro m s
    have hmap := mapM_eq_some_iff.1 h
    have : (m, s) ∈ recs ↔ some (m, s) ∈ recs.map some := by simp
    rw [this, ← hmap, List.mem_map]
    constructor
    · rintro ⟨⟨j, i⟩, hp, he⟩
      obtain ⟨h1, h2, h3⟩ := hok _ hp
      dsimp only at h1 h2 h3
      simp [h1, h2] at he
      refine ⟨i, j, ?_, ?_, h3⟩
      · rw [List.getElem?_eq_getElem h2, he.1]
      · rw [List.getElem?_eq_getElem h1, he.2]
    · rintro ⟨i, j, hi, hj, h3⟩
      obtain ⟨h1, _⟩ := List.getElem?_eq_some_iff.1 hi
      obtain ⟨h2, _⟩ := List.getElem?_eq_some_iff.1 hj
      refine ⟨(j, i), mem_nonzeroT.2 ⟨by rw [hx.cols]; exact h2, by rw [hx.rows]; exact h1, h3⟩, ?_⟩
      simp [hi, hj]

theorem mem_zip_inverse {β : Type} (recs : List β) (f g : β → ν) {m s : ν}
    (hm : m ∈ recs.map f) (hs : s ∈ recs.map g) :
    ((npUnique (recs.map f)).idxOf m, (npUnique (recs.map g)).idxOf s) ∈
        (npInverse (recs.map f)).zip (npInverse (recs.map g)) ↔
      ∃ r ∈ recs, f r = m ∧ g r = s := by
  unfold npInverse
  rw [List.map_map, List.map_map, List.zip_map']
  rw [List.mem_map]
  constructor
  · rintro ⟨r, hr, he⟩
    simp only [Prod.mk.injEq, Function.comp] at he
    refine ⟨r, hr, ?_, ?_⟩
    · exact idxOf_inj (mem_npUnique.2 (List.mem_map.2 ⟨r, hr, rfl⟩)) he.1
    · exact idxOf_inj (mem_npUnique.2 (List.mem_map.2 ⟨r, hr, rfl⟩)) he.2
  · rintro ⟨r, hr, rfl, rfl⟩
    exact ⟨r, hr, rfl⟩

theorem Ndx.loadRecords_spec (recs : List (ν × ν)) :
    ∃ r, Ndx.loadRecords recs = some r ∧ r.WF ∧ r.models.Pairwise (· < ·) ∧ r.segs.Pairwise (· < ·) ∧
      (∀ m s, r.IsTrial m s ↔ (m, s) ∈ recs) ∧
      (∀ m, m ∈ r.models ↔ ∃ s, (m, s) ∈ recs) ∧ (∀ s, s ∈ r.segs ↔ ∃ m, (m, s) ∈ recs) := by
  have hc := Ndx.create_some (models := npUnique (recs.map Prod.fst)) (segs := npUnique (recs.map Prod.snd))
    (M := ⟨(npUnique (recs.map Prod.fst)).length, (npUnique (recs.map Prod.snd)).length,
      fun i j => decide ((i, j) ∈ (npInverse (recs.map Prod.fst)).zip (npInverse (recs.map Prod.snd)))⟩)
    (npUnique_nodup _) (npUnique_nodup _) rfl rfl
  refine ⟨_, hc, (Ndx.create_eq_some hc).2, npUnique_sorted _, npUnique_sorted _, ?_, ?_, ?_⟩
  · intro m s
    unfold Ndx.IsTrial
    rw [trueAt_iff (npUnique_nodup _) (npUnique_nodup _)]
    simp only [mem_npUnique, decide_eq_true_iff]
    constructor
    · rintro ⟨hm, hs, h⟩
      rw [mem_zip_inverse recs Prod.fst Prod.snd hm hs] at h
      obtain ⟨r, hr, rfl, rfl⟩ := h
      exact hr
    · intro h
      have hm : m ∈ recs.map Prod.fst := List.mem_map.2 ⟨_, h, rfl⟩
      have hs : s ∈ recs.map Prod.snd := List.mem_map.2 ⟨_, h, rfl⟩
      exact ⟨hm, hs, (mem_zip_inverse recs Prod.fst Prod.snd hm hs).2 ⟨_, h, rfl, rfl⟩⟩
  · intro m; simp
  · intro s; simp

/-- **C11 (records).** Loading what was saved gives exactly the same trials, with sorted, duplicate-free
names: those models and segments that take part in some trial. -/
theorem C11_txt_round_trip (x : Ndx ν) (hx : x.WF) :
    ∃ recs r, x.saveRecords = some recs ∧ Ndx.loadRecords recs = some r ∧ r.WF ∧
      (∀ m s, r.IsTrial m s ↔ x.IsTrial m s) ∧
      r.models.Pairwise (· < ·) ∧ r.segs.Pairwise (· < ·) ∧
      (∀ m, m ∈ r.models ↔ ∃ s, x.IsTrial m s) ∧ (∀ s, s ∈ r.segs ↔ ∃ m, x.IsTrial m s) := by
  obtain ⟨recs, h1, h2⟩ := Ndx.saveRecords_spec x hx
  obtain ⟨r, r1, r2, r3, r4, r5, r6, r7⟩ := Ndx.loadRecords_spec recs
  refine ⟨recs, r, h1, r1, r2, ?_, r3, r4, ?_, ?_⟩
  · intro m s; rw [r5, h2]
  · intro m; rw [r6]; simp [h2]
  · intro s; rw [r7]; simp [h2]

example : exB.saveRecords = some [(2, 11), (3, 12), (2, 12), (2, 10)] := by decide

end Hyp.Trials
