import Verif.Trials.ScoreMergeProps

/-! # Properties C59-C62: sorting, splitting scores, text form of keys, segmentation of the test side. -/

namespace Hyp.Trials
open Hyp.ListUtils
variable {ν : Type} [LinearOrder ν] {α : Type}

/-- trial_key.py:67-81 `TrialKey.sort` (without condition arrays). -/
def Key.sort (x : Key ν) (pm ps : List Nat) : Option (Key ν) := do
  let (models, mi) ← sortWith x.models false pm
  let (segs, si) ← sortWith x.segs false ps
  pure ⟨models, segs, x.tar.ix mi si, x.non.ix mi si⟩

theorem sortWith_spec {l : List ν} (hl : l.Nodup) {p : List Nat} (hp : IsArgsort l p) :
    ∃ s idx, sortWith l false p = some (s, idx) ∧ s.Perm l ∧ s.Pairwise (· < ·) ∧ s.map l.idxOf = idx ∧ idx.length = s.length := by
  obtain ⟨s, idx, h1, h2, h3, h4⟩ := C03_sort l p hp false
  have hn : s.Nodup := h2.nodup_iff.2 hl
  refine ⟨s, idx, h1, h2, ?_, map_idxOf_of_gather hl h3, (gather_length h3).symm⟩
  simp only [Bool.false_eq_true, if_false] at h4
  exact (h4.and hn).imp (fun ⟨a, b⟩ => lt_of_le_of_ne a b)

/-- **C59 (TrialNdx).** Sorting never fails; the names come out in ascending order, and the trials are the same, whatever order the unstable sort visits. -/
theorem C59_sort_ndx (x : Ndx ν) (hx : x.WF) (pm ps : List Nat) (hm : IsArgsort x.models pm) (hs : IsArgsort x.segs ps) :
    ∃ r, x.sort pm ps = some r ∧ r.WF ∧ r.models.Perm x.models ∧ r.segs.Perm x.segs ∧ r.models.Pairwise (· < ·) ∧ r.segs.Pairwise (· < ·) ∧
      ∀ m s, r.IsTrial m s ↔ x.IsTrial m s := by
  obtain ⟨M, mi, h1, h2, h3, h4, h5⟩ := sortWith_spec hx.models hm
  obtain ⟨S, si, g1, g2, g3, g4, g5⟩ := sortWith_spec hx.segs hs
  refine ⟨⟨M, S, x.mask.ix mi si⟩, by simp [Ndx.sort, h1, g1], ⟨h2.nodup_iff.2 hx.models, g2.nodup_iff.2 hx.segs, h5, g5⟩, h2, g2, h3, g3, ?_⟩
  intro m s
  have := trueAt_ix hx.models hx.segs (fun y hy => h2.mem_iff.1 hy) (fun y hy => g2.mem_iff.1 hy) x.mask m s
  rw [h4, g4] at this
  unfold Ndx.IsTrial
  rw [this]
  constructor
  · exact fun h => h.2.2
  · intro h
    have h' := (trueAt_iff hx.models hx.segs).1 h
    exact ⟨h2.mem_iff.2 h'.1, g2.mem_iff.2 h'.2.1, h⟩

/-- **C59 (canonical form).** Two indexes with the same names and the same trials, in whatever order, become equal objects (in the sense of `==`) when sorted. -/
theorem C59_sort_canonical (x y : Ndx ν) (hx : x.WF) (hy : y.WF) (hm : ∀ m, m ∈ x.models ↔ m ∈ y.models) (hs : ∀ s, s ∈ x.segs ↔ s ∈ y.segs)
    (ht : ∀ m s, x.IsTrial m s ↔ y.IsTrial m s) {pm ps qm qs : List Nat} (h1 : IsArgsort x.models pm) (h2 : IsArgsort x.segs ps)
    (h3 : IsArgsort y.models qm) (h4 : IsArgsort y.segs qs) :
    ∃ a b, x.sort pm ps = some a ∧ y.sort qm qs = some b ∧ Ndx.Same a b := by
  obtain ⟨a, a1, a2, a3, a4, a5, a6, a7⟩ := C59_sort_ndx x hx pm ps h1 h2
  obtain ⟨b, b1, b2, b3, b4, b5, b6, b7⟩ := C59_sort_ndx y hy qm qs h3 h4
  refine ⟨a, b, a1, b1, Ndx.same_of_trials a2 b2 ?_ ?_ ?_⟩
  · exact sorted_ext a5 b5 (fun m => by rw [a3.mem_iff, b3.mem_iff, hm])
  · exact sorted_ext a6 b6 (fun m => by rw [a4.mem_iff, b4.mem_iff, hs])
  · intro m s; rw [a7, b7, ht]

/-- **C59 (TrialKey).** -/
theorem C59_sort_key (x : Key ν) (hx : x.WF) (pm ps : List Nat) (hm : IsArgsort x.models pm) (hs : IsArgsort x.segs ps) :
    ∃ r, x.sort pm ps = some r ∧ r.WF ∧ r.models.Perm x.models ∧ r.segs.Perm x.segs ∧ r.models.Pairwise (· < ·) ∧ r.segs.Pairwise (· < ·) ∧
      (∀ m s, r.IsTar m s ↔ x.IsTar m s) ∧ (∀ m s, r.IsNon m s ↔ x.IsNon m s) := by
  obtain ⟨M, mi, h1, h2, h3, h4, h5⟩ := sortWith_spec hx.models hm
  obtain ⟨S, si, g1, g2, g3, g4, g5⟩ := sortWith_spec hx.segs hs
  have key : ∀ (A : Mat Bool) m s, TrueAt M S (A.ix mi si) m s ↔ TrueAt x.models x.segs A m s := by
    intro A m s
    have := trueAt_ix hx.models hx.segs (fun y hy => h2.mem_iff.1 hy) (fun y hy => g2.mem_iff.1 hy) A m s
    rw [h4, g4] at this
    rw [this]
    constructor
    · exact fun h => h.2.2
    · intro h
      have h' := (trueAt_iff hx.models hx.segs).1 h
      exact ⟨h2.mem_iff.2 h'.1, g2.mem_iff.2 h'.2.1, h⟩
  exact ⟨⟨M, S, x.tar.ix mi si, x.non.ix mi si⟩, by simp [Key.sort, h1, g1],
    ⟨h2.nodup_iff.2 hx.models, g2.nodup_iff.2 hx.segs, h5, g5, h5, g5⟩, h2, g2, h3, g3, key _, key _⟩

/-- **C59 (TrialScores).** -/
theorem C59_sort_scores [Zero α] [Add α] (x : Scores ν α) (hx : x.WF) (pm ps : List Nat) (hm : IsArgsort x.models pm) (hs : IsArgsort x.segs ps) :
    ∃ r, x.sort pm ps = some r ∧ r.WF ∧ r.models.Perm x.models ∧ r.segs.Perm x.segs ∧ r.models.Pairwise (· < ·) ∧ r.segs.Pairwise (· < ·) ∧
      ∀ m s v, r.HasScore m s v ↔ x.HasScore m s v := by
  obtain ⟨M, mi, h1, h2, h3, h4, h5⟩ := sortWith_spec hx.models hm
  obtain ⟨S, si, g1, g2, g3, g4, g5⟩ := sortWith_spec hx.segs hs
  refine ⟨⟨M, S, x.scores.ix mi si, x.mask.ix mi si⟩, by simp [Scores.sort, h1, g1],
    ⟨h2.nodup_iff.2 hx.models, g2.nodup_iff.2 hx.segs, h5, g5, h5, g5⟩, h2, g2, h3, g3, ?_⟩
  intro m s v
  have := hasScore_ix hx.models hx.segs (fun y hy => h2.mem_iff.1 hy) (fun y hy => g2.mem_iff.1 hy) x.scores x.mask m s v
  rw [h4, g4] at this
  rw [this]
  constructor
  · exact fun h => h.2.2
  · intro h
    have h' := (hasScore_iff hx).1 h
    exact ⟨h2.mem_iff.2 h'.1, g2.mem_iff.2 h'.2.1, h⟩

/-- non-vacuity: the names of `exB` are out of order, and there is an argsort of them. -/
example : exB.WF ∧ IsArgsort exB.models [1, 0] ∧ IsArgsort exB.segs [2, 0, 1] := by
  refine ⟨exB_wf, ?_, ?_⟩ <;> exact ⟨by decide, by decide⟩

/-! ## C60 splitting scores -/

/-- **C60.** Part `(i, j)` of a `P × Q` split of a score object has the `i`-th part of the models, the `j`-th part of the segments, and exactly the scores of the whole
between those. -/
theorem C60_split_scores [Zero α] [Add α] (x : Scores ν α) (hx : x.WF) {i P j Q : Nat} (hi : 1 ≤ i) (hiP : i ≤ P) (hj : 1 ≤ j) (hjQ : j ≤ Q) :
    ∃ M mi S si r, splitList x.models i P = some (M, mi) ∧ splitList x.segs j Q = some (S, si) ∧
      x.split i P j Q = some r ∧ r.WF ∧ r.models = M ∧ r.segs = S ∧
      ∀ m s v, r.HasScore m s v ↔ m ∈ M ∧ s ∈ S ∧ x.HasScore m s v := by
  obtain ⟨M, mi, S, si, r, hM, hS, hr, hw, hm, hs, ht⟩ :=
    Ndx.split_eq ⟨x.models, x.segs, x.mask⟩ ⟨hx.models, hx.segs, hx.mrows, hx.mcols⟩ hi hiP hj hjQ
  dsimp only at *
  have hMg : gather x.models mi = some M := by
    have h := splitList_eq (a := x.models) hi hiP
    rw [hM] at h
    obtain ⟨e1, e2⟩ := Prod.mk.inj (Option.some.inj h)
    rw [e1, e2]
    have : cut (i - 1) x.models.length P ≤ cut i x.models.length P := cut_mono (by omega)
    have : cut i x.models.length P ≤ x.models.length := cut_le hiP (by omega)
    exact gather_range' _ _ _ (by omega)
  have hSg : gather x.segs si = some S := by
    have h := splitList_eq (a := x.segs) hj hjQ
    rw [hS] at h
    obtain ⟨e1, e2⟩ := Prod.mk.inj (Option.some.inj h)
    rw [e1, e2]
    have : cut (j - 1) x.segs.length Q ≤ cut j x.segs.length Q := cut_mono (by omega)
    have : cut j x.segs.length Q ≤ x.segs.length := cut_le hjQ (by omega)
    exact gather_range' _ _ _ (by omega)
  have hMn : M.Nodup := by rw [← hm]; exact hw.models
  have hSn : S.Nodup := by rw [← hs]; exact hw.segs
  have hc := Scores.create_some (S := x.scores.ix mi si) (M := x.mask.ix mi si) hMn hSn
    (by simp [Mat.ix, gather_length hMg]) (by simp [Mat.ix, gather_length hSg])
    (by simp [Mat.ix, gather_length hMg]) (by simp [Mat.ix, gather_length hSg])
  refine ⟨M, mi, S, si, _, hM, hS, by simp only [Scores.split, hM, hS]; exact hc, (Scores.create_eq_some hc).2, rfl, rfl, ?_⟩
  intro m s v
  have h := hasScore_ix hx.models hx.segs (gather_subset hMg) (gather_subset hSg) x.scores x.mask m s v
  rw [map_idxOf_of_gather hx.models hMg, map_idxOf_of_gather hx.segs hSg] at h
  exact h

/-- **C60 (partition).** Every score of the whole is in exactly one part, with its value, and the parts hold nothing else. -/
theorem C60_split_partition [Zero α] [Add α] (x : Scores ν α) (hx : x.WF) (P Q : Nat) (hP : 1 ≤ P) (hQ : 1 ≤ Q) :
    (∀ i j r m s v, x.split i P j Q = some r → 1 ≤ i → i ≤ P → 1 ≤ j → j ≤ Q → r.HasScore m s v → x.HasScore m s v) ∧
    (∀ m s v, x.HasScore m s v → ∃ i j, (1 ≤ i ∧ i ≤ P ∧ 1 ≤ j ∧ j ≤ Q) ∧ (∃ r, x.split i P j Q = some r ∧ r.HasScore m s v) ∧
      ∀ i' j', 1 ≤ i' → i' ≤ P → 1 ≤ j' → j' ≤ Q → (∃ r w, x.split i' P j' Q = some r ∧ r.HasScore m s w) → i' = i ∧ j' = j) := by
  constructor
  · intro i j r m s v hr h1 h2 h3 h4 ht
    obtain ⟨M, mi, S, si, r', hM, hS, hr', hw, _, _, h⟩ := C60_split_scores x hx h1 h2 h3 h4
    rw [hr] at hr'
    rw [Option.some.inj hr'] at ht
    exact ((h m s v).1 ht).2.2
  · intro m s v ht
    have hms := (hasScore_iff hx).1 ht
    obtain ⟨i, hi, ⟨ri, hri, hmi⟩, hui⟩ := splitList_unique_part x.models hx.models P hP m hms.1
    obtain ⟨j, hj, ⟨rj, hrj, hmj⟩, huj⟩ := splitList_unique_part x.segs hx.segs Q hQ s hms.2.1
    refine ⟨i, j, ⟨hi.1, hi.2, hj.1, hj.2⟩, ?_, ?_⟩
    · obtain ⟨M, mi, S, si, r', hM, hS, hr', hw, _, _, h⟩ := C60_split_scores x hx hi.1 hi.2 hj.1 hj.2
      refine ⟨r', hr', (h m s v).2 ⟨?_, ?_, ht⟩⟩
      · rw [hM] at hri; rw [← Option.some.inj hri] at hmi; exact hmi
      · rw [hS] at hrj; rw [← Option.some.inj hrj] at hmj; exact hmj
    · rintro i' j' h1 h2 h3 h4 ⟨r, w, hr, hrt⟩
      obtain ⟨M, mi, S, si, r', hM, hS, hr', hw, _, _, h⟩ := C60_split_scores x hx h1 h2 h3 h4
      rw [hr] at hr'
      rw [Option.some.inj hr'] at hrt
      have := (h m s w).1 hrt
      exact ⟨hui i' h1 h2 ⟨_, hM, this.1⟩, huj j' h3 h4 ⟨_, hS, this.2.1⟩⟩

/-! ## C61 keys in text form -/

theorem saveHalf_spec {models segs : List ν} (A : Mat Bool) (hr : A.rows = models.length) (hc : A.cols = segs.length) (b : Bool) :
    ∃ recs : List (ν × ν × Bool), A.nonzeroT.mapM (fun p => do
        let m ← models[p.2]?
        let s ← segs[p.1]?
        pure (m, s, b)) = some recs ∧ ∀ m s c, (m, s, c) ∈ recs ↔ c = b ∧ TrueAt models segs A m s := by
  have hok : ∀ p ∈ A.nonzeroT, p.1 < segs.length ∧ p.2 < models.length ∧ A.entry p.2 p.1 = true := by
    rintro ⟨j, i⟩ hp
    have := mem_nonzeroT.1 hp
    rw [hc, hr] at this
    exact this
  rcases Option.eq_none_or_eq_some (A.nonzeroT.mapM (fun p => do
        let m ← models[p.2]?
        let s ← segs[p.1]?
        pure (m, s, b))) with h | ⟨recs, h⟩
  · obtain ⟨p, hp, hn⟩ := mapM_eq_none_iff.1 h
    obtain ⟨h1, h2, _⟩ := hok p hp
    simp [h1, h2] at hn
  · refine ⟨recs, h, ?_⟩
    intro m s c
    have hmap := mapM_eq_some_iff.1 h
    have : (m, s, c) ∈ recs ↔ some (m, s, c) ∈ recs.map some := by simp
    rw [this, ← hmap, List.mem_map]
    constructor
    · rintro ⟨⟨j, i⟩, hp, he⟩
      obtain ⟨h1, h2, h3⟩ := hok _ hp
      dsimp only at h1 h2 h3
      simp [h1, h2] at he
      refine ⟨he.2.2.symm, i, j, ?_, ?_, h3⟩
      · rw [List.getElem?_eq_getElem h2, he.1]
      · rw [List.getElem?_eq_getElem h1, he.2.1]
    · rintro ⟨rfl, i, j, hi, hj, h3⟩
      obtain ⟨h1, _⟩ := List.getElem?_eq_some_iff.1 hi
      obtain ⟨h2, _⟩ := List.getElem?_eq_some_iff.1 hj
      refine ⟨(j, i), mem_nonzeroT.2 ⟨by rw [hc]; exact h2, by rw [hr]; exact h1, h3⟩, ?_⟩
      simp [hi, hj]

theorem Key.saveRecords_spec (x : Key ν) (hx : x.WF) :
    ∃ recs, x.saveRecords = some recs ∧ (∀ m s, (m, s, true) ∈ recs ↔ x.IsTar m s) ∧ (∀ m s, (m, s, false) ∈ recs ↔ x.IsNon m s) := by
  obtain ⟨t, h1, h2⟩ := saveHalf_spec x.tar hx.trows hx.tcols true
  obtain ⟨n, g1, g2⟩ := saveHalf_spec x.non hx.nrows hx.ncols false
  refine ⟨t ++ n, ?_, ?_, ?_⟩
  · unfold Key.saveRecords
    rw [h1, g1]
    rfl
  · intro m s; rw [List.mem_append, h2, g2]; simp [Key.IsTar]
  · intro m s; rw [List.mem_append, h2, g2]; simp [Key.IsNon]

theorem Key.loadRecords_spec (recs : List (ν × ν × Bool)) :
    ∃ r, Key.loadRecords recs = some r ∧ r.WF ∧ r.models.Pairwise (· < ·) ∧ r.segs.Pairwise (· < ·) ∧
      (∀ m s, r.IsTar m s ↔ (m, s, true) ∈ recs) ∧ (∀ m s, r.IsNon m s ↔ (m, s, false) ∈ recs) ∧
      (∀ m, m ∈ r.models ↔ ∃ s b, (m, s, b) ∈ recs) ∧ (∀ s, s ∈ r.segs ↔ ∃ m b, (m, s, b) ∈ recs) := by
  set ms := recs.map (fun r => r.1) with hms
  set ss := recs.map (fun r => r.2.1) with hss
  set cells := ((npInverse ms).zip (npInverse ss)).zip (recs.map (fun r => r.2.2)) with hcells
  have hc := Key.create_some (models := npUnique ms) (segs := npUnique ss)
    (T := ⟨(npUnique ms).length, (npUnique ss).length, fun i j => decide (((i, j), true) ∈ cells)⟩)
    (N := ⟨(npUnique ms).length, (npUnique ss).length, fun i j => decide (((i, j), false) ∈ cells)⟩)
    (npUnique_nodup _) (npUnique_nodup _) rfl rfl rfl rfl
  have hcm : ∀ m s b, m ∈ ms → s ∈ ss → ((((npUnique ms).idxOf m, (npUnique ss).idxOf s), b) ∈ cells ↔ (m, s, b) ∈ recs) := by
    intro m s v hm hs
    rw [hcells]
    unfold npInverse
    rw [hms, hss, List.map_map, List.map_map, List.zip_map', List.zip_map', List.mem_map]
    constructor
    · rintro ⟨r, hr, he⟩
      simp only [Prod.mk.injEq, Function.comp] at he
      have m1 : r.1 ∈ recs.map (fun r => r.1) := List.mem_map.2 ⟨r, hr, rfl⟩
      have m2 : r.2.1 ∈ recs.map (fun r => r.2.1) := List.mem_map.2 ⟨r, hr, rfl⟩
      have e1 := idxOf_inj (mem_npUnique.2 m1) he.1.1
      have e2 := idxOf_inj (mem_npUnique.2 m2) he.1.2
      have : r = (m, s, v) := by rw [← e1, ← e2, ← he.2]
      rw [← this]; exact hr
    · intro h; exact ⟨_, h, rfl⟩
  have hlab : ∀ (b : Bool) m s, TrueAt (npUnique ms) (npUnique ss)
      ⟨(npUnique ms).length, (npUnique ss).length, fun i j => decide (((i, j), b) ∈ cells)⟩ m s ↔ (m, s, b) ∈ recs := by
    intro b m s
    rw [trueAt_iff (npUnique_nodup _) (npUnique_nodup _)]
    simp only [mem_npUnique, decide_eq_true_iff]
    constructor
    · rintro ⟨hm, hs, h⟩; exact (hcm m s b hm hs).1 h
    · intro h
      have hm : m ∈ ms := List.mem_map.2 ⟨_, h, rfl⟩
      have hs : s ∈ ss := List.mem_map.2 ⟨_, h, rfl⟩
      exact ⟨hm, hs, (hcm m s b hm hs).2 h⟩
  refine ⟨_, hc, (Key.create_eq_some hc).2, npUnique_sorted _, npUnique_sorted _, hlab true, hlab false, ?_, ?_⟩
  · intro m
    simp only [mem_npUnique, hms, List.mem_map]
    constructor
    · rintro ⟨⟨a, b, c⟩, h, rfl⟩; exact ⟨b, c, h⟩
    · rintro ⟨s, b, h⟩; exact ⟨_, h, rfl⟩
  · intro m
    simp only [mem_npUnique, hss, List.mem_map]
    constructor
    · rintro ⟨⟨a, b, c⟩, h, rfl⟩; exact ⟨a, c, h⟩
    · rintro ⟨s, b, h⟩; exact ⟨_, h, rfl⟩

/-- **C61.** Loading what `save_txt` wrote gives the same target and nontarget trials, with sorted name lists: those of the labelled trials. -/
theorem C61_key_round_trip (x : Key ν) (hx : x.WF) :
    ∃ recs r, x.saveRecords = some recs ∧ Key.loadRecords recs = some r ∧ r.WF ∧
      (∀ m s, r.IsTar m s ↔ x.IsTar m s) ∧ (∀ m s, r.IsNon m s ↔ x.IsNon m s) ∧
      r.models.Pairwise (· < ·) ∧ r.segs.Pairwise (· < ·) ∧
      (∀ m, m ∈ r.models ↔ ∃ s, x.IsTar m s ∨ x.IsNon m s) ∧ (∀ s, s ∈ r.segs ↔ ∃ m, x.IsTar m s ∨ x.IsNon m s) := by
  obtain ⟨recs, h1, h2, h3⟩ := Key.saveRecords_spec x hx
  obtain ⟨r, r1, r2, r3, r4, r5, r6, r7, r8⟩ := Key.loadRecords_spec recs
  refine ⟨recs, r, h1, r1, r2, ?_, ?_, r3, r4, ?_, ?_⟩
  · intro m s; rw [r5, h2]
  · intro m s; rw [r6, h3]
  · intro m; rw [r7]
    constructor
    · rintro ⟨s, b, h⟩
      cases b with
      | true => exact ⟨s, Or.inl ((h2 m s).1 h)⟩
      | false => exact ⟨s, Or.inr ((h3 m s).1 h)⟩
    · rintro ⟨s, h | h⟩
      · exact ⟨s, true, (h2 m s).2 h⟩
      · exact ⟨s, false, (h3 m s).2 h⟩
  · intro s; rw [r8]
    constructor
    · rintro ⟨m, b, h⟩
      cases b with
      | true => exact ⟨m, Or.inl ((h2 m s).1 h)⟩
      | false => exact ⟨m, Or.inr ((h3 m s).1 h)⟩
    · rintro ⟨m, h | h⟩
      · exact ⟨m, true, (h2 m s).2 h⟩
      · exact ⟨m, false, (h3 m s).2 h⟩

/-! ## C62 segmentation of the test side -/

/-- **C62.** `apply_segmentation_to_test` succeeds exactly when there is a test file and no segment id occurs twice (within a file or in two files); then the segments are
those of the files, in order, and (model, segment) is a trial iff the segment comes from a file which is a trial of the model. -/
theorem C62_apply_segmentation (x : Ndx ν) (hx : x.WF) (ids : ν → List ν) :
    ((∃ r, x.applySegmentation ids = some r) ↔ x.segs ≠ [] ∧ (x.segs.flatMap ids).Nodup) ∧
    ∀ r, x.applySegmentation ids = some r → r.WF ∧ r.models = x.models ∧ r.segs = x.segs.flatMap ids ∧
      ∀ m e, r.IsTrial m e ↔ ∃ f ∈ x.segs, e ∈ ids f ∧ x.IsTrial m f := by
  set cols : List (ν × Nat) := x.segs.zipIdx.flatMap (fun p => (ids p.1).map (fun e => (e, p.2))) with hcols
  have hfst : cols.map Prod.fst = x.segs.flatMap ids := by
    rw [hcols, List.map_flatMap]
    simp only [List.map_map, Function.comp_def, List.map_id']
    have : ∀ (l : List ν) (k : Nat), (l.zipIdx k).flatMap (fun p => ids p.1) = l.flatMap ids := by
      intro l
      induction l with
      | nil => intro k; rfl
      | cons a l ih => intro k; simp [List.zipIdx_cons, ih]
    exact this _ _
  have hmem : ∀ e k, (e, k) ∈ cols ↔ ∃ f, x.segs[k]? = some f ∧ e ∈ ids f := by
    intro e k
    rw [hcols, List.mem_flatMap]
    constructor
    · rintro ⟨⟨f, k'⟩, hf, he⟩
      rw [List.mem_map] at he
      obtain ⟨e', he', h⟩ := he
      simp only [Prod.mk.injEq] at h
      obtain ⟨rfl, rfl⟩ := h
      have := List.mem_zipIdx_iff_getElem?.1 hf
      exact ⟨f, this, he'⟩
    · rintro ⟨f, hf, he⟩
      exact ⟨(f, k), List.mem_zipIdx_iff_getElem?.2 hf, List.mem_map.2 ⟨e, he, rfl⟩⟩
  unfold Ndx.applySegmentation
  by_cases hs : x.segs = []
  · rw [if_pos hs]; simp [hs]
  · rw [if_neg hs]
    dsimp only
    rw [← hcols, hfst]
    have hlen : cols.length = (x.segs.flatMap ids).length := by rw [← hfst, List.length_map]
    constructor
    · constructor
      · rintro ⟨r, hr⟩
        obtain ⟨he, hw⟩ := Ndx.create_eq_some hr
        have := hw.segs
        rw [he] at this
        exact ⟨hs, this⟩
      · rintro ⟨_, hn⟩
        exact ⟨_, Ndx.create_some hx.models hn rfl hlen⟩
    · intro r hr
      obtain ⟨he, hw⟩ := Ndx.create_eq_some hr
      refine ⟨hw, by rw [he], by rw [he], ?_⟩
      have hnd : (x.segs.flatMap ids).Nodup := by have := hw.segs; rw [he] at this; exact this
      intro m e
      rw [he]
      unfold Ndx.IsTrial
      constructor
      · rintro ⟨i, j, hi, hj, h⟩
        dsimp only at hi hj h
        rw [← hfst, List.getElem?_map] at hj
        rcases Option.eq_none_or_eq_some (cols[j]?) with hc | ⟨⟨e', k⟩, hc⟩
        · rw [hc] at hj; simp at hj
        · rw [hc] at hj
          simp only [Option.map_some, Option.some.injEq] at hj
          subst hj
          obtain ⟨f, hf, hef⟩ := (hmem e' k).1 (List.mem_of_getElem? hc)
          refine ⟨f, List.mem_of_getElem? hf, hef, i, k, hi, hf, ?_⟩
          simpa [List.getD_eq_getElem?_getD, hc] using h
      · rintro ⟨f, hf, hef, i, k, hi, hk, h⟩
        have hm := (hmem e k).2 ⟨f, hk, hef⟩
        obtain ⟨j, hj⟩ := List.mem_iff_getElem?.1 hm
        refine ⟨i, j, hi, ?_, ?_⟩
        · rw [← hfst, List.getElem?_map, hj]; rfl
        · simpa [List.getD_eq_getElem?_getD, hj] using h

/-- non-vacuity: two files with two and one segments. -/
example : (exB.applySegmentation (fun f => if f = 11 then [100, 101] else [f])).map (fun r => (r.models, r.segs)) = some ([3, 2], [100, 101, 12, 10]) := by decide

end Hyp.Trials
