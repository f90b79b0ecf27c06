import Verif.Segments.RttmOps
import Verif.Segments.RttmProps
import Verif.Segments.SegmentListProps
import Mathlib.Data.Finset.Card
import Mathlib.Data.List.Dedup
import Mathlib.Algebra.BigOperators.Group.Finset.Basic

/-! Property C176: construction, filter, item access, iteration, merge and speaker counts of diarisation tables. -/

namespace Hyp.Segments

variable {K : Type} [Field K] [LinearOrder K]

section order
variable [IsStrictOrderedRing K]

/-- in a table, the start does not go back between neighbouring rows of the same file. -/
def InOrder (rows : List (Row K)) : Prop := ∀ a b, Neighbours rows a b → a.file = b.file → a.tbeg ≤ b.tbeg

theorem mkRttm_pos {rows : List (Row K)} {b : Bool} (h : InOrder rows) : mkRttm rows b = some ⟨rows, b⟩ := by
  unfold mkRttm; rw [if_pos (validate_iff.2 h)]

theorem mkRttm_neg {rows : List (Row K)} {b : Bool} (h : ¬ InOrder rows) : mkRttm rows b = none := by
  unfold mkRttm; rw [if_neg]; intro hv; exact h (validate_iff.1 hv)

/-- C176. The constructor keeps the table when no start goes back between neighbouring rows of a file, and raises otherwise. -/
theorem C176_constructor (rows : List (Row K)) (byFile : Bool) :
    ((∀ a b, Neighbours rows a b → a.file = b.file → a.tbeg ≤ b.tbeg) → mkRttm rows byFile = some ⟨rows, byFile⟩) ∧
    ((∃ a b, Neighbours rows a b ∧ a.file = b.file ∧ b.tbeg < a.tbeg) → mkRttm rows byFile = none) := by
  refine ⟨fun h => mkRttm_pos h, ?_⟩
  rintro ⟨a, b, h, hf, hl⟩
  exact mkRttm_neg (fun hi => absurd (hi a b h hf) (not_le.2 hl))

/-- C176. Filtering a table indexed by file: raises if a key has no row; otherwise the rows of the keys, key by key in the order asked for, each in table order, are
a new table if starts do not go back, and an exception if they do. -/
theorem C176_filter (rows : List (Row K)) (keys : List String) :
    ((∃ k ∈ keys, ∀ r ∈ rows, r.file ≠ k) → rttmFilter ⟨rows, true⟩ keys = none) ∧
    ((∀ k ∈ keys, ∃ r ∈ rows, r.file = k) → ∀ out : List (Row K), out = keys.flatMap (fun k => rows.filter (fun r => decide (r.file = k))) →
      (InOrder out → rttmFilter ⟨rows, true⟩ keys = some ⟨out, true⟩) ∧ (¬ InOrder out → rttmFilter ⟨rows, true⟩ keys = none)) := by
  constructor
  · rintro ⟨k, hk, h⟩
    unfold rttmFilter
    have : (keys.mapM (fun k : String => if fileRows rows k = [] then none else some (fileRows rows k))) = none := by
      rw [mapM_eq_none_iff]
      refine ⟨k, hk, if_pos ?_⟩
      unfold fileRows
      rw [List.filter_eq_nil_iff]
      intro r hr
      simpa using h r hr
    dsimp only
    rw [this]; rfl
  · intro h out ho
    have : (keys.mapM (fun k : String => if fileRows rows k = [] then none else some (fileRows rows k))) = some (keys.map (fileRows rows)) := by
      rw [mapM_eq_some_iff, List.map_map]
      apply List.map_congr_left
      intro k hk
      obtain ⟨r, hr, hrf⟩ := h k hk
      refine if_neg ?_
      intro hn
      unfold fileRows at hn
      rw [List.filter_eq_nil_iff] at hn
      exact hn r hr (by simpa using hrf)
    have e : rttmFilter (⟨rows, true⟩ : Rttm K) keys = mkRttm out true := by
      unfold rttmFilter
      dsimp only
      rw [this, ho]
      rfl
    rw [e]
    exact ⟨fun hi => mkRttm_pos hi, fun hi => mkRttm_neg hi⟩

/-- rows of one file with starts in order everywhere (not only between neighbours). -/
def FileOrdered (rows : List (Row K)) (f : String) : Prop := (rows.filter (fun r => decide (r.file = f))).Pairwise (fun a b => a.tbeg ≤ b.tbeg)

theorem neighbours_cons {a b x : Row K} {l : List (Row K)} (h : Neighbours (x :: l) a b) : (a = x ∧ ∃ t, l = b :: t) ∨ Neighbours l a b := by
  obtain ⟨l1, l2, h⟩ := h
  cases l1 with
  | nil => simp at h; exact Or.inl ⟨h.1.symm, l2, h.2⟩
  | cons y l1 => simp at h; exact Or.inr ⟨l1, l2, h.2⟩

theorem inOrder_of_pairwise {rows : List (Row K)} (h : rows.Pairwise (fun a b => a.file = b.file → a.tbeg ≤ b.tbeg)) : InOrder rows := by
  intro a b hn hf
  obtain ⟨l1, l2, rfl⟩ := hn
  rw [List.pairwise_append] at h
  have := (List.pairwise_cons.1 h.2.1).1 b (by simp)
  exact this hf

/-- C176. Filtering by different keys, each the name of a file with rows in order of start, gives a table with exactly the rows of those files. -/
theorem C176_filter_ordered (rows : List (Row K)) (keys : List String) (hn : keys.Nodup) (hk : ∀ k ∈ keys, (∃ r ∈ rows, r.file = k) ∧ FileOrdered rows k) :
    ∃ out, rttmFilter ⟨rows, true⟩ keys = some ⟨out, true⟩ ∧ (∀ r, r ∈ out ↔ r ∈ rows ∧ r.file ∈ keys) ∧
      ∀ k ∈ keys, out.filter (fun r => decide (r.file = k)) = rows.filter (fun r => decide (r.file = k)) := by
  refine ⟨keys.flatMap (fun k => rows.filter (fun r => decide (r.file = k))), ((C176_filter rows keys).2 (fun k h => (hk k h).1) _ rfl).1 ?_, ?_, ?_⟩
  · apply inOrder_of_pairwise
    rw [List.pairwise_flatMap]
    constructor
    · intro k h
      have ho : (rows.filter (fun r => decide (r.file = k))).Pairwise (fun a b => a.tbeg ≤ b.tbeg) := (hk k h).2
      apply ho.imp
      intro a b hab _
      exact hab
    · apply hn.imp
      intro a b hab x hx y hy e
      rw [List.mem_filter] at hx hy
      exact absurd ((by simpa using hx.2 : x.file = a).symm.trans (e.trans (by simpa using hy.2))) hab
  · intro r
    rw [List.mem_flatMap]
    constructor
    · rintro ⟨k, h, hr⟩
      rw [List.mem_filter] at hr
      have : r.file = k := by simpa using hr.2
      exact ⟨hr.1, this ▸ h⟩
    · rintro ⟨h1, h2⟩
      exact ⟨r.file, h2, List.mem_filter.2 ⟨h1, by simp⟩⟩
  · clear hk
    induction keys with
    | nil => intro k h; cases h
    | cons a keys ih =>
      intro k h
      rw [List.nodup_cons] at hn
      rw [List.flatMap_cons, List.filter_append, List.filter_filter]
      by_cases hka : k = a
      · subst hka
        have h0 : (keys.flatMap (fun k => rows.filter (fun r => decide (r.file = k)))).filter (fun r => decide (r.file = k)) = [] := by
          rw [List.filter_eq_nil_iff]
          intro r hr
          rw [List.mem_flatMap] at hr
          obtain ⟨k', h', hr⟩ := hr
          rw [List.mem_filter] at hr
          have e : r.file = k' := by simpa using hr.2
          simp only [decide_eq_true_eq]
          intro e'
          exact hn.1 (e' ▸ e ▸ h')
        rw [h0, List.append_nil]
        apply List.filter_congr
        intro r _
        simp
      · have h0 : rows.filter (fun r => decide (r.file = k) && decide (r.file = a)) = [] := by
          rw [List.filter_eq_nil_iff]
          intro r _
          simp only [Bool.and_eq_true, decide_eq_true_eq]
          rintro ⟨e1, e2⟩
          exact hka (e1.symm.trans e2)
        rw [h0, List.nil_append]
        exact ih hn.2 k ((List.mem_cons.1 h).resolve_left hka)

/-- C176 (a defect): asking twice for a file whose rows start at more than one time raises. -/
theorem C176_filter_repeated (rows : List (Row K)) (k : String) (first last : Row K) (mid : List (Row K))
    (h : rows.filter (fun r => decide (r.file = k)) = first :: (mid ++ [last])) (hl : first.tbeg < last.tbeg) : rttmFilter ⟨rows, true⟩ [k, k] = none := by
  have hm : ∀ r ∈ first :: (mid ++ [last]), r ∈ rows ∧ r.file = k := by
    intro r hr
    rw [← h, List.mem_filter] at hr
    exact ⟨hr.1, by simpa using hr.2⟩
  refine ((C176_filter rows [k, k]).2 ?_ _ rfl).2 ?_
  · intro k' hk'
    have : k' = k := by simpa using hk'
    subst this
    exact ⟨first, hm first (by simp)⟩
  · intro hi
    have := hi last first ⟨first :: mid, mid ++ [last], by simp [h]⟩ ((hm last (by simp)).2.trans (hm first (by simp)).2.symm)
    exact absurd this (not_le.2 hl)

/-- C176. Filtering a table indexed by row number: a number which is not a row raises; otherwise the rows asked for, in that order, if they are in order. -/
theorem C176_filter_rows (rows : List (Row K)) (keys : List Nat) :
    ((∃ i ∈ keys, rows.length ≤ i) → rttmFilterRows ⟨rows, false⟩ keys = none) ∧
    (∀ out : List (Row K), out.length = keys.length → (∀ (n i : Nat), keys[n]? = some i → ∃ r, rows[i]? = some r ∧ out[n]? = some r) →
      (InOrder out → rttmFilterRows ⟨rows, false⟩ keys = some ⟨out, false⟩) ∧ (¬ InOrder out → rttmFilterRows ⟨rows, false⟩ keys = none)) := by
  constructor
  · rintro ⟨i, hi, h⟩
    unfold rttmFilterRows
    have : (keys.mapM (fun i : Nat => rows[i]?)) = none := mapM_eq_none_iff.2 ⟨i, hi, List.getElem?_eq_none h⟩
    dsimp only
    rw [this]; rfl
  · intro out hl h
    have : (keys.mapM (fun i : Nat => rows[i]?)) = some out := by
      rw [mapM_eq_some_iff]
      apply List.ext_getElem?
      intro n
      rw [List.getElem?_map, List.getElem?_map]
      cases hk : keys[n]? with
      | none =>
        rw [List.getElem?_eq_none_iff] at hk
        rw [List.getElem?_eq_none (by omega)]
        rfl
      | some i =>
        obtain ⟨r, h1, h2⟩ := h n i hk
        rw [h2]
        exact congrArg some h1
    have e : rttmFilterRows (⟨rows, false⟩ : Rttm K) keys = mkRttm out false := by
      unfold rttmFilterRows
      dsimp only
      rw [this]; rfl
    rw [e]
    exact ⟨fun hi => mkRttm_pos hi, fun hi => mkRttm_neg hi⟩

theorem pdUnique_order {α : Type} [DecidableEq α] (l : List α) : (pdUnique l).Pairwise (fun a b => l.idxOf a < l.idxOf b) := by
  unfold pdUnique
  suffices h : ∀ (rest pre acc : List α), (∀ x, x ∈ acc ↔ x ∈ pre) → acc.Pairwise (fun a b => (pre ++ rest).idxOf a < (pre ++ rest).idxOf b) →
      (rest.foldl (fun acc x => if x ∈ acc then acc else acc ++ [x]) acc).Pairwise (fun a b => (pre ++ rest).idxOf a < (pre ++ rest).idxOf b) by
    simpa using h l [] [] (by simp) List.Pairwise.nil
  intro rest
  induction rest with
  | nil => intro pre acc _ hp; simpa using hp
  | cons x rest ih =>
    intro pre acc hm hp
    rw [List.foldl_cons]
    have e : pre ++ x :: rest = (pre ++ [x]) ++ rest := by simp
    rw [e] at hp ⊢
    apply ih (pre ++ [x])
    · intro y
      by_cases hx : x ∈ acc
      · rw [if_pos hx, hm, List.mem_append, List.mem_singleton]
        constructor
        · exact Or.inl
        · rintro (h | h)
          · exact h
          · exact h ▸ (hm x).1 hx
      · rw [if_neg hx, List.mem_append, List.mem_append, hm]
    · by_cases hx : x ∈ acc
      · rw [if_pos hx]; exact hp
      · rw [if_neg hx, List.pairwise_append]
        refine ⟨hp, List.pairwise_singleton _ _, ?_⟩
        intro a ha b hb
        have hb : b = x := by simpa using hb
        subst hb
        have hap : a ∈ pre := (hm a).1 ha
        have hbp : b ∉ pre := fun h => hx ((hm b).2 h)
        rw [List.append_assoc, List.idxOf_append_of_mem hap, List.idxOf_append_of_notMem hbp]
        have := List.idxOf_lt_length_iff.2 hap
        omega

theorem rttmFiles_spec (rows : List (Row K)) (b : Bool) :
    (rttmFiles ⟨rows, b⟩).Nodup ∧ (∀ f, f ∈ rttmFiles ⟨rows, b⟩ ↔ ∃ r ∈ rows, r.file = f) ∧
      (rttmFiles ⟨rows, b⟩).Pairwise (fun f g => (rows.map Row.file).idxOf f < (rows.map Row.file).idxOf g) := by
  unfold rttmFiles
  refine ⟨(pdUnique_spec _).1, fun f => ?_, pdUnique_order _⟩
  rw [(pdUnique_spec _).2, List.mem_map]

/-- C176. Access to a file: its rows, in table order, indexed by row number, if the file has at least two rows and their starts do not go back; an exception otherwise:
also for a file with a single row (a defect). -/
theorem C176_item (rows : List (Row K)) (f : String) (out : List (Row K)) (ho : out = rows.filter (fun r => decide (r.file = f))) :
    (2 ≤ out.length → InOrder out → rttmGet ⟨rows, true⟩ f = some ⟨out, false⟩) ∧ (out.length ≤ 1 → rttmGet ⟨rows, true⟩ f = none) ∧
    (¬ InOrder out → rttmGet ⟨rows, true⟩ f = none) := by
  have e : fileRows rows f = out := ho.symm
  unfold rttmGet
  dsimp only
  rw [e]
  refine ⟨fun h hi => ?_, fun h => if_pos h, fun hi => ?_⟩
  · rw [if_neg (by omega)]; exact mkRttm_pos hi
  · by_cases h : out.length ≤ 1
    · exact if_pos h
    · rw [if_neg h]; exact mkRttm_neg hi

/-- C176. A loop over a table indexed by file works iff every file has at least two rows whose starts do not go back; it then receives the files in order of first
appearance, each with its rows in table order. -/
theorem C176_iteration (rows : List (Row K)) :
    ((∀ r ∈ rows, 2 ≤ (rows.filter (fun t => decide (t.file = r.file))).length ∧ InOrder (rows.filter (fun t => decide (t.file = r.file)))) →
      ∃ files : List String, files.Nodup ∧ (∀ f, f ∈ files ↔ ∃ r ∈ rows, r.file = f) ∧
        files.Pairwise (fun f g => (rows.map Row.file).idxOf f < (rows.map Row.file).idxOf g) ∧
        rttmIter ⟨rows, true⟩ = some (files.map (fun f => ⟨rows.filter (fun r => decide (r.file = f)), false⟩))) ∧
    ((∃ r ∈ rows, (rows.filter (fun t => decide (t.file = r.file))).length = 1 ∨ ¬ InOrder (rows.filter (fun t => decide (t.file = r.file)))) →
      rttmIter ⟨rows, true⟩ = none) := by
  obtain ⟨h1, h2, h3⟩ := rttmFiles_spec rows true
  constructor
  · intro h
    refine ⟨rttmFiles ⟨rows, true⟩, h1, h2, h3, ?_⟩
    unfold rttmIter
    rw [mapM_eq_some_iff, List.map_map]
    apply List.map_congr_left
    intro f hf
    obtain ⟨r, hr, rfl⟩ := (h2 f).1 hf
    exact (C176_item rows r.file _ rfl).1 (h r hr).1 (h r hr).2
  · rintro ⟨r, hr, h⟩
    unfold rttmIter
    rw [mapM_eq_none_iff]
    refine ⟨r.file, (h2 _).2 ⟨r, hr, rfl⟩, ?_⟩
    rcases h with h | h
    · exact (C176_item rows r.file _ rfl).2.1 (le_of_eq h)
    · exact (C176_item rows r.file _ rfl).2.2 h

/-- C176 (a defect): a table is accepted in which a file's rows, apart from each other, go back in time; the file cannot be read from it. -/
theorem C176_scattered : ∃ rows : List (Row ℚ), mkRttm rows true = some ⟨rows, true⟩ ∧ rttmGet ⟨rows, true⟩ "f" = none ∧ 2 ≤ (rows.filter (fun r => decide (r.file = "f"))).length :=
  ⟨[⟨"SPEAKER", "f", "a", 5, 1⟩, ⟨"SPEAKER", "g", "a", 0, 1⟩, ⟨"SPEAKER", "f", "b", 1, 1⟩], by decide +kernel⟩

/-- C176. Merging a list of tables is their concatenation if starts do not go back, also from the end of one table to the start of the next; otherwise, and for no tables, it
raises. -/
theorem C176_merge (ls : List (Rttm K)) (byFile : Bool) :
    (ls = [] → rttmMerge ls byFile = none) ∧
    (ls ≠ [] → InOrder (ls.flatMap Rttm.rows) → rttmMerge ls byFile = some ⟨ls.flatMap Rttm.rows, byFile⟩) ∧
    (¬ InOrder (ls.flatMap Rttm.rows) → rttmMerge ls byFile = none) := by
  have e : (ls.map Rttm.rows).flatten = ls.flatMap Rttm.rows := (List.flatMap_def ..).symm
  unfold rttmMerge
  rw [e]
  refine ⟨fun h => if_pos h, fun h hi => ?_, fun hi => ?_⟩
  · rw [if_neg h]; exact mkRttm_pos hi
  · by_cases h : ls = []
    · exact if_pos h
    · rw [if_neg h]; exact mkRttm_neg hi

end order

theorem pdUnique_card {α : Type} [DecidableEq α] (l : List α) : (pdUnique l).length = l.toFinset.card := by
  obtain ⟨h1, h2⟩ := pdUnique_spec l
  rw [← List.toFinset_card_of_nodup h1]
  congr 1
  ext x
  rw [List.mem_toFinset, List.mem_toFinset, h2]

/-- C176. The speaker counts: the total is the number of different names in SPEAKER rows; per file (every file of the table once, in order of first appearance) it is the number of
different names in its SPEAKER rows. -/
theorem C176_speakers (rows : List (Row K)) (b : Bool) :
    (∀ names : Finset String, (∀ n, n ∈ names ↔ ∃ r ∈ rows, r.stype = "SPEAKER" ∧ r.name = n) → totalNumSpks ⟨rows, b⟩ = names.card) ∧
    ((numSpksPerFile ⟨rows, b⟩).map Prod.fst).Nodup ∧
    (∀ f, f ∈ (numSpksPerFile ⟨rows, b⟩).map Prod.fst ↔ ∃ r ∈ rows, r.file = f) ∧
    ((numSpksPerFile ⟨rows, b⟩).map Prod.fst).Pairwise (fun f g => (rows.map Row.file).idxOf f < (rows.map Row.file).idxOf g) ∧
    (∀ (f : String) (k : Nat), (f, k) ∈ numSpksPerFile ⟨rows, b⟩ → ∀ names : Finset String,
      (∀ n, n ∈ names ↔ ∃ r ∈ rows, r.stype = "SPEAKER" ∧ r.file = f ∧ r.name = n) → k = names.card) := by
  have hm : (numSpksPerFile ⟨rows, b⟩).map Prod.fst = rttmFiles ⟨rows, b⟩ := by
    unfold numSpksPerFile
    rw [List.map_map]
    exact List.map_id _
  have hf : ∀ f, f ∈ rttmFiles ⟨rows, b⟩ ↔ ∃ r ∈ rows, r.file = f := by
    intro f
    unfold rttmFiles
    rw [(pdUnique_spec _).2, List.mem_map]
  rw [hm]
  refine ⟨?_, (pdUnique_spec _).1, hf, pdUnique_order _, ?_⟩
  · intro names h
    unfold totalNumSpks
    rw [pdUnique_card]
    congr 1
    ext n
    rw [List.mem_toFinset, List.mem_map, h]
    constructor
    · rintro ⟨r, hr, hn⟩
      rw [List.mem_filter] at hr
      exact ⟨r, hr.1, by simpa using hr.2, hn⟩
    · rintro ⟨r, hr, hs, hn⟩
      exact ⟨r, List.mem_filter.2 ⟨hr, by simpa using hs⟩, hn⟩
  · intro f k hk names h
    unfold numSpksPerFile at hk
    obtain ⟨g, _, hg⟩ := List.mem_map.1 hk
    obtain ⟨rfl, rfl⟩ := Prod.mk.inj hg
    rw [pdUnique_card]
    congr 1
    ext n
    rw [List.mem_toFinset, List.mem_map, h]
    constructor
    · rintro ⟨r, hr, hn⟩
      rw [List.mem_filter, Bool.and_eq_true, decide_eq_true_eq, decide_eq_true_eq] at hr
      exact ⟨r, hr.1, hr.2.1, hr.2.2, hn⟩
    · rintro ⟨r, hr, hs, hf', hn⟩
      exact ⟨r, List.mem_filter.2 ⟨hr, by simp [hs, hf']⟩, hn⟩

/-- C176. The total number of speakers is at most the sum over the files; a name in two files is one speaker in the total and two in the sum. -/
theorem C176_speakers_sum (rows : List (Row K)) (b : Bool) : totalNumSpks ⟨rows, b⟩ ≤ ((numSpksPerFile ⟨rows, b⟩).map Prod.snd).sum := by
  obtain ⟨h1, _⟩ := C176_speakers rows b
  have hf : ∀ f, f ∈ rttmFiles ⟨rows, b⟩ ↔ ∃ r ∈ rows, r.file = f := by
    intro f
    unfold rttmFiles
    rw [(pdUnique_spec _).2, List.mem_map]
  unfold numSpksPerFile
  rw [List.map_map]
  have key : ∀ files : List String, (∀ r ∈ rows, r.file ∈ files) → totalNumSpks ⟨rows, b⟩ ≤
      (files.map (fun f => (pdUnique ((rows.filter (fun r => decide (r.stype = "SPEAKER") && decide (r.file = f))).map Row.name)).length)).sum := by
    intro files hall
    have : totalNumSpks ⟨rows, b⟩ ≤ (files.flatMap (fun f => pdUnique ((rows.filter (fun r => decide (r.stype = "SPEAKER") && decide (r.file = f))).map Row.name))).length := by
      unfold totalNumSpks
      rw [pdUnique_card]
      refine le_trans (Finset.card_le_card ?_) (List.toFinset_card_le (files.flatMap (fun f => pdUnique ((rows.filter (fun r => decide (r.stype = "SPEAKER") && decide (r.file = f))).map Row.name))))
      intro n hn
      rw [List.mem_toFinset, List.mem_map] at hn
      obtain ⟨r, hr, hn⟩ := hn
      rw [List.mem_filter] at hr
      rw [List.mem_toFinset, List.mem_flatMap]
      refine ⟨r.file, hall r hr.1, ((pdUnique_spec _).2 n).2 (List.mem_map.2 ⟨r, List.mem_filter.2 ⟨hr.1, ?_⟩, hn⟩)⟩
      have hs : r.stype = "SPEAKER" := by simpa using hr.2
      simp [hs]
    rwa [List.length_flatMap] at this
  exact key _ (fun r hr => (hf _).2 ⟨r, hr, rfl⟩)

section create
variable [IsStrictOrderedRing K]

/-- C176. A diarisation made from a segment list and one speaker per segment: with another number of speakers, and if a start goes back between neighbouring segments of a file, it
raises; otherwise row `i` is a SPEAKER row with the file, the start and the duration of segment `i` and the name of speaker `i`, with the name of the file and an underscore in front of it if
that is asked for. -/
theorem C176_from_segments (segs : List (Seg K)) (spk : List String) (byFile prepend : Bool) :
    (segs.length ≠ spk.length → createFromSegments segs spk byFile prepend = none) ∧
    (∀ rows : List (Row K), rows.length = segs.length → segs.length = spk.length →
      (∀ (i : Nat) (s : Seg K) (n : String) (r : Row K), segs[i]? = some s → spk[i]? = some n → rows[i]? = some r →
        r.stype = "SPEAKER" ∧ r.file = s.file ∧ r.tbeg = s.tbeg ∧ r.tend = s.tend ∧ r.name = if prepend then s.file ++ "_" ++ n else n) →
      (InOrder rows → createFromSegments segs spk byFile prepend = some ⟨rows, byFile⟩) ∧ (¬ InOrder rows → createFromSegments segs spk byFile prepend = none)) := by
  constructor
  · intro h
    unfold createFromSegments
    exact if_neg h
  · intro rows hl hs h
    have e : createFromSegments segs spk byFile prepend = mkRttm rows byFile := by
      unfold createFromSegments createSpkdiar
      rw [if_pos hs]
      dsimp only
      have hlen : (makeSpkIds spk (segs.map Seg.file) prepend).length = (segs.map Seg.file).length := by
        unfold makeSpkIds
        cases prepend <;> simp [hs]
      rw [if_pos ⟨by simp, by simp, hlen⟩]
      congr 1
      apply List.ext_getElem?
      intro i
      by_cases hi : i < segs.length
      · have hi1 : i < spk.length := by omega
        have hi2 : i < rows.length := by omega
        obtain ⟨h1, h2, h3, h4, h5⟩ := h i segs[i] spk[i] rows[i] (List.getElem?_eq_getElem hi) (List.getElem?_eq_getElem hi1) (List.getElem?_eq_getElem hi2)
        have h4' : rows[i].tdur = segs[i].tend - segs[i].tbeg := by
          rw [← h4, ← h3]; unfold Row.tend; ring
        have hr : rows[i] = (⟨"SPEAKER", segs[i].file, if prepend then segs[i].file ++ "_" ++ spk[i] else spk[i], segs[i].tbeg, segs[i].tend - segs[i].tbeg⟩ : Row K) := by
          rw [← h4', ← h1, ← h2, ← h3]
          rw [show (if prepend = true then rows[i].file ++ "_" ++ spk[i] else spk[i]) = rows[i].name by rw [h5, h2]]
        rw [List.getElem?_eq_getElem hi2, hr]
        have hm : (makeSpkIds spk (segs.map Seg.file) prepend)[i]? = some (if prepend then segs[i].file ++ "_" ++ spk[i] else spk[i]) := by
          unfold makeSpkIds
          cases prepend
          · simp [hi1]
          · simp [List.getElem?_zip_eq_some, List.getElem?_eq_getElem hi, List.getElem?_eq_getElem hi1, List.getElem?_map]
        rw [List.getElem?_map]
        have hz2 : (((segs.map Seg.file).zip (makeSpkIds spk (segs.map Seg.file) prepend)).zip ((segs.map Seg.tbeg).zip (segs.map (fun s => s.tend - s.tbeg))))[i]? =
            some ((segs[i].file, if prepend then segs[i].file ++ "_" ++ spk[i] else spk[i]), (segs[i].tbeg, segs[i].tend - segs[i].tbeg)) := by
          rw [List.getElem?_zip_eq_some, List.getElem?_zip_eq_some, List.getElem?_zip_eq_some]
          exact ⟨⟨by simp [hi], hm⟩, by simp [hi], by simp [hi]⟩
        rw [hz2]
        rfl
      · rw [List.getElem?_eq_none (by simp; omega), List.getElem?_eq_none (by omega)]
    rw [e]
    exact ⟨fun hi => mkRttm_pos hi, fun hi => mkRttm_neg hi⟩

variable [FloorRing K]

/-- C176. Making a diarisation from a valid segment list and turning it into a segment list again keeps the file, the start and the end of every segment. -/
theorem C176_round_trip (segs : List (Seg K)) (spk : List String) (byFile prepend : Bool) (d : Rttm K) (hv : ∀ s ∈ segs, s.tbeg ≤ s.tend)
    (h : createFromSegments segs spk byFile prepend = some d) :
    ∃ segs', toSegmentList d.rows = some segs' ∧ segs'.map (fun s => (s.file, s.tbeg, s.tend)) = segs.map (fun s => (s.file, s.tbeg, s.tend)) := by
  have hs : segs.length = spk.length := by
    by_contra hc
    rw [(C176_from_segments segs spk byFile prepend).1 hc] at h
    cases h
  let rows : List (Row K) := (segs.zip spk).map (fun p => ⟨"SPEAKER", p.1.file, if prepend then p.1.file ++ "_" ++ p.2 else p.2, p.1.tbeg, p.1.tend - p.1.tbeg⟩)
  have hl : rows.length = segs.length := by simp [rows, hs]
  have hr := (C176_from_segments segs spk byFile prepend).2 rows hl hs (by
    intro i s n r h1 h2 h3
    have hz : (segs.zip spk)[i]? = some (s, n) := List.getElem?_zip_eq_some.2 ⟨h1, h2⟩
    have : rows[i]? = some ⟨"SPEAKER", s.file, if prepend then s.file ++ "_" ++ n else n, s.tbeg, s.tend - s.tbeg⟩ := by
      simp only [rows, List.getElem?_map, hz, Option.map_some]
    rw [this] at h3
    obtain rfl := Option.some.inj h3
    exact ⟨rfl, rfl, rfl, by unfold Row.tend; ring, rfl⟩)
  have hd : d.rows = rows := by
    by_cases hi : InOrder rows
    · rw [hr.1 hi] at h
      obtain rfl := Option.some.inj h
      rfl
    · rw [hr.2 hi] at h; cases h
  rw [hd]
  obtain ⟨c1, c2⟩ := C58_to_segment_list rows
  have hne : toSegmentList rows ≠ none := by
    intro hn
    obtain ⟨r, hr, hlt⟩ := c1.1 hn
    obtain ⟨p, hp, rfl⟩ := List.mem_map.1 hr
    have := hv p.1 (List.of_mem_zip hp).1
    exact absurd hlt (not_lt.2 (sub_nonneg.2 this))
  obtain ⟨segs', hs'⟩ := Option.ne_none_iff_exists'.1 hne
  refine ⟨segs', hs', ((c2 segs' hs').1).trans ?_⟩
  have : segs = (segs.zip spk).map Prod.fst := by rw [List.map_fst_zip]; omega
  conv_rhs => rw [this]
  simp only [rows, List.map_map]
  apply List.map_congr_left
  intro p _
  simp [Row.tend]

end create

/-- C176 (a defect): with `prepend_file_id`, surplus speakers are dropped in silence; without it they raise. -/
theorem C176_surplus_speakers (files : List String) (tbeg tdur : List K) (spk extra : List String) (byFile : Bool) (h : spk.length = files.length) (he : extra ≠ []) :
    createSpkdiar files tbeg tdur (spk ++ extra) byFile true = createSpkdiar files tbeg tdur spk byFile true ∧
    createSpkdiar files tbeg tdur (spk ++ extra) byFile false = none := by
  constructor
  · have : files.zip (spk ++ extra) = files.zip spk := by
      conv_lhs => rw [← List.append_nil files]
      rw [List.zip_append h.symm]
      simp
    unfold createSpkdiar makeSpkIds
    simp only [if_true, this]
  · unfold createSpkdiar makeSpkIds
    refine if_neg ?_
    rintro ⟨_, _, h3⟩
    have : 0 < extra.length := List.length_pos_iff.2 he
    simp at h3
    omega

/-- cases: two files with two rows each are filtered, iterated, counted and merged. -/
example : (rttmIter (⟨[⟨"SPEAKER", "g", "a", 0, 1⟩, ⟨"SPEAKER", "g", "b", 1, 1⟩, ⟨"SPEAKER", "f", "a", 0, 1⟩, ⟨"LEXEME", "f", "x", 0, 1⟩], true⟩ : Rttm ℚ)).map
      (fun l => l.map (fun x => x.rows.map Row.name)) = some [["a", "b"], ["a", "x"]] ∧
    (rttmFilter (⟨[⟨"SPEAKER", "g", "a", 0, 1⟩, ⟨"SPEAKER", "g", "b", 1, 1⟩, ⟨"SPEAKER", "f", "a", 0, 1⟩, ⟨"LEXEME", "f", "x", 0, 1⟩], true⟩ : Rttm ℚ) ["f", "g"]).map
      (fun x => x.rows.map Row.name) = some ["a", "x", "a", "b"] ∧
    numSpksPerFile (⟨[⟨"SPEAKER", "g", "a", 0, 1⟩, ⟨"SPEAKER", "g", "b", 1, 1⟩, ⟨"SPEAKER", "f", "a", 0, 1⟩, ⟨"LEXEME", "f", "x", 0, 1⟩], true⟩ : Rttm ℚ) = [("g", 2), ("f", 1)] ∧
    totalNumSpks (⟨[⟨"SPEAKER", "g", "a", 0, 1⟩, ⟨"SPEAKER", "g", "b", 1, 1⟩, ⟨"SPEAKER", "f", "a", 0, 1⟩, ⟨"LEXEME", "f", "x", 0, 1⟩], true⟩ : Rttm ℚ) = 2 ∧
    rttmFilter (⟨[⟨"SPEAKER", "g", "a", 0, 1⟩, ⟨"SPEAKER", "g", "b", 1, 1⟩], true⟩ : Rttm ℚ) ["g", "g"] = none := by decide +kernel

/-- cases: a diarisation from two segments; merging a table with an earlier one of the same file raises. -/
example : createFromSegments ([⟨['1'], "f", 0, 2⟩, ⟨['2'], "f", 1, 4⟩] : List (Seg ℚ)) ["a", "b"] true true =
      some ⟨[⟨"SPEAKER", "f", "f_a", 0, 2⟩, ⟨"SPEAKER", "f", "f_b", 1, 3⟩], true⟩ ∧
    rttmMerge ([⟨[⟨"SPEAKER", "f", "a", 5, 1⟩], true⟩, ⟨[⟨"SPEAKER", "f", "a", 0, 1⟩], true⟩] : List (Rttm ℚ)) true = none ∧
    rttmMerge ([⟨[⟨"SPEAKER", "f", "a", 0, 1⟩], true⟩, ⟨[⟨"SPEAKER", "f", "a", 5, 1⟩], true⟩] : List (Rttm ℚ)) true =
      some ⟨[⟨"SPEAKER", "f", "a", 0, 1⟩, ⟨"SPEAKER", "f", "a", 5, 1⟩], true⟩ := by decide +kernel

end Hyp.Segments
