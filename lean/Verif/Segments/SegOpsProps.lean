import Verif.Segments.SegOps
import Verif.Segments.SegmentListProps
import Verif.ListUtils.Props
import Verif.H5.MoreProps
import Mathlib.Data.String.Basic

/-! Properties C119 (filter, split, merge and iteration of segment lists) and C120 (the VAD scripts). -/

namespace Hyp.Segments
open Hyp.Text Hyp.ListUtils

variable {K : Type} [Field K] [LinearOrder K] [IsStrictOrderedRing K] [FloorRing K]

section groups
variable {R κ : Type} [DecidableEq κ]

/-- for every label in turn the rows that have it. -/
def groups (key : R → κ) (rows : List R) (keys : List κ) : List R := keys.flatMap (fun k => rows.filter (fun s => decide (key s = k)))

theorem mem_groups {key : R → κ} {rows : List R} {keys : List κ} {s : R} : s ∈ groups key rows keys ↔ s ∈ rows ∧ key s ∈ keys := by
  unfold groups
  rw [List.mem_flatMap]
  constructor
  · rintro ⟨k, hk, hs⟩
    rw [List.mem_filter, decide_eq_true_eq] at hs
    exact ⟨hs.1, hs.2 ▸ hk⟩
  · rintro ⟨a, b⟩
    exact ⟨_, b, by rw [List.mem_filter]; exact ⟨a, by simp⟩⟩

theorem filter_groups {key : R → κ} {rows : List R} {keys : List κ} (hn : keys.Nodup) (k : κ) :
    (groups key rows keys).filter (fun s => decide (key s = k)) = if k ∈ keys then rows.filter (fun s => decide (key s = k)) else [] := by
  unfold groups
  induction keys with
  | nil => simp
  | cons x keys ih =>
    rw [List.flatMap_cons, List.filter_append, ih (List.nodup_cons.1 hn).2, List.filter_filter]
    by_cases h : k = x
    · subst h
      rw [if_neg (List.nodup_cons.1 hn).1, if_pos (by simp), List.append_nil]
      congr 1; funext s; simp
    · have e : rows.filter (fun s => decide (key s = k) && decide (key s = x)) = [] := by
        rw [List.filter_eq_nil_iff]
        intro s _ hs
        simp only [Bool.and_eq_true, decide_eq_true_eq] at hs
        exact h (hs.1.symm.trans hs.2)
      rw [e, List.nil_append]
      simp [List.mem_cons, h]

theorem groups_perm {key : R → κ} [DecidableEq R] {rows : List R} {keys : List κ} (hn : keys.Nodup) (hall : ∀ s ∈ rows, key s ∈ keys) :
    (groups key rows keys).Perm rows := by
  rw [List.perm_iff_count]
  intro s
  have h1 : ∀ l : List R, l.count s = (l.filter (fun t => decide (key t = key s))).count s := by
    intro l
    rw [List.count_filter (by simp)]
  rw [h1, filter_groups hn, h1 rows]
  by_cases h : key s ∈ keys
  · rw [if_pos h]
  · rw [if_neg h]
    have : s ∉ rows := fun hs => h (hall s hs)
    have e : s ∉ rows.filter (fun t => decide (key t = key s)) := fun hh => this (List.mem_filter.1 hh).1
    rw [List.count_eq_zero.2 e]; rfl

theorem groups_sorted [LinearOrder κ] {key : R → κ} {rows : List R} {keys : List κ} (hs : keys.Pairwise (· < ·)) :
    (groups key rows keys).Pairwise (fun a b => key a ≤ key b) := by
  unfold groups
  rw [List.pairwise_flatMap]
  refine ⟨?_, ?_⟩
  · intro k _
    refine List.Pairwise.imp_of_mem (R := fun _ _ => True) ?_ (List.pairwise_of_forall (by simp))
    intro a b ha hb _
    rw [List.mem_filter, decide_eq_true_eq] at ha hb
    rw [ha.2, hb.2]
  · refine hs.imp ?_
    intro a b hab x hx y hy
    rw [List.mem_filter, decide_eq_true_eq] at hx hy
    rw [hx.2, hy.2]; exact hab.le

end groups

theorem locList_eq (l : SegList K) (keys : List Str) :
    locList l keys = if ∀ k ∈ keys, ∃ s ∈ l.rows, indexOf l.byFile s = k then some (groups (indexOf l.byFile) l.rows keys) else none := by
  unfold locList
  have hne : ∀ k, rowsAt l k = [] ↔ ¬ ∃ s ∈ l.rows, indexOf l.byFile s = k := by
    intro k
    unfold rowsAt
    rw [List.filter_eq_nil_iff]
    simp
  by_cases h : ∀ k ∈ keys, ∃ s ∈ l.rows, indexOf l.byFile s = k
  · rw [if_pos h]
    have : keys.mapM (fun k : Str => if rowsAt l k = [] then none else some (rowsAt l k)) = some (keys.map (rowsAt l)) := by
      rw [mapM_eq_some_iff, List.map_map]
      apply List.map_congr_left
      intro k hk
      rw [if_neg (fun hh => (hne k).1 hh (h k hk))]
      rfl
    rw [this, Option.map_some, groups, List.flatMap]
    rfl
  · rw [if_neg h]
    have : keys.mapM (fun k : Str => if rowsAt l k = [] then none else some (rowsAt l k)) = none := by
      rw [mapM_eq_none_iff]
      push Not at h
      obtain ⟨k, hk, hx⟩ := h
      refine ⟨k, hk, ?_⟩
      rw [if_pos ((hne k).2 (by push Not; exact hx))]
    rw [this]; rfl

theorem validate_of_mem {rows rows' : List (Seg K)} (hv : segValidate rows = true) (h : ∀ s ∈ rows', s ∈ rows) : segValidate rows' = true := by
  unfold segValidate at hv ⊢
  rw [List.all_eq_true] at hv ⊢
  exact fun s hs => hv s (h s hs)

/-- C119. The constructor accepts a table iff no segment ends before it starts, and leaves it as it is. -/
theorem C119_constructor (rows : List (Seg K)) (byFile : Bool) :
    mkSegList rows byFile = if ∀ s ∈ rows, s.tbeg ≤ s.tend then some ⟨rows, byFile⟩ else none := by
  unfold mkSegList
  have : segValidate rows = true ↔ ∀ s ∈ rows, s.tbeg ≤ s.tend := by
    unfold segValidate
    rw [List.all_eq_true]
    simp
  by_cases h : ∀ s ∈ rows, s.tbeg ≤ s.tend
  · rw [if_pos h, if_pos (this.2 h)]
  · rw [if_neg h, if_neg (fun hh => h (this.1 hh))]

theorem valid_iff {rows : List (Seg K)} : segValidate rows = true ↔ ∀ s ∈ rows, s.tbeg ≤ s.tend := by
  unfold segValidate
  rw [List.all_eq_true]
  simp

/-- C119. Keeping a list of labels (file names, or segment ids when the table is indexed by segment): raises iff a label has no row; otherwise the result is, for
every label in the given order, its rows in table order. -/
theorem C119_filter_keep (l : SegList K) (hv : ∀ s ∈ l.rows, s.tbeg ≤ s.tend) (keys : List Str) :
    segFilter l keys true = if ∀ k ∈ keys, ∃ s ∈ l.rows, (if l.byFile then s.file.toList else s.id) = k
      then some ⟨keys.flatMap (fun k => l.rows.filter (fun s => decide ((if l.byFile then s.file.toList else s.id) = k))), l.byFile⟩ else none := by
  unfold segFilter
  dsimp only
  rw [if_pos rfl, locList_eq]
  split
  · rw [Option.bind_some, mkSegList, if_pos (validate_of_mem (valid_iff.2 hv) (fun s hs => (mem_groups.1 hs).1)), if_pos (by assumption)]
    rfl
  · rename_i h
    exact (if_neg h).symm

/-- C119. Dropping a list of labels never raises, keeps exactly the segments whose label is not in the list, each label's segments in table order, the labels in
increasing order; the labels to drop need not exist. -/
theorem C119_filter_drop (l : SegList K) (hv : ∀ s ∈ l.rows, s.tbeg ≤ s.tend) (keys : List Str) :
    ∃ r, segFilter l keys false = some r ∧ r.byFile = l.byFile ∧
      r.rows.Perm (l.rows.filter (fun s => decide ((if l.byFile then s.file.toList else s.id) ∉ keys))) ∧
      r.rows.Pairwise (fun a b => (if l.byFile then a.file.toList else a.id) ≤ (if l.byFile then b.file.toList else b.id)) ∧
      ∀ k, k ∉ keys → r.rows.filter (fun s => decide ((if l.byFile then s.file.toList else s.id) = k)) =
        l.rows.filter (fun s => decide ((if l.byFile then s.file.toList else s.id) = k)) := by
  unfold segFilter
  dsimp only
  rw [if_neg (by simp), locList_eq]
  generalize hks : (npUnique (l.rows.map (indexOf l.byFile))).filter (fun k => decide (k ∉ keys)) = ks
  have hmem : ∀ k, k ∈ ks ↔ (∃ s ∈ l.rows, indexOf l.byFile s = k) ∧ k ∉ keys := by
    intro k
    rw [← hks, List.mem_filter, mem_npUnique, List.mem_map, decide_eq_true_eq]
  have hsort : ks.Pairwise (· < ·) := by rw [← hks]; exact (npUnique_sorted _).filter _
  have hnd : ks.Nodup := hsort.imp (fun h => ne_of_lt h)
  rw [if_pos (fun k hk => ((hmem k).1 hk).1), Option.bind_some, mkSegList,
    if_pos (validate_of_mem (valid_iff.2 hv) (fun s hs => (mem_groups.1 hs).1))]
  have hfk : ∀ k, k ∉ keys → (groups (indexOf l.byFile) l.rows ks).filter (fun s => decide (indexOf l.byFile s = k)) =
      l.rows.filter (fun s => decide (indexOf l.byFile s = k)) := by
    intro k hk
    rw [filter_groups hnd]
    by_cases h : k ∈ ks
    · rw [if_pos h]
    · rw [if_neg h]
      symm
      rw [List.filter_eq_nil_iff]
      intro s hs he
      exact h ((hmem k).2 ⟨⟨s, hs, by simpa using he⟩, hk⟩)
  refine ⟨_, rfl, rfl, ?_, groups_sorted hsort, hfk⟩
  dsimp only
  rw [List.perm_iff_count]
  intro s
  show List.count s (groups (indexOf l.byFile) l.rows ks) = List.count s (l.rows.filter (fun s => decide (indexOf l.byFile s ∉ keys)))
  by_cases h : indexOf l.byFile s ∈ keys
  · rw [List.count_eq_zero.2, List.count_eq_zero.2]
    · rw [List.mem_filter]; rintro ⟨_, hx⟩; simp [h] at hx
    · rw [mem_groups]; rintro ⟨_, hx⟩; exact ((hmem _).1 hx).2 h
  · rw [List.count_filter (by simpa using h)]
    have h1 : ∀ l' : List (Seg K), l'.count s = (l'.filter (fun t => decide (indexOf l.byFile t = indexOf l.byFile s))).count s := by
      intro l'; rw [List.count_filter (by simp)]
    rw [h1, hfk _ h, ← h1]

theorem mapM_split_eq {l : SegList K} (ids : List Str) (hids : ids = if l.byFile then uniqFileId l else l.rows.map Seg.id) (hv : ∀ s ∈ l.rows, s.tbeg ≤ s.tend)
    (hin : ∀ k ∈ ids, ∃ s ∈ l.rows, indexOf l.byFile s = k) {idx P : Nat} (h1 : 1 ≤ idx) (h2 : idx ≤ P) :
    ∃ a, splitList ids idx P = some a ∧ segSplit l idx P = some ⟨groups (indexOf l.byFile) l.rows a.1, l.byFile⟩ := by
  refine ⟨_, splitList_eq h1 h2, ?_⟩
  unfold segSplit
  dsimp only
  rw [← hids, splitList_eq h1 h2, Option.bind_some, locList_eq, if_pos, Option.bind_some, mkSegList,
    if_pos (validate_of_mem (valid_iff.2 hv) (fun s hs => (mem_groups.1 hs).1))]
  intro k hk
  exact hin k (List.mem_of_mem_drop (List.mem_of_mem_take hk))

theorem split_parts {l : SegList K} (ids : List Str) (hids : ids = if l.byFile then uniqFileId l else l.rows.map Seg.id) (hv : ∀ s ∈ l.rows, s.tbeg ≤ s.tend)
    (hin : ∀ k ∈ ids, ∃ s ∈ l.rows, indexOf l.byFile s = k) (P : Nat) (hP : 1 ≤ P) :
    ∃ (ks : List (List Str)), ks.flatten = ids ∧ (List.range' 1 P).mapM (fun idx : Nat => segSplit l idx P) =
      some (ks.map (fun k => ⟨groups (indexOf l.byFile) l.rows k, l.byFile⟩)) := by
  obtain ⟨parts, e, hf, _, _⟩ := C01_split_list_partition ids P hP
  refine ⟨parts.map Prod.fst, hf, ?_⟩
  rw [mapM_eq_some_iff] at e ⊢
  have : ∀ idx ∈ List.range' 1 P, segSplit l idx P = (splitList ids idx P).map (fun a => ⟨groups (indexOf l.byFile) l.rows a.1, l.byFile⟩) := by
    intro idx hi
    rw [List.mem_range'_1] at hi
    obtain ⟨a, e1, e2⟩ := mapM_split_eq ids hids hv hin (idx := idx) (P := P) hi.1 (by omega)
    rw [e1, e2]; rfl
  rw [List.map_congr_left this]
  rw [show (List.range' 1 P).map (fun idx => (splitList ids idx P).map (fun a => (⟨groups (indexOf l.byFile) l.rows a.1, l.byFile⟩ : SegList K))) =
    ((List.range' 1 P).map (fun idx => splitList ids idx P)).map (fun o => o.map (fun a => (⟨groups (indexOf l.byFile) l.rows a.1, l.byFile⟩ : SegList K))) by
      rw [List.map_map]; rfl, e]
  simp only [List.map_map]
  rfl

/-- C119. Indexed by file: the P parts put together are all the segments, the files in increasing order and each file's segments in table order, and a file is
in one part only. -/
theorem C119_split_by_file (rows : List (Seg K)) (hv : ∀ s ∈ rows, s.tbeg ≤ s.tend) (P : Nat) (hP : 1 ≤ P) :
    ∃ parts : List (SegList K), (List.range' 1 P).mapM (fun idx : Nat => segSplit ⟨rows, true⟩ idx P) = some parts ∧ parts.length = P ∧
      (parts.map SegList.rows).flatten.Perm rows ∧
      (parts.map SegList.rows).flatten.Pairwise (fun a b => a.file.toList ≤ b.file.toList) ∧
      (∀ f, (parts.map SegList.rows).flatten.filter (fun s => decide (s.file.toList = f)) = rows.filter (fun s => decide (s.file.toList = f))) ∧
      (∀ p ∈ parts, p.byFile = true) ∧
      parts.Pairwise (fun p q => ∀ s ∈ p.rows, ∀ t ∈ q.rows, s.file ≠ t.file) := by
  have hin : ∀ k ∈ uniqFileId (⟨rows, true⟩ : SegList K), ∃ s ∈ rows, indexOf true s = k := by
    intro k hk
    unfold uniqFileId at hk
    rw [mem_npUnique, List.mem_map] at hk
    obtain ⟨s, a, b⟩ := hk
    exact ⟨s, a, b⟩
  have hu : ∀ s ∈ rows, indexOf true s ∈ uniqFileId (⟨rows, true⟩ : SegList K) := by
    intro s hs
    unfold uniqFileId
    rw [mem_npUnique]
    exact List.mem_map.2 ⟨s, hs, rfl⟩
  have hsort : (uniqFileId (⟨rows, true⟩ : SegList K)).Pairwise (· < ·) := npUnique_sorted _
  have hnd : (uniqFileId (⟨rows, true⟩ : SegList K)).Nodup := hsort.imp (fun h => ne_of_lt h)
  obtain ⟨ks, hf, e⟩ := split_parts (l := ⟨rows, true⟩) _ rfl hv hin P hP
  dsimp only at e
  have hfl : ((ks.map (fun k => (⟨groups (indexOf true) rows k, true⟩ : SegList K))).map SegList.rows).flatten = groups (indexOf true) rows (uniqFileId (⟨rows, true⟩ : SegList K)) := by
    have hf' : ks.flatten = uniqFileId (⟨rows, true⟩ : SegList K) := hf
    rw [← hf', List.map_map]
    unfold groups
    clear hf' hf e
    induction ks with
    | nil => rfl
    | cons k ks ih =>
      rw [List.map_cons, List.flatten_cons, ih, List.flatten_cons, List.flatMap_append]
      rfl
  refine ⟨_, e, ?_, ?_, ?_, ?_, ?_, ?_⟩
  · have := congrArg List.length (mapM_eq_some_iff.1 e)
    simpa using this.symm
  · rw [hfl]; exact groups_perm hnd hu
  · rw [hfl]; exact groups_sorted hsort
  · intro f
    rw [hfl]
    have := filter_groups (key := indexOf (K := K) true) (rows := rows) hnd f
    refine Eq.trans this ?_
    by_cases h : f ∈ uniqFileId (⟨rows, true⟩ : SegList K)
    · rw [if_pos h]; rfl
    · rw [if_neg h]
      symm
      rw [List.filter_eq_nil_iff]
      intro s hs he
      simp only [decide_eq_true_eq] at he
      exact h (he ▸ hu s hs)
  · intro p hp
    obtain ⟨k, _, rfl⟩ := List.mem_map.1 hp
    rfl
  · rw [List.pairwise_map]
    have hnf : ks.flatten.Nodup := by
      have hf' : ks.flatten = uniqFileId (⟨rows, true⟩ : SegList K) := hf
      rw [hf']; exact hnd
    rw [List.nodup_flatten] at hnf
    refine hnf.2.imp ?_
    intro a b hab s hs t ht hst
    have h1 := (mem_groups.1 hs).2
    have h2 := (mem_groups.1 ht).2
    have : indexOf true s = indexOf (K := K) true t := by unfold indexOf; simp [hst]
    rw [this] at h1
    exact hab h1 h2

/-- C119. Indexed by segment and with different segment ids: the parts put together are the table. -/
theorem C119_split_by_segment (rows : List (Seg K)) (hv : ∀ s ∈ rows, s.tbeg ≤ s.tend) (hn : (rows.map Seg.id).Nodup) (P : Nat) (hP : 1 ≤ P) :
    ∃ parts : List (SegList K), (List.range' 1 P).mapM (fun idx : Nat => segSplit ⟨rows, false⟩ idx P) = some parts ∧
      (parts.map SegList.rows).flatten = rows ∧ ∀ p ∈ parts, p.byFile = false := by
  have hin : ∀ k ∈ rows.map Seg.id, ∃ s ∈ rows, indexOf false s = k := by
    intro k hk
    obtain ⟨s, a, b⟩ := List.mem_map.1 hk
    exact ⟨s, a, b⟩
  obtain ⟨ks, hf, e⟩ := split_parts (l := ⟨rows, false⟩) (rows.map Seg.id) rfl hv hin P hP
  refine ⟨_, e, ?_, ?_⟩
  · have hg : ((ks.map (fun k => (⟨groups (indexOf false) rows k, false⟩ : SegList K))).map SegList.rows).flatten = groups (indexOf false) rows ks.flatten := by
      rw [List.map_map]
      unfold groups
      clear hf e
      induction ks with
      | nil => rfl
      | cons k ks ih =>
        rw [List.map_cons, List.flatten_cons, ih, List.flatten_cons, List.flatMap_append]
        rfl
    refine hg.trans ?_
    rw [hf]
    unfold groups
    rw [List.flatMap_map]
    have : ∀ (r' : List (Seg K)), (∀ s ∈ r', s ∈ rows) → r'.flatMap (fun a => rows.filter (fun s => decide (indexOf false s = a.id))) = r' := by
      intro r' hr
      induction r' with
      | nil => rfl
      | cons a r' ih =>
        rw [List.flatMap_cons, ih (fun s hs => hr s (by simp [hs]))]
        have : rows.filter (fun s => decide (indexOf false s = a.id)) = [a] := by
          have ha := hr a (by simp)
          clear ih hr hin hf e hg hv
          induction rows with
          | nil => cases ha
          | cons b rows ihr =>
            rw [List.map_cons, List.nodup_cons] at hn
            rw [List.filter_cons]
            rcases List.mem_cons.1 ha with h | h
            · subst h
              rw [if_pos (by simp [indexOf])]
              congr 1
              rw [List.filter_eq_nil_iff]
              intro s hs he
              simp only [indexOf, Bool.false_eq_true, if_false, decide_eq_true_eq] at he
              exact hn.1 (List.mem_map.2 ⟨s, hs, he⟩)
            · rw [if_neg]
              · exact ihr hn.2 h
              · simp only [indexOf, Bool.false_eq_true, if_false, decide_eq_true_eq]
                intro he
                exact hn.1 (List.mem_map.2 ⟨a, h, he.symm⟩)
        rw [this]; rfl
    exact this rows (fun s hs => hs)
  · intro p hp
    obtain ⟨k, _, rfl⟩ := List.mem_map.1 hp
    rfl

/-- C119 (a defect): indexed by segment, a repeated segment id multiplies its rows: two rows become four. -/
theorem C119_split_repeated_id : (List.range' 1 1).mapM (fun idx : Nat => segSplit (⟨[⟨['a'], "f", 0, 1⟩, ⟨['a'], "g", 0, 1⟩], false⟩ : SegList ℚ) idx 1) =
    some [⟨[⟨['a'], "f", 0, 1⟩, ⟨['a'], "g", 0, 1⟩, ⟨['a'], "f", 0, 1⟩, ⟨['a'], "g", 0, 1⟩], false⟩] := by decide +kernel

/-- C119. Merging a non-empty list of valid segment lists concatenates them, in the index mode asked for; merging none raises. -/
theorem C119_merge (ls : List (SegList K)) (byFile : Bool) (hv : ∀ l ∈ ls, ∀ s ∈ l.rows, s.tbeg ≤ s.tend) :
    segMerge ls byFile = if ls = [] then none else some ⟨ls.flatMap SegList.rows, byFile⟩ := by
  unfold segMerge
  split
  · rfl
  · rw [C119_constructor, if_pos]
    · rfl
    · intro s hs
      rw [List.mem_flatten] at hs
      obtain ⟨r, hr, hs⟩ := hs
      obtain ⟨l, hl, rfl⟩ := List.mem_map.1 hr
      exact hv l hl s hs

/-- C119. Iterating over a list indexed by file (a defect): it works iff every file has at least two segments, and then gives, for the files in increasing order, the
segments of the file in table order; with a file of a single segment it raises. -/
theorem C119_iteration (rows : List (Seg K)) (hv : ∀ s ∈ rows, s.tbeg ≤ s.tend) :
    ((∀ s ∈ rows, 2 ≤ (rows.filter (fun t => decide (t.file = s.file))).length) → ∃ files : List Str, files.Pairwise (· < ·) ∧
      (∀ f, f ∈ files ↔ ∃ s ∈ rows, s.file.toList = f) ∧
      iterFiles (⟨rows, true⟩ : SegList K) = some (files.map (fun f => ⟨rows.filter (fun s => decide (s.file.toList = f)), false⟩))) ∧
    ((∃ s ∈ rows, (rows.filter (fun t => decide (t.file = s.file))).length = 1) → iterFiles (⟨rows, true⟩ : SegList K) = none) := by
  have hu : ∀ f, f ∈ uniqFileId (⟨rows, true⟩ : SegList K) ↔ ∃ s ∈ rows, s.file.toList = f := by
    intro f
    unfold uniqFileId
    rw [mem_npUnique, List.mem_map]
  have hrows : ∀ s : Seg K, rowsAt (⟨rows, true⟩ : SegList K) s.file.toList = rows.filter (fun t => decide (t.file = s.file)) := by
    intro s
    unfold rowsAt
    dsimp only
    apply List.filter_congr
    intro t _
    unfold indexOf
    rw [if_pos rfl]
    simp [String.toList_inj]
  constructor
  · intro h
    refine ⟨uniqFileId (⟨rows, true⟩ : SegList K), npUnique_sorted _, hu, ?_⟩
    unfold iterFiles
    rw [mapM_eq_some_iff, List.map_map]
    apply List.map_congr_left
    intro f hf
    obtain ⟨s, hs, rfl⟩ := (hu f).1 hf
    unfold getByFile
    have h2 := h s hs
    rw [hrows s, if_neg (by omega), mkSegList, if_pos (validate_of_mem (valid_iff.2 hv) (fun t ht => (List.mem_filter.1 ht).1)), ← hrows s]
    rfl
  · rintro ⟨s, hs, h⟩
    unfold iterFiles
    rw [mapM_eq_none_iff]
    refine ⟨s.file.toList, (hu _).2 ⟨s, hs, rfl⟩, ?_⟩
    unfold getByFile
    rw [hrows s, if_pos (by omega)]

/-- a case: two files with two segments each are iterated; with one segment less the loop raises. -/
example : (iterFiles (⟨[⟨['1'], "b", 0, 1⟩, ⟨['2'], "a", 0, 1⟩, ⟨['3'], "b", 2, 3⟩, ⟨['4'], "a", 1, 2⟩], true⟩ : SegList ℚ)).map (fun l => l.map (fun x => x.rows.map Seg.id)) =
    some [[['2'], ['4']], [['1'], ['3']]] ∧ iterFiles (⟨[⟨['1'], "b", 0, 1⟩, ⟨['2'], "a", 0, 1⟩, ⟨['4'], "a", 1, 2⟩], true⟩ : SegList ℚ) = none := by decide +kernel

/-- C119. Access by position to a list indexed by file (a defect): the position is only compared with the number of files; whatever it is, the result is the file of
the iteration counter. -/
theorem C119_index_ignored (rows : List (Seg K)) (hv : ∀ s ∈ rows, s.tbeg ≤ s.tend) (iterIdx i : Nat) (files : List Str) (hs : files.Pairwise (· < ·))
    (hf : ∀ f, f ∈ files ↔ ∃ s ∈ rows, s.file.toList = f) :
    (files.length ≤ i → getByFileIndex (⟨rows, true⟩ : SegList K) iterIdx i = none) ∧
    (i < files.length → ∀ f, files[iterIdx]? = some f → getByFileIndex (⟨rows, true⟩ : SegList K) iterIdx i =
      if (rows.filter (fun s => decide (s.file.toList = f))).length ≤ 1 then none else some ⟨rows.filter (fun s => decide (s.file.toList = f)), false⟩) := by
  have hu : uniqFileId (⟨rows, true⟩ : SegList K) = files := by
    apply sorted_ext (npUnique_sorted _) hs
    intro f
    rw [mem_npUnique, List.mem_map, hf]
  unfold getByFileIndex
  rw [hu]
  constructor
  · intro h
    rw [if_neg (by omega)]
  · intro h f hfi
    rw [if_pos h, hfi, Option.bind_some]
    unfold getByFile
    have hr : rowsAt (⟨rows, true⟩ : SegList K) f = rows.filter (fun s => decide (s.file.toList = f)) := rfl
    rw [hr, mkSegList, if_pos (validate_of_mem (valid_iff.2 hv) (fun t ht => (List.mem_filter.1 ht).1))]

/-- a case: with the counter at 0, position 1 gives the first file. -/
example : getByFileIndex (⟨[⟨['1'], "b", 0, 1⟩, ⟨['2'], "a", 0, 1⟩, ⟨['3'], "b", 2, 3⟩, ⟨['4'], "a", 1, 2⟩], true⟩ : SegList ℚ) 0 1 =
    some ⟨[⟨['2'], "a", 0, 1⟩, ⟨['4'], "a", 1, 2⟩], false⟩ := by decide +kernel

/-! ### C120 -/

theorem toBinVad_congr {rows rows' : List (Seg K)} {key : String} (h : rows.filter (fun s => decide (s.file = key)) = rows'.filter (fun s => decide (s.file = key)))
    (shift : K) (n : Option Nat) : toBinVad rows key shift n = toBinVad rows' key shift n := by
  unfold toBinVad
  rw [h]

theorem toBinVad_some (rows : List (Seg K)) (key : String) (shift : K) (n : Nat) (h : ∃ s ∈ rows, s.file = key) : (toBinVad rows key shift (some n)).isSome := by
  unfold toBinVad
  dsimp only
  obtain ⟨s, hs, he⟩ := h
  have hne : rows.filter (fun s => decide (s.file = key)) ≠ [] := List.ne_nil_of_mem (List.mem_filter.2 ⟨hs, by simpa using he⟩)
  rw [List.getLast?_eq_some_getLast hne]
  dsimp only
  rw [if_neg (by omega)]; rfl

theorem numFramesOf_nodup {tb : List (String × Nat)} (hn : (tb.map Prod.fst).Nodup) {f : String} {n : Nat} (h : (f, n) ∈ tb) : numFramesOf tb f = some n := by
  have : tb.filter (fun p => decide (p.1 = f)) = [(f, n)] := by
    induction tb with
    | nil => cases h
    | cons b tb ih =>
      rw [List.map_cons, List.nodup_cons] at hn
      rw [List.filter_cons]
      rcases List.mem_cons.1 h with e | e
      · subst e
        rw [if_pos (by simp)]
        congr 1
        rw [List.filter_eq_nil_iff]
        intro p hp he
        simp only [decide_eq_true_eq] at he
        exact hn.1 (List.mem_map.2 ⟨p, hp, he⟩)
      · rw [if_neg]
        · exact ih hn.2 e
        · simp only [decide_eq_true_eq]
          intro he
          exact hn.1 (List.mem_map.2 ⟨_, e, he.symm⟩)
  unfold numFramesOf
  rw [this]

/-- the files of a table in increasing order. -/
def Files (rows : List (Seg K)) (files : List String) : Prop := files.Pairwise (fun a b => a.toList < b.toList) ∧ ∀ f, f ∈ files ↔ ∃ s ∈ rows, s.file = f

theorem uniq_eq {rows : List (Seg K)} {b : Bool} {files : List String} (h : Files rows files) : uniqFileId (⟨rows, b⟩ : SegList K) = files.map String.toList := by
  apply sorted_ext (npUnique_sorted _)
  · rw [List.pairwise_map]; exact h.1
  · intro f
    rw [mem_npUnique, List.mem_map, List.mem_map]
    constructor
    · rintro ⟨s, hs, rfl⟩
      exact ⟨s.file, (h.2 _).2 ⟨s, hs, rfl⟩, rfl⟩
    · rintro ⟨g, hg, rfl⟩
      obtain ⟨s, hs, rfl⟩ := (h.2 _).1 hg
      exact ⟨s, hs, rfl⟩

theorem files_exists (rows : List (Seg K)) : ∃ files, Files rows files := by
  refine ⟨(uniqFileId (⟨rows, true⟩ : SegList K)).map String.ofList, ?_, ?_⟩
  · rw [List.pairwise_map]
    simp only [String.toList_ofList]
    exact npUnique_sorted _
  · intro f
    rw [List.mem_map]
    constructor
    · rintro ⟨g, hg, rfl⟩
      unfold uniqFileId at hg
      rw [mem_npUnique, List.mem_map] at hg
      obtain ⟨s, hs, rfl⟩ := hg
      exact ⟨s, hs, by simp⟩
    · rintro ⟨s, hs, rfl⟩
      refine ⟨s.file.toList, ?_, by simp⟩
      unfold uniqFileId
      rw [mem_npUnique]
      exact List.mem_map.2 ⟨s, hs, rfl⟩

/-- C120. The script for segment files, run as one job with a listing that gives every file of the segments its number of frames: one record per file, in increasing
order of the names, with the requested length, in which frame `t` is 1 iff a segment of the file covers it (rounded start ≤ t ≤ rounded end). -/
theorem C120_segments_script (rows : List (Seg K)) (hv : ∀ s ∈ rows, s.tbeg ≤ s.tend) (h0 : ∀ s ∈ rows, 0 ≤ s.tbeg) (tb : List (String × Nat))
    (hn : (tb.map Prod.fst).Nodup) (hc : ∀ s ∈ rows, s.file ∈ tb.map Prod.fst) {shift : K} (hs : 0 < shift) (partIdx : Nat) :
    ∃ out, segmentsToBinVad ⟨rows, true⟩ (some tb) shift partIdx 1 = some out ∧
      (out.map Prod.fst).Pairwise (fun a b => a.toList < b.toList) ∧ (∀ f, f ∈ out.map Prod.fst ↔ ∃ s ∈ rows, s.file = f) ∧
      ∀ r ∈ out, (r.1, r.2.length) ∈ tb ∧ ∀ t < r.2.length, r.2[t]? =
        some (if ∃ s ∈ rows, s.file = r.1 ∧ roundEven (s.tbeg * 1000 / shift) ≤ t ∧ (t : Int) ≤ roundEven (s.tend * 1000 / shift) then 1 else 0) := by
  obtain ⟨files, hfiles⟩ := files_exists rows
  have hex : ∀ f : String, ∃ v : List Nat, f ∈ files → vadRecord (⟨rows, true⟩ : SegList K) (some tb) shift f.toList = some (f, v) ∧ (f, v.length) ∈ tb ∧
      ∀ t < v.length, v[t]? =
        some (if ∃ s ∈ rows, s.file = f ∧ roundEven (s.tbeg * 1000 / shift) ≤ t ∧ (t : Int) ≤ roundEven (s.tend * 1000 / shift) then 1 else 0) := by
    intro f
    by_cases hf : f ∈ files
    · obtain ⟨s, hsr, he⟩ := (hfiles.2 f).1 hf
      have := hc s hsr
      rw [he] at this
      obtain ⟨⟨f', n⟩, hp, e⟩ := List.mem_map.1 this
      dsimp only at e
      subst e
      obtain ⟨v, e1, e2, e3⟩ := C51_bin_vad rows f' hs n ⟨s, hsr, he⟩ h0 (valid_iff.2 hv)
      refine ⟨v, fun _ => ⟨?_, by rw [e2]; exact hp, by rw [e2]; exact e3⟩⟩
      unfold vadRecord
      rw [Option.bind_some, String.ofList_toList, numFramesOf_nodup hn hp, Option.bind_some, e1]
      rfl
    · exact ⟨[], fun h => absurd h hf⟩
  choose v hv' using hex
  refine ⟨files.map (fun f => (f, v f)), ?_, ?_, ?_, ?_⟩
  · unfold segmentsToBinVad vadPart
    rw [if_neg (by omega), Option.bind_some, uniq_eq hfiles, mapM_eq_some_iff, List.map_map, List.map_map]
    apply List.map_congr_left
    intro f hf
    exact (hv' f hf).1
  · rw [List.map_map]
    show (files.map id).Pairwise _
    rw [List.map_id]; exact hfiles.1
  · intro f
    rw [List.map_map]
    show f ∈ files.map id ↔ _
    rw [List.map_id]; exact hfiles.2 f
  · intro r hr
    obtain ⟨f, hf, rfl⟩ := List.mem_map.1 hr
    exact (hv' f hf).2

/-- C120. The parts of a parallel run: if the single job succeeds, so do the P parts, and the records of the parts, one after the other, are those of the single job. -/
theorem C120_parts (rows : List (Seg K)) (hv : ∀ s ∈ rows, s.tbeg ≤ s.tend) (table : Option (List (String × Nat))) (shift : K) (P i : Nat) (hP : 1 ≤ P)
    (out : List (String × List Nat)) (h : segmentsToBinVad ⟨rows, true⟩ table shift i 1 = some out) :
    ∃ outs, (List.range' 1 P).mapM (fun idx : Nat => segmentsToBinVad ⟨rows, true⟩ table shift idx P) = some outs ∧ outs.flatten = out := by
  rcases Nat.lt_or_ge 1 P with hP1 | hP1
  · have hin : ∀ k ∈ uniqFileId (⟨rows, true⟩ : SegList K), ∃ s ∈ rows, indexOf true s = k := by
      intro k hk
      unfold uniqFileId at hk
      rw [mem_npUnique, List.mem_map] at hk
      obtain ⟨s, a, b⟩ := hk
      exact ⟨s, a, b⟩
    obtain ⟨ks, hf, e⟩ := split_parts (l := ⟨rows, true⟩) _ rfl hv hin P hP
    have hf' : ks.flatten = uniqFileId (⟨rows, true⟩ : SegList K) := hf
    unfold segmentsToBinVad vadPart at h ⊢
    rw [if_neg (by omega), Option.bind_some, ← hf', mapM_eq_some_iff] at h
    have hsort : ks.flatten.Pairwise (· < ·) := by rw [hf']; exact npUnique_sorted _
    have huq : ∀ k ∈ ks, uniqFileId (⟨groups (indexOf true) rows k, true⟩ : SegList K) = k := by
      intro k hk
      apply sorted_ext (npUnique_sorted _) ((List.pairwise_flatten.1 hsort).1 k hk)
      intro f
      rw [mem_npUnique, List.mem_map]
      constructor
      · rintro ⟨s, hs, rfl⟩
        exact (mem_groups.1 hs).2
      · intro hfk
        obtain ⟨s, hs, rfl⟩ := hin f (by rw [← hf']; exact List.mem_flatten.2 ⟨k, hk, hfk⟩)
        exact ⟨s, mem_groups.2 ⟨hs, hfk⟩, rfl⟩
    have hrec : ∀ k ∈ ks, ∀ f ∈ k, vadRecord (⟨groups (indexOf true) rows k, true⟩ : SegList K) table shift f = vadRecord (⟨rows, true⟩ : SegList K) table shift f := by
      intro k hk f hfk
      unfold vadRecord
      have hnd : k.Nodup := ((List.pairwise_flatten.1 hsort).1 k hk).imp (fun h => ne_of_lt h)
      have := filter_groups (key := indexOf (K := K) true) (rows := rows) hnd f
      rw [if_pos hfk] at this
      have hcv : ∀ (l : List (Seg K)), l.filter (fun s => decide (indexOf true s = f)) = l.filter (fun s => decide (s.file = String.ofList f)) := by
        intro l
        apply List.filter_congr
        intro s _
        unfold indexOf
        rw [if_pos rfl]
        simp only [decide_eq_decide]
        constructor
        · rintro rfl; simp
        · intro h; rw [h]; simp
      rw [hcv, hcv] at this
      congr 1
      funext tb
      congr 1
      funext n
      rw [toBinVad_congr this]
    have key : ∀ (ks' : List (List Str)) (out : List (String × List Nat)),
        ks'.flatten.map (fun f => vadRecord (⟨rows, true⟩ : SegList K) table shift f) = out.map some →
        ∃ outs : List (List (String × List Nat)), ks'.map (fun k => k.mapM (fun f : Str => vadRecord (⟨rows, true⟩ : SegList K) table shift f)) = outs.map some ∧ outs.flatten = out := by
      intro ks'
      induction ks' with
      | nil =>
        intro out h
        simp at h
        exact ⟨[], rfl, by simpa using h⟩
      | cons k ks' ih =>
        intro out h
        rw [List.flatten_cons, List.map_append] at h
        obtain ⟨o1, o2, rfl, h1, h2⟩ := List.map_eq_append_iff.1 h.symm
        obtain ⟨outs, e1, e2⟩ := ih o2 h2.symm
        refine ⟨o1 :: outs, ?_, by rw [List.flatten_cons, e2]⟩
        rw [List.map_cons, List.map_cons, e1, mapM_eq_some_iff.2 h1.symm]
    obtain ⟨outs, e1, e2⟩ := key ks out h
    refine ⟨outs, ?_, e2⟩
    rw [mapM_eq_some_iff] at e ⊢
    rw [← e1]
    have step : ∀ idx ∈ List.range' 1 P, (Option.bind (if P > 1 then segSplit (⟨rows, true⟩ : SegList K) idx P else some ⟨rows, true⟩)
        (fun p => (uniqFileId p).mapM (fun f : Str => vadRecord p table shift f))) =
        (segSplit (⟨rows, true⟩ : SegList K) idx P).bind (fun p => (uniqFileId p).mapM (fun f : Str => vadRecord p table shift f)) := by
      intro idx _
      rw [if_pos hP1]
    rw [List.map_congr_left step]
    rw [show (List.range' 1 P).map (fun idx => (segSplit (⟨rows, true⟩ : SegList K) idx P).bind (fun p => (uniqFileId p).mapM (fun f : Str => vadRecord p table shift f))) =
      ((List.range' 1 P).map (fun idx => segSplit (⟨rows, true⟩ : SegList K) idx P)).map (fun o => o.bind (fun p => (uniqFileId p).mapM (fun f : Str => vadRecord p table shift f))) by
        rw [List.map_map]; rfl, e, List.map_map, List.map_map]
    apply List.map_congr_left
    intro k hk
    simp only [Function.comp, Option.bind_some]
    rw [huq k hk]
    exact Hyp.H5.mapM_congr' (fun f hf => hrec k hk f hf)
  · have : P = 1 := by omega
    subst this
    refine ⟨[out], ?_, by simp⟩
    have h1 : segmentsToBinVad ⟨rows, true⟩ table shift 1 1 = some out := by
      unfold segmentsToBinVad vadPart at h ⊢
      rw [if_neg (by omega)] at h ⊢
      exact h
    rw [mapM_eq_some_iff]
    simp [h1]

/-- C120 (a defect): the listing of the numbers of frames is optional on the command line, but without it every run with at least one file raises. -/
theorem C120_num_frames_needed (rows : List (Seg K)) (hne : rows ≠ []) (shift : K) (i : Nat) : segmentsToBinVad ⟨rows, true⟩ none shift i 1 = none := by
  unfold segmentsToBinVad vadPart
  rw [if_neg (by omega), Option.bind_some, mapM_eq_none_iff]
  obtain ⟨s, hs⟩ := List.exists_mem_of_ne_nil _ hne
  refine ⟨s.file.toList, ?_, rfl⟩
  unfold uniqFileId
  rw [mem_npUnique]
  exact List.mem_map.2 ⟨s, hs, rfl⟩

/-- C120. A file that the listing does not have, or has twice, makes the script raise. -/
theorem C120_bad_listing (rows : List (Seg K)) (s : Seg K) (hs : s ∈ rows) (tb : List (String × Nat)) (h : (tb.filter (fun p => decide (p.1 = s.file))).length ≠ 1) (shift : K)
    (i : Nat) : segmentsToBinVad ⟨rows, true⟩ (some tb) shift i 1 = none := by
  unfold segmentsToBinVad vadPart
  rw [if_neg (by omega), Option.bind_some, mapM_eq_none_iff]
  refine ⟨s.file.toList, ?_, ?_⟩
  · unfold uniqFileId
    rw [mem_npUnique]
    exact List.mem_map.2 ⟨s, hs, rfl⟩
  · have : numFramesOf tb s.file = none := by
      unfold numFramesOf
      split
      · rename_i p hp
        rw [hp] at h; simp at h
      · rfl
    unfold vadRecord
    rw [Option.bind_some, String.ofList_toList, this]
    rfl

/-- C120. The script for diarisations, with a listing without repetitions that has every file of the diarisation: part 1 writes, after its share of the files, one all-ones
record for every file of the listing that the whole diarisation does not have, in listing order; the other parts write their share only. -/
theorem C120_rttm_script (rows : List (Row K)) (hd : ∀ r ∈ rows, 0 ≤ r.tdur) (tb : List (String × Nat)) (hn : (tb.map Prod.fst).Nodup) (shift : K) (i P : Nat) :
    ∃ segs, toSegmentList rows = some segs ∧
    rttmToBinVad rows (some tb) shift i P = (segmentsToBinVad ⟨segs, true⟩ (some tb) shift i P).map (fun a => a ++
      if i = 1 then (tb.filter (fun p => decide (∀ r ∈ rows, r.file ≠ p.1))).map (fun p => (p.1, List.replicate p.2 1)) else []) := by
  have hsome : toSegmentList rows ≠ none := by
    rw [ne_eq, (C58_to_segment_list rows).1]
    rintro ⟨r, hr, h⟩
    exact absurd (hd r hr) (not_le.2 h)
  obtain ⟨segs, e⟩ := Option.ne_none_iff_exists'.1 hsome
  refine ⟨segs, e, ?_⟩
  have hmap := ((C58_to_segment_list rows).2 segs e).1
  have hval : segValidate segs = true := by
    unfold toSegmentList at e
    dsimp only at e
    split at e
    · rename_i h
      simp only [Option.some.injEq] at e
      rw [← e]; exact h
    · simp at e
  have hfiles : ∀ f, (∃ s ∈ segs, s.file = f) ↔ ∃ r ∈ rows, r.file = f := by
    intro f
    have h1 := congrArg (List.map (fun p : String × K × K => p.1)) hmap
    rw [List.map_map, List.map_map] at h1
    have h2 : f ∈ segs.map (fun s => s.file) ↔ f ∈ rows.map (fun r => r.file) := by
      have h1' : segs.map (fun s => s.file) = rows.map (fun r => r.file) := h1
      rw [h1']
    simpa [List.mem_map] using h2
  have hno : noSpeechRecords (⟨segs, true⟩ : SegList K) (some tb) i = some (if i = 1 then
      (tb.filter (fun p => decide (∀ r ∈ rows, r.file ≠ p.1))).map (fun p => (p.1, List.replicate p.2 1)) else []) := by
    unfold noSpeechRecords
    by_cases hi : i = 1
    · rw [if_pos hi, if_pos hi, Option.bind_some]
      have hfil : tb.filter (fun p => decide (p.1.toList ∉ uniqFileId (⟨segs, true⟩ : SegList K))) = tb.filter (fun p => decide (∀ r ∈ rows, r.file ≠ p.1)) := by
        apply List.filter_congr
        intro p _
        rw [decide_eq_decide]
        have : p.1.toList ∈ uniqFileId (⟨segs, true⟩ : SegList K) ↔ ∃ s ∈ segs, s.file = p.1 := by
          unfold uniqFileId
          rw [mem_npUnique, List.mem_map]
          simp [String.toList_inj]
        rw [this, hfiles]
        push Not
        rfl
      rw [hfil, mapM_eq_some_iff, List.map_map]
      apply List.map_congr_left
      intro p hp
      rw [numFramesOf_nodup hn (n := p.2) (List.mem_filter.1 hp).1]
      rfl
    · rw [if_neg hi, if_neg hi]
  unfold rttmToBinVad
  rw [e, Option.bind_some, mkSegList, if_pos hval, Option.bind_some, hno]
  cases segmentsToBinVad (⟨segs, true⟩ : SegList K) (some tb) shift i P <;> rfl

/-- C120 (a defect): without the listing part 1 of the diarisation script always raises, even for an empty diarisation. -/
theorem C120_rttm_num_frames_needed (rows : List (Row K)) (shift : K) (P : Nat) : rttmToBinVad rows none shift 1 P = none := by
  unfold rttmToBinVad
  cases (toSegmentList rows).bind (fun segs => mkSegList segs true) with
  | none => rfl
  | some l =>
    rw [Option.bind_some]
    have : noSpeechRecords l none 1 = none := rfl
    rw [this]
    cases segmentsToBinVad l none shift 1 P <;> rfl

/-- a case: two jobs over three files; `c` has no speech. -/
example : rttmToBinVad [⟨"SPEAKER", "b", "x", 1, 1⟩, ⟨"SPEAKER", "a", "x", 0, 1⟩, ⟨"SPEAKER", "b", "y", 3, 0⟩] (some [("c", 2), ("a", 3), ("b", 4)]) (1000 : ℚ) 1 2 =
      some [("a", [1, 1, 0]), ("c", [1, 1])] ∧
    rttmToBinVad [⟨"SPEAKER", "b", "x", 1, 1⟩, ⟨"SPEAKER", "a", "x", 0, 1⟩, ⟨"SPEAKER", "b", "y", 3, 0⟩] (some [("c", 2), ("a", 3), ("b", 4)]) (1000 : ℚ) 2 2 =
      some [("b", [0, 1, 1, 1])] := by decide +kernel

end Hyp.Segments
