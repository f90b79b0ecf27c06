import Verif.Segments.RttmProps
import Verif.Segments.SegmentListProps
import Verif.Segments.ExtSegProps
import Verif.Utt2Info.Props
import Verif.Trials.TxtFile
import Verif.Torch.CosProps
import Verif.Transforms.UpProps
import Verif.Cli.FeatsProps

/-!
Theorems added because an edited model survived: durations in a table indexed by row, activity detection by segment, sorting and splitting by any
column, short lines in trial files, cosine schedule in the first epoch, shapes of uncertainty transforms, defaults of the feature classes.
-/

namespace Hyp.Segments

open Hyp.Text

variable {K : Type} [Field K] [LinearOrder K] [IsStrictOrderedRing K]

/-- C57: with a table indexed by row number the other durations are right: a row that overlaps the row before runs from the middle of the overlap to
its old end, and a row without overlaps keeps its duration -/
theorem C57_by_row_rest (p : Option (Row K)) (r : Row K) (n : Option (Row K)) :
    (∀ x, p = some x → r.file = x.file → r.stype = x.stype → r.tbeg < x.tbeg + x.tdur →
      elimDurByRow p r n = some (r.tbeg + r.tdur - (r.tbeg + (x.tbeg + x.tdur)) / 2)) ∧
    ((∀ x, p = some x → ¬ (r.file = x.file ∧ r.stype = x.stype ∧ r.tbeg < x.tbeg + x.tdur)) →
      (∀ x, n = some x → ¬ (x.file = r.file ∧ x.stype = r.stype ∧ x.tbeg < r.tbeg + r.tdur)) → elimDurByRow p r n = some r.tdur) := by
  have hiff : ∀ a b : Row K, overlapsPrev a b = true ↔ b.file = a.file ∧ b.stype = a.stype ∧ b.tbeg < a.tbeg + a.tdur := fun a b => overlapsPrev_iff
  constructor
  · rintro x rfl h1 h2 h3
    have : (some x).filter (fun p => overlapsPrev p r) = some x := by simp [Option.filter, (hiff x r).2 ⟨h1, h2, h3⟩]
    unfold elimDurByRow
    rw [this]; rfl
  · intro h1 h2
    have e1 : p.filter (fun p => overlapsPrev p r) = none := filter_none fun x hx => by
      cases h : overlapsPrev x r with
      | false => rfl
      | true => exact absurd ((hiff x r).1 h) (h1 x hx)
    have e2 : n.filter (fun n => overlapsPrev r n) = none := filter_none fun x hx => by
      cases h : overlapsPrev r x with
      | false => rfl
      | true => exact absurd ((hiff r x).1 h) (h2 x hx)
    unfold elimDurByRow
    rw [e1, e2]

example : elimDurByRow (some ⟨"SPEAKER", "f", "a", 0, 4⟩) (⟨"SPEAKER", "f", "b", 2, 4⟩ : Row ℚ) none = some 3 := by
  have := (C57_by_row_rest (some ⟨"SPEAKER", "f", "a", 0, 4⟩) (⟨"SPEAKER", "f", "b", 2, 4⟩ : Row ℚ) none).1 _ rfl rfl rfl (by norm_num)
  rw [this]; norm_num

variable [FloorRing K]

/-- C51: indexed by segment, with the number of frames given: the frames of the segment (both ends included) are 1, the others 0; an unknown
segment raises -/
theorem C51_by_segment (segs : List (Seg K)) (key : Str) {shift : K} (hs : 0 < shift) (n : Nat) (h0 : ∀ s ∈ segs, 0 ≤ s.tbeg) (hv : segValidate segs = true) :
    ((∃ s ∈ segs, s.id = key) → ∃ vad, toBinVadBySegment segs key shift (some n) = some vad ∧ vad.length = n ∧
      ∀ t < n, vad[t]? = some (if ∃ s ∈ segs, s.id = key ∧ roundEven (s.tbeg * 1000 / shift) ≤ t ∧ (t : Int) ≤ roundEven (s.tend * 1000 / shift) then 1 else 0)) ∧
    ((∀ s ∈ segs, s.id ≠ key) → toBinVadBySegment segs key shift (some n) = none) := by
  generalize hr : segs.filter (fun s => decide (s.id = key)) = rows
  have hmem : ∀ s, s ∈ rows ↔ s ∈ segs ∧ s.id = key := by intro s; rw [← hr, List.mem_filter]; simp
  have hu0 : rows = [] → toBinVadBySegment segs key shift (some n) = none := by
    intro h
    unfold toBinVadBySegment
    dsimp only
    rw [hr, h]
  have hu : rows ≠ [] → toBinVadBySegment segs key shift (some n) =
      some (rows.foldl (fun v s => setOnes v (toFrame shift s.tbeg) (min ((n : Int) - 1) (toFrame shift s.tend) + 1)) (List.replicate n 0)) := by
    intro h
    obtain ⟨a, l, e⟩ := List.exists_cons_of_ne_nil h
    unfold toBinVadBySegment
    dsimp only
    rw [hr, e]
  constructor
  · rintro ⟨s, h1, h2⟩
    rw [hu (List.ne_nil_of_mem ((hmem s).2 ⟨h1, h2⟩))]
    refine ⟨_, rfl, by rw [foldl_setOnes_length]; simp, fun t ht => ?_⟩
    have hnn : ∀ s ∈ rows, 0 ≤ toFrame shift s.tbeg ∧ 0 ≤ toFrame shift s.tend := by
      intro s hs'
      have hm := ((hmem s).1 hs').1
      have h1 := h0 s hm
      have h2 : 0 ≤ s.tend - s.tbeg := by
        unfold segValidate at hv
        rw [List.all_eq_true] at hv
        simpa using hv s hm
      exact ⟨toFrame_nonneg hs h1, toFrame_nonneg hs (by linarith)⟩
    rw [(fold_setOnes (List.replicate n 0) (by simp) hnn (by omega) t ht).2]
    by_cases h : ∃ s ∈ rows, toFrame shift s.tbeg ≤ t ∧ (t : Int) ≤ toFrame shift s.tend
    · rw [if_pos h, if_pos]
      obtain ⟨s, hs', h1⟩ := h
      exact ⟨s, ((hmem s).1 hs').1, ((hmem s).1 hs').2, h1⟩
    · rw [if_neg h, if_neg, List.getElem?_replicate, if_pos ht]
      rintro ⟨s, a, b, c⟩
      exact h ⟨s, (hmem s).2 ⟨a, b⟩, c⟩
  · intro h
    have : rows = [] := List.eq_nil_iff_forall_not_mem.2 fun s hs' => h s ((hmem s).1 hs').1 ((hmem s).1 hs').2
    exact hu0 this

theorem foldlM_none {α β : Type} (f : β → α → Option β) (l : List α) (h : ∃ a ∈ l, ∀ b, f b a = none) (b : β) : l.foldlM f b = none := by
  induction l generalizing b with
  | nil => obtain ⟨_, h, _⟩ := h; cases h
  | cons x l ih =>
    rw [List.foldlM_cons]
    obtain ⟨a, ha, hf⟩ := h
    rcases List.mem_cons.1 ha with rfl | ha
    · rw [hf]; rfl
    · cases f b x with
      | none => rfl
      | some c => exact ih ⟨a, ha, hf⟩ c

theorem joinExt_length (segs : List XSeg) (exts : XTable) (hn : (exts.map Prod.fst).Nodup) (h : ∃ s ∈ segs, s.ext ∉ exts.map Prod.fst) :
    (joinExt segs exts).length < segs.length := by
  have hle : ∀ s : XSeg, (exts.filter (fun e => decide (e.1 = s.ext))).length ≤ 1 := by
    intro s
    clear h
    induction exts with
    | nil => simp
    | cons e l ih =>
      rw [List.map_cons, List.nodup_cons] at hn
      rw [List.filter_cons]
      split
      · rename_i he
        have he' : e.1 = s.ext := by simpa using he
        have : l.filter (fun e => decide (e.1 = s.ext)) = [] := by
          rw [List.filter_eq_nil_iff]
          intro x hx hxe
          refine hn.1 (List.mem_map.2 ⟨x, hx, ?_⟩)
          rw [he']; simpa using hxe
        rw [this]; simp
      · exact ih hn.2
  have hz : ∀ s : XSeg, s.ext ∉ exts.map Prod.fst → (exts.filter (fun e => decide (e.1 = s.ext))) = [] := by
    intro s hs
    rw [List.filter_eq_nil_iff]
    intro x hx hxe
    exact hs (List.mem_map.2 ⟨x, hx, by simpa using hxe⟩)
  have hall : ∀ l : List XSeg, (joinExt l exts).length ≤ l.length := by
    intro l
    induction l with
    | nil => simp [joinExt]
    | cons s l ih =>
      unfold joinExt at ih ⊢
      rw [List.flatMap_cons, List.length_append, List.length_map, List.length_cons]
      have := hle s
      omega
  induction segs with
  | nil => obtain ⟨_, h, _⟩ := h; cases h
  | cons s l ih =>
    have e : (joinExt (s :: l) exts).length = (exts.filter (fun e => decide (e.1 = s.ext))).length + (joinExt l exts).length := by
      unfold joinExt
      rw [List.flatMap_cons, List.length_append, List.length_map]
    rw [e, List.length_cons]
    have h1 := hle s
    have h2 := hall l
    obtain ⟨x, hx, hxe⟩ := h
    rcases List.mem_cons.1 hx with rfl | hx
    · rw [hz _ hxe]; simp; omega
    · have := ih ⟨x, hx, hxe⟩; omega

/-- C50: a segment whose extended segment is not in the table makes the merging raise -/
theorem C50_unknown_raises (segs : List XSeg) (exts : XTable) (maxSegments : Nat) (hn : (exts.map Prod.fst).Nodup)
    (h : ∃ s ∈ segs, s.ext ∉ exts.map Prod.fst) : mergeExt segs exts maxSegments = none := by
  have hlen := joinExt_length segs exts hn h
  unfold mergeExt
  dsimp only
  by_cases h2 : 2 ≤ segs.length
  · rw [foldlM_none]
    refine ⟨max 1 (joinExt segs exts).length, List.mem_range'_1.2 ⟨by omega, by omega⟩, fun st => ?_⟩
    have hf : linkFlag (joinExt segs exts) (max 1 (joinExt segs exts).length) = none := by
      unfold linkFlag
      have : (joinExt segs exts)[max 1 (joinExt segs exts).length]? = none := List.getElem?_eq_none_iff.2 (by omega)
      rw [this]
      split
      · rename_i h'; cases h'
      · rfl
    unfold rangeStep
    dsimp only
    rw [if_neg (by omega), hf]
  · obtain ⟨x, hx, hxe⟩ := h
    match segs, hx, h2 with
    | [s], hx, _ =>
      obtain rfl := List.mem_singleton.1 hx
      have hd : dictGet exts x.ext = none := by
        cases hg : dictGet exts x.ext with
        | none => rfl
        | some v =>
          exfalso
          apply hxe
          clear hlen hn hxe
          induction exts with
          | nil => cases hg
          | cons e l ih =>
            unfold dictGet at hg
            split at hg
            · rename_i he; exact List.mem_map.2 ⟨e, by simp, by simpa using he⟩
            · rw [List.map_cons]; exact List.mem_cons_of_mem _ (ih hg)
      have e1 : List.range' 1 [x].length = [1] := rfl
      rw [e1]
      simp only [List.foldlM_cons, List.foldlM_nil]
      unfold rangeStep
      simp [applyGroup, hd]
    | _ :: _ :: _, _, h2 => exact absurd (by simp) h2
    | [], hx, _ => cases hx

example : ∃ s ∈ [(⟨['a'], "f", ['1']⟩ : XSeg), ⟨['b'], "f", ['2']⟩], s.ext ∉ ([(['1'], some "x")] : XTable).map Prod.fst := by decide

end Hyp.Segments

namespace Hyp.Text

/-- C11: the characters that separate words in the text formats, the 29 of Python -/
theorem C11_white_space (c : Char) : isSpace c = true ↔ c.toNat ∈ [0x09, 0x0A, 0x0B, 0x0C, 0x0D, 0x1C, 0x1D, 0x1E, 0x1F, 0x20, 0x85, 0xA0, 0x1680, 0x2000, 0x2001,
    0x2002, 0x2003, 0x2004, 0x2005, 0x2006, 0x2007, 0x2008, 0x2009, 0x200A, 0x2028, 0x2029, 0x202F, 0x205F, 0x3000] := by
  unfold isSpace
  simp only [Bool.or_eq_true, Bool.and_eq_true, decide_eq_true_eq, beq_iff_eq, List.mem_cons, List.not_mem_nil, or_false]
  omega

end Hyp.Text

namespace Hyp.Trials

open Hyp.Text

/-- C11: a line of a trial list with fewer than two words makes `load` raise, and so does a line of a score file with fewer than three words
or whose third word is not a number -/
theorem C11_short_line (content l : Str) (hl : l ∈ fileLines content) :
    ((splitWs l).length < 2 → Ndx.loadTxt content = none) ∧ ((splitWs l).length < 3 → Scores.loadTxt content = none) ∧
    (∀ a b c w, splitWs l = a :: b :: c :: w → parseF c = none → Scores.loadTxt content = none) := by
  refine ⟨fun h => ?_, fun h => ?_, fun a b c w hw hc => ?_⟩
  · have : ndxParse content = none := by
      unfold ndxParse
      rw [mapM_eq_none_iff]
      refine ⟨l, hl, ?_⟩
      match hs : splitWs l, h with
      | [], _ => rfl
      | [_], _ => rfl
      | _ :: _ :: _, h => simp at h
    unfold Ndx.loadTxt; rw [this]; rfl
  · have : scoreParse content = none := by
      unfold scoreParse
      rw [mapM_eq_none_iff]
      refine ⟨l, hl, ?_⟩
      match hs : splitWs l, h with
      | [], _ => rfl
      | [_], _ => rfl
      | [_, _], _ => rfl
      | _ :: _ :: _ :: _, h => simp at h; omega
    unfold Scores.loadTxt; rw [this]; rfl
  · have : scoreParse content = none := by
      unfold scoreParse
      rw [mapM_eq_none_iff]
      refine ⟨l, hl, ?_⟩
      rw [hw]
      dsimp only
      rw [hc]; rfl
    unfold Scores.loadTxt; rw [this]; rfl

example : ∃ l ∈ fileLines "m s\nm\n".toList, (splitWs l).length < 2 := by decide

end Hyp.Trials

namespace Hyp.Transforms

/-- C139: a projection to another number of dimensions (other than one) makes the propagation of variances raise, if there is a row at all -/
theorem C139_shape (n : Nat) (mu : Vec n) (T : List (Vec n)) (x : List (URow n)) (hx : x ≠ []) (h1 : T.length ≠ n) (h2 : T.length ≠ 1) :
    cwUpPredict mu T x = none := by
  obtain ⟨r, l, rfl⟩ := List.exists_cons_of_ne_nil hx
  have hl : (upVar T r.2).length = T.length := by unfold upVar; simp
  have : assignRow n (upVar T r.2) = none := by
    generalize upVar T r.2 = v at hl
    unfold assignRow
    have hv : ¬ v.length = n := by omega
    rw [dif_neg hv]
    match v, hl with
    | [], _ => rfl
    | [a], hl => exact absurd hl.symm h2
    | _ :: _ :: _, _ => rfl
  unfold cwUpPredict
  rw [List.mapM_cons, this]
  rfl

end Hyp.Transforms

namespace Hyp.U2I

open Hyp.ListUtils

/-- C52: sorting by the labels (field 0) or by column `j` (field `j + 1`): the rows are the same ones, ordered by the labels or by that column -/
theorem C52_sort_fields (t : Tab) (hi : Inv t) {perm : List Nat} :
    (IsArgsort (t.rows.map Prod.fst) perm → ∃ t', sort t 0 perm = some t' ∧ t'.rows.Perm t.rows ∧ (t'.rows.map Prod.fst).Pairwise (· ≤ ·)) ∧
    (∀ j, (∀ r ∈ t.rows, j < r.2.length) → IsArgsort (t.rows.map (fun r => r.2.getD j "")) perm →
      ∃ t', sort t (j + 1) perm = some t' ∧ t'.rows.Perm t.rows ∧ (t'.rows.map (fun r => r.2.getD j "")).Pairwise (· ≤ ·)) :=
  ⟨fun h => C52_sort t hi 0 (.inl rfl) h, fun j hj h => C52_sort t hi (j + 1) (.inr hj) h⟩


/-- C52: splitting by the groups of column `j` (field `j + 1`) of a table with any number of columns: the parts contain every row once, and rows with the
same value in that column go to the same part -/
theorem C52_split_field (rows : List Row) (hne : rows ≠ []) (j : Nat) (hj : ∀ r ∈ rows, j < r.2.length) (n : Nat) (hn : 1 ≤ n) :
    ∃ parts : List Tab, (List.range' 1 n).mapM (fun i => split (ofRows rows) i n (j + 1)) = some parts ∧
      (parts.map (fun t => t.rows)).flatten.Perm rows ∧
      ∀ t ∈ parts, ∀ p ∈ rows, ∀ q ∈ rows, p.2[j]? = q.2[j]? → p ∈ t.rows → q ∈ t.rows := by
  generalize hc : rows.map (fun r => r.2.getD j "") = col
  have hcol : rows.mapM (fun r : Row => r.2[j]?) = some col := by
    rw [mapM_eq_some_iff, ← hc, List.map_map]
    refine List.map_congr_left fun r hr => ?_
    have := hj r hr
    simp [List.getD_eq_getElem?_getD, List.getElem?_eq_getElem this]
  have hklen : col.length = rows.length := by rw [← hc]; simp
  have hcne : col ≠ [] := by rw [← hc]; simpa using hne
  obtain ⟨parts, h1, h2, h3, h4⟩ := C02_group_split_partition col col rfl hcne n hn
  have hgat : ∀ p ∈ parts, ∃ r, gather rows p.2 = some r := by
    intro p hp
    obtain ⟨r, hr, _⟩ := gather_eq_some (l := rows) (idx := p.2) (by
      intro i hi
      have : i ∈ (parts.map Prod.snd).flatten := List.mem_flatten.2 ⟨p.2, List.mem_map.2 ⟨p, hp, rfl⟩, hi⟩
      have := List.mem_range.1 (h2.mem_iff.1 this)
      omega)
    exact ⟨r, hr⟩
  have hsplit : ∀ i p, splitListGroupByKey col i n col = some p → p ∈ parts →
      ∀ r, gather rows p.2 = some r → split (ofRows rows) i n (j + 1) = some (ofRows r) := by
    intro i p hp _ r hr
    unfold split
    simp only [Nat.succ_ne_zero, if_false, ofRows, Nat.add_sub_cancel, hcol, Option.bind_eq_bind, Option.bind_some, hp, Option.map_some]
    simp only [iloc, gather_map, hr]
    rfl
  refine ⟨parts.map (fun p => ofRows ((gather rows p.2).getD [])), ?_, ?_, ?_⟩
  · rw [mapM_eq_some_iff] at h1 ⊢
    rw [List.map_map]
    apply List.ext_getElem?
    intro j2
    have e1 := congrArg (fun l => l[j2]?) h1
    simp only [List.getElem?_map] at e1 ⊢
    rcases hi : (List.range' 1 n)[j2]? with _ | i
    · rw [hi] at e1
      rcases hr : parts[j2]? with _ | x
      · rfl
      · rw [hr] at e1; simp at e1
    · rw [hi] at e1
      rcases hr : parts[j2]? with _ | x
      · rw [hr] at e1; simp at e1
      · rw [hr] at e1
        simp only [Option.map_some, Option.some.injEq, Function.comp] at e1 ⊢
        obtain ⟨r, hg⟩ := hgat x (List.mem_of_getElem? hr)
        rw [hsplit i x e1 (List.mem_of_getElem? hr) r hg, hg]
        rfl
  · rw [List.map_map]
    have : (parts.map ((fun t => t.rows) ∘ fun p => ofRows ((gather rows p.2).getD []))).flatten = (gather rows (parts.map Prod.snd).flatten).getD [] := by
      clear h1 h2 h3 h4 hsplit
      induction parts with
      | nil => simp [gather]
      | cons p ps ih =>
        obtain ⟨r, hr⟩ := hgat p (by simp)
        have ih' := ih (fun q hq => hgat q (by simp [hq]))
        simp only [List.map_cons, List.flatten_cons, Function.comp, ofRows, hr, Option.getD_some, gather_append] at ih' ⊢
        have hrest : ∃ r', gather rows (ps.map Prod.snd).flatten = some r' := by
          obtain ⟨r', hr', _⟩ := gather_eq_some (l := rows) (idx := (ps.map Prod.snd).flatten) (by
            intro i hi
            obtain ⟨m, hm, him⟩ := List.mem_flatten.1 hi
            obtain ⟨q, hq, rfl⟩ := List.mem_map.1 hm
            obtain ⟨rq, hrq⟩ := hgat q (by simp [hq])
            unfold gather at hrq
            rw [mapM_eq_some_iff] at hrq
            have : rows[i]? ∈ rq.map some := by rw [← hrq]; exact List.mem_map.2 ⟨i, him, rfl⟩
            rcases Option.eq_none_or_eq_some (rows[i]?) with hn | ⟨x, hx⟩
            · rw [hn] at this; simp at this
            · exact (List.getElem?_eq_some_iff.1 hx).1)
          exact ⟨r', hr'⟩
        obtain ⟨r', hr'⟩ := hrest
        rw [hr'] at ih' ⊢
        simp only [Option.getD_some] at ih'
        simp only [ofRows, Function.comp_def] at ih' ⊢
        rw [ih']
        simp
    rw [this]
    have hp : (parts.map Prod.snd).flatten.Perm (List.range rows.length) := by rw [← hklen]; exact h2
    obtain ⟨r, hr, _⟩ := gather_eq_some (l := rows) (idx := (parts.map Prod.snd).flatten) (fun i hi => List.mem_range.1 (hp.mem_iff.1 hi))
    rw [hr]
    exact gather_perm hp hr
  · intro t ht p hp q hq hpq hpt
    obtain ⟨x, hx, rfl⟩ := List.mem_map.1 ht
    obtain ⟨r, hg⟩ := hgat x hx
    rw [hg] at hpt ⊢
    simp only [Option.getD_some, ofRows] at hpt ⊢
    obtain ⟨i, hi, hri⟩ := (gather_mem hg).1 hpt
    obtain ⟨j', hj'⟩ := List.mem_iff_getElem?.1 hq
    have hcell : ∀ (m : Nat) (y : Row), rows[m]? = some y → col[m]? = y.2[j]? := by
      intro m y hy
      have := congrArg (fun l => l[m]?) ((mapM_eq_some_iff).1 hcol)
      simp only [List.getElem?_map, hy, Option.map_some] at this
      cases hc : col[m]? with
      | none => rw [hc] at this; cases this
      | some v => rw [hc] at this; exact (Option.some.inj this).symm
    have hki := hcell i p hri
    have hkj := hcell j' q hj'
    have hx' : some x ∈ parts.map some := List.mem_map.2 ⟨x, hx, rfl⟩
    rw [mapM_eq_some_iff] at h1
    rw [← h1] at hx'
    obtain ⟨m, hm, hme⟩ := List.mem_map.1 hx'
    have hm' := List.mem_range'_1.1 hm
    have := C02_group_split_keeps_groups col col rfl hcne n m (by omega) (by omega) x.1 x.2 hme i j' (by rw [hki, hkj, hpq]) hi
    exact (gather_mem hg).2 ⟨j', this, hj'⟩

example : (List.range' 1 2).mapM (fun i => (split (ofRows [("a", ["1", "x"]), ("b", ["2", "y"]), ("c", ["3", "x"])]) i 2 2).map (fun t => t.rows.map Prod.fst)) =
    some [["a", "c"], ["b"]] := by decide

end Hyp.U2I

namespace Hyp.Torch

variable {g : Nat} (c : CosCfg g)

/-- C41: with warm restarts by batch there is no restart in the first epoch, however long it is: if the period is over it is extended to end just
after the current batch, so that the rate stays on the first arc of the cosine -/
theorem C41_cos_first_epoch_batches (hb : c.onBatch = true) (hw : c.warmRestarts = true) (T : ℝ) (r : Int) (k : Nat) (st : LrSt g CosSt)
    (hr : cosRun c T r (.epochBegin :: List.replicate k .batch) = some st) :
    st.ext.numRestarts = 0 ∧ st.ext.lastRestart = r ∧
    (1 ≤ k → c.warmup < (k : Int) - 1 →
      st.ext.T = (if T ≤ (k : ℝ) - 1 - r then (k : ℝ) - r else T) ∧
      ∀ i, st.lr i = c.minLr i + (c.base i - c.minLr i) * (1 + Real.cos (Real.pi / (if T ≤ (k : ℝ) - 1 - r then (k : ℝ) - r else T) * ((k : ℝ) - 1 - r))) / 2) := by
  have key : ∀ (k : Nat) (st : LrSt g CosSt), cosRun c T r (.epochBegin :: List.replicate k .batch) = some st →
      st.lastEpoch = 0 ∧ st.lastBatch = (k : Int) - 1 ∧ st.ext.numRestarts = 0 ∧ st.ext.lastRestart = r ∧
      (st.ext.T = T ∨ (T ≤ (k : ℝ) - 1 - r ∧ st.ext.T = (k : ℝ) - r)) ∧
      ((k : Int) - 1 ≤ c.warmup → st.ext.T = T) ∧
      (1 ≤ k → c.warmup < (k : Int) - 1 → st.ext.T = (if T ≤ (k : ℝ) - 1 - r then (k : ℝ) - r else T) ∧
      ∀ i, st.lr i = c.minLr i + (c.base i - c.minLr i) * (1 + Real.cos (Real.pi / (if T ≤ (k : ℝ) - 1 - r then (k : ℝ) - r else T) * ((k : ℝ) - 1 - r))) / 2) := by
    intro k
    induction k with
    | zero =>
      intro st h
      unfold cosRun at h
      simp only [List.replicate_zero, lrRun, lrStep, Option.bind_some, Option.some.injEq] at h
      subst h
      unfold epochBeginStep
      rw [if_pos hb]
      exact ⟨rfl, rfl, rfl, rfl, .inl rfl, fun _ => rfl, fun h => absurd h (by omega)⟩
    | succ k ih =>
      intro st h
      unfold cosRun at h ih
      rw [List.replicate_succ', ← List.cons_append, lrRun_append, Option.bind_eq_some_iff] at h
      obtain ⟨s, hs, h⟩ := h
      obtain ⟨h1, h2, h3, h4, h5, h6, -⟩ := ih s hs
      simp only [lrRun, lrStep] at h
      rw [Option.bind_eq_some_iff] at h
      obtain ⟨s', hs', h⟩ := h
      obtain rfl := Option.some.inj h
      unfold batchStep at hs'
      dsimp only at hs'
      have hbk : s.lastBatch + 1 = (k : Int) := by omega
      rw [hbk] at hs'
      split at hs'
      · rename_i hwu
        rw [Option.map_eq_some_iff] at hs'
        obtain ⟨lr, -, rfl⟩ := hs'
        exact ⟨h1, by push_cast; ring, h3, h4, .inl (h6 (by omega)), fun _ => h6 (by omega), fun _ h => by push_cast at h; omega⟩
      · rename_i hwu
        obtain rfl := Option.some.inj hs'
        have hx : ((((k : Int) - s.ext.lastRestart : Int)) : ℝ) = (k : ℝ) - r := by rw [h4]; push_cast; ring
        have hT : cosT c s.ext s.lastEpoch k = (if T ≤ (((k + 1 : Nat) : ℝ)) - 1 - r then (((k + 1 : Nat) : ℝ)) - r else T) := by
          unfold cosT
          rw [hx]
          push_cast
          rw [add_sub_cancel_right]
          rcases h5 with h5 | ⟨h5, h5'⟩
          · rw [h5]
            by_cases hge : T ≤ (k : ℝ) - r
            · rw [if_pos ⟨⟨hge, hb, hw⟩, h1⟩, if_pos hge]; ring
            · rw [if_neg (fun h => hge h.1.1), if_neg hge]
          · rw [h5', if_pos ⟨⟨le_refl _, hb, hw⟩, h1⟩, if_pos (by linarith)]; ring
        have hlt : ¬ ((k : ℝ) - r ≥ cosT c s.ext s.lastEpoch k) := by
          rw [hT]
          push_cast
          rw [add_sub_cancel_right]
          split
          · intro h; linarith
          · rename_i h; exact h
        have hget : cosGetLr c s.ext s.lastEpoch k = ({ s.ext with T := cosT c s.ext s.lastEpoch k }, cosRate c (cosT c s.ext s.lastEpoch k) s.ext.numRestarts ((k : ℝ) - r)) := by
          unfold cosGetLr
          dsimp only
          rw [hx, if_neg hlt]
        refine ⟨h1, by push_cast; ring, ?_, ?_, ?_, fun h => ?_, fun _ _ => ⟨?_, fun i => ?_⟩⟩
        · dsimp only; rw [hget]; exact h3
        · dsimp only; rw [hget]; exact h4
        · dsimp only; rw [hget]
          dsimp only
          rw [hT]
          split
          · rename_i h; exact .inr ⟨h, rfl⟩
          · exact .inl rfl
        · push_cast at h; omega
        · dsimp only; rw [hget]; exact hT
        · dsimp only; rw [hget]
          dsimp only
          rw [hT, h3]
          unfold cosRate
          push_cast
          rw [pow_zero, one_mul]
          congr 5
          ring
  exact ⟨(key k st hr).2.2.1, (key k st hr).2.2.2.1, (key k st hr).2.2.2.2.2.2⟩

end Hyp.Torch

namespace Hyp.Cli

theorem accepts_prefixed {conv : Ty → String → Option Val} {t : List Row} {opts : List Opt} (hs : Sep opts) (hr : ∀ o ∈ opts, o.required = false)
    (ha : ∀ o ∈ opts, ∃ r ∈ t, fits r o = true) (hb : ∀ r ∈ t, ∃ o ∈ opts, fits r o = true) (p : Option String) (us : List Use) :
    (parse conv (opts.map (addPre p)) us).isSome ↔ Correct conv us (t.map (Row.at p)) := by
  rw [(parse_spec (sep_pre hs p) us).1]
  have hreq : ∀ o ∈ opts.map (addPre p), o.required = true → ∃ u ∈ us, u.flag ∈ o.flags := by
    intro o ho h
    rw [List.mem_map] at ho
    obtain ⟨o, ho, rfl⟩ := ho
    have := hr o ho; simp only [addPre] at h; rw [this] at h; cases h
  rw [and_iff_left hreq]
  have hc : ∀ (p : Option String) (r : Row) (o : Opt), fits r o = true → fits (r.at p) (addPre p o) = true := by
    intro p r o h
    unfold fits at h ⊢
    rw [addPre_eq]
    simp only [Row.at]
    rw [Bool.and_eq_true] at h ⊢
    refine ⟨?_, h.2⟩
    exact decide_eq_true (congrArg (List.map (optName p)) (of_decide_eq_true h.1))
  apply accepts_of
  · intro o ho
    rw [List.mem_map] at ho
    obtain ⟨o, ho, rfl⟩ := ho
    obtain ⟨r, hr, hf⟩ := ha o ho
    exact ⟨r.at p, List.mem_map_of_mem hr, hc p r o hf⟩
  · intro r hr
    rw [List.mem_map] at hr
    obtain ⟨r, hr, rfl⟩ := hr
    obtain ⟨o, ho, hf⟩ := hb r hr
    exact ⟨addPre p o, List.mem_map_of_mem ho, hc p r o hf⟩

/-- C155: the options for mean and variance normalisation are accepted, with or without prefix, exactly when every use is one of the table (none is
required), and so is the option of the frame selector -/
theorem C155_accepts (p : Option String) (conv : Ty → String → Option Val) (us : List Use) :
    ((objAttrs (mvnOpts.map (addPre p)) (fun ns => (mvnFilter p ns).map mvnAttrs) conv us).isSome ↔ Correct conv us (mvnTable.map (Row.at p))) ∧
    ((objAttrs (selOpts.map (addPre p)) (fun ns => some (selAttrs (selFilter p ns))) conv us).isSome ↔
      Correct conv us ([⟨"tol_num_frames", ["tol-num-frames"], .int 3, .value .int none⟩].map (Row.at p))) := by
  constructor
  · rw [(C155_mvn p conv us).2]
    exact accepts_prefixed (sep_of (by decide +kernel)) (by decide +kernel) (by decide +kernel) (by decide +kernel) p us
  · have hs : Sep selOpts := sep_of (by decide +kernel)
    have : (objAttrs (selOpts.map (addPre p)) (fun ns => some (selAttrs (selFilter p ns))) conv us).isSome = (parse conv (selOpts.map (addPre p)) us).isSome := by
      unfold objAttrs
      rw [build_some (sep_flags (sep_pre hs p)), Option.bind_some]
      cases parse conv (selOpts.map (addPre p)) us <;> rfl
    rw [this]
    exact accepts_prefixed hs (by decide +kernel) (by decide +kernel) (by decide +kernel) p us

/-- C155: an `MFCC` object made with keyword arguments takes them by name, and every other attribute has the same value as from a command line
without that option; the normaliser made without arguments uses the whole recording, while the command line gives windows of 300 frames to each side -/
theorem C155_defaults (d : List (String × Val)) :
    mfccAttrs d = mfccTable.map (fun r => (r.attr, (dictGet d r.attr).getD r.unused)) ∧
    mvnAttrs [] = [("norm_mean", .bool true), ("norm_var", .bool false), ("left_context", .null), ("right_context", .null)] ∧
    mvnTable.map (fun r => (r.attr, r.unused)) = [("norm_mean", .bool true), ("norm_var", .bool false), ("left_context", .int 300), ("right_context", .int 300)] :=
  ⟨rfl, rfl, rfl⟩

end Hyp.Cli
