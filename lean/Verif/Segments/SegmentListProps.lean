import Verif.Segments.SegmentList
import Mathlib.Tactic.FieldSimp
import Mathlib.Tactic.Ring

/-! Properties C51 (binary VAD from segments) and C58 (conversion of a diarisation to a segment list). -/

namespace Hyp.Segments
open Hyp.Text

variable {K : Type} [Field K] [LinearOrder K] [IsStrictOrderedRing K] [FloorRing K]

theorem setOnes_length (v : List Nat) (a b : Int) : (setOnes v a b).length = v.length := by simp [setOnes]

theorem setOnes_getElem? {v : List Nat} {a b : Int} (ha : 0 ≤ a) (hb : 0 ≤ b) (hbn : b ≤ v.length) (t : Nat) (ht : t < v.length) :
    (setOnes v a b)[t]? = if a ≤ t ∧ (t : Int) < b then some 1 else v[t]? := by
  unfold setOnes
  rw [List.getElem?_map, List.getElem?_zipIdx, List.getElem?_eq_getElem ht]
  simp only [Option.map_some]
  have e1 : sliceBound v.length a = min a.toNat v.length := by unfold sliceBound; rw [if_neg (by omega)]
  have e2 : sliceBound v.length b = min b.toNat v.length := by unfold sliceBound; rw [if_neg (by omega)]
  rw [e1, e2]
  by_cases h : a ≤ t ∧ (t : Int) < b
  · rw [if_pos h, if_pos (by omega)]
  · rw [if_neg h, if_neg (by omega)]

theorem fold_setOnes {rows : List (Seg K)} {shift : K} {n : Nat} (v : List Nat) (hv : v.length = n)
    (h0 : ∀ s ∈ rows, 0 ≤ toFrame shift s.tbeg ∧ 0 ≤ toFrame shift s.tend) (hn : 0 < n) (t : Nat) (ht : t < n) :
    (rows.foldl (fun v s => setOnes v (toFrame shift s.tbeg) (min ((n : Int) - 1) (toFrame shift s.tend) + 1)) v).length = n ∧
    (rows.foldl (fun v s => setOnes v (toFrame shift s.tbeg) (min ((n : Int) - 1) (toFrame shift s.tend) + 1)) v)[t]? =
      if ∃ s ∈ rows, toFrame shift s.tbeg ≤ t ∧ (t : Int) ≤ toFrame shift s.tend then some 1 else v[t]? := by
  induction rows generalizing v with
  | nil => simp [hv]
  | cons s rows ih =>
    rw [List.foldl_cons]
    obtain ⟨b1, b2⟩ := h0 s (List.mem_cons_self ..)
    obtain ⟨i1, i2⟩ := ih (setOnes v (toFrame shift s.tbeg) (min ((n : Int) - 1) (toFrame shift s.tend) + 1)) (by rw [setOnes_length, hv])
      (fun s hs => h0 s (List.mem_cons_of_mem _ hs))
    refine ⟨i1, ?_⟩
    rw [i2, setOnes_getElem? b1 (by omega) (by rw [hv]; omega) t (by omega)]
    by_cases h1 : ∃ s ∈ rows, toFrame shift s.tbeg ≤ t ∧ (t : Int) ≤ toFrame shift s.tend
    · rw [if_pos h1, if_pos]
      obtain ⟨s', hs', h⟩ := h1
      exact ⟨s', List.mem_cons_of_mem _ hs', h⟩
    · rw [if_neg h1]
      by_cases h2 : toFrame shift s.tbeg ≤ t ∧ (t : Int) ≤ toFrame shift s.tend
      · rw [if_pos (by omega), if_pos ⟨s, List.mem_cons_self .., h2⟩]
      · rw [if_neg (by omega), if_neg]
        rintro ⟨s', hs', h⟩
        rcases List.mem_cons.1 hs' with rfl | hs'
        · exact h2 h
        · exact h1 ⟨s', hs', h⟩

theorem toFrame_nonneg {shift t : K} (hs : 0 < shift) (ht : 0 ≤ t) : 0 ≤ toFrame shift t := by
  apply le_roundEven
  push_cast
  positivity

theorem foldl_setOnes_length {rows : List (Seg K)} (f g : Seg K → Int) (v : List Nat) :
    (rows.foldl (fun v s => setOnes v (f s) (g s)) v).length = v.length := by
  induction rows generalizing v with
  | nil => rfl
  | cons s rows ih => rw [List.foldl_cons, ih, setOnes_length]

/-- C51. For every segment list with non-negative times, file in it, frame shift in ms and number of frames: the VAD has that length, its values are 0 and 1,
and frame `t` is 1 exactly when a segment of the file has rounded start ≤ t ≤ rounded end. -/
theorem C51_bin_vad (segs : List (Seg K)) (key : String) {shift : K} (hs : 0 < shift) (n : Nat) (hkey : ∃ s ∈ segs, s.file = key)
    (h0 : ∀ s ∈ segs, 0 ≤ s.tbeg) (hv : segValidate segs = true) :
    ∃ vad, toBinVad segs key shift (some n) = some vad ∧ vad.length = n ∧
      ∀ t < n, vad[t]? = some (if ∃ s ∈ segs, s.file = key ∧ roundEven (s.tbeg * 1000 / shift) ≤ t ∧ (t : Int) ≤ roundEven (s.tend * 1000 / shift) then 1 else 0) := by
  unfold toBinVad
  dsimp only
  generalize hr : segs.filter (fun s => decide (s.file = key)) = rows
  have hmem : ∀ s, s ∈ rows ↔ s ∈ segs ∧ s.file = key := by intro s; rw [← hr, List.mem_filter]; simp
  have hne : rows ≠ [] := by
    obtain ⟨s, h1, h2⟩ := hkey
    exact List.ne_nil_of_mem ((hmem s).2 ⟨h1, h2⟩)
  rw [List.getLast?_eq_some_getLast hne]
  dsimp only
  rw [if_neg (by omega), Int.toNat_natCast]
  refine ⟨_, rfl, by rw [foldl_setOnes_length]; simp, ?_⟩
  intro t ht
  have hnn : ∀ s ∈ rows, 0 ≤ toFrame shift s.tbeg ∧ 0 ≤ toFrame shift s.tend := by
    intro s hs'
    have hm := ((hmem s).1 hs').1
    have h1 := h0 s hm
    have h2 : 0 ≤ s.tend - s.tbeg := by
      unfold segValidate at hv
      rw [List.all_eq_true] at hv
      simpa using hv s hm
    exact ⟨toFrame_nonneg hs h1, toFrame_nonneg hs (by linarith)⟩
  rw [(fold_setOnes (List.replicate n 0) (by simp) hnn (by omega) t ht).2]
  by_cases h : ∃ s ∈ rows, toFrame shift s.tbeg ≤ t ∧ (t : Int) ≤ toFrame shift s.tend
  · rw [if_pos h, if_pos]
    obtain ⟨s, hs', h1⟩ := h
    exact ⟨s, ((hmem s).1 hs').1, ((hmem s).1 hs').2, h1⟩
  · rw [if_neg h, if_neg, List.getElem?_replicate, if_pos ht]
    rintro ⟨s, a, b, c⟩
    exact h ⟨s, (hmem s).2 ⟨a, b⟩, c⟩

/-- C51. In terms of time: a frame whose time is inside a segment (ends included) is marked, and a marked frame is at most half a frame away from a segment. -/
theorem C51_bin_vad_time (segs : List (Seg K)) (key : String) {shift : K} (hs : 0 < shift) (n : Nat) (hkey : ∃ s ∈ segs, s.file = key)
    (h0 : ∀ s ∈ segs, 0 ≤ s.tbeg) (hv : segValidate segs = true) :
    ∃ vad, toBinVad segs key shift (some n) = some vad ∧ vad.length = n ∧ ∀ t < n, (vad[t]? = some 0 ∨ vad[t]? = some 1) ∧
      ((∃ s ∈ segs, s.file = key ∧ s.tbeg ≤ t * shift / 1000 ∧ t * shift / 1000 ≤ s.tend) → vad[t]? = some 1) ∧
      (vad[t]? = some 1 → ∃ s ∈ segs, s.file = key ∧ s.tbeg - shift / 2000 ≤ t * shift / 1000 ∧ t * shift / 1000 ≤ s.tend + shift / 2000) := by
  obtain ⟨vad, e, hl, h⟩ := C51_bin_vad segs key hs n hkey h0 hv
  refine ⟨vad, e, hl, ?_⟩
  intro t ht
  rw [h t ht]
  refine ⟨by split <;> simp, ?_, ?_⟩
  · rintro ⟨s, h1, h2, h3, h4⟩
    rw [if_pos]
    refine ⟨s, h1, h2, ?_, ?_⟩
    · apply roundEven_le
      rw [div_le_iff₀ hs]
      push_cast
      linarith
    · apply le_roundEven
      rw [le_div_iff₀ hs]
      push_cast
      linarith
  · intro h'
    split at h'
    · rename_i hx
      obtain ⟨s, h1, h2, h3, h4⟩ := hx
      refine ⟨s, h1, h2, ?_, ?_⟩
      · have b := (roundEven_bounds (s.tbeg * 1000 / shift)).2
        have c : ((roundEven (s.tbeg * 1000 / shift) : ℤ) : K) ≤ (t : K) := by exact_mod_cast h3
        have d : s.tbeg * 1000 / shift ≤ t + 1 / 2 := by linarith
        rw [div_le_iff₀ hs] at d
        linarith
      · have b := (roundEven_bounds (s.tend * 1000 / shift)).1
        have c : (t : K) ≤ ((roundEven (s.tend * 1000 / shift) : ℤ) : K) := by exact_mod_cast h4
        have d : (t : K) - 1 / 2 ≤ s.tend * 1000 / shift := by linarith
        rw [le_div_iff₀ hs] at d
        linarith
    · simp at h'

theorem roundEven_natCast (n : Nat) : roundEven (n : ℚ) = n := by
  have := roundEven_int (K := ℚ) n
  simpa using this

/-- C51 (a defect): the end frame is marked too: two segments 0-1 s and 3-4 s, shift 1 s (1000 ms), mark four of five frames for two seconds of speech. -/
theorem C51_end_frame_marked :
    toBinVad ([⟨['a'], "f", 0, 1⟩, ⟨['b'], "f", 3, 4⟩] : List (Seg ℚ)) "f" 1000 (some 6) = some [1, 1, 0, 1, 1, 0] := by
  have h0 : toFrame (1000 : ℚ) 0 = 0 := by unfold toFrame; rw [show (0 : ℚ) * 1000 / 1000 = ((0 : ℕ) : ℚ) by norm_num, roundEven_natCast]; rfl
  have h1 : toFrame (1000 : ℚ) 1 = 1 := by unfold toFrame; rw [show (1 : ℚ) * 1000 / 1000 = ((1 : ℕ) : ℚ) by norm_num, roundEven_natCast]; rfl
  have h3 : toFrame (1000 : ℚ) 3 = 3 := by unfold toFrame; rw [show (3 : ℚ) * 1000 / 1000 = ((3 : ℕ) : ℚ) by norm_num, roundEven_natCast]; rfl
  have h4 : toFrame (1000 : ℚ) 4 = 4 := by unfold toFrame; rw [show (4 : ℚ) * 1000 / 1000 = ((4 : ℕ) : ℚ) by norm_num, roundEven_natCast]; rfl
  simp only [toBinVad, List.filter, decide_true, List.getLast?_cons_cons, List.getLast?_singleton, List.foldl_cons, List.foldl_nil, h0, h1, h3, h4]
  decide

/-- C51 (a defect): with no number of frames the length is the end of the last row, not the largest end: a first row of four seconds is cut to two. -/
theorem C51_default_length :
    toBinVad ([⟨['a'], "f", 0, 4⟩, ⟨['b'], "f", 1, 2⟩] : List (Seg ℚ)) "f" 1000 none = some [1, 1] := by
  have h0 : toFrame (1000 : ℚ) 0 = 0 := by unfold toFrame; rw [show (0 : ℚ) * 1000 / 1000 = ((0 : ℕ) : ℚ) by norm_num, roundEven_natCast]; rfl
  have h1 : toFrame (1000 : ℚ) 1 = 1 := by unfold toFrame; rw [show (1 : ℚ) * 1000 / 1000 = ((1 : ℕ) : ℚ) by norm_num, roundEven_natCast]; rfl
  have h3 : toFrame (1000 : ℚ) 2 = 2 := by unfold toFrame; rw [show (2 : ℚ) * 1000 / 1000 = ((2 : ℕ) : ℚ) by norm_num, roundEven_natCast]; rfl
  have h4 : toFrame (1000 : ℚ) 4 = 4 := by unfold toFrame; rw [show (4 : ℚ) * 1000 / 1000 = ((4 : ℕ) : ℚ) by norm_num, roundEven_natCast]; rfl
  simp only [toBinVad, List.filter, decide_true, List.getLast?_cons_cons, List.getLast?_singleton, List.foldl_cons, List.foldl_nil, h0, h1, h3, h4]
  decide

/-- C51 (a defect): indexed by segment and without a number of frames the call always raises. -/
theorem C51_by_segment_raises (segs : List (Seg K)) (key : Str) (shift : K) : toBinVadBySegment segs key shift none = none := by
  unfold toBinVadBySegment
  dsimp only
  split <;> first | rfl | contradiction

/-! ### C58 -/

theorem fmt07_parse (t : K) : parseNat (fmt07 t) = some ⌊t⌋₊ := by
  unfold fmt07 parseNat
  rw [if_neg (by simp [printNat_ne_nil]), foldl_digits]
  have : ∀ k, (List.replicate k '0').foldl (fun acc c => acc.bind (fun n => (digitVal c).map (fun d => 10 * n + d))) (some 0) = some 0 := by
    intro k
    induction k with
    | zero => rfl
    | succ k ih =>
      rw [List.replicate_succ, List.foldl_cons]
      have h0 : (some 0 : Option Nat).bind (fun n => (digitVal '0').map (fun d => 10 * n + d)) = some 0 := by decide
      rw [h0]; exact ih
  rw [this, foldl_printNat]

theorem dash_not_mem_fmt07 (t : K) : '-' ∉ fmt07 t := by
  unfold fmt07
  rw [List.mem_append, not_or]
  refine ⟨?_, not_mem_printNat (by decide)⟩
  intro h
  have := List.eq_of_mem_replicate h
  simp at this

/-- C58. For non-negative times: converting a diarisation to a segment list raises iff a row has a negative duration, keeps the rows in order with file, start and
end, and the ids of two rows of a file are equal exactly when their starts and their ends have the same whole number of seconds. -/
theorem C58_to_segment_list (rows : List (Row K)) :
    (toSegmentList rows = none ↔ ∃ r ∈ rows, r.tdur < 0) ∧
    ∀ segs, toSegmentList rows = some segs → segs.map (fun s => (s.file, s.tbeg, s.tend)) = rows.map (fun r => (r.file, r.tbeg, r.tend)) ∧
      ∀ (i j : Nat) (a b : Seg K), segs[i]? = some a → segs[j]? = some b → a.file = b.file →
        (a.id = b.id ↔ ⌊a.tbeg⌋₊ = ⌊b.tbeg⌋₊ ∧ ⌊a.tend⌋₊ = ⌊b.tend⌋₊) := by
  unfold toSegmentList
  dsimp only
  constructor
  · unfold segValidate
    split
    · rename_i h
      simp only [reduceCtorEq, false_iff]
      rintro ⟨r, hr, hneg⟩
      rw [List.all_eq_true] at h
      have := h _ (List.mem_map.2 ⟨r, hr, rfl⟩)
      simp [Row.tend] at this
      linarith
    · rename_i h
      simp only [true_iff]
      rw [List.all_eq_true] at h
      by_contra hcon
      apply h
      intro s hs
      obtain ⟨r, hr, rfl⟩ := List.mem_map.1 hs
      simp only [Row.tend]
      have : 0 ≤ r.tdur := by
        by_contra h2
        exact hcon ⟨r, hr, not_le.1 h2⟩
      simp; exact this
  · intro segs h
    split at h
    · simp only [Option.some.injEq] at h
      subst h
      refine ⟨by rw [List.map_map]; rfl, ?_⟩
      intro i j a b ha hb hf
      rw [List.getElem?_map, Option.map_eq_some_iff] at ha hb
      obtain ⟨r, _, rfl⟩ := ha
      obtain ⟨s, _, rfl⟩ := hb
      dsimp only at hf ⊢
      constructor
      · intro e
        unfold segId at e
        rw [hf, List.append_cancel_left_eq, List.cons.injEq] at e
        have e2 := congrArg (splitOnce '-') e.2
        rw [splitOnce_append (dash_not_mem_fmt07 _), splitOnce_append (dash_not_mem_fmt07 _)] at e2
        simp only [Option.some.injEq, Prod.mk.injEq] at e2
        constructor
        · have := congrArg parseNat e2.1
          rw [fmt07_parse, fmt07_parse] at this
          simpa using this
        · have := congrArg parseNat e2.2
          rw [fmt07_parse, fmt07_parse] at this
          simpa using this
      · rintro ⟨e1, e2⟩
        unfold segId fmt07
        rw [hf, e1, e2]
    · simp at h

/-- C58 (a defect): the ids are therefore not unique: two segments inside one second get the same one. -/
theorem C58_ids_collide : ∃ (rows : List (Row ℚ)) (a b : Seg ℚ), toSegmentList rows = some [a, b] ∧ a.tbeg ≠ b.tbeg ∧ a.id = b.id := by
  refine ⟨[⟨"SPEAKER", "f", "a", 1 / 10, 1 / 10⟩, ⟨"SPEAKER", "f", "b", 3 / 10, 1 / 10⟩], ⟨segId "f" (1 / 10 : ℚ) (2 / 10), "f", 1 / 10, 2 / 10⟩,
    ⟨segId "f" (3 / 10 : ℚ) (4 / 10), "f", 3 / 10, 4 / 10⟩, ?_, by norm_num, ?_⟩
  · simp only [toSegmentList, List.map_cons, List.map_nil, segValidate, Row.tend]
    norm_num
  · have h : ∀ x : ℚ, 0 ≤ x → x < 1 → ⌊x⌋₊ = 0 := by
      intro x h0 h1
      rw [Nat.floor_eq_zero]; exact h1
    unfold segId fmt07
    rw [h (1 / 10) (by norm_num) (by norm_num), h (2 / 10) (by norm_num) (by norm_num), h (3 / 10) (by norm_num) (by norm_num), h (4 / 10) (by norm_num) (by norm_num)]

end Hyp.Segments
