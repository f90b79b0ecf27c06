import Verif.Audio.SeqProps

/-! C130: segments of recordings. -/

namespace Hyp.Audio
open Hyp.Text Hyp.Segments

variable {K : Type} [Field K] [LinearOrder K] [IsStrictOrderedRing K] [FloorRing K]

theorem toInt_nonneg {t : K} (h : 0 ≤ t) : toInt t = (⌊t⌋₊ : ℤ) := by
  unfold toInt
  rw [if_pos h, Int.natCast_floor_eq_floor h]

theorem cutSegment_nonneg (x : Wave K) {tbeg tend : K} (h0 : 0 ≤ tbeg) (h1 : tbeg ≤ tend) :
    cutSegment x tbeg tend =
      if x.samples.length ≤ ⌊tbeg * (x.fs : K)⌋₊ then none
      else some ⟨(x.samples.take ⌊tend * (x.fs : K)⌋₊).drop ⌊tbeg * (x.fs : K)⌋₊, x.fs⟩ := by
  have hb : 0 ≤ tbeg * (x.fs : K) := mul_nonneg h0 (Nat.cast_nonneg _)
  have he : 0 ≤ tend * (x.fs : K) := mul_nonneg (le_trans h0 h1) (Nat.cast_nonneg _)
  unfold cutSegment
  simp only [toInt_nonneg hb, toInt_nonneg he, ge_iff_le, Nat.cast_le, gt_iff_lt, Nat.cast_lt]
  have hn : ¬ tend < 0 := not_lt.2 (le_trans h0 h1)
  simp only [hn, or_false]
  by_cases hc : x.samples.length ≤ ⌊tbeg * (x.fs : K)⌋₊
  · simp [hc]
  · simp only [hc, if_false]
    unfold pySlice
    have e1 : sliceBound x.samples.length (⌊tbeg * (x.fs : K)⌋₊ : ℤ) = ⌊tbeg * (x.fs : K)⌋₊ := by
      unfold sliceBound
      rw [if_neg (by omega)]
      omega
    have e2 : x.samples.take (sliceBound x.samples.length (if x.samples.length < ⌊tend * (x.fs : K)⌋₊ then (x.samples.length : ℤ)
        else (⌊tend * (x.fs : K)⌋₊ : ℤ))) = x.samples.take ⌊tend * (x.fs : K)⌋₊ := by
      unfold sliceBound
      split
      · rw [if_neg (by omega), List.take_of_length_le (by omega), List.take_of_length_le (by omega)]
      · rw [if_neg (by omega)]
        congr 1
        omega
    rw [e1, e2]

/-- **C130 (one segment).** A segment with `0 ≤ tbeg ≤ tend`: it raises iff `tbeg` is at or after the end of the recording, otherwise its samples are those of the
recording from `⌊tbeg·fs⌋` to `⌊tend·fs⌋`, the last one not included, cut at the end of the recording. -/
theorem C130_segment (x : Wave K) (tbeg tend : K) (h0 : 0 ≤ tbeg) (h1 : tbeg ≤ tend) :
    (cutSegment x tbeg tend = none ↔ x.samples.length ≤ ⌊tbeg * (x.fs : K)⌋₊) ∧
    ∀ y, cutSegment x tbeg tend = some y → y.fs = x.fs ∧
      y.samples.length = min ⌊tend * (x.fs : K)⌋₊ x.samples.length - ⌊tbeg * (x.fs : K)⌋₊ ∧
      ∀ i, i < y.samples.length → y.samples[i]? = x.samples[⌊tbeg * (x.fs : K)⌋₊ + i]? := by
  rw [cutSegment_nonneg x h0 h1]
  by_cases hc : x.samples.length ≤ ⌊tbeg * (x.fs : K)⌋₊
  · simp [hc]
  · simp only [hc, if_false, reduceCtorEq, Option.some.injEq, true_and]
    rintro y rfl
    refine ⟨rfl, by simp, ?_⟩
    intro i hi
    simp only [List.length_drop, List.length_take] at hi
    simp only [List.getElem?_drop, List.getElem?_take]
    rw [if_pos (by omega)]

theorem tiles_flatten {α : Type} (l : List α) : ∀ (b : Nat) (bs : List Nat), (b :: bs).Pairwise (· ≤ ·) →
    (((b :: bs).zip bs).map (fun p => (l.take p.2).drop p.1)).flatten = (l.take (bs.getLastD b)).drop b
  | b, [], _ => by simp
  | b, c :: bs, h => by
    have ih := tiles_flatten l c bs (List.Pairwise.tail h)
    rw [List.zip_cons_cons, List.map_cons, List.flatten_cons, ih]
    have hbc : b ≤ c := by
      rw [List.pairwise_cons] at h
      exact h.1 c (by simp)
    have hlast : c ≤ bs.getLastD c := by
      cases bs with
      | nil => simp
      | cons d bs =>
        have h2 := List.Pairwise.tail h
        rw [List.tail_cons, List.pairwise_cons] at h2
        have : (d :: bs).getLastD c ∈ d :: bs := by
          rw [List.getLastD_eq_getLast?, List.getLast?_eq_some_getLast (by simp)]
          exact List.getLast_mem _
        exact h2.1 _ this
    have e : (c :: bs).getLastD b = bs.getLastD c := by
      cases bs <;> simp [List.getLastD]
    rw [e]
    have : l.take c = (l.take (bs.getLastD c)).take c := by rw [List.take_take, Nat.min_eq_left hlast]
    rw [this]
    have h3 : (l.take (bs.getLastD c)).drop b = ((l.take (bs.getLastD c)).take c).drop b ++ (l.take (bs.getLastD c)).drop c := by
      conv_lhs => rw [← List.take_append_drop c (l.take (bs.getLastD c))]
      rw [List.drop_append]
      by_cases hlen : c ≤ (l.take (bs.getLastD c)).length
      · rw [List.length_take, Nat.min_eq_left hlen, Nat.sub_eq_zero_of_le hbc, List.drop_zero]
      · rw [List.drop_eq_nil_of_le (show (l.take (bs.getLastD c)).length ≤ c by omega)]
        simp
    rw [h3]

theorem mapM_zip_tiles (x : Wave K) : ∀ (t : K) (ts : List K), 0 ≤ t → (t :: ts).Pairwise (· ≤ ·) →
    (∀ u ∈ (t :: ts).dropLast, ⌊u * (x.fs : K)⌋₊ < x.samples.length) →
    ((t :: ts).zip ts).mapM (fun p => cutSegment x p.1 p.2) =
      some (((t :: ts).zip ts).map (fun p => (⟨(x.samples.take ⌊p.2 * (x.fs : K)⌋₊).drop ⌊p.1 * (x.fs : K)⌋₊, x.fs⟩ : Wave K)))
  | t, [], _, _, _ => by simp
  | t, u :: ts, h0, hp, hb => by
    have htu : t ≤ u := by
      rw [List.pairwise_cons] at hp
      exact hp.1 u (by simp)
    have ih := mapM_zip_tiles x u ts (le_trans h0 htu) (List.Pairwise.tail hp) (fun v hv => hb v (by simp [hv]))
    rw [List.zip_cons_cons, List.mapM_cons, ih]
    have := hb t (by simp)
    simp only [cutSegment_nonneg x h0 htu, if_neg (not_le.2 this), List.map_cons]
    rfl

/-- **C130 (tiling).** Consecutive segments lose and repeat nothing: for times `0 = t₀ ≤ t₁ ≤ ... ≤ tₘ` with every beginning inside the recording and
`tₘ` at or after its end, the segments `[tᵢ, tᵢ₊₁]` put together are the recording. -/
theorem C130_tiling (x : Wave K) (ts : List K) (hp : (0 :: ts).Pairwise (· ≤ ·))
    (hb : ∀ u ∈ (0 :: ts).dropLast, ⌊u * (x.fs : K)⌋₊ < x.samples.length) (he : x.samples.length ≤ ⌊ts.getLastD 0 * (x.fs : K)⌋₊) :
    ∃ ys, ((0 :: ts).zip ts).mapM (fun p => cutSegment x p.1 p.2) = some ys ∧ (ys.map (fun y => y.samples)).flatten = x.samples := by
  refine ⟨_, mapM_zip_tiles x 0 ts le_rfl hp hb, ?_⟩
  rw [List.map_map]
  have hm := tiles_flatten x.samples ⌊(0 : K) * (x.fs : K)⌋₊ (ts.map (fun t => ⌊t * (x.fs : K)⌋₊)) (by
    rw [← List.map_cons (f := fun t => ⌊t * (x.fs : K)⌋₊), List.pairwise_map]
    refine hp.imp ?_
    intro a b hab
    exact Nat.floor_le_floor (mul_le_mul_of_nonneg_right hab (Nat.cast_nonneg _)))
  rw [← List.map_cons (f := fun t => ⌊t * (x.fs : K)⌋₊), List.zip_map, List.map_map] at hm
  refine Eq.trans ?_ (hm.trans ?_)
  · rfl
  · have : (ts.map (fun t => ⌊t * (x.fs : K)⌋₊)).getLastD ⌊(0 : K) * (x.fs : K)⌋₊ = ⌊ts.getLastD 0 * (x.fs : K)⌋₊ := by
      rw [List.getLastD_eq_getLast?, List.getLastD_eq_getLast?, List.getLast?_map]
      cases ts.getLast? <;> rfl
    rw [this, zero_mul, Nat.floor_zero, List.drop_zero, List.take_of_length_le he]

/-- C130 (a defect): a time before the beginning counts from the end of the recording: when `tbeg` is a sample or more before 0 and `tend < 0`, the segment is the
last `⌊-tbeg·fs⌋` samples, whatever `tend` is. -/
theorem C130_negative_times (x : Wave K) (tbeg tend : K) (h0 : tbeg * (x.fs : K) ≤ -1) (h1 : tend < 0) :
    cutSegment x tbeg tend = some ⟨x.samples.drop (x.samples.length - ⌊-(tbeg * (x.fs : K))⌋₊), x.fs⟩ := by
  have hneg : ¬ 0 ≤ tbeg * (x.fs : K) := by
    intro h; linarith
  have hc : ⌈tbeg * (x.fs : K)⌉ = -(⌊-(tbeg * (x.fs : K))⌋₊ : ℤ) := by
    rw [Int.natCast_floor_eq_floor (by linarith), Int.floor_neg, neg_neg]
  have h2 : 1 ≤ ⌊-(tbeg * (x.fs : K))⌋₊ := by
    rw [Nat.le_floor_iff (by linarith)]
    push_cast; linarith
  have hb : toInt (tbeg * (x.fs : K)) = -(⌊-(tbeg * (x.fs : K))⌋₊ : ℤ) := by
    unfold toInt
    rw [if_neg hneg, hc]
  unfold cutSegment
  simp only [hb, h1, or_true, if_true]
  rw [if_neg (by omega)]
  unfold pySlice
  have e1 : sliceBound x.samples.length (-(⌊-(tbeg * (x.fs : K))⌋₊ : ℤ)) = x.samples.length - ⌊-(tbeg * (x.fs : K))⌋₊ := by
    unfold sliceBound
    rw [if_pos (by omega)]
    omega
  have e2 : sliceBound x.samples.length (x.samples.length : ℤ) = x.samples.length := by
    unfold sliceBound
    rw [if_neg (by omega)]
    omega
  rw [e1, e2, List.take_length]

/-- C130 (a defect): a negative `tend` stands for the end of the recording, but no segments file can use it with a beginning `tbeg ≥ 0`: it is refused. -/
theorem C130_until_end_refused (text : Str) (scale : K) (rows : List (Seg K)) (part parts : Nat) (s : Seg K) (hs : s ∈ rows) (h0 : 0 ≤ s.tbeg) (h1 : s.tend < 0) :
    openSeq text (some rows) scale part parts = none := by
  unfold openSeq openBase
  rcases Scp.load ' ' ':' text with _ | x
  · rfl
  · have : mkSegList rows false = none := by
      unfold mkSegList
      rw [if_neg]
      rw [valid_iff]
      intro h
      exact absurd (h s hs) (not_le.2 (lt_of_lt_of_le h1 h0))
    simp only [Option.bind_some, this]
    rfl

/-- **C130 (history).** A sequential reader with a segments file, after any history of reads of `k₁, k₂, ...` records (none of them 0): what came out is the first
`k₁ + k₂ + ...` segments, in the order of the segments file. A final `read()` gives only as many of the others as there are *recordings* beyond the number of
segments already read (a defect: it should give all of them). -/
theorem C130_history (w : World K) (text : Str) (x : Scp.Scp Str Str) (hl : Scp.load ' ' ':' text = some x) (scale : K)
    (rows : List (Seg K)) (hv : ∀ s ∈ rows, s.tbeg ≤ s.tend) :
    ∃ r : Reader K, openSeq text (some rows) scale 1 1 = some r ∧
      ∀ ks : List Nat, (∀ k ∈ ks, 0 < k) → ∀ out r',
        (runReads w ks r = some (out, r') ↔
          (rows.take ks.sum).mapM (fun s => (readSegment w scale x s).map (fun y => (s.id, y))) = some out ∧
          r' = { r with cur := min ks.sum rows.length }) ∧
        (runReads w ks r = some (out, r') →
          (r'.eof = true ↔ rows.length ≤ ks.sum) ∧ r'.reset = r ∧
          (r'.read w 0).map (fun p => p.1) =
            ((rows.drop ks.sum).take (x.entries.length - ks.sum)).mapM (fun s => (readSegment w scale x s).map (fun y => (s.id, y)))) := by
  have hx : x.WF := Copy.load_wf hl
  have hm : mkSegList rows false = some (⟨rows, false⟩ : SegList K) := by
    unfold mkSegList
    rw [if_pos (valid_iff.2 hv)]
  have ho : openSeq text (some rows) scale 1 1 = some ⟨x, some ⟨rows, false⟩, scale, 0⟩ := by
    unfold openSeq openBase takePart
    rw [hl]
    simp only [Option.bind_some, hm]
    rfl
  refine ⟨_, ho, ?_⟩
  intro ks hk out r'
  have hr : recs w (⟨x, some ⟨rows, false⟩, scale, 0⟩ : Reader K) = rows.map (fun s => (readSegment w scale x s).map (fun y => (s.id, y))) := rfl
  have hrun := runReads_eq w ks hk ⟨x, some ⟨rows, false⟩, scale, 0⟩ hx (Nat.zero_le _)
  rw [hr] at hrun
  simp only [List.drop_zero, List.length_map, Nat.zero_add, ← List.map_take, mapM_id_map] at hrun
  have hiff : runReads w ks (⟨x, some ⟨rows, false⟩, scale, 0⟩ : Reader K) = some (out, r') ↔
      (rows.take ks.sum).mapM (fun s => (readSegment w scale x s).map (fun y => (s.id, y))) = some out ∧
      r' = { (⟨x, some ⟨rows, false⟩, scale, 0⟩ : Reader K) with cur := min ks.sum rows.length } := by
    rw [hrun, Option.map_eq_some_iff]
    constructor
    · rintro ⟨xs, h1, h2⟩
      simp only [Prod.mk.injEq] at h2
      exact ⟨by rw [h1, h2.1], h2.2.symm⟩
    · rintro ⟨h1, h2⟩
      exact ⟨out, h1, by rw [h2]⟩
  refine ⟨hiff, ?_⟩
  intro h
  obtain ⟨-, rfl⟩ := hiff.1 h
  refine ⟨?_, rfl, ?_⟩
  · show decide (min ks.sum rows.length = rows.length) = true ↔ _
    rw [decide_eq_true_eq]
    omega
  · rw [read_zero, loop_eq w _ _ hx (by
      show min ks.sum rows.length ≤ (recs w (⟨x, some ⟨rows, false⟩, scale, 0⟩ : Reader K)).length
      rw [hr, List.length_map]; omega)]
    rw [recs_cur w (⟨x, some ⟨rows, false⟩, scale, 0⟩ : Reader K), hr]
    simp only [Option.map_map, ← List.map_drop, ← List.map_take, mapM_id_map]
    have e : (rows.drop (min ks.sum rows.length)).take (x.key.length - min ks.sum rows.length) = (rows.drop ks.sum).take (x.entries.length - ks.sum) := by
      rw [← Scp.entries_length hx]
      by_cases h : ks.sum ≤ rows.length
      · rw [Nat.min_eq_left h]
      · rw [Nat.min_eq_right (by omega), List.drop_length, List.drop_eq_nil_of_le (by omega), List.take_nil, List.take_nil]
    rw [e]
    exact map_fst _ _

/-- **C130 (iteration).** A `for` loop over the reader gives all the segments, in the order of the segments file. -/
theorem C130_iteration (w : World K) (text : Str) (x : Scp.Scp Str Str) (hl : Scp.load ' ' ':' text = some x) (scale : K)
    (rows : List (Seg K)) (hv : ∀ s ∈ rows, s.tbeg ≤ s.tend) :
    ((openSeq text (some rows) scale 1 1).bind (fun r => r.iter w r.fuel)).map (fun p => p.1) =
      rows.mapM (fun s => (readSegment w scale x s).map (fun y => (s.id, y))) := by
  have hx : x.WF := Copy.load_wf hl
  have hm : mkSegList rows false = some (⟨rows, false⟩ : SegList K) := by
    unfold mkSegList
    rw [if_pos (valid_iff.2 hv)]
  have ho : openSeq text (some rows) scale 1 1 = some ⟨x, some ⟨rows, false⟩, scale, 0⟩ := by
    unfold openSeq openBase takePart
    rw [hl]
    simp only [Option.bind_some, hm]
    rfl
  have hr : recs w (⟨x, some ⟨rows, false⟩, scale, 0⟩ : Reader K) = rows.map (fun s => (readSegment w scale x s).map (fun y => (s.id, y))) := rfl
  rw [ho, Option.bind_some, iter_eq w _ hx _ (Nat.zero_le _) (by
    rw [hr, List.length_map]; exact Nat.lt_succ_self _)]
  rw [hr]
  simp only [Option.map_map, List.drop_zero, mapM_id_map]
  exact map_fst _ _

/-- **C130 (parts).** With different segment ids, the segments of the readers of the parts `1..P`, put together, are the segments file; each part gives its segments
in order. -/
theorem C130_parts (w : World K) (text : Str) (x : Scp.Scp Str Str) (hl : Scp.load ' ' ':' text = some x) (scale : K)
    (rows : List (Seg K)) (hv : ∀ s ∈ rows, s.tbeg ≤ s.tend) (hn : (rows.map Seg.id).Nodup) (P : Nat) (hP : 1 < P) :
    ∃ parts : List (List (Seg K)), parts.flatten = rows ∧
      (List.range' 1 P).map (fun i : Nat => ((openSeq text (some rows) scale i P).bind (fun r => r.iter w r.fuel)).map (fun p => p.1)) =
        parts.map (fun l => l.mapM (fun s => (readSegment w scale x s).map (fun y => (s.id, y)))) := by
  have hx : x.WF := Copy.load_wf hl
  have hm : mkSegList rows false = some (⟨rows, false⟩ : SegList K) := by
    unfold mkSegList
    rw [if_pos (valid_iff.2 hv)]
  obtain ⟨parts, h1, h2, h3⟩ := C119_split_by_segment rows hv hn P (by omega)
  refine ⟨parts.map SegList.rows, h2, ?_⟩
  have ho : ∀ i : Nat, openSeq text (some rows) scale i P = (segSplit (⟨rows, false⟩ : SegList K) i P).map (fun l => ⟨x, some l, scale, 0⟩) := by
    intro i
    unfold openSeq openBase takePart
    rw [hl]
    simp only [Option.bind_some, hm, Option.map_some, gt_iff_lt, hP, if_true]
  have hit : ∀ l : SegList K, ((⟨x, some l, scale, 0⟩ : Reader K).iter w (⟨x, some l, scale, 0⟩ : Reader K).fuel).map (fun p => p.1) =
      l.rows.mapM (fun s => (readSegment w scale x s).map (fun y => (s.id, y))) := by
    intro l
    have hr : recs w (⟨x, some l, scale, 0⟩ : Reader K) = l.rows.map (fun s => (readSegment w scale x s).map (fun y => (s.id, y))) := rfl
    rw [iter_eq w _ hx _ (Nat.zero_le _) (by rw [hr, List.length_map]; exact Nat.lt_succ_self _), hr]
    simp only [Option.map_map, List.drop_zero, mapM_id_map]
    exact map_fst _ _
  have hmap := mapM_eq_some_iff.1 h1
  have hfun : (fun i : Nat => ((openSeq text (some rows) scale i P).bind (fun r => r.iter w r.fuel)).map (fun p => p.1)) =
      (fun o : Option (SegList K) => (o.bind (fun l => l.rows.mapM (fun s => (readSegment w scale x s).map (fun y => (s.id, y)))))) ∘
        (fun i : Nat => segSplit (⟨rows, false⟩ : SegList K) i P) := by
    funext i
    rw [ho i]
    simp only [Function.comp]
    rcases segSplit (⟨rows, false⟩ : SegList K) i P with _ | l
    · rfl
    · simp only [Option.map_some, Option.bind_some]
      exact hit l
  rw [hfun, ← List.map_map, hmap, List.map_map, List.map_map]
  rfl

end Hyp.Audio
