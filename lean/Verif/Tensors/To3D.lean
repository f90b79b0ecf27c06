import Verif.Np
import Verif.NpLemmas
import Mathlib.Order.Nat

/-! Model of /repo/hyperion/utils/tensors.py and its properties (C56). A matrix is a list of rows of `dim` numbers. -/

namespace Hyp.Tensors

variable {K : Type} [Zero K] [One K]

/-- one slice of the three dimensional array: the rows, then rows of zeros (numpy raises when there are more rows than `maxLen`). -/
def padRows (dim maxLen : Nat) (x : List (List K)) : Option (List (List K)) :=
  if x.length ≤ maxLen then some (x ++ List.replicate (maxLen - x.length) (List.replicate dim 0)) else none

/-- the weights of one slice. -/
def padWeights (maxLen : Nat) (n : Nat) : List K := List.replicate n 1 ++ List.replicate (maxLen - n) 0

/-- tensors.py:35-51 `to3D_by_seq`. `none`: an exception (no sequences; a sequence with another number of columns; a sequence longer
than `max_length`). -/
def to3DBySeq (dim : Nat) (x : List (List (List K))) (maxLength : Nat) : Option (List (List (List K)) × List (List K)) :=
  if x = [] ∨ ¬ (x.all (fun m => m.all (fun r => decide (r.length = dim)))) then none
  else
    let m := if maxLength = 0 then (x.map List.length).foldl max 0 else maxLength
    match x.mapM (padRows dim m) with
    | some r => some (r, x.map (fun s => padWeights m s.length))
    | none => none

/-- tensors.py:12-32 `to3D_by_class`: class numbers `ids`, one per row of `x`. `none`: an exception (empty list; a class with more rows than
`max_length`; a boolean index of the wrong length). -/
def to3DByClass (dim : Nat) (x : List (List K)) (ids : List Nat) (maxLength : Nat) : Option (List (List (List K)) × List (List K)) :=
  match ids.max? with
  | none => none
  | some top =>
    if ids.length ≠ x.length then none
    else
      let part := fun i : Nat => (x.zip ids).filterMap (fun p => if p.2 = i then some p.1 else none)
      let m := if maxLength = 0 then ((List.range (top + 1)).map (fun i => ids.count i)).foldl max 0 else maxLength
      match (List.range (top + 1)).mapM (fun i => padRows dim m (part i)) with
      | some r => some (r, (List.range (top + 1)).map (fun i => padWeights m (ids.count i)))
      | none => none

theorem foldl_max_ge (l : List Nat) (a : Nat) : a ≤ l.foldl max a ∧ ∀ x ∈ l, x ≤ l.foldl max a := by
  induction l generalizing a with
  | nil => simp
  | cons b l ih =>
    obtain ⟨h1, h2⟩ := ih (max a b)
    simp only [List.foldl_cons]
    refine ⟨by omega, ?_⟩
    intro x hx
    rcases List.mem_cons.1 hx with rfl | hx
    · omega
    · exact h2 x hx

/-- the specification of padding: slice `s` and weights `w` hold exactly the rows of `x`, marked with weight one, followed by zero rows
with weight zero, up to length `m`. -/
structure Padded (dim m : Nat) (x s : List (List K)) (w : List K) : Prop where
  len : s.length = m
  wlen : w.length = m
  rows : ∀ (t : Nat) (h : t < x.length), s[t]? = some x[t] ∧ w[t]? = some 1
  zeros : ∀ t, x.length ≤ t → t < m → s[t]? = some (List.replicate dim 0) ∧ w[t]? = some 0

theorem padded_of {dim m : Nat} {x s : List (List K)} (h : padRows dim m x = some s) : x.length ≤ m ∧ Padded dim m x s (padWeights m x.length) := by
  unfold padRows at h
  split at h
  · rename_i hle
    simp only [Option.some.injEq] at h
    subst h
    refine ⟨hle, ⟨by simp; omega, by simp [padWeights]; omega, ?_, ?_⟩⟩
    · intro t ht
      unfold padWeights
      refine ⟨by rw [List.getElem?_append_left ht, List.getElem?_eq_getElem], ?_⟩
      rw [List.getElem?_append_left (by simpa using ht)]
      simp [ht]
    · intro t h1 h2
      unfold padWeights
      refine ⟨?_, ?_⟩
      · rw [List.getElem?_append_right h1, List.getElem?_replicate, if_pos (by omega)]
      · rw [List.getElem?_append_right (by simpa using h1), List.getElem?_replicate, if_pos (by simp; omega)]
  · simp at h

/-- C56 (sequences): `to3D_by_seq` succeeds exactly when there is a sequence and none is longer than a given `max_length`; slice `i` then
holds sequence `i` frame by frame with weight 1, padded with zero frames of weight 0; the length is `max_length`, or the length of the longest
sequence when `max_length` is 0. So the original sequences can be recovered from the result. -/
theorem C56_by_seq {dim : Nat} {x : List (List (List K))} (hx : x ≠ []) (hdim : ∀ s ∈ x, ∀ r ∈ s, r.length = dim) (maxLength : Nat)
    (hmax : 0 < maxLength → ∀ s ∈ x, s.length ≤ maxLength) :
    ∃ r w m, to3DBySeq dim x maxLength = some (r, w) ∧ r.length = x.length ∧ w.length = x.length ∧
      (0 < maxLength → m = maxLength) ∧ (∀ s ∈ x, s.length ≤ m) ∧ (maxLength = 0 → m = 0 ∨ ∃ s ∈ x, s.length = m) ∧
      ∀ (i : Nat) (s : List (List K)), x[i]? = some s → ∃ r' w', r[i]? = some r' ∧ w[i]? = some w' ∧ Padded dim m s r' w' := by
  unfold to3DBySeq
  have hall : x.all (fun m => m.all (fun r => decide (r.length = dim))) = true := by
    rw [List.all_eq_true]; intro s hs; rw [List.all_eq_true]; intro r hr; simpa using hdim s hs r hr
  rw [if_neg (by simp [hx, hall])]
  dsimp only
  generalize hm : (if maxLength = 0 then (x.map List.length).foldl max 0 else maxLength) = m
  have hle : ∀ s ∈ x, s.length ≤ m := by
    intro s hs
    rw [← hm]
    split
    · exact (foldl_max_ge _ 0).2 _ (List.mem_map.2 ⟨s, hs, rfl⟩)
    · exact hmax (by omega) s hs
  have hmap : x.mapM (padRows dim m) = some (x.map (fun s => s ++ List.replicate (m - s.length) (List.replicate dim 0))) := by
    rw [mapM_eq_some_iff, List.map_map]
    apply List.map_congr_left
    intro s hs
    simp only [padRows, if_pos (hle s hs), Function.comp]
  rw [hmap]
  refine ⟨_, _, m, rfl, by simp, by simp, ?_, hle, ?_, ?_⟩
  · intro h; rw [← hm, if_neg (by omega)]
  · intro h
    rw [← hm, if_pos h]
    have : ∀ (l : List Nat) a, l.foldl max a = a ∨ l.foldl max a ∈ l := by
      intro l
      induction l with
      | nil => simp
      | cons b l ih =>
        intro a
        simp only [List.foldl_cons]
        rcases ih (max a b) with h | h
        · rw [h]
          rcases Nat.le_total a b with h | h
          · right; rw [Nat.max_eq_right h]; simp
          · left; exact Nat.max_eq_left h
        · right; exact List.mem_cons_of_mem _ h
    rcases this (x.map List.length) 0 with h | h
    · exact Or.inl h
    · right
      obtain ⟨s, hs, he⟩ := List.mem_map.1 h
      exact ⟨s, hs, he⟩
  · intro i s hs
    have hp : padRows dim m s = some (s ++ List.replicate (m - s.length) (List.replicate dim 0)) := if_pos (hle s (List.mem_of_getElem? hs))
    refine ⟨_, _, ?_, ?_, (padded_of hp).2⟩
    · rw [List.getElem?_map, hs]; rfl
    · rw [List.getElem?_map, hs]; rfl

/-- C56 (sequences, failure): a sequence longer than the given `max_length` makes the call raise; frames are never dropped silently. -/
theorem C56_by_seq_too_long {dim : Nat} {x : List (List (List K))} {maxLength : Nat} (h0 : 0 < maxLength) {s : List (List K)} (hs : s ∈ x)
    (hlong : maxLength < s.length) : to3DBySeq dim x maxLength = none := by
  unfold to3DBySeq
  split
  · rfl
  · dsimp only
    rw [if_neg (by omega)]
    have : x.mapM (padRows dim maxLength) = none := by
      rw [mapM_eq_none_iff]; exact ⟨s, hs, if_neg (by omega)⟩
    rw [this]

theorem part_length (x : List (List K)) (ids : List Nat) (h : ids.length = x.length) (i : Nat) :
    ((x.zip ids).filterMap (fun p => if p.2 = i then some p.1 else none)).length = ids.count i := by
  induction x generalizing ids with
  | nil => simp_all
  | cons a x ih =>
    cases ids with
    | nil => simp at h
    | cons b ids =>
      simp only [List.length_cons, Nat.add_right_cancel_iff] at h
      rw [List.zip_cons_cons, List.filterMap_cons]
      by_cases hb : b = i
      · subst hb; simp [ih ids h]
      · simp [hb, ih ids h, List.count_cons]

/-- C56 (classes): with class numbers for every row, `to3D_by_class` puts in slice `i` the rows of class `i`, in their order and with weight 1,
and pads with zero rows of weight 0. Without `max_length` it never raises for a non-empty list. -/
theorem C56_by_class {dim : Nat} {x : List (List K)} {ids : List Nat} (hne : ids ≠ []) (hlen : ids.length = x.length) (maxLength : Nat)
    (hmax : 0 < maxLength → ∀ i, ids.count i ≤ maxLength) :
    ∃ r w m, to3DByClass dim x ids maxLength = some (r, w) ∧ (0 < maxLength → m = maxLength) ∧
      ∀ i ∈ ids, ∃ r' w', r[i]? = some r' ∧ w[i]? = some w' ∧
        Padded dim m ((x.zip ids).filterMap (fun p => if p.2 = i then some p.1 else none)) r' w' := by
  unfold to3DByClass
  obtain ⟨top, htop⟩ : ∃ top, ids.max? = some top := by
    cases h : ids.max? with
    | none => rw [List.max?_eq_none_iff] at h; exact absurd h hne
    | some m => exact ⟨m, rfl⟩
  rw [htop]
  dsimp only
  rw [if_neg (by simpa using hlen)]
  generalize hm : (if maxLength = 0 then ((List.range (top + 1)).map (fun i => ids.count i)).foldl max 0 else maxLength) = m
  have hle : ∀ i, i < top + 1 → ((x.zip ids).filterMap (fun p => if p.2 = i then some p.1 else none)).length ≤ m := by
    intro i hi
    rw [part_length x ids hlen, ← hm]
    split
    · exact (foldl_max_ge _ 0).2 _ (List.mem_map.2 ⟨i, List.mem_range.2 hi, rfl⟩)
    · exact hmax (by omega) i
  have hmap : (List.range (top + 1)).mapM (fun i => padRows dim m ((x.zip ids).filterMap (fun p => if p.2 = i then some p.1 else none))) =
      some ((List.range (top + 1)).map (fun i => ((x.zip ids).filterMap (fun p => if p.2 = i then some p.1 else none)) ++
        List.replicate (m - ((x.zip ids).filterMap (fun p => if p.2 = i then some p.1 else none)).length) (List.replicate dim 0))) := by
    rw [mapM_eq_some_iff, List.map_map]
    apply List.map_congr_left
    intro i hi
    simp only [padRows, if_pos (hle i (List.mem_range.1 hi)), Function.comp]
  rw [hmap]
  refine ⟨_, _, m, rfl, ?_, ?_⟩
  · intro h; rw [← hm, if_neg (by omega)]
  · intro i hi
    have hlt : i < top + 1 := by have := (List.max?_eq_some_iff.1 htop).2 i hi; omega
    have hp : padRows dim m ((x.zip ids).filterMap (fun p => if p.2 = i then some p.1 else none)) = some _ := if_pos (hle i hlt)
    refine ⟨_, _, ?_, ?_, (padded_of hp).2⟩
    · rw [List.getElem?_map, List.getElem?_range hlt]; rfl
    · rw [List.getElem?_map, List.getElem?_range hlt]
      simp only [Option.map_some]
      rw [part_length x ids hlen]

/-- concrete: two sequences of lengths 1 and 2. -/
example : to3DBySeq (K := Int) 2 [[[1, 2]], [[3, 4], [5, 6]]] 0 = some ([[[1, 2], [0, 0]], [[3, 4], [5, 6]]], [[1, 0], [1, 1]]) := by decide
example : to3DByClass (K := Int) 1 [[1], [2], [3]] [1, 0, 1] 0 = some ([[[2], [0]], [[1], [3]]], [[1, 0], [1, 1]]) := by decide

end Hyp.Tensors
