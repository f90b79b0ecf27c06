import Verif.Misc.Tensors
import Verif.NpLemmas
import Verif.Keras.PoolProps

/-!
C150: three-dimensional arrays of classes and sequences.
-/

namespace Hyp.Misc

variable {β : Type}

/-- Specification: `r` holds the vectors `xs` in order with weight one, then zero vectors with weight zero, `L` places in all. -/
structure Holds (z : β) (L : Nat) (xs : List β) (r : List β × List Bool) : Prop where
  len1 : r.1.length = L
  len2 : r.2.length = L
  vec : ∀ t : Nat, t < xs.length → r.1[t]? = xs[t]? ∧ r.2[t]? = some true
  pad : ∀ t : Nat, xs.length ≤ t → t < L → r.1[t]? = some z ∧ r.2[t]? = some false

theorem padRow_some (z : β) (L : Nat) (xs : List β) (r : List β × List Bool) : padRow z L xs = some r ↔ xs.length ≤ L ∧ Holds z L xs r := by
  unfold padRow
  by_cases h : xs.length ≤ L
  · rw [if_pos h]
    constructor
    · rintro ⟨⟩
      refine ⟨h, by simp; omega, by simp; omega, ?_, ?_⟩
      · intro t ht
        simp only
        rw [List.getElem?_append_left ht, List.getElem?_append_left (by simpa using ht)]
        simp [ht]
      · intro t h1 h2
        simp only
        rw [List.getElem?_append_right h1, List.getElem?_append_right (by simpa using h1), List.length_replicate]
        rw [List.getElem?_replicate, List.getElem?_replicate, if_pos (by omega), if_pos (by omega)]
        exact ⟨rfl, rfl⟩
    · rintro ⟨-, hh⟩
      congr 1
      refine Prod.ext ?_ ?_
      · refine List.ext_getElem? (fun t => ?_)
        rcases Nat.lt_or_ge t xs.length with ht | ht
        · rw [(hh.vec t ht).1]; exact List.getElem?_append_left ht
        · rcases Nat.lt_or_ge t L with hL | hL
          · rw [(hh.pad t ht hL).1]
            show (xs ++ _)[t]? = _
            rw [List.getElem?_append_right ht, List.getElem?_replicate, if_pos (by omega)]
          · rw [List.getElem?_eq_none (l := r.1) (by rw [hh.len1]; exact hL), List.getElem?_eq_none (by simp only [List.length_append, List.length_replicate]; omega)]
      · refine List.ext_getElem? (fun t => ?_)
        rcases Nat.lt_or_ge t xs.length with ht | ht
        · rw [(hh.vec t ht).2]
          show (List.replicate xs.length true ++ _)[t]? = _
          rw [List.getElem?_append_left (by simpa using ht)]; simp [ht]
        · rcases Nat.lt_or_ge t L with hL | hL
          · rw [(hh.pad t ht hL).2]
            show (List.replicate xs.length true ++ _)[t]? = _
            rw [List.getElem?_append_right (by simpa using ht), List.length_replicate, List.getElem?_replicate, if_pos (by omega)]
          · rw [List.getElem?_eq_none (l := r.2) (by rw [hh.len2]; exact hL), List.getElem?_eq_none (by simp only [List.length_append, List.length_replicate]; omega)]
  · rw [if_neg h]
    simp [h]

theorem le_maxLen (ls : List Nat) : ∀ n ∈ ls, n ≤ maxLen ls := by
  have : ∀ (ls : List Nat) (a : Nat), a ≤ ls.foldl max a ∧ ∀ n ∈ ls, n ≤ ls.foldl max a := by
    intro ls
    induction ls with
    | nil => intro a; simp
    | cons b l ih =>
      intro a
      obtain ⟨h1, h2⟩ := ih (max a b)
      refine ⟨le_trans (le_max_left _ _) h1, ?_⟩
      intro n hn
      rcases List.mem_cons.1 hn with rfl | hn
      · exact le_trans (le_max_right _ _) h1
      · exact h2 n hn
  exact (this ls 0).2

theorem maxLen_attained (ls : List Nat) : maxLen ls = 0 ∨ maxLen ls ∈ ls := by
  have : ∀ (ls : List Nat) (a : Nat), ls.foldl max a = a ∨ ls.foldl max a ∈ ls := by
    intro ls
    induction ls with
    | nil => intro a; simp
    | cons b l ih =>
      intro a
      simp only [List.foldl_cons, List.mem_cons]
      rcases ih (max a b) with h | h
      · rw [h]
        rcases max_choice a b with h' | h' <;> rw [h'] <;> simp
      · exact Or.inr (Or.inr h)
  exact this ls 0

/-- **C150 (by sequence).** The conversion raises exactly when there is no sequence or, with a given maximum length, when a
sequence is longer. Otherwise there is one row per sequence; it holds the frames in order with weight one, then zeros with
weight zero; all rows have the given length or, with 0, that of the longest sequence. -/
theorem C150_by_seq (z : β) (x : List (List β)) (maxLength : Nat) :
    (to3DBySeq z x maxLength = none ↔ x = [] ∨ maxLength ≠ 0 ∧ ∃ s ∈ x, maxLength < s.length) ∧
    ∀ out, to3DBySeq z x maxLength = some out → ∃ L, (maxLength ≠ 0 → L = maxLength) ∧
      (maxLength = 0 → (∀ s ∈ x, s.length ≤ L) ∧ (L = 0 ∨ ∃ s ∈ x, s.length = L)) ∧ out.length = x.length ∧
      ∀ (i : Nat) (s : List β), x[i]? = some s → ∃ r, out[i]? = some r ∧ Holds z L s r := by
  have key : ∀ L out, x.mapM (padRow z L) = some out → out.length = x.length ∧
      ∀ (i : Nat) (s : List β), x[i]? = some s → ∃ r, out[i]? = some r ∧ Holds z L s r := by
    intro L out h
    rw [mapM_eq_some_iff] at h
    refine ⟨by simpa using (congrArg List.length h).symm, ?_⟩
    intro i s hs
    have := congrArg (fun l => l[i]?) h
    simp only [List.getElem?_map, hs, Option.map_some] at this
    cases ho : out[i]? with
    | none => rw [ho] at this; simp at this
    | some r =>
      rw [ho] at this
      simp at this
      exact ⟨r, rfl, ((padRow_some z L s r).1 this).2⟩
  have keyNone : ∀ L, x.mapM (padRow z L) = none ↔ ∃ s ∈ x, L < s.length := by
    intro L
    rw [mapM_eq_none_iff]
    refine exists_congr (fun s => and_congr_right (fun _ => ?_))
    unfold padRow
    by_cases h : s.length ≤ L
    · rw [if_pos h]; simp [h]
    · rw [if_neg h]; simp; omega
  cases x with
  | nil => simp [to3DBySeq]
  | cons s0 xs =>
    have e : to3DBySeq z (s0 :: xs) maxLength = (s0 :: xs).mapM (padRow z (if maxLength = 0 then maxLen ((s0 :: xs).map List.length) else maxLength)) := rfl
    rw [e]
    by_cases h0 : maxLength = 0
    · rw [if_pos h0]
      have hle : ∀ s ∈ s0 :: xs, s.length ≤ maxLen ((s0 :: xs).map List.length) := fun s hs => le_maxLen _ _ (List.mem_map.2 ⟨s, hs, rfl⟩)
      constructor
      · rw [keyNone]
        constructor
        · rintro ⟨s, hs, hl⟩
          have := hle s hs; omega
        · rintro (h | ⟨h, -⟩)
          · cases h
          · exact absurd h0 h
      · intro out ho
        refine ⟨_, fun h => absurd h0 h, fun _ => ⟨hle, ?_⟩, key _ out ho⟩
        rcases maxLen_attained ((s0 :: xs).map List.length) with h | h
        · exact Or.inl h
        · obtain ⟨s, hs, hl⟩ := List.mem_map.1 h
          exact Or.inr ⟨s, hs, hl⟩
    · rw [if_neg h0]
      constructor
      · rw [keyNone]; simp [h0]
      · intro out ho
        exact ⟨maxLength, fun _ => rfl, fun h => absurd h h0, key _ out ho⟩

/-- Specification: the vectors of class `i`, in order. -/
def classVecs (x : List β) (ids : List Int) (i : Nat) : List β := ((x.zip ids).filter (fun p => decide (p.2 = (i : Int)))).map Prod.fst

theorem classVecs_length (x : List β) (ids : List Int) (h : ids.length = x.length) (i : Nat) :
    (classVecs x ids i).length = ids.countP (fun k => decide (k = (i : Int))) := by
  unfold classVecs
  rw [List.length_map]
  induction x generalizing ids with
  | nil => cases ids with
    | nil => rfl
    | cons _ _ => simp at h
  | cons a x ih => cases ids with
    | nil => simp at h
    | cons k ids =>
      have := ih ids (by simpa using h)
      simp only [List.zip_cons_cons, List.filter_cons, List.countP_cons]
      by_cases hk : k = (i : Int)
      · simp [hk, this]
      · simp [hk, this]

/-- **C150 (by class).** With one class id per vector, the largest being `m ≥ 0`: the conversion raises exactly when a given maximum
length is smaller than a class. Otherwise row `i ≤ m` holds the vectors of class `i` in order with weight one, then zeros with
weight zero; with length 0 the rows have the size of the largest class. -/
theorem C150_by_class (z : β) (x : List β) (ids : List Int) (maxLength : Nat) (m : Nat) (h : ids.length = x.length) (hm : ids.max? = some (m : Int)) :
    (to3DByClass z x ids maxLength = none ↔ maxLength ≠ 0 ∧ ∃ i ≤ m, maxLength < (classVecs x ids i).length) ∧
    ∀ out, to3DByClass z x ids maxLength = some out → ∃ L, (maxLength ≠ 0 → L = maxLength) ∧
      (maxLength = 0 → (∀ i ≤ m, (classVecs x ids i).length ≤ L) ∧ ∃ i ≤ m, (classVecs x ids i).length = L) ∧ out.length = m + 1 ∧
      ∀ i ≤ m, ∃ r, out[i]? = some r ∧ Holds z L (classVecs x ids i) r := by
  have hpick : ∀ i, pickClass x ids i = some (classVecs x ids i) := fun i => by unfold pickClass; rw [if_pos h]; rfl
  have hn : (((m : Int)) + 1).toNat = m + 1 := by omega
  have e : to3DByClass z x ids maxLength = (List.range (m + 1)).mapM (fun i => padRow z (if maxLength = 0 then
      maxLen ((List.range (m + 1)).map (fun i => (classVecs x ids i).length)) else maxLength) (classVecs x ids i)) := by
    unfold to3DByClass
    rw [hm]
    simp only [Option.bind_eq_bind, Option.bind_some, hpick, hn, classVecs_length x ids h]
  rw [e]
  have keyNone : ∀ L, (List.range (m + 1)).mapM (fun i => padRow z L (classVecs x ids i)) = none ↔ ∃ i ≤ m, L < (classVecs x ids i).length := by
    intro L
    rw [mapM_eq_none_iff]
    refine exists_congr (fun i => ?_)
    rw [List.mem_range, Nat.lt_succ_iff]
    refine and_congr_right (fun _ => ?_)
    unfold padRow
    by_cases h : (classVecs x ids i).length ≤ L
    · rw [if_pos h]; simp [h]
    · rw [if_neg h]; simp; omega
  have key : ∀ L out, (List.range (m + 1)).mapM (fun i => padRow z L (classVecs x ids i)) = some out → out.length = m + 1 ∧
      ∀ i ≤ m, ∃ r, out[i]? = some r ∧ Holds z L (classVecs x ids i) r := by
    intro L out ho
    rw [mapM_eq_some_iff] at ho
    refine ⟨by simpa using (congrArg List.length ho).symm, ?_⟩
    intro i hi
    have := congrArg (fun l => l[i]?) ho
    simp only [List.getElem?_map, List.getElem?_range (Nat.lt_succ_of_le hi), Option.map_some] at this
    cases hh : out[i]? with
    | none => rw [hh] at this; simp at this
    | some r =>
      rw [hh] at this
      simp at this
      exact ⟨r, rfl, ((padRow_some z L _ r).1 this).2⟩
  by_cases h0 : maxLength = 0
  · rw [if_pos h0]
    have hle : ∀ i ≤ m, (classVecs x ids i).length ≤ maxLen ((List.range (m + 1)).map (fun i => (classVecs x ids i).length)) :=
      fun i hi => le_maxLen _ _ (List.mem_map.2 ⟨i, List.mem_range.2 (Nat.lt_succ_of_le hi), rfl⟩)
    constructor
    · rw [keyNone]
      constructor
      · rintro ⟨i, hi, hl⟩
        have := hle i hi; omega
      · rintro ⟨h, -⟩
        exact absurd h0 h
    · intro out ho
      refine ⟨_, fun h => absurd h0 h, fun _ => ⟨hle, ?_⟩, key _ out ho⟩
      rcases maxLen_attained ((List.range (m + 1)).map (fun i => (classVecs x ids i).length)) with h' | h'
      · refine ⟨0, Nat.zero_le _, ?_⟩
        have := hle 0 (Nat.zero_le _)
        omega
      · obtain ⟨i, hi, hl⟩ := List.mem_map.1 h'
        exact ⟨i, Nat.lt_succ_iff.1 (List.mem_range.1 hi), hl⟩
  · rw [if_neg h0]
    constructor
    · rw [keyNone]; simp [h0]
    · intro out ho
      exact ⟨maxLength, fun _ => rfl, fun h => absurd h h0, key _ out ho⟩

/-- **C150 (pooling).** Statistics pooled over a row of the array with its sample weights are those of the vectors alone: the
padding does not show, whatever the length of the array. -/
theorem C150_pool {D : Nat} (L : Nat) (xs : List (Fin D → ℝ)) (r : List (Fin D → ℝ) × List Bool) (h : Holds 0 L xs r) (hL : xs.length ≤ L) :
    let f := Keras.expandW (r.1.zip (r.2.map (fun b => if b then (1 : ℝ) else 0)))
    let g := Keras.expandW (xs.map (fun v => (v, (1 : ℝ))))
    Keras.wAvg f = Keras.wAvg g ∧ Keras.wMeanStd f = Keras.wMeanStd g ∧ Keras.wMeanLogVar f = Keras.wMeanLogVar g ∧ Keras.wSum f = Keras.wSum g := by
  intro f g
  have hr := (padRow_some (0 : Fin D → ℝ) L xs r).2 ⟨hL, h⟩
  unfold padRow at hr
  rw [if_pos hL] at hr
  obtain rfl := Option.some.inj hr
  refine Keras.pools_congr f g (fun d q => ?_)
  have hf : f = Keras.expandW (xs.zip (List.replicate xs.length (1 : ℝ)) ++ (List.replicate (L - xs.length) (0 : Fin D → ℝ)).zip (List.replicate (L - xs.length) (0 : ℝ))) := by
    show Keras.expandW _ = _
    congr 1
    simp only [List.map_append, List.map_replicate]
    rw [List.zip_append (by simp)]
    simp
  have hz : xs.zip (List.replicate xs.length (1 : ℝ)) = xs.map (fun v => (v, (1 : ℝ))) := by
    clear_value f g
    clear hf h hr hL
    induction xs with
    | nil => rfl
    | cons a xs ih => simp [List.replicate_succ, ih]
  rw [hf, hz]
  show ((Keras.expandW _).map _).sum = ((Keras.expandW _).map _).sum
  unfold Keras.expandW
  rw [List.map_append, List.map_append, List.sum_append]
  have : (List.map (fun p : Keras.Frame D => p.2 d * q (p.1 d)) (List.map (fun p : (Fin D → ℝ) × ℝ => (p.1, fun _ => p.2))
      ((List.replicate (L - xs.length) (0 : Fin D → ℝ)).zip (List.replicate (L - xs.length) (0 : ℝ))))).sum = 0 := by
    rw [List.zip_replicate]
    simp
  rw [this, add_zero]

/-- three vectors of two classes -/
example : to3DByClass 0 [5, 6, 7] [1, 0, 1] 0 = some [([6, 0], [true, false]), ([5, 7], [true, true])] := by decide
example : to3DByClass 0 [5, 6, 7] [1, 0, 1] 1 = none := by decide
example : to3DByClass 0 [5, 6, 7] [2, -1, 2] 3 = some [([0, 0, 0], [false, false, false]), ([0, 0, 0], [false, false, false]), ([5, 7, 0], [true, true, false])] := by decide
example : to3DBySeq 0 [[1, 2], [3]] 0 = some [([1, 2], [true, true]), ([3, 0], [true, false])] := by decide
example : ([2, -1, 2] : List Int).max? = some ((2 : Nat) : Int) := by decide

end Hyp.Misc
