import Verif.Confusion.Props
import Mathlib.Tactic.Linarith

/-! Property C116: accuracy of torch models. -/

namespace Hyp.Confusion

section
variable {K : Type} [Field K] [LinearOrder K] [IsStrictOrderedRing K]

/-- `argmax` returns the number of a largest element -/
def IsArgmax (argmax : List K → Nat) : Prop := ∀ r : List K, r ≠ [] → ∃ v, r[argmax r]? = some v ∧ ∀ x ∈ r, x ≤ v

/-- element `t` is larger than all others -/
def StrictMax (r : List K) (t : Nat) : Prop := ∃ v, r[t]? = some v ∧ ∀ (j : Nat) (x : K), r[j]? = some x → j ≠ t → x < v

omit [IsStrictOrderedRing K] in
/-- C116: a class whose score is larger than all others is the predicted one. -/
theorem C116_strict (argmax : List K → Nat) (ha : IsArgmax argmax) (r : List K) (t : Nat) (h : StrictMax r t) : argmax r = t := by
  obtain ⟨v, hv, hlt⟩ := h
  have hne : r ≠ [] := by
    rintro rfl
    simp at hv
  obtain ⟨u, hu, hle⟩ := ha r hne
  by_contra hc
  have h1 := hlt _ u hu hc
  have h2 := hle v (List.mem_of_getElem? hv)
  exact absurd h1 (not_lt.2 h2)

theorem mean_div (a b : List K) (h : a.length = b.length) (hne : a ≠ []) : mean a / mean b = a.sum / b.sum := by
  have hn : (a.length : K) ≠ 0 := by
    have : a.length ≠ 0 := fun h => hne (List.eq_nil_of_length_eq_zero h)
    exact_mod_cast this
  unfold mean
  rw [← h, div_div_div_cancel_right₀ hn]

omit [LinearOrder K] [IsStrictOrderedRing K] in
theorem zip3 {α : Type} (c : α → Nat) (input : List α) (t : List Nat) (w : List K) :
    List.zipWith (fun a b => a * b) (List.zipWith (fun r t => if c r = t then (1 : K) else 0) input t) w =
      ((input.zip t).zip w).map (fun s => if c s.1.1 = s.1.2 then s.2 else 0) := by
  induction input generalizing t w with
  | nil => simp
  | cons r input ih =>
    cases t with
    | nil => simp
    | cons a t =>
      cases w with
      | nil => simp
      | cons b w =>
        simp only [List.zipWith_cons_cons, List.zip_cons_cons, List.map_cons]
        rw [ih t w]
        congr 1
        by_cases h : c r = a <;> simp [h]

/-- C116: the weighted accuracy is the weight of the samples whose predicted class is the target class, over the total weight; it raises when numbers of samples differ. -/
theorem C116_categorical (argmax : List K → Nat) (input : List (List K)) (t : List Nat) (w : List K) (h1 : input.length = t.length) (h2 : w.length = input.length)
    (hne : input ≠ []) (hw : w.sum ≠ 0) :
    categoricalAccuracy argmax input (.index t) (some w) .mean =
        some (.one ((((input.zip t).zip w).map (fun s => if argmax s.1.1 = s.1.2 then s.2 else 0)).sum / w.sum)) ∧
    categoricalAccuracy argmax input (.index t) (some w) .sum =
        some (.one (((input.zip t).zip w).map (fun s => if argmax s.1.1 = s.1.2 then s.2 else 0)).sum) ∧
    categoricalAccuracy argmax input (.index t) (some w) .none = some (.all ((input.zip t).map (fun s => if argmax s.1 = s.2 then 1 else 0))) := by
  have hl : (input.length : K) ≠ 0 := by
    have : input.length ≠ 0 := fun h => hne (List.eq_nil_of_length_eq_zero h)
    exact_mod_cast this
  have hz : ¬ (mean w = 0 ∨ input = []) := by
    rintro (h | h)
    · unfold mean at h
      rw [div_eq_zero_iff, h2] at h
      rcases h with h | h
      · exact hw h
      · exact hl h
    · exact hne h
  have hL : ¬ input.length ≠ t.length := by simpa using h1
  have hW : ¬ w.length ≠ input.length := by simpa using h2
  refine ⟨?_, ?_, ?_⟩
  · refine (if_neg hL).trans ((if_neg hW).trans ((if_neg hz).trans ?_))
    show some (Out.one (mean (List.zipWith (fun a b => a * b) (List.zipWith (fun r t => if argmax r = t then (1 : K) else 0) input t) w) / mean w)) = _
    rw [zip3, mean_div _ w (by simp; omega) (by
      intro h
      have := congrArg List.length h
      simp only [List.length_map, List.length_zip, List.length_nil] at this
      have : input.length ≠ 0 := fun h => hne (List.eq_nil_of_length_eq_zero h)
      omega)]
  · refine (if_neg hL).trans ((if_neg hW).trans ?_)
    show some (Out.one (List.zipWith (fun a b => a * b) (List.zipWith (fun r t => if argmax r = t then (1 : K) else 0) input t) w).sum) = _
    rw [zip3]
  · refine (if_neg hL).trans ?_
    show some (Out.all (List.zipWith (fun r t => if argmax r = t then (1 : K) else 0) input t)) = _
    rw [List.zip_eq_zipWith, List.map_zipWith]

/-- C116: without weights, the accuracy is the share of the samples whose predicted class is the target class. -/
theorem C116_unweighted (argmax : List K → Nat) (input : List (List K)) (t : List Nat) (h1 : input.length = t.length) (hne : input ≠ []) :
    categoricalAccuracy argmax input (.index t) none .mean =
      some (.one ((((input.zip t).filter (fun s => decide (argmax s.1 = s.2))).length : K) / (input.length : K))) := by
  have hz : ¬ ((1 : K) = 0 ∨ input = []) := by
    rintro (h | h)
    · exact one_ne_zero h
    · exact hne h
  have hL : ¬ input.length ≠ t.length := by simpa using h1
  have hW : ¬ ((List.zipWith (fun r t => if argmax r = t then (1 : K) else 0) input t).length ≠ input.length) := by
    simp
    omega
  refine (if_neg hL).trans ((if_neg hW).trans ((if_neg hz).trans ?_))
  show some (Out.one (mean (List.zipWith (fun r t => if argmax r = t then (1 : K) else 0) input t) / 1)) = _
  rw [div_one]
  unfold mean
  congr 3
  · have e : ∀ l : List (List K × Nat), (l.map (fun s => if argmax s.1 = s.2 then (1 : K) else 0)).sum = ((l.filter (fun s => decide (argmax s.1 = s.2))).length : K) := by
      intro l
      induction l with
      | nil => simp
      | cons x l ih =>
        rw [List.map_cons, List.sum_cons, ih, List.filter_cons]
        by_cases h : argmax x.1 = x.2
        · simp [h]
          ring
        · simp [h]
    rw [← e, List.zip_eq_zipWith, List.map_zipWith]
  · simp
    omega

omit [IsStrictOrderedRing K] in
/-- C116: targets given as rows with one largest element are the same as targets given by the number of that element. -/
theorem C116_one_hot (argmax : List K → Nat) (ha : IsArgmax argmax) (input rows : List (List K)) (t : List Nat) (hr : List.Forall₂ StrictMax rows t)
    (w : Option (List K)) (red : Red) : categoricalAccuracy argmax input (.rows rows) w red = categoricalAccuracy argmax input (.index t) w red := by
  have e : rows.map argmax = t := by
    rw [← List.forall₂_eq_eq_eq, List.forall₂_map_left_iff]
    exact hr.imp (fun r t h => C116_strict argmax ha r t h)
  unfold categoricalAccuracy
  simp only [targetClasses, Target.len, e, hr.length_eq]
  cases red <;> rfl

/-- C116: with weights that are not negative the accuracy lies between 0 and 1. -/
theorem C116_range (argmax : List K → Nat) (input : List (List K)) (t : List Nat) (w : List K) (h1 : input.length = t.length) (h2 : w.length = input.length)
    (hne : input ≠ []) (hw : ∀ x ∈ w, 0 ≤ x) (hs : w.sum ≠ 0) : ∃ a, categoricalAccuracy argmax input (.index t) (some w) .mean = some (.one a) ∧ 0 ≤ a ∧ a ≤ 1 := by
  refine ⟨_, (C116_categorical argmax input t w h1 h2 hne hs).1, ?_, ?_⟩
  · refine div_nonneg (List.sum_nonneg ?_) (List.sum_nonneg hw)
    intro x hx
    obtain ⟨s, hs, rfl⟩ := List.mem_map.1 hx
    split
    · exact hw _ (List.of_mem_zip (a := s.1) (b := s.2) hs).2
    · exact le_refl _
  · have hpos : 0 < w.sum := lt_of_le_of_ne (List.sum_nonneg hw) (Ne.symm hs)
    rw [div_le_one hpos]
    have e : w = ((input.zip t).zip w).map Prod.snd := by
      rw [List.map_snd_zip]
      rw [List.length_zip]
      omega
    conv_rhs => rw [e]
    apply List.sum_le_sum
    intro s hs
    split
    · exact le_refl _
    · exact hw _ (List.of_mem_zip (a := s.1) (b := s.2) hs).2

omit [IsStrictOrderedRing K] in
/-- C116: summed, the binary accuracy is the weight of the elements whose decision (score above the threshold) equals the target 1 or 0. -/
theorem C116_binary_sum (input target : List (List K)) (h : input.map List.length = target.map List.length) (w : List K) (hw : w.length = input.length) (thr : K) :
    binaryAccuracy input target (some w) .sum thr = some (.one ((((input.zip target).zip w).map (fun s =>
      ((s.1.1.zip s.1.2).map (fun p => if (thr < p.1 ∧ p.2 = 1) ∨ (¬ thr < p.1 ∧ p.2 = 0) then s.2 else 0)).sum)).sum)) := by
  have hL : ¬ (input.map List.length ≠ target.map List.length) := by simpa using h
  have hW : ¬ w.length ≠ input.length := by simpa using hw
  refine (if_neg hL).trans ((if_neg hW).trans ?_)
  show some (Out.one (List.zipWith (fun r b => r.map (fun a => a * b)) (List.zipWith (fun r t => List.zipWith (fun x y =>
    if (if thr < x then (1 : K) else 0) = y then (1 : K) else 0) r t) input target) w).flatten.sum) = _
  rw [List.sum_flatten]
  congr 3
  clear h hw hL hW
  induction input generalizing target w with
  | nil => simp
  | cons r input ih =>
    cases target with
    | nil => simp
    | cons t target =>
      cases w with
      | nil => simp
      | cons b w =>
        simp only [List.zipWith_cons_cons, List.zip_cons_cons, List.map_cons]
        rw [ih target w]
        congr 2
        rw [List.map_zipWith, List.zip_eq_zipWith, List.map_zipWith]
        congr 1
        funext x y
        by_cases hx : thr < x
        · by_cases hy : y = 1
          · simp [hx, hy]
          · have : ¬ (1 : K) = y := fun h => hy h.symm
            simp [hx, hy, this]
        · by_cases hy : y = 0
          · simp [hx, hy]
          · have : ¬ (0 : K) = y := fun h => hy h.symm
            simp [hx, hy, this]

omit [IsStrictOrderedRing K] in
/-- C116: the mean binary accuracy raises unless there is exactly one element. -/
theorem C116_binary_mean_raises (input target : List (List K)) (h : input.map List.length = target.map List.length) (thr : K)
    (hn : input.flatten.length ≠ 1) : binaryAccuracy input target none .mean thr = none := by
  unfold binaryAccuracy
  rw [if_neg (by simpa using h)]
  simp only [Option.elim_none, ne_eq, not_true_eq_false, if_false]
  have hl : ∀ (input target : List (List K)), input.map List.length = target.map List.length →
      (List.zipWith (fun r t => List.zipWith (fun x y => if (if thr < x then (1 : K) else 0) = y then (1 : K) else 0) r t) input target).flatten.length = input.flatten.length := by
    intro input
    induction input with
    | nil => simp
    | cons r input ih =>
      intro target h
      cases target with
      | nil => simp at h
      | cons t target =>
        simp only [List.map_cons, List.cons.injEq] at h
        simp only [List.zipWith_cons_cons, List.flatten_cons, List.length_append, List.length_zipWith]
        rw [ih target h.2]
        omega
  have hl := hl input target h
  split
  · next x hx =>
    rw [hx] at hl
    simp at hl
    rw [List.length_flatten] at hn
    omega
  · rfl

end

/-! ### non-vacuity -/

/-- position of the first largest element -/
def exArgmax (r : List ℚ) : Nat := (r.zipIdx.find? (fun p => r.all (fun x => decide (x ≤ p.1)))).elim 0 Prod.snd

example : categoricalAccuracy exArgmax [[1, 3], [2, 0], [0, 5]] (.index [1, 1, 1]) (some [1, 2, 1]) .mean = some (.one (1 / 2)) := by
  rw [(C116_categorical exArgmax [[1, 3], [2, 0], [0, 5]] [1, 1, 1] [1, 2, 1] rfl rfl (by simp) (by decide +kernel)).1]
  congr 2
  decide +kernel

example : StrictMax ([0, 1, 0] : List ℚ) 1 := by
  refine ⟨1, rfl, fun j x hj hne => ?_⟩
  match j, hj with
  | 0, h => simp at h; subst h; norm_num
  | 1, _ => exact absurd rfl hne
  | 2, h => simp at h; subst h; norm_num
  | n + 3, h => simp at h

end Hyp.Confusion
