import Verif.Confusion.Model
import Verif.NpLemmas
import Mathlib.Algebra.Order.Ring.Rat
import Mathlib.Algebra.Order.BigOperators.Group.List
import Mathlib.Algebra.BigOperators.Ring.List
import Mathlib.Tactic.Ring
import Mathlib.Tactic.FieldSimp
import Mathlib.Tactic.NormNum

/-! Properties C114 (confusion matrix and accuracy), C115 (confusion matrix with different labels for training and test). -/

namespace Hyp.Confusion

/-! ### specification -/

/-- the total weight of the samples with true label `a` and predicted label `b` -/
def pairWeight {κ K : Type} [DecidableEq κ] [Field K] (yTrue yPred : List κ) (w : List K) (a b : κ) : K :=
  ((((yTrue.zip yPred).zip w).filter (fun t => decide (t.1.1 = a ∧ t.1.2 = b))).map Prod.snd).sum

/-- the total weight of the samples with equal labels -/
def correctWeight {κ K : Type} [DecidableEq κ] [Field K] (yTrue yPred : List κ) (w : List K) : K :=
  ((((yTrue.zip yPred).zip w).filter (fun t => decide (t.1.1 = t.1.2))).map Prod.snd).sum

section
variable {κ : Type} [LinearOrder κ] {K : Type} [Field K]

theorem map_range_getElem {α β : Type} (l : List α) (f : Nat → β) (g : α → β) (h : ∀ i a, l[i]? = some a → f i = g a) :
    (List.range l.length).map f = l.map g := by
  apply List.ext_getElem
  · simp
  · intro i h1 h2
    simp only [List.getElem_map, List.getElem_range]
    simp at h1
    exact h i _ (List.getElem?_eq_getElem h1)

omit [Field K] in
theorem unique_eq {l labels : List κ} (hs : labels.Pairwise (· < ·)) (h : ∀ x, x ∈ labels ↔ x ∈ l) : npUnique l = labels :=
  sorted_ext (npUnique_sorted l) hs (fun x => by rw [mem_npUnique, h])

theorem countMatrix_eq (labels : List κ) (hnd : labels.Nodup) (yTrue yPred : List κ) (w : List K) :
    countMatrix labels (((yTrue.zip yPred).zip w).map (fun t => (⟨t.1.1, t.1.2, t.2⟩ : Sample κ K))) =
      labels.map (fun a => labels.map (fun b => pairWeight yTrue yPred w a b)) := by
  have hd : ∀ i a, labels[i]? = some a → ∀ x, (dictGet (enumDict labels) x = some i ↔ x = a) := by
    intro i a ha x
    constructor
    · intro h
      have := enumDict_some h
      rw [ha] at this
      exact (Option.some.inj this).symm
    · rintro rfl
      exact enumDict_get_nodup hnd ha
  unfold countMatrix
  apply map_range_getElem
  intro i a ha
  apply map_range_getElem
  intro j b hb
  unfold pairWeight
  rw [List.filter_map, List.map_map]
  simp only [Function.comp_def]
  congr 2
  apply List.filter_congr
  intro t _
  simp only [hd i a ha, hd j b hb]

theorem samples_some (yTrue yPred : List κ) (w : List K) (h1 : yTrue.length = yPred.length) (h2 : yTrue.length = w.length) :
    samples yTrue yPred (some w) = some (((yTrue.zip yPred).zip w).map (fun t => (⟨t.1.1, t.1.2, t.2⟩ : Sample κ K))) := by
  unfold samples
  simp only [Option.getD_some]
  rw [if_pos ⟨h1, h2⟩]

variable [DecidableEq K]

/-- C114: with distinct labels of which at least one is a true label, entry (a, b) of the confusion matrix is the total weight of the samples with true label a and predicted
label b. -/
theorem C114_counts (yTrue yPred : List κ) (w : List K) (h1 : yTrue.length = yPred.length) (h2 : yTrue.length = w.length) (labels : List κ) (hnd : labels.Nodup)
    (hx : ∃ x ∈ labels, x ∈ yTrue) :
    confusion yTrue yPred (some labels) false (some w) = some (labels.map (fun a => labels.map (fun b => some (pairWeight yTrue yPred w a b)))) := by
  unfold confusion skConfusion
  rw [samples_some _ _ _ h1 h2]
  simp only [Option.bind_eq_bind, Option.bind_some]
  rw [if_neg (by simpa using hx)]
  simp only [Option.bind_some]
  rw [countMatrix_eq labels hnd]
  simp [Function.comp_def]

/-- C114: without labels, the labels are all true and predicted labels, in increasing order. -/
theorem C114_default_labels (yTrue yPred : List κ) (w : List K) (h1 : yTrue.length = yPred.length) (h2 : yTrue.length = w.length) (labels : List κ)
    (hs : labels.Pairwise (· < ·)) (hl : ∀ x, x ∈ labels ↔ x ∈ yTrue ∨ x ∈ yPred) :
    confusion yTrue yPred none false (some w) = some (labels.map (fun a => labels.map (fun b => some (pairWeight yTrue yPred w a b)))) := by
  have e : npUnique (yTrue ++ yPred) = labels := unique_eq hs (by intro x; rw [hl, List.mem_append])
  unfold confusion skConfusion
  rw [samples_some _ _ _ h1 h2]
  simp only [Option.bind_eq_bind, Option.bind_some]
  rw [e, countMatrix_eq labels (hs.imp (fun h => ne_of_lt h))]
  simp [Function.comp_def]

/-- C114: without weights every sample has weight 1. -/
theorem C114_no_weights (yTrue yPred : List κ) (labels : Option (List κ)) (normalize : Bool) :
    confusion yTrue yPred labels normalize (none : Option (List K)) = confusion yTrue yPred labels normalize (some (List.replicate yTrue.length 1)) := rfl

/-- C114: it raises exactly when the numbers of true labels, predicted labels and weights differ or none of the given labels is a true label. -/
theorem C114_raises (yTrue yPred : List κ) (w : List K) (labels : Option (List κ)) (normalize : Bool) :
    confusion yTrue yPred labels normalize (some w) = none ↔
      ¬ (yTrue.length = yPred.length ∧ yTrue.length = w.length) ∨ ∃ l, labels = some l ∧ ∀ x ∈ l, x ∉ yTrue := by
  unfold confusion skConfusion samples
  simp only [Option.getD_some]
  by_cases h : yTrue.length = yPred.length ∧ yTrue.length = w.length
  · rw [if_pos h]
    simp only [Option.bind_eq_bind, Option.bind_some, not_true_eq_false, false_or]
    rw [eq_true h.1, eq_true h.2]
    simp only [and_self, not_true_eq_false, false_or]
    rcases labels with _ | l
    · simp
    · simp only
      by_cases hl : (l.all (fun x => !yTrue.contains x)) = true
      · rw [if_pos hl]
        simp at hl
        simp
        exact hl
      · rw [if_neg hl]
        simp at hl
        simp
        exact hl
  · rw [if_neg h]
    simp [h]

/-- C114: normalised, every row is divided by its sum; a row of sum 0 is nan. -/
theorem C114_normalized (yTrue yPred : List κ) (w : List K) (h1 : yTrue.length = yPred.length) (h2 : yTrue.length = w.length) (labels : List κ) (hnd : labels.Nodup)
    (hx : ∃ x ∈ labels, x ∈ yTrue) :
    confusion yTrue yPred (some labels) true (some w) = some (labels.map (fun a => labels.map (fun b =>
      if (labels.map (fun c => pairWeight yTrue yPred w a c)).sum = 0 then none
      else some (pairWeight yTrue yPred w a b / (labels.map (fun c => pairWeight yTrue yPred w a c)).sum)))) := by
  unfold confusion skConfusion
  rw [samples_some _ _ _ h1 h2]
  simp only [Option.bind_eq_bind, Option.bind_some]
  rw [if_neg (by simpa using hx)]
  simp only [Option.bind_some]
  rw [countMatrix_eq labels hnd]
  simp [normRows, Function.comp_def]

/-- C114: accuracy is the weight of the correct samples, normalised their share of the total weight. -/
theorem C114_accuracy (yTrue yPred : List κ) (w : List K) (h1 : yTrue.length = yPred.length) (h2 : yTrue.length = w.length) :
    accuracy yTrue yPred false (some w) = some (correctWeight yTrue yPred w) ∧
    (w.sum ≠ 0 → accuracy yTrue yPred true (some w) = some (correctWeight yTrue yPred w / w.sum)) := by
  have hok : ((((yTrue.zip yPred).zip w).map (fun t => (⟨t.1.1, t.1.2, t.2⟩ : Sample κ K))).map (fun s => if s.y = s.p then s.w else 0)).sum =
      correctWeight yTrue yPred w := by
    unfold correctWeight
    rw [List.map_map]
    generalize (yTrue.zip yPred).zip w = l
    induction l with
    | nil => rfl
    | cons t l ih =>
      rw [List.map_cons, List.sum_cons, ih, List.filter_cons]
      by_cases ht : t.1.1 = t.1.2
      · simp [ht]
      · simp [ht]
  have hw : ((((yTrue.zip yPred).zip w).map (fun t => (⟨t.1.1, t.1.2, t.2⟩ : Sample κ K))).map Sample.w).sum = w.sum := by
    rw [List.map_map]
    congr 1
    apply List.map_snd_zip
    rw [List.length_zip]
    omega
  constructor
  · unfold accuracy
    rw [samples_some _ _ _ h1 h2]
    simp only [Option.bind_eq_bind, Option.bind_some]
    rw [hok]
    simp
  · intro hne
    unfold accuracy
    rw [samples_some _ _ _ h1 h2]
    simp only [Option.bind_eq_bind, Option.bind_some]
    rw [hok, hw]
    simp [hne]

omit [DecidableEq K] in
theorem sum_single (labels : List κ) (hnd : labels.Nodup) (x : κ) (v : K) (hl : x ∈ labels) : (labels.map (fun a => if x = a then v else 0)).sum = v := by
  induction labels with
  | nil => simp at hl
  | cons b labels ih =>
    rw [List.map_cons, List.sum_cons]
    by_cases hb : x = b
    · rw [if_pos hb]
      have : (labels.map (fun a => if x = a then v else 0)).sum = 0 := by
        apply List.sum_eq_zero
        intro y hy
        obtain ⟨a, ha, rfl⟩ := List.mem_map.1 hy
        rw [if_neg]
        intro h
        rw [hb] at h
        subst h
        exact (List.nodup_cons.1 hnd).1 ha
      rw [this, add_zero]
    · rw [if_neg hb, zero_add]
      apply ih (List.nodup_cons.1 hnd).2
      rcases List.mem_cons.1 hl with h | h
      · exact absurd h hb
      · exact h

omit [DecidableEq K] in
theorem sum_partition {α : Type} (T : List (α × K)) (labels : List κ) (hnd : labels.Nodup) (f : α → κ) (P : α → Bool) (hm : ∀ t ∈ T, P t.1 = true → f t.1 ∈ labels) :
    (labels.map (fun a => ((T.filter (fun t => decide (f t.1 = a) && P t.1)).map Prod.snd).sum)).sum = ((T.filter (fun t => P t.1)).map Prod.snd).sum := by
  induction T with
  | nil => simp
  | cons t T ih =>
    have ih := ih (fun x hx => hm x (List.mem_cons_of_mem _ hx))
    by_cases hP : P t.1 = true
    · have hl := hm t (by simp) hP
      have e : ∀ a, (((t :: T).filter (fun t => decide (f t.1 = a) && P t.1)).map Prod.snd).sum =
          (if f t.1 = a then t.2 else 0) + ((T.filter (fun t => decide (f t.1 = a) && P t.1)).map Prod.snd).sum := by
        intro a
        by_cases ha : f t.1 = a
        · simp [List.filter_cons, ha, hP]
        · simp [List.filter_cons, ha]
      simp only [e]
      rw [List.sum_map_add, ih, List.filter_cons_of_pos (by exact hP), List.map_cons, List.sum_cons]
      congr 1
      exact sum_single labels hnd (f t.1) t.2 hl
    · have e : ∀ a, (((t :: T).filter (fun t => decide (f t.1 = a) && P t.1)).map Prod.snd).sum =
          ((T.filter (fun t => decide (f t.1 = a) && P t.1)).map Prod.snd).sum := by
        intro a
        simp [List.filter_cons, hP]
      simp only [e]
      rw [ih, List.filter_cons_of_neg (by exact hP)]

omit [DecidableEq K] in
/-- C114: over all labels, the diagonal of the confusion matrix adds up to the weight of the correct samples and all entries add up to the total weight, so that
accuracy is the share of the diagonal. -/
theorem C114_trace (yTrue yPred : List κ) (w : List K) (h1 : yTrue.length = yPred.length) (h2 : yTrue.length = w.length) (labels : List κ) (hnd : labels.Nodup)
    (hl : ∀ x, x ∈ yTrue ∨ x ∈ yPred → x ∈ labels) :
    (labels.map (fun a => pairWeight yTrue yPred w a a)).sum = correctWeight yTrue yPred w ∧
    (labels.map (fun a => (labels.map (fun b => pairWeight yTrue yPred w a b)).sum)).sum = w.sum := by
  have hT : ∀ t ∈ (yTrue.zip yPred).zip w, t.1.1 ∈ labels ∧ t.1.2 ∈ labels := by
    intro t ht
    obtain ⟨⟨a, b⟩, c⟩ := t
    have h := List.of_mem_zip (List.of_mem_zip ht).1
    exact ⟨hl _ (Or.inl h.1), hl _ (Or.inr h.2)⟩
  constructor
  · have := sum_partition ((yTrue.zip yPred).zip w) labels hnd (fun p => p.1) (fun p => decide (p.1 = p.2)) (fun t ht _ => (hT t ht).1)
    unfold correctWeight
    rw [← this]
    unfold pairWeight
    congr 1
    apply List.map_congr_left
    intro a _
    congr 2
    apply List.filter_congr
    intro t _
    rw [Bool.eq_iff_iff]
    simp only [decide_eq_true_eq, Bool.and_eq_true]
    constructor
    · rintro ⟨rfl, h⟩
      exact ⟨rfl, h.symm⟩
    · rintro ⟨rfl, h⟩
      exact ⟨rfl, h.symm⟩
  · have inner : ∀ a, (labels.map (fun b => pairWeight yTrue yPred w a b)).sum =
        ((((yTrue.zip yPred).zip w).filter (fun t => decide (t.1.1 = a))).map Prod.snd).sum := by
      intro a
      rw [← sum_partition ((yTrue.zip yPred).zip w) labels hnd (fun p => p.2) (fun p => decide (p.1 = a)) (fun t ht _ => (hT t ht).2)]
      unfold pairWeight
      congr 1
      apply List.map_congr_left
      intro b _
      congr 2
      apply List.filter_congr
      intro t _
      rw [Bool.eq_iff_iff]
      simp only [decide_eq_true_eq, Bool.and_eq_true]
      tauto
    simp only [inner]
    have := sum_partition ((yTrue.zip yPred).zip w) labels hnd (fun p => p.1) (fun _ => true) (fun t ht _ => (hT t ht).1)
    simp only [Bool.and_true] at this
    rw [this, List.filter_true, List.map_snd_zip (by rw [List.length_zip]; omega)]

end

/-- C114: with weights that are not negative, a normalised row is a distribution: entries between 0 and 1 that add up to 1. -/
theorem C114_rows {κ K : Type} [LinearOrder κ] [Field K] [LinearOrder K] [IsStrictOrderedRing K] (yTrue yPred : List κ) (w : List K) (hw : ∀ x ∈ w, 0 ≤ x)
    (labels : List κ) (a : κ) (hne : (labels.map (fun c => pairWeight yTrue yPred w a c)).sum ≠ 0) :
    (labels.map (fun b => pairWeight yTrue yPred w a b / (labels.map (fun c => pairWeight yTrue yPred w a c)).sum)).sum = 1 ∧
    ∀ b ∈ labels, 0 ≤ pairWeight yTrue yPred w a b / (labels.map (fun c => pairWeight yTrue yPred w a c)).sum ∧
      pairWeight yTrue yPred w a b / (labels.map (fun c => pairWeight yTrue yPred w a c)).sum ≤ 1 := by
  have hnn : ∀ b, 0 ≤ pairWeight yTrue yPred w a b := by
    intro b
    unfold pairWeight
    apply List.sum_nonneg
    intro x hx
    obtain ⟨t, ht, rfl⟩ := List.mem_map.1 hx
    exact hw _ (List.of_mem_zip (a := t.1) (b := t.2) (List.mem_filter.1 ht).1).2
  have hpos : 0 < (labels.map (fun c => pairWeight yTrue yPred w a c)).sum :=
    lt_of_le_of_ne (List.sum_nonneg (by intro x hx; obtain ⟨t, _, rfl⟩ := List.mem_map.1 hx; exact hnn t)) (Ne.symm hne)
  refine ⟨?_, fun b hb => ⟨div_nonneg (hnn b) hpos.le, ?_⟩⟩
  · have : (labels.map (fun b => pairWeight yTrue yPred w a b / (labels.map (fun c => pairWeight yTrue yPred w a c)).sum)).sum =
        (labels.map (fun b => pairWeight yTrue yPred w a b)).sum / (labels.map (fun c => pairWeight yTrue yPred w a c)).sum := by
      simp only [div_eq_mul_inv]
      rw [List.sum_map_mul_right]
    rw [this, div_self hne]
  · rw [div_le_one hpos]
    apply List.single_le_sum
    · intro x hx
      obtain ⟨t, _, rfl⟩ := List.mem_map.1 hx
      exact hnn t
    · exact List.mem_map.2 ⟨b, hb, rfl⟩

/-! ### different labels in training and test -/

section
variable {K : Type} [Field K] [DecidableEq K]

omit [DecidableEq K] in
theorem pairWeight_shift (yTrue yPred : List Int) (w : List K) (n a b : Int) :
    pairWeight yTrue (yPred.map (fun x => x + n)) w a (b + n) = pairWeight yTrue yPred w a b := by
  unfold pairWeight
  rw [List.zip_map_right, List.zip_map_left, List.filter_map, List.map_map]
  congr 2
  apply List.filter_congr
  intro t _
  simp

/-- C115: entry (a, b) is the total weight of the samples with true label a and predicted label b, provided that no test label equals a training label plus the number of test
labels. -/
theorem C115_xlabel (yTrue yPred : List Int) (w : List K) (h1 : yTrue.length = yPred.length) (h2 : yTrue.length = w.length) (test train : List Int)
    (hte : test.Nodup) (htr : train.Nodup) (hno : ∀ a ∈ test, ∀ b ∈ train, a ≠ b + test.length) (hx : ∃ x ∈ test, x ∈ yTrue) :
    (xconfusion yTrue yPred (some train) (some test) false (some w)).map XOut.C =
      some (test.map (fun a => train.map (fun b => some (pairWeight yTrue yPred w a b)))) := by
  have hnd : (test ++ train.map (fun x => x + (test.length : Int))).Nodup := by
    rw [List.nodup_append]
    refine ⟨hte, htr.map (fun a b h => by simpa using h), ?_⟩
    intro a ha b hb
    obtain ⟨c, hc, rfl⟩ := List.mem_map.1 hb
    exact hno a ha c hc
  unfold xconfusion skConfusion
  simp only [Option.getD_some]
  rw [samples_some _ _ _ (by rw [List.length_map]; exact h1) h2]
  simp only [Option.bind_eq_bind, Option.bind_some]
  rw [if_neg (by
    obtain ⟨x, hx1, hx2⟩ := hx
    simp only [List.all_eq_true, not_forall]
    exact ⟨x, by simp [hx1], by simpa using hx2⟩)]
  simp only [Option.bind_some]
  rw [countMatrix_eq _ hnd]
  simp only [corner, Bool.false_eq_true, if_false, Option.map_some]
  congr 1
  rw [List.map_append, List.take_left' (by simp), List.map_map, List.map_map]
  apply List.map_congr_left
  intro a _
  simp only [Function.comp]
  rw [List.map_append, List.drop_left' (by simp), List.map_map, List.map_map]
  apply List.map_congr_left
  intro b _
  simp only [Function.comp]
  rw [pairWeight_shift]

/-- C115: the condition holds for training labels that are not negative and test labels that are less than their number (as class numbers are). -/
theorem C115_class_numbers (test train : List Int) (h1 : ∀ a ∈ test, a < test.length) (h2 : ∀ b ∈ train, 0 ≤ b) :
    ∀ a ∈ test, ∀ b ∈ train, a ≠ b + test.length := by
  intro a ha b hb
  have := h1 a ha
  have := h2 b hb
  omega

/-- C115: without given labels, the test labels are the true labels and the training labels the predicted labels, in increasing order. -/
theorem C115_default_labels (yTrue yPred : List Int) (w : Option (List K)) (normalize : Bool) (test train : List Int)
    (hs : test.Pairwise (· < ·)) (hl : ∀ x, x ∈ test ↔ x ∈ yTrue) (hs' : train.Pairwise (· < ·)) (hl' : ∀ x, x ∈ train ↔ x ∈ yPred) :
    (xconfusion yTrue yPred none none normalize w).map XOut.C = (xconfusion yTrue yPred (some train) (some test) normalize w).map XOut.C := by
  have e1 : npUnique yTrue = test := unique_eq hs hl
  have e2 : npUnique yPred = train := unique_eq hs' hl'
  unfold xconfusion
  simp only [Option.getD_none, Option.getD_some, e1, e2]
  cases skConfusion yTrue (yPred.map (fun x => x + (test.length : Int))) (some (test ++ train.map (fun x => x + (test.length : Int)))) w <;> rfl

/-- C115: the call adds the number of test labels to the caller's arrays of predictions and of training labels. -/
theorem C115_mutates (yTrue yPred train test : List Int) (normalize : Bool) (w : Option (List K)) (r : XOut K)
    (h : xconfusion yTrue yPred (some train) (some test) normalize w = some r) :
    r.yPred = yPred.map (fun x => x + (test.length : Int)) ∧ r.labelsTrain = some (train.map (fun x => x + (test.length : Int))) := by
  unfold xconfusion at h
  obtain ⟨C, _, h⟩ := Option.bind_eq_some_iff.1 h
  simp only [Option.getD_some, Option.some.injEq] at h
  subst h
  exact ⟨rfl, rfl⟩

end

/-- C115: test labels 0 and 2, training labels 0 and 1: test label 2 collides with shifted training label 0, and its samples are lost. -/
theorem C115_collision : (xconfusion (K := ℚ) [0, 2] [0, 1] (some [0, 1]) (some [0, 2]) false none).map XOut.C = some [[some 1, some 0], [some 0, some 0]] ∧
    pairWeight [0, 2] [0, 1] [(1 : ℚ), 1] 2 1 = 1 := by
  constructor
  · decide +kernel
  · decide +kernel

/-- C115: a second call with the same array of predictions and the same list of training labels finds no prediction among the labels. -/
theorem C115_second_call : ∃ r, xconfusion (K := ℚ) [0, 1] [0, 1] (some [0, 1]) (some [0, 1]) false none = some r ∧ r.C = [[some 1, some 0], [some 0, some 1]] ∧
    (xconfusion (K := ℚ) [0, 1] r.yPred (some [0, 1]) (some [0, 1]) false none).map XOut.C = some [[some 0, some 0], [some 0, some 0]] := by
  refine ⟨⟨[[some 1, some 0], [some 0, some 1]], [2, 3], some [2, 3]⟩, ?_, rfl, ?_⟩
  · decide +kernel
  · decide +kernel

/-- C115: labels that are strings always raise. -/
theorem C115_strings (a b : List String) (c d : Option (List String)) : xconfusionStr (K := ℚ) a b c d = none := rfl

/-! ### non-vacuity -/

example : confusion (κ := Int) (K := ℚ) [0, 0, 1, 2] [0, 1, 1, 0] (some [0, 1]) false (some [1, 2, 3, 4]) = some [[some 1, some 2], [some 0, some 3]] :=
  (C114_counts (κ := Int) (K := ℚ) [0, 0, 1, 2] [0, 1, 1, 0] [1, 2, 3, 4] rfl rfl [0, 1] (by decide) ⟨0, by decide, by decide⟩).trans (by decide +kernel)

example : accuracy (κ := Int) (K := ℚ) [0, 0, 1] [0, 1, 1] true (some [1, 2, 1]) = some (1 / 2) :=
  ((C114_accuracy (κ := Int) (K := ℚ) [0, 0, 1] [0, 1, 1] [1, 2, 1] rfl rfl).2 (by decide +kernel)).trans (by decide +kernel)

example : (xconfusion (K := ℚ) [0, 1, 1] [2, 0, 2] (some [0, 2]) (some [0, 1]) false (some [1, 1, 1])).map XOut.C = some [[some 0, some 1], [some 1, some 1]] :=
  (C115_xlabel [0, 1, 1] [2, 0, 2] ([1, 1, 1] : List ℚ) rfl rfl [0, 1] [0, 2] (by decide) (by decide) (by decide) ⟨0, by decide, by decide⟩).trans (by decide +kernel)

end Hyp.Confusion
