import Verif.Keras.Constraints
import Mathlib.Algebra.Order.BigOperators.Ring.Finset
import Mathlib.Tactic.Linarith
import Mathlib.Tactic.NormNum
import Mathlib.Tactic.FieldSimp
import Mathlib.Tactic.Ring
import Mathlib.Data.Fintype.BigOperators

/-!
C175: constraints on weights and constant Gaussian layers of Keras networks.
-/

namespace Hyp.Keras.Constr
noncomputable section

/-- upper triangular, with `v` on the diagonal if given -/
def Upper {d : Nat} (v : Option ℝ) (q : Fin d → Fin d → ℝ) : Prop :=
  (∀ i j, j < i → q i j = 0) ∧ ∀ w, v = some w → ∀ i, q i i = w

theorem triu_apply {d : Nat} (v : Option ℝ) (p : Fin d → Fin d → ℝ) (i j : Fin d) :
    triu v p i j = if j < i then 0 else if i < j then p i j else v.getD (p i j) := by
  rcases lt_trichotomy i j with h | h | h
  · have h1 : ¬ j < i := not_lt.2 h.le
    have h2 : i ≠ j := h.ne
    have h3 : (i : Nat) ≤ j := Nat.le_of_lt h
    have h4 : (i : Nat) + 1 ≤ j := h
    cases v with
    | none => simp [triu, triuOnes, h1, h, h3]
    | some w => by_cases hw : w = 0 <;> simp [triu, triuOnes, h1, h, h2, h4, hw]
  · subst h
    cases v with
    | none => simp [triu, triuOnes]
    | some w => by_cases hw : w = 0 <;> simp [triu, triuOnes, hw]
  · have h2 : i ≠ j := h.ne'
    have h3 : ¬ (i : Nat) ≤ j := not_le.2 h
    have h4 : ¬ (i : Nat) + 1 ≤ j := fun hh => h3 (by omega)
    cases v with
    | none => simp [triu, triuOnes, h, h3]
    | some w => by_cases hw : w = 0 <;> simp [triu, triuOnes, h, h2, h4, hw]

/-- **C175 (triangle).** `Triu` gives a triangular matrix with the diagonal asked for, keeps everything above the diagonal, the diagonal if none was
asked for, and a matrix of this form as it is. -/
theorem C175_triu {d : Nat} (v : Option ℝ) (p : Fin d → Fin d → ℝ) :
    Upper v (triu v p) ∧ (∀ i j, i < j → triu v p i j = p i j) ∧ (v = none → ∀ i, triu v p i i = p i i) ∧ (Upper v p → triu v p = p) := by
  refine ⟨⟨fun i j h => ?_, fun w hw i => ?_⟩, fun i j h => ?_, fun hv i => ?_, fun h => ?_⟩
  · rw [triu_apply, if_pos h]
  · rw [triu_apply, if_neg (lt_irrefl i), if_neg (lt_irrefl i), hw]; rfl
  · rw [triu_apply, if_neg (not_lt.2 h.le), if_pos h]
  · rw [triu_apply, if_neg (lt_irrefl i), if_neg (lt_irrefl i), hv]; rfl
  · funext i j
    rw [triu_apply]
    split_ifs with h1 h2
    · exact (h.1 i j h1).symm
    · rfl
    · have : i = j := le_antisymm (not_lt.1 h1) (not_lt.1 h2)
      subst this
      cases v with
      | none => rfl
      | some w => exact (h.2 w rfl i).symm

/-- **C175 (nearest).** No triangular matrix with this diagonal is nearer, in the sum of the squares of the differences. -/
theorem C175_nearest {d : Nat} (v : Option ℝ) (p q : Fin d → Fin d → ℝ) (hq : Upper v q) :
    ∑ i, ∑ j, (triu v p i j - p i j) ^ 2 ≤ ∑ i, ∑ j, (q i j - p i j) ^ 2 := by
  refine Finset.sum_le_sum (fun i _ => Finset.sum_le_sum (fun j _ => ?_))
  rw [triu_apply]
  split_ifs with h1 h2
  · rw [hq.1 i j h1]
  · rw [sub_self]; simpa using sq_nonneg _
  · have : i = j := le_antisymm (not_lt.1 h1) (not_lt.1 h2)
    subst this
    cases v with
    | none => rw [Option.getD_none, sub_self]; simpa using sq_nonneg _
    | some w => rw [hq.2 w rfl i]; rfl

/-- **C175 (clip).** With bounds in order the result is between them and no number between them is nearer; numbers between them stay. With a maximum
below the minimum everything becomes the minimum. -/
theorem C175_clip (lo hi : Option ℝ) (x : ℝ) :
    (∀ l, lo = some l → l ≤ clip1 lo hi x) ∧
    ((∀ l h, lo = some l → hi = some h → l ≤ h) →
      (∀ h, hi = some h → clip1 lo hi x ≤ h) ∧
      ∀ y, (∀ l, lo = some l → l ≤ y) → (∀ h, hi = some h → y ≤ h) → |clip1 lo hi x - x| ≤ |y - x|) ∧
    ((∀ l, lo = some l → l ≤ x) → (∀ h, hi = some h → x ≤ h) → clip1 lo hi x = x) ∧
    (∀ l h, lo = some l → hi = some h → h < l → clip1 lo hi x = l) := by
  have key : ∀ (a b y : ℝ), a ≤ y → y ≤ b → |min (max x a) b - x| ≤ |y - x| := by
    intro a b y h1 h2
    rcases le_total x a with h | h
    · rw [max_eq_right h, min_eq_left (h1.trans h2), abs_of_nonneg (by linarith), abs_of_nonneg (by linarith)]; linarith
    · rw [max_eq_left h]
      rcases le_total x b with h' | h'
      · rw [min_eq_left h']; simp
      · rw [min_eq_right h', abs_of_nonpos (by linarith), abs_of_nonpos (by linarith)]; linarith
  cases lo with
  | none =>
    cases hi with
    | none => simp [clip1]
    | some h =>
      refine ⟨by simp, fun _ => ⟨fun h' hh => ?_, fun y _ hy => ?_⟩, fun _ hx => ?_, by simp⟩
      · cases hh; exact min_le_right _ _
      · have hy := hy h rfl
        show |min x h - x| ≤ |y - x|
        rcases le_total x h with h' | h'
        · rw [min_eq_left h']; simp
        · rw [min_eq_right h', abs_of_nonpos (by linarith), abs_of_nonpos (by linarith)]; linarith
      · exact min_eq_left (hx h rfl)
  | some l =>
    cases hi with
    | none =>
      refine ⟨fun l' hl => ?_, fun _ => ⟨by simp, fun y hy _ => ?_⟩, fun hx _ => ?_, by simp⟩
      · cases hl; exact le_max_right _ _
      · have hy := hy l rfl
        show |max x l - x| ≤ |y - x|
        rcases le_total x l with h' | h'
        · rw [max_eq_right h', abs_of_nonneg (by linarith), abs_of_nonneg (by linarith)]; linarith
        · rw [max_eq_left h']; simp
      · exact max_eq_left (hx l rfl)
    | some h =>
      have hc : clip1 (some l) (some h) x = min (max x l) (if h < l then l else h) := by
        unfold clip1
        by_cases hh : h < l <;> simp [hh]
      refine ⟨fun l' hl => ?_, fun ho => ⟨fun h' hh => ?_, fun y h1 h2 => ?_⟩, fun h1 h2 => ?_, fun l' h' e1 e2 hlt => ?_⟩
      · cases hl
        rw [hc]
        refine le_min (le_max_right _ _) ?_
        split_ifs with hh
        · exact le_rfl
        · exact not_lt.1 hh
      · cases hh
        rw [hc, if_neg (not_lt.2 (ho l h rfl rfl))]
        exact min_le_right _ _
      · rw [hc, if_neg (not_lt.2 (ho l h rfl rfl))]
        exact key l h y (h1 l rfl) (h2 h rfl)
      · have a := h1 l rfl
        have b := h2 h rfl
        rw [hc, if_neg (not_lt.2 (a.trans b)), max_eq_left a, min_eq_left b]
      · cases e1; cases e2
        rw [hc, if_pos hlt]
        exact min_eq_right (le_max_right _ _)

/-- **C175 (lists).** A list of constraints applies one after the other, from the first to the last. -/
theorem C175_list {α : Type} (c : α → α) (cs : List (α → α)) (p : α) :
    constraintList [] p = p ∧ constraintList (c :: cs) p = constraintList cs (c p) := ⟨rfl, rfl⟩

/-- **C175 (order of a list).** `Triu` and then `Clip` gives a triangular matrix within the bounds for every matrix when zero and the diagonal
asked for are within the bounds; with a positive minimum the result of this list is never triangular (two rows or more), while with `Clip` first it is. -/
theorem C175_order {d : Nat} (v : Option ℝ) (lo hi : ℝ) (p : Fin d → Fin d → ℝ) (hlh : lo ≤ hi) :
    (lo ≤ 0 → 0 ≤ hi → (∀ w, v = some w → lo ≤ w ∧ w ≤ hi) →
      Upper v (constraintList [triu v, fun p i j => clip1 (some lo) (some hi) (p i j)] p) ∧
      ∀ i j, lo ≤ constraintList [triu v, fun p i j => clip1 (some lo) (some hi) (p i j)] p i j ∧
        constraintList [triu v, fun p i j => clip1 (some lo) (some hi) (p i j)] p i j ≤ hi) ∧
    (2 ≤ d → 0 < lo → ¬ Upper v (constraintList [triu v, fun p i j => clip1 (some lo) (some hi) (p i j)] p)) ∧
    Upper v (constraintList [fun p i j => clip1 (some lo) (some hi) (p i j), triu v] p) := by
  have hb : ∀ x, lo ≤ clip1 (some lo) (some hi) x ∧ clip1 (some lo) (some hi) x ≤ hi := fun x =>
    ⟨(C175_clip (some lo) (some hi) x).1 lo rfl, ((C175_clip (some lo) (some hi) x).2.1 (fun l h e1 e2 => by cases e1; cases e2; exact hlh)).1 hi rfl⟩
  have hid : ∀ x, lo ≤ x → x ≤ hi → clip1 (some lo) (some hi) x = x := fun x h1 h2 =>
    (C175_clip (some lo) (some hi) x).2.2.1 (fun l e => by cases e; exact h1) (fun l e => by cases e; exact h2)
  refine ⟨fun h1 h2 h3 => ⟨⟨fun i j hij => ?_, fun w hw i => ?_⟩, fun i j => hb _⟩, fun hd hlo hU => ?_, (C175_triu v _).1⟩
  · show clip1 (some lo) (some hi) (triu v p i j) = 0
    rw [(C175_triu v p).1.1 i j hij, hid 0 h1 h2]
  · show clip1 (some lo) (some hi) (triu v p i i) = w
    rw [(C175_triu v p).1.2 w hw i, hid w (h3 w hw).1 (h3 w hw).2]
  · have h := hU.1 ⟨1, hd⟩ ⟨0, by omega⟩ (by simp)
    have h' := (hb (triu v p ⟨1, hd⟩ ⟨0, by omega⟩)).1
    have : clip1 (some lo) (some hi) (triu v p ⟨1, hd⟩ ⟨0, by omega⟩) = 0 := h
    linarith

/-- **C175 (training).** Whatever the optimiser does, the weight of `ConstTriu` is triangular with the diagonal asked for after every update; the
constraint given to the constructor has no effect. Before the first update it is the identity: right exactly when no diagonal or ones were asked for. -/
theorem C175_training {d : Nat} (v : Option ℝ) (c c' : (Fin d → Fin d → ℝ) → (Fin d → Fin d → ℝ)) (update : Nat → (Fin d → Fin d → ℝ) → (Fin d → Fin d → ℝ)) :
    (∀ n, 0 < n → Upper v (constTriu v c update n)) ∧ (∀ n, constTriu v c update n = constTriu v c' update n) ∧
    (0 < d → (Upper v (constTriu v c update 0) ↔ ∀ w, v = some w → w = 1)) ∧
    ∀ n, constTriu v c update (n + 1) = triu v (update n (constTriu v c update n)) := by
  refine ⟨fun n hn => ?_, fun n => rfl, fun hd => ⟨fun h w hw => ?_, fun h => ⟨fun i j hij => ?_, fun w hw i => ?_⟩⟩, fun n => rfl⟩
  · obtain ⟨m, rfl⟩ : ∃ m, n = m + 1 := ⟨n - 1, by omega⟩
    exact (C175_triu v _).1
  · have := h.2 w hw ⟨0, hd⟩
    rw [← this]
    exact (if_pos rfl : (if (⟨0, hd⟩ : Fin d) = ⟨0, hd⟩ then (1 : ℝ) else 0) = 1)
  · exact if_neg hij.ne'
  · rw [h w hw]; exact if_pos rfl

/-- **C175 (constant variance).** `MultConstDiagCov` gives for every frame the Gaussian with the weight as logarithm of the variance, whose natural
parameter is the input. -/
theorem C175_constant_variance {d : Nat} (logvar : Fin d → ℝ) (x : List (Fin d → ℝ)) :
    (multDiag logvar x).1.length = x.length ∧ (multDiag logvar x).2.length = x.length ∧
    ∀ (t : Nat) (r m lv : Fin d → ℝ), x[t]? = some r → (multDiag logvar x).1[t]? = some m → (multDiag logvar x).2[t]? = some lv →
      lv = logvar ∧ ∀ i, m i / Real.exp (lv i) = r i := by
  refine ⟨by simp [multDiag], by simp [multDiag], fun t r m lv h1 h2 h3 => ?_⟩
  simp only [multDiag, List.getElem?_map, h1, Option.map_some, Option.some.injEq] at h2
  have h4 : lv = logvar := List.eq_of_mem_replicate (List.mem_of_getElem? h3)
  refine ⟨h4, fun i => ?_⟩
  rw [h4, ← h2]
  exact mul_div_cancel_right₀ _ (Real.exp_pos _).ne'

/-- **C175 (posterior under a standard normal prior).** `MultConstDiagCovStdPrior` gives for every frame and coordinate the Gaussian that is proportional
to the standard normal times `exp (x m - exp(prec) m² / 2)`; its variance is `1 / (1 + exp prec)`, between zero and one. -/
theorem C175_posterior {d : Nat} (prec : Fin d → ℝ) (x : List (Fin d → ℝ)) :
    (multDiagPrior prec x).1.length = x.length ∧ (multDiagPrior prec x).2.length = x.length ∧
    ∀ (t : Nat) (r m lv : Fin d → ℝ), x[t]? = some r → (multDiagPrior prec x).1[t]? = some m → (multDiagPrior prec x).2[t]? = some lv →
      ∀ i, Real.exp (lv i) = 1 / (1 + Real.exp (prec i)) ∧ Real.exp (lv i) < 1 ∧
        ∃ c, ∀ y : ℝ, -(y ^ 2 / 2) + (r i * y - Real.exp (prec i) * y ^ 2 / 2) = -((y - m i) ^ 2 / (2 * Real.exp (lv i))) + c := by
  refine ⟨by simp [multDiagPrior], by simp [multDiagPrior], fun t r m lv h1 h2 h3 i => ?_⟩
  simp only [multDiagPrior, List.getElem?_map, h1, Option.map_some, Option.some.injEq] at h2
  have h4 : lv = fun i => - Real.log (1 + Real.exp (prec i)) := List.eq_of_mem_replicate (List.mem_of_getElem? h3)
  have hp : 0 < 1 + Real.exp (prec i) := by linarith [Real.exp_pos (prec i)]
  have he : Real.exp (lv i) = 1 / (1 + Real.exp (prec i)) := by
    rw [h4, Real.exp_neg, Real.exp_log hp, one_div]
  have hm : m i = r i * (1 / (1 + Real.exp (prec i))) := by
    rw [← h2, ← he, h4]
  refine ⟨he, ?_, r i ^ 2 / (2 * (1 + Real.exp (prec i))), fun y => ?_⟩
  · rw [he, div_lt_one hp]
    linarith [Real.exp_pos (prec i)]
  · rw [he, hm]
    field_simp
    ring

/-- **C175 (Repeat).** Every slice is repeated `n` times in place; the size of the axis, and only of this axis, is multiplied by `n`, also where the
layer declares its shape. -/
theorem C175_repeat {α : Type} (n : Nat) (l : List α) :
    (repeatAxis n l).length = l.length * n ∧ (∀ i < l.length * n, (repeatAxis n l)[i]? = l[i / n]?) ∧
    ∀ (axis : Nat) (shape : List (Option Nat)) (k : Nat), shape[axis]? = some (some k) →
      (repeatShape n axis shape)[axis]? = some (some (k * n)) ∧ ∀ b, b ≠ axis → (repeatShape n axis shape)[b]? = shape[b]? := by
  refine ⟨?_, ?_, fun axis shape k hk => ⟨?_, fun b hb => ?_⟩⟩
  · induction l with
    | nil => simp [repeatAxis]
    | cons a l ih =>
      simp only [repeatAxis, List.flatMap_cons, List.length_append, List.length_replicate, List.length_cons] at ih ⊢
      rw [ih]; ring
  · induction l with
    | nil => intro i hi; simp at hi
    | cons a l ih =>
      intro i hi
      have e : repeatAxis n (a :: l) = List.replicate n a ++ repeatAxis n l := by simp [repeatAxis]
      have hn : 0 < n := by
        rcases Nat.eq_zero_or_pos n with h | h
        · subst h; simp at hi
        · exact h
      rw [e]
      by_cases h : i < n
      · rw [List.getElem?_append_left (by simpa using h), List.getElem?_replicate, if_pos h, Nat.div_eq_of_lt h]
        rfl
      · rw [List.getElem?_append_right (by simpa using h), List.length_replicate, ih _ (by rw [List.length_cons, Nat.add_mul] at hi; omega)]
        have : i / n = (i - n) / n + 1 := by
          conv_lhs => rw [show i = i - n + n by omega]
          exact Nat.add_div_right _ hn
        rw [this, List.getElem?_cons_succ]
  · simp [repeatShape, List.getElem?_modify, hk]
  · have hb' : ¬ axis = b := fun h => hb h.symm
    simp [repeatShape, List.getElem?_modify, hb']

/-! ### Concrete cases -/

/-- the lower entry goes, the diagonal becomes two, then everything is cut at three -/
example : constraintList [triu (some 2), fun p i j => clip1 (some 0) (some 3) (p i j)] (fun i j : Fin 2 => ![![1, 5], ![7, 4]] i j) 0 1 = 3 ∧
    triu (some 2) (fun i j : Fin 2 => ![![1, 5], ![7, 4]] i j) 1 0 = 0 ∧ triu (some 2) (fun i j : Fin 2 => ![![1, 5], ![7, 4]] i j) 1 1 = 2 := by
  refine ⟨?_, (C175_triu _ _).1.1 1 0 (by decide), (C175_triu _ _).1.2 2 rfl 1⟩
  show clip1 (some 0) (some 3) (triu (some 2) (fun i j : Fin 2 => ![![1, 5], ![7, 4]] i j) 0 1) = 3
  rw [(C175_triu _ _).2.1 0 1 (by decide)]
  norm_num [clip1]

/-- a diagonal of two is not there before the first update -/
example : ¬ Upper (some 2) (constTriu (d := 3) (some 2) id (fun _ w => w) 0) :=
  fun h => by have := ((C175_training (d := 3) (some 2) id id (fun _ w => w)).2.2.1 (by norm_num)).1 h 2 rfl; norm_num at this

example : repeatAxis 2 [1, 2, 3] = [1, 1, 2, 2, 3, 3] ∧ repeatShape 2 1 [none, some 3, some 4] = [none, some 6, some 4] := by decide

/-- one frame of value three, precision weight zero: mean 3/2, variance 1/2 -/
example : ∃ m lv : Fin 1 → ℝ, (multDiagPrior (fun _ : Fin 1 => 0) [fun _ => 3]).1[0]? = some m ∧ (multDiagPrior (fun _ : Fin 1 => 0) [fun _ => 3]).2[0]? = some lv ∧
    Real.exp (lv 0) = 1 / 2 := by
  refine ⟨_, _, rfl, rfl, ?_⟩
  refine (((C175_posterior (fun _ : Fin 1 => 0) [fun _ => 3]).2.2 0 _ _ _ rfl rfl rfl 0).1).trans ?_
  simp only [Real.exp_zero]
  norm_num

end
end Hyp.Keras.Constr
