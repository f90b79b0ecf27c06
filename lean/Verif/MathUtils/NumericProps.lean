import Verif.MathUtils.Numeric
import Mathlib.Algebra.BigOperators.Field
import Mathlib.Tactic.Linarith
import Mathlib.Tactic.Positivity
import Mathlib.Tactic.NormNum
import Mathlib.Tactic.FieldSimp

/-! Property C66: the numerical helper functions compute what their documentation says. -/

namespace Hyp.MathUtils
open scoped BigOperators

theorem le_npMax {n : Nat} (r : Fin (n + 1) → ℝ) (k : Fin (n + 1)) : r k ≤ npMax r :=
  Finset.le_sup' r (Finset.mem_univ k)

theorem npMax_attained {n : Nat} (r : Fin (n + 1) → ℝ) : ∃ k, npMax r = r k := by
  obtain ⟨k, _, hk⟩ := Finset.exists_mem_eq_sup' (s := Finset.univ) ⟨0, Finset.mem_univ _⟩ r
  exact ⟨k, hk⟩

theorem sum_shift {n : Nat} (r : Fin (n + 1) → ℝ) (c : ℝ) :
    ∑ j, Real.exp (r j - c) = (∑ j, Real.exp (r j)) / Real.exp c := by
  rw [Finset.sum_div]
  exact Finset.sum_congr rfl (fun j _ => Real.exp_sub _ _)

theorem sum_exp_pos {n : Nat} (r : Fin (n + 1) → ℝ) : 0 < ∑ j, Real.exp (r j) :=
  Finset.sum_pos (fun j _ => Real.exp_pos _) ⟨0, Finset.mem_univ _⟩

theorem one_le_sum {n : Nat} (r : Fin (n + 1) → ℝ) : 1 ≤ ∑ j, Real.exp (r j - npMax r) := by
  obtain ⟨k, hk⟩ := npMax_attained r
  have h : Real.exp (r k - npMax r) ≤ ∑ j, Real.exp (r j - npMax r) :=
    Finset.single_le_sum (f := fun j => Real.exp (r j - npMax r)) (fun j _ => (Real.exp_pos _).le) (Finset.mem_univ k)
  rw [hk, sub_self, Real.exp_zero, ← hk] at h
  exact h

/-- C66: softmax returns exactly exp(r_k) / sum_j exp(r_j): subtracting the maximum first changes nothing. -/
theorem C66_softmax_value {n : Nat} (r : Fin (n + 1) → ℝ) (k : Fin (n + 1)) :
    softmax r k = Real.exp (r k) / ∑ j, Real.exp (r j) := by
  unfold softmax
  rw [sum_shift, Real.exp_sub]
  have h1 := Real.exp_pos (npMax r)
  have h2 := sum_exp_pos r
  field_simp

/-- C66: the outputs of softmax are positive and sum to one, whatever the input. -/
theorem C66_softmax_distribution {n : Nat} (r : Fin (n + 1) → ℝ) :
    (∀ k, 0 < softmax r k) ∧ ∑ k, softmax r k = 1 := by
  have h2 := sum_exp_pos r
  refine ⟨fun k => ?_, ?_⟩
  · rw [C66_softmax_value]; positivity
  · simp only [C66_softmax_value]
    rw [← Finset.sum_div, div_self h2.ne']

/-- C66: adding a constant to all inputs does not change softmax. -/
theorem C66_softmax_shift {n : Nat} (r : Fin (n + 1) → ℝ) (c : ℝ) : softmax (fun k => r k + c) = softmax r := by
  funext k
  rw [C66_softmax_value, C66_softmax_value]
  simp only [Real.exp_add]
  rw [← Finset.sum_mul]
  have h2 := sum_exp_pos r
  have h3 := Real.exp_pos c
  field_simp

/-- C66: softmax keeps the order of the inputs, so the decision (arg max) is the same. -/
theorem C66_softmax_order {n : Nat} (r : Fin (n + 1) → ℝ) (i k : Fin (n + 1)) : softmax r i ≤ softmax r k ↔ r i ≤ r k := by
  rw [C66_softmax_value, C66_softmax_value, div_le_div_iff_of_pos_right (sum_exp_pos r), Real.exp_le_exp]

/-- C66: logsumexp never underestimates and overestimates by at most 1e-20, for every length and every input. -/
theorem C66_logsumexp {n : Nat} (r : Fin (n + 1) → ℝ) :
    Real.log (∑ j, Real.exp (r j)) ≤ logsumexp r ∧ logsumexp r ≤ Real.log (∑ j, Real.exp (r j)) + 1 / 10 ^ 20 := by
  have h1 := one_le_sum r
  have hp := sum_exp_pos r
  have he : Real.log (∑ j, Real.exp (r j)) = Real.log (∑ j, Real.exp (r j - npMax r)) + npMax r := by
    rw [sum_shift, Real.log_div hp.ne' (Real.exp_pos _).ne', Real.log_exp]; ring
  unfold logsumexp
  rw [he]
  generalize ∑ j, Real.exp (r j - npMax r) = S at h1 ⊢
  have hS : 0 < S := by linarith
  have hε : (0 : ℝ) < 1 / 10 ^ 20 := by positivity
  refine ⟨?_, ?_⟩
  · have := Real.log_le_log hS (by linarith : S ≤ S + 1 / 10 ^ 20)
    linarith
  · have e : S + 1 / 10 ^ 20 = S * (1 + 1 / 10 ^ 20 / S) := by field_simp
    rw [e, Real.log_mul hS.ne' (by positivity)]
    have h3 : Real.log (1 + 1 / 10 ^ 20 / S) ≤ 1 / 10 ^ 20 / S := by
      have := Real.log_le_sub_one_of_pos (by positivity : 0 < 1 + 1 / 10 ^ 20 / S)
      linarith
    have h4 : 1 / 10 ^ 20 / S ≤ (1 / 10 ^ 20 : ℝ) := div_le_self hε.le h1
    linarith

theorem log_branch (x : ℝ) (h : x < -100) :
    0 ≤ Real.log (1 + Real.exp (-x)) - (-x) ∧ Real.log (1 + Real.exp (-x)) - (-x) ≤ Real.exp (-100) := by
  have e : Real.log (1 + Real.exp (-x)) - (-x) = Real.log (1 + Real.exp x) := by
    have : 1 + Real.exp (-x) = Real.exp (-x) * (1 + Real.exp x) := by
      rw [mul_add, mul_one, ← Real.exp_add, neg_add_cancel, Real.exp_zero]; ring
    rw [this, Real.log_mul (Real.exp_pos _).ne' (by positivity), Real.log_exp]; ring
  rw [e]
  refine ⟨Real.log_nonneg (by linarith [Real.exp_pos x]), ?_⟩
  have h1 := Real.log_le_sub_one_of_pos (by positivity : 0 < 1 + Real.exp x)
  have h2 : Real.exp x ≤ Real.exp (-100) := Real.exp_le_exp.mpr h.le
  linarith

/-- C66: sigmoid, its logarithm and its negative logarithm are correct within exp(-100) for every real number. -/
theorem C66_sigmoids (x : ℝ) :
    |sigmoid x - 1 / (1 + Real.exp (-x))| ≤ Real.exp (-100) ∧
    |logsigmoid x - Real.log (1 / (1 + Real.exp (-x)))| ≤ Real.exp (-100) ∧
    neglogsigmoid x = -logsigmoid x := by
  have hpos : 0 < 1 + Real.exp (-x) := by positivity
  have hl : Real.log (1 / (1 + Real.exp (-x))) = -Real.log (1 + Real.exp (-x)) := by rw [one_div, Real.log_inv]
  rw [hl]
  unfold sigmoid logsigmoid neglogsigmoid
  by_cases h : x < -100
  · simp only [h, if_true]
    obtain ⟨a, b⟩ := log_branch x h
    refine ⟨?_, ?_, trivial⟩
    · rw [zero_sub, abs_neg, abs_of_pos (by positivity), div_le_iff₀ hpos]
      have : Real.exp (-100) * Real.exp (-x) ≥ 1 := by
        rw [← Real.exp_add]; exact Real.one_le_exp (by linarith)
      nlinarith [Real.exp_pos (-100)]
    · rw [abs_le]; constructor <;> linarith
  · simp only [h, if_false]
    refine ⟨?_, ?_, by ring⟩
    · rw [sub_self, abs_zero]; exact (Real.exp_pos _).le
    · rw [sub_self, abs_zero]; exact (Real.exp_pos _).le

/-- C66: outside the extreme branch the three functions are exact, and sigmoid and neglogsigmoid satisfy
`-log sigmoid`. -/
theorem C66_sigmoids_exact (x : ℝ) (h : -100 ≤ x) :
    sigmoid x = 1 / (1 + Real.exp (-x)) ∧ logsigmoid x = Real.log (sigmoid x) ∧ neglogsigmoid x = -Real.log (sigmoid x) := by
  have h' : ¬ x < -100 := not_lt.mpr h
  have hl : Real.log (1 / (1 + Real.exp (-x))) = -Real.log (1 + Real.exp (-x)) := by rw [one_div, Real.log_inv]
  unfold sigmoid logsigmoid neglogsigmoid
  simp only [h', if_false]
  exact ⟨trivial, hl.symm, by rw [hl]; ring⟩

/-- C66: sigmoid is a probability, is monotone and sends 0 to 1/2. -/
theorem C66_sigmoid_monotone (x y : ℝ) (h : x ≤ y) : 0 ≤ sigmoid x ∧ sigmoid x ≤ sigmoid y ∧ sigmoid y < 1 := by
  have hv : ∀ z : ℝ, 0 ≤ sigmoid z ∧ sigmoid z < 1 := by
    intro z; unfold sigmoid; split
    · exact ⟨le_refl _, by norm_num⟩
    · refine ⟨by positivity, ?_⟩
      rw [div_lt_one (by positivity)]; linarith [Real.exp_pos (-z)]
  refine ⟨(hv x).1, ?_, (hv y).2⟩
  by_cases hx : x < -100
  · have : sigmoid x = 0 := by unfold sigmoid; simp [hx]
    rw [this]; exact (hv y).1
  · have hy : ¬ y < -100 := by intro; linarith [not_lt.mp hx]
    unfold sigmoid
    simp only [hx, hy, if_false]
    apply one_div_le_one_div_of_le (by positivity)
    have := Real.exp_le_exp.mpr (by linarith : -y ≤ -x)
    linarith

/-- a non-trivial case: two inputs differing by log 2 give probabilities 1/3 and 2/3 -/
example : softmax ![0, Real.log 2] 1 = 2 / 3 := by
  rw [C66_softmax_value]
  simp [Fin.sum_univ_two, Real.exp_log]
  norm_num

end Hyp.MathUtils
