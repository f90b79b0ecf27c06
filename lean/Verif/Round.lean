import Mathlib.Algebra.Order.Floor.Ring
import Mathlib.Algebra.Order.Field.Basic
import Mathlib.Data.Rat.Floor
import Mathlib.Tactic.Linarith
import Mathlib.Tactic.NormNum

/-! Rounding to the nearest integer, ties to even: `numpy.round`, and Python 3's `round` (library; trusted base). -/

namespace Hyp

variable {K : Type*} [Field K] [LinearOrder K] [IsStrictOrderedRing K] [FloorRing K]

/-- `np.round(x)`. -/
def roundEven (x : K) : ℤ :=
  if x - ⌊x⌋ < 1 / 2 then ⌊x⌋
  else if 1 / 2 < x - ⌊x⌋ then ⌊x⌋ + 1
  else if ⌊x⌋ % 2 = 0 then ⌊x⌋ else ⌊x⌋ + 1

theorem roundEven_bounds (x : K) : (roundEven x : K) - 1 / 2 ≤ x ∧ x ≤ (roundEven x : K) + 1 / 2 := by
  have h1 := Int.floor_le x
  have h2 := Int.lt_floor_add_one x
  unfold roundEven
  split_ifs <;> constructor <;> push_cast <;> linarith

theorem roundEven_cases (x : K) : roundEven x = ⌊x⌋ ∨ roundEven x = ⌊x⌋ + 1 := by
  unfold roundEven
  split_ifs <;> simp

theorem roundEven_mono {x y : K} (h : x ≤ y) : roundEven x ≤ roundEven y := by
  have hf : ⌊x⌋ ≤ ⌊y⌋ := Int.floor_mono h
  rcases lt_or_eq_of_le hf with hlt | heq
  · rcases roundEven_cases x with hx | hx <;> rcases roundEven_cases y with hy | hy <;> omega
  · unfold roundEven
    rw [heq]
    have hd : x - (⌊y⌋ : K) ≤ y - ⌊y⌋ := by linarith
    split_ifs <;> first | omega | (exfalso; linarith) 

theorem roundEven_int (n : ℤ) : roundEven (n : K) = n := by
  unfold roundEven
  simp

theorem le_roundEven {n : ℤ} {x : K} (h : (n : K) ≤ x) : n ≤ roundEven x := by
  have := roundEven_mono h
  rwa [roundEven_int] at this

theorem roundEven_le {n : ℤ} {x : K} (h : x ≤ (n : K)) : roundEven x ≤ n := by
  have := roundEven_mono h
  rwa [roundEven_int] at this

end Hyp
