import Verif.ListUtils.Model
import Verif.NpLemmas
import Mathlib.Algebra.Order.Group.Nat
import Mathlib.Tactic.Ring
import Mathlib.Tactic.Linarith

namespace Hyp.ListUtils

variable {α : Type _}

theorem lookup_append [DecidableEq α] {β : Type _} (d e : List (α × β)) (x : α) :
    (d ++ e).lookup x = (d.lookup x).or (e.lookup x) := by
  induction d with
  | nil => simp
  | cons p ps ih =>
    obtain ⟨k, v⟩ := p
    simp only [List.cons_append, List.lookup_cons]
    split <;> simp [ih]

theorem firstIndexDict_lookup [DecidableEq α] (b : List α) (i : Nat) (d : List (α × Nat)) (x : α) :
    (firstIndexDict b i d).lookup x =
      (d.lookup x).or (if x ∈ b then some (i + b.idxOf x) else none) := by
  induction b generalizing i d with
  | nil => simp [firstIndexDict]
  | cons y ys ih =>
    unfold firstIndexDict
    by_cases hxy : x = y
    · subst hxy
      split
      · next h =>
        have h' : d.lookup x = none := by
          cases hd : d.lookup x with
          | none => rfl
          | some v => rw [hd] at h; simp at h
        have e1 : (List.lookup x [(x, i)]) = some i := by
          rw [List.lookup_cons]; simp
        rw [ih, lookup_append, h', e1]
        simp
      · next h =>
        rw [ih]
        cases hd : d.lookup x with
        | none => rw [hd] at h; simp at h
        | some v => simp
    · have e1 : (List.lookup x [(y, i)]) = (none : Option Nat) := by
        have : (x == y) = false := by simp [hxy]
        rw [List.lookup_cons, this]; rfl
      have e2 : (y :: ys).idxOf x = ys.idxOf x + 1 := by
        rw [List.idxOf_cons_ne _ (Ne.symm hxy)]
      have e3 : x ∈ y :: ys ↔ x ∈ ys := by simp [hxy]
      split
      · rw [ih, lookup_append, e1, e2]
        simp only [e3, Option.or_none]
        congr 2; congr 1; omega
      · rw [ih, e2]; simp only [e3]
        congr 2; congr 1; omega

theorem ismember_loc [DecidableEq α] (a b : List α) :
    (ismember a b).2 = a.map (fun x => if x ∈ b then some (b.idxOf x) else none) := by
  unfold ismember
  simp [firstIndexDict_lookup]

theorem ismember_flag [DecidableEq α] (a b : List α) :
    (ismember a b).1 = a.map (fun x => decide (x ∈ b)) := by
  have h : (ismember a b).1 = (ismember a b).2.map Option.isSome := rfl
  rw [h, ismember_loc, List.map_map]
  apply List.map_congr_left
  intro x _
  simp only [Function.comp]
  split <;> simp [*]

theorem cut_mono {k k' n P : Nat} (h : k ≤ k') : cut k n P ≤ cut k' n P :=
  Nat.div_le_div_right (Nat.mul_le_mul_right _ h)

theorem cut_top {n P : Nat} (h : 0 < P) : cut P n P = n := by
  unfold cut; exact Nat.mul_div_cancel_left n h

@[simp] theorem cut_zero {n P : Nat} : cut 0 n P = 0 := by simp [cut]

theorem cut_le {k n P : Nat} (hk : k ≤ P) (h : 0 < P) : cut k n P ≤ n := by
  calc cut k n P ≤ cut P n P := cut_mono hk
    _ = n := cut_top h

theorem cut_step {k n P : Nat} (h : 0 < P) :
    n / P ≤ cut (k + 1) n P - cut k n P ∧ cut (k + 1) n P - cut k n P ≤ n / P + 1 := by
  unfold cut
  have h0 := Nat.div_add_mod (k * n) P
  have h1 := Nat.div_add_mod ((k + 1) * n) P
  have h2 := Nat.div_add_mod n P
  have m0 := Nat.mod_lt (k * n) h
  have m1 := Nat.mod_lt ((k + 1) * n) h
  have m2 := Nat.mod_lt n h
  have e : (k + 1) * n = k * n + n := by ring
  generalize (k * n) / P = q0 at *
  generalize ((k + 1) * n) / P = q1 at *
  generalize n / P = q2 at *
  generalize (k * n) % P = r0 at *
  generalize ((k + 1) * n) % P = r1 at *
  generalize n % P = r2 at *
  have l1 : q0 + q2 < q1 + 1 := by
    by_contra hc
    have : q1 + 1 ≤ q0 + q2 := by omega
    have := Nat.mul_le_mul_left P this
    nlinarith
  have l2 : q1 < q0 + q2 + 2 := by
    by_contra hc
    have : q0 + q2 + 2 ≤ q1 := by omega
    have := Nat.mul_le_mul_left P this
    nlinarith
  omega

theorem splitList_eq {a : List α} {idx P : Nat} (h1 : 1 ≤ idx) (h2 : idx ≤ P) :
    splitList a idx P =
      some ((a.drop (cut (idx - 1) a.length P)).take (cut idx a.length P - cut (idx - 1) a.length P),
        List.range' (cut (idx - 1) a.length P) (cut idx a.length P - cut (idx - 1) a.length P)) := by
  unfold splitList
  have hP : 0 < P := by omega
  rw [if_neg (by omega)]
  have hm : cut (idx - 1) a.length P ≤ cut idx a.length P := cut_mono (by omega)
  have hl : cut idx a.length P ≤ a.length := cut_le h2 hP
  simp only []
  rw [gather_range' _ _ _ (by omega)]
  simp

/-- concatenating consecutive slices of a list given by a monotone cut function -/
theorem flatten_slices (l : List α) (c : Nat → Nat) (hc0 : c 0 = 0) (hm : ∀ k, c k ≤ c (k + 1)) (P : Nat) :
    ((List.range P).map (fun k => (l.drop (c k)).take (c (k + 1) - c k))).flatten = l.take (c P) := by
  induction P with
  | zero => simp [hc0]
  | succ P ih =>
    rw [List.range_succ, List.map_append, List.flatten_append, ih]
    simp only [List.map_cons, List.map_nil, List.flatten_cons, List.flatten_nil, List.append_nil]
    have : c (P + 1) = c P + (c (P + 1) - c P) := by have := hm P; omega
    conv_rhs => rw [this]
    rw [List.take_add]

theorem range'_one_map {β : Type _} (P : Nat) (f : Nat → β) :
    (List.range' 1 P).map f = (List.range P).map (fun k => f (k + 1)) := by
  rw [List.range'_eq_map_range, List.map_map]
  apply List.map_congr_left
  intro k _; simp [Nat.add_comm]

theorem slice_range (n c d : Nat) (h : d ≤ n) :
    ((List.range n).drop c).take (d - c) = List.range' c (d - c) := by
  apply List.ext_getElem?
  intro i
  rw [List.getElem?_take, List.getElem?_drop]
  by_cases hi : i < d - c
  · rw [if_pos hi]
    rw [List.getElem?_range (by omega), List.getElem?_range' hi]; simp
  · rw [if_neg hi, List.getElem?_eq_none (by simp; omega)]

theorem idxOf_le_of_getElem? [DecidableEq α] {b : List α} {k : Nat} {x : α} (h : b[k]? = some x) :
    b.idxOf x ≤ k := by
  induction b generalizing k with
  | nil => simp at h
  | cons y ys ih =>
    by_cases hxy : y = x
    · simp [hxy]
    · rw [List.idxOf_cons_ne _ hxy]
      cases k with
      | zero => simp at h; exact absurd h hxy
      | succ k => simp at h; have := ih h; omega

/-! ### group split -/

section group
variable {κ : Type _} [LinearOrder κ]

theorem mem_idsEq {ids : List Nat} {i j : Nat} : j ∈ idsEq ids i ↔ ids[j]? = some i := by
  unfold idsEq
  rw [mem_nonzero]
  simp [List.getElem?_map]

theorem npUnique_length_pos {l : List κ} (h : l ≠ []) : 0 < (npUnique l).length := by
  cases l with
  | nil => exact absurd rfl h
  | cons x xs =>
    apply List.length_pos_of_mem (a := x)
    simp

theorem npInverse_max {key : List κ} (h : key ≠ []) :
    (npInverse key).max? = some ((npUnique key).length - 1) := by
  have hp := npUnique_length_pos h
  rw [List.max?_eq_some_iff]
  constructor
  · have hx : (npUnique key)[(npUnique key).length - 1]'(by omega) ∈ key := by
      rw [← mem_npUnique]; exact List.getElem_mem _
    unfold npInverse
    rw [List.mem_map]
    refine ⟨_, hx, ?_⟩
    exact (npUnique_nodup key).idxOf_getElem _ _
  · intro b hb
    have := npInverse_lt hb
    omega

theorem npInverse_getElem? {key : List κ} {j : Nat} :
    (npInverse key)[j]? = key[j]?.map (fun x => (npUnique key).idxOf x) := by
  simp [npInverse]

end group

end Hyp.ListUtils
