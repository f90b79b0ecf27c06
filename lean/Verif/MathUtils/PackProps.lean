import Verif.MathUtils.Pack
import Mathlib.Tactic.Linarith
import Mathlib.Tactic.Ring
import Mathlib.Tactic.NormNum
import Mathlib.Data.List.Nodup
import Mathlib.Data.Rat.Defs
import Mathlib.Algebra.Field.Rat

/-! # C37: packing of symmetric and triangular matrices -/

namespace Hyp.MathUtils

theorem mem_triu (d i j : Nat) : (i, j) ∈ triu d ↔ i ≤ j ∧ j < d := by
  simp only [triu, List.mem_flatMap, List.mem_range, List.mem_map, Prod.mk.injEq]
  constructor
  · rintro ⟨a, h1, k, h2, rfl, rfl⟩; omega
  · rintro ⟨h1, h2⟩; exact ⟨i, by omega, j - i, by omega, rfl, by omega⟩

theorem mem_tril (d i j : Nat) : (i, j) ∈ tril d ↔ j ≤ i ∧ i < d := by
  simp only [tril, List.mem_flatMap, List.mem_range, List.mem_map, Prod.mk.injEq]
  constructor
  · rintro ⟨a, h1, k, h2, rfl, rfl⟩; omega
  · rintro ⟨h1, h2⟩; exact ⟨i, by omega, j, by omega, rfl, rfl⟩

theorem nodup_triu (d : Nat) : (triu d).Nodup := by
  unfold triu
  rw [List.nodup_flatMap]
  refine ⟨fun i _ => ?_, ?_⟩
  · apply List.Nodup.map _ List.nodup_range
    intro a b h; simp at h; exact h
  · apply List.Pairwise.imp _ List.nodup_range
    intro a b hab
    simp only [Function.onFun, List.Disjoint, List.mem_map]
    rintro x ⟨_, _, rfl⟩ ⟨_, _, h⟩
    exact hab (by simpa using (congrArg Prod.fst h).symm)

theorem nodup_tril (d : Nat) : (tril d).Nodup := by
  unfold tril
  rw [List.nodup_flatMap]
  refine ⟨fun i _ => ?_, ?_⟩
  · apply List.Nodup.map _ List.nodup_range
    intro a b h; simpa using h
  · apply List.Pairwise.imp _ List.nodup_range
    intro a b hab
    simp only [Function.onFun, List.Disjoint, List.mem_map]
    rintro x ⟨_, _, rfl⟩ ⟨_, _, h⟩
    exact hab (by simpa using (congrArg Prod.fst h).symm)

theorem length_triu (d : Nat) : 2 * (triu d).length = d * (d + 1) := by
  unfold triu
  rw [List.length_flatMap]
  simp only [List.length_map, List.length_range]
  induction d with
  | zero => rfl
  | succ d ih =>
    rw [List.range_succ_eq_map, List.map_cons, List.sum_cons, List.map_map]
    have : (List.range d).map ((fun i => d + 1 - i) ∘ Nat.succ) = (List.range d).map (fun i => d - i) := by
      apply List.map_congr_left; intro i _; simp
    rw [this, Nat.mul_add, ih, Nat.sub_zero]
    ring

theorem length_tril (d : Nat) : 2 * (tril d).length = d * (d + 1) := by
  unfold tril
  rw [List.length_flatMap]
  simp only [List.length_map, List.length_range]
  induction d with
  | zero => rfl
  | succ d ih =>
    rw [List.range_succ, List.map_append, List.sum_append, Nat.mul_add, ih]
    simp
    ring

theorem dimOf_tri (d n : Nat) (h : 2 * n = d * (d + 1)) : dimOf n = d := by
  unfold dimOf
  have : 1 + 8 * n = (2 * d + 1) * (2 * d + 1) := by
    have : 8 * n = 4 * (d * (d + 1)) := by omega
    rw [this]; ring
  rw [this, Nat.sqrt_eq]; omega

/-- only triangular numbers are sizes of packed matrices. -/
theorem dimOf_not_tri (n : Nat) (h : ∀ d, 2 * n ≠ d * (d + 1)) : 2 * n ≠ dimOf n * (dimOf n + 1) := h _

variable {K : Type} [Field K]

theorem scatter_gather (A : Mat K) (idx : List (Nat × Nat)) (g : Nat × Nat → K) :
    ∃ B, scatter A idx (idx.map g) = some B ∧ B.dim = A.dim ∧
      (∀ i j, (i, j) ∈ idx → B.val i j = g (i, j)) ∧ (∀ i j, (i, j) ∉ idx → B.val i j = A.val i j) := by
  unfold scatter
  rw [if_pos (by simp)]
  refine ⟨_, rfl, rfl, ?_, ?_⟩
  · intro i j h
    simp only [if_pos h]
    have hl := List.idxOf_lt_length_iff.2 h
    rw [List.getD_eq_getElem?_getD, List.getElem?_map, List.getElem?_eq_getElem hl, List.getElem_idxOf hl]
    rfl
  · intro i j h
    simp only [if_neg h]

theorem gather_scatter (A : Mat K) (idx : List (Nat × Nat)) (v : List K) (hn : idx.Nodup) (hl : idx.length = v.length) :
    ∃ B, scatter A idx v = some B ∧ B.dim = A.dim ∧ gather B idx = v ∧ (∀ i j, (i, j) ∉ idx → B.val i j = A.val i j) := by
  unfold scatter
  rw [if_pos hl]
  refine ⟨_, rfl, rfl, ?_, fun i j h => by simp only [if_neg h]⟩
  unfold gather
  apply List.ext_getElem
  · simpa using hl
  · intro k h1 h2
    have hk : k < idx.length := by simpa using h1
    simp only [List.getElem_map]
    rw [if_pos (List.getElem_mem hk)]
    have : idx.idxOf idx[k] = k := by
      exact List.Nodup.idxOf_getElem hn k hk
    rw [show ((idx[k].1, idx[k].2) : Nat × Nat) = idx[k] from rfl, this, List.getD_eq_getElem?_getD, List.getElem?_eq_getElem h2]
    rfl

/-- the two index sets used by a packing. -/
def idxOfMode (lower : Bool) (d : Nat) : List (Nat × Nat) := if lower then tril d else triu d

theorem idxOfMode_nodup (lower : Bool) (d : Nat) : (idxOfMode lower d).Nodup := by
  cases lower
  · exact nodup_triu d
  · exact nodup_tril d

theorem idxOfMode_length (lower : Bool) (d : Nat) : 2 * (idxOfMode lower d).length = d * (d + 1) := by
  cases lower
  · exact length_triu d
  · exact length_tril d

theorem mem_idxOfMode (lower : Bool) (d i j : Nat) : (i, j) ∈ idxOfMode lower d ↔ (if lower then j ≤ i ∧ i < d else i ≤ j ∧ j < d) := by
  cases lower
  · exact mem_triu d i j
  · exact mem_tril d i j

theorem symmat2vec_eq (A : Mat K) (lower : Bool) (f : Option K) : symmat2vec A lower f = gather (scaleDiag f A) (idxOfMode lower A.dim) := by
  have : (scaleDiag f A).dim = A.dim := by cases f <;> rfl
  unfold symmat2vec idxOfMode
  simp only [this]
  cases lower <;> rfl

theorem vec2symmat_eq (v : List K) (lower : Bool) (f : Option K) : vec2symmat v lower f =
    ((scatter (zeros (dimOf v.length)) (idxOfMode lower (dimOf v.length)) v).bind
      (fun A => copyTransposed A (idxOfMode (!lower) (dimOf v.length)))).map (scaleDiag f) := by
  cases lower <;> rfl

theorem vec2trimat_eq (v : List K) (lower : Bool) : vec2trimat v lower =
    scatter (zeros (dimOf v.length)) (idxOfMode lower (dimOf v.length)) v := by
  cases lower <;> rfl

theorem scaleDiag_dim (f : Option K) (A : Mat K) : (scaleDiag f A).dim = A.dim := by cases f <;> rfl

/-! ## C37 -/

/-- A packed matrix of dimension `d` has d(d+1)/2 elements. -/
theorem C37_length (A : Mat K) (lower : Bool) (f : Option K) : 2 * (symmat2vec A lower f).length = A.dim * (A.dim + 1) := by
  rw [symmat2vec_eq, gather, List.length_map, idxOfMode_length]

/-- What is stored: with `lower` the entries (i, j), j ≤ i, else those with i ≤ j, row by row; the diagonal multiplied by
the factor. -/
theorem C37_layout_upper (A : Mat K) : symmat2vec A false none =
    (List.range A.dim).flatMap (fun i => (List.range (A.dim - i)).map (fun k => A.val i (i + k))) := by
  rw [symmat2vec_eq]
  simp [gather, idxOfMode, triu, scaleDiag, List.map_flatMap, Function.comp_def]

theorem C37_layout_lower (A : Mat K) : symmat2vec A true none =
    (List.range A.dim).flatMap (fun i => (List.range (i + 1)).map (fun j => A.val i j)) := by
  rw [symmat2vec_eq]
  simp [gather, idxOfMode, tril, scaleDiag, List.map_flatMap, Function.comp_def]

/-- Packing a symmetric matrix and unpacking it with the inverse diagonal factor gives it back, in both layouts. -/
theorem C37_symmetric_roundtrip (A : Mat K) (lower : Bool) (f : Option K) (hf : ∀ x, f = some x → x ≠ 0)
    (hA : ∀ i j, i < A.dim → j < A.dim → A.val i j = A.val j i) :
    ∃ B, vec2symmat (symmat2vec A lower f) lower (f.map (fun x => x⁻¹)) = some B ∧ B.dim = A.dim ∧
      ∀ i j, i < A.dim → j < A.dim → B.val i j = A.val i j := by
  have hd : dimOf (symmat2vec A lower f).length = A.dim := dimOf_tri _ _ (C37_length A lower f)
  rw [vec2symmat_eq, hd]
  have hsv : symmat2vec A lower f = (idxOfMode lower A.dim).map (fun p => (scaleDiag f A).val p.1 p.2) := by
    rw [symmat2vec_eq]; rfl
  obtain ⟨B, e1, e2, e3, e4⟩ := scatter_gather (zeros (K := K) A.dim) (idxOfMode lower A.dim) (fun p => (scaleDiag f A).val p.1 p.2)
  rw [hsv, e1, Option.bind_some]
  unfold copyTransposed
  obtain ⟨C, g1, g2, g3, g4⟩ := scatter_gather B (idxOfMode (!lower) A.dim) (fun p => B.val p.2 p.1)
  rw [g1, Option.map_some]
  refine ⟨_, rfl, ?_, ?_⟩
  · rw [scaleDiag_dim, g2, e2]; rfl
  · intro i j hi hj
    have hC : C.val i j = (scaleDiag f A).val i j := by
      have hsym : (scaleDiag f A).val i j = (scaleDiag f A).val j i := by
        cases f with
        | none => exact hA i j hi hj
        | some x =>
          simp only [scaleDiag]
          by_cases h : i = j
          · subst h; rfl
          · rw [if_neg h, if_neg (fun h' => h h'.symm), hA i j hi hj]
      by_cases hm : (i, j) ∈ idxOfMode (!lower) A.dim
      · rw [g3 i j hm]
        simp only
        rw [e3 j i]
        · exact hsym.symm
        · rw [mem_idxOfMode] at *
          cases lower <;> simp_all
      · rw [g4 i j hm, e3 i j]
        rw [mem_idxOfMode] at *
        cases lower <;> simp_all <;> omega
    cases f with
    | none => exact hC
    | some x =>
      have hx := hf x rfl
      simp only [Option.map_some, scaleDiag] at *
      by_cases h : i = j
      · rw [if_pos h, hC, if_pos h, mul_assoc, mul_inv_cancel₀ hx, mul_one]
      · rw [if_neg h, hC, if_neg h]

/-- Unpacking a vector whose length is a triangular number gives a symmetric matrix, and packing it again gives the
vector back. -/
theorem C37_vector_roundtrip (d : Nat) (v : List K) (hv : 2 * v.length = d * (d + 1)) (lower : Bool) (f : Option K)
    (hf : ∀ x, f = some x → x ≠ 0) :
    ∃ B, vec2symmat v lower f = some B ∧ B.dim = d ∧ (∀ i j, i < d → j < d → B.val i j = B.val j i) ∧
      symmat2vec B lower (f.map (fun x => x⁻¹)) = v := by
  have hd : dimOf v.length = d := dimOf_tri _ _ hv
  rw [vec2symmat_eq, hd]
  have hl : (idxOfMode lower d).length = v.length := by have := idxOfMode_length lower d; omega
  obtain ⟨B, e1, e2, e3, e4⟩ := gather_scatter (zeros (K := K) d) (idxOfMode lower d) v (idxOfMode_nodup lower d) hl
  rw [e1, Option.bind_some]
  unfold copyTransposed
  obtain ⟨C, g1, g2, g3, g4⟩ := scatter_gather B (idxOfMode (!lower) d) (fun p => B.val p.2 p.1)
  rw [g1, Option.map_some]
  have hdim : (scaleDiag f C).dim = d := by rw [scaleDiag_dim, g2, e2]; rfl
  have hC : ∀ i j, i < d → j < d → C.val i j = C.val j i := by
    have key : ∀ i j, i < d → j < d → (i, j) ∈ idxOfMode (!lower) d → C.val i j = C.val j i := by
      intro i j hi hj h1
      rw [g3 i j h1]
      by_cases h2 : (j, i) ∈ idxOfMode (!lower) d
      · rw [g3 j i h2]
        have : i = j := by rw [mem_idxOfMode] at *; cases lower <;> simp_all <;> omega
        subst this; rfl
      · rw [g4 j i h2]
    intro i j hi hj
    by_cases h1 : (i, j) ∈ idxOfMode (!lower) d
    · exact key i j hi hj h1
    · refine (key j i hj hi ?_).symm
      rw [mem_idxOfMode] at *
      cases lower <;> simp_all <;> omega
  refine ⟨_, rfl, hdim, ?_, ?_⟩
  · intro i j hi hj
    cases f with
    | none => exact hC i j hi hj
    | some x =>
      simp only [scaleDiag]
      by_cases h : i = j
      · subst h; rfl
      · rw [if_neg h, if_neg (fun h' => h h'.symm), hC i j hi hj]
  · rw [symmat2vec_eq, hdim, ← e3]
    unfold gather
    apply List.map_congr_left
    rintro ⟨i, j⟩ hm
    have hval : (scaleDiag (f.map (fun x => x⁻¹)) (scaleDiag f C)).val i j = C.val i j := by
      cases f with
      | none => rfl
      | some x =>
        simp only [scaleDiag, Option.map_some]
        by_cases h : i = j
        · rw [if_pos h, if_pos h, mul_assoc, mul_inv_cancel₀ (hf x rfl), mul_one]
        · rw [if_neg h, if_neg h]
    simp only
    rw [hval]
    by_cases h1 : (i, j) ∈ idxOfMode (!lower) d
    · rw [g3 i j h1]
      have : i = j := by rw [mem_idxOfMode] at *; cases lower <;> simp_all <;> omega
      subst this; rfl
    · rw [g4 i j h1]

/-- Triangular matrices: packing and unpacking give the matrix back (zeros in the other triangle). -/
theorem C37_triangular_roundtrip (A : Mat K) (lower : Bool)
    (hA : ∀ i j, i < A.dim → j < A.dim → (if lower then i < j else j < i) → A.val i j = 0) :
    ∃ B, vec2trimat (trimat2vec A lower) lower = some B ∧ B.dim = A.dim ∧
      ∀ i j, i < A.dim → j < A.dim → B.val i j = A.val i j := by
  unfold trimat2vec
  have hd : dimOf (symmat2vec A lower none).length = A.dim := dimOf_tri _ _ (C37_length A lower none)
  rw [vec2trimat_eq, hd]
  have hsv : symmat2vec A lower none = (idxOfMode lower A.dim).map (fun p => A.val p.1 p.2) := by
    rw [symmat2vec_eq]; rfl
  obtain ⟨B, e1, e2, e3, e4⟩ := scatter_gather (zeros (K := K) A.dim) (idxOfMode lower A.dim) (fun p => A.val p.1 p.2)
  rw [hsv]
  refine ⟨B, e1, e2, ?_⟩
  intro i j hi hj
  by_cases h : (i, j) ∈ idxOfMode lower A.dim
  · exact e3 i j h
  · rw [e4 i j h, hA i j hi hj]
    · rfl
    · rw [mem_idxOfMode] at h
      cases lower <;> simp_all <;> omega

theorem C37_triangular_vector_roundtrip (d : Nat) (v : List K) (hv : 2 * v.length = d * (d + 1)) (lower : Bool) :
    ∃ B, vec2trimat v lower = some B ∧ B.dim = d ∧
      (∀ i j, i < d → j < d → (if lower then i < j else j < i) → B.val i j = 0) ∧ trimat2vec B lower = v := by
  have hd : dimOf v.length = d := dimOf_tri _ _ hv
  rw [vec2trimat_eq, hd]
  have hl : (idxOfMode lower d).length = v.length := by have := idxOfMode_length lower d; omega
  obtain ⟨B, e1, e2, e3, e4⟩ := gather_scatter (zeros (K := K) d) (idxOfMode lower d) v (idxOfMode_nodup lower d) hl
  refine ⟨B, e1, e2, ?_, ?_⟩
  · intro i j hi hj h
    rw [e4]
    · rfl
    · rw [mem_idxOfMode]; cases lower <;> simp_all <;> omega
  · have hB : B.dim = d := e2
    unfold trimat2vec
    rw [symmat2vec_eq, hB]
    exact e3

/-- A vector whose length is not a triangular number cannot be unpacked. -/
theorem C37_bad_length (v : List K) (lower : Bool) (f : Option K) (h : ∀ d, 2 * v.length ≠ d * (d + 1)) :
    vec2symmat v lower f = none ∧ vec2trimat v lower = none := by
  have hs : scatter (zeros (K := K) (dimOf v.length)) (idxOfMode lower (dimOf v.length)) v = none := by
    unfold scatter
    rw [if_neg]
    intro hc
    have := idxOfMode_length lower (dimOf v.length)
    rw [hc] at this
    exact h _ this
  rw [vec2symmat_eq, vec2trimat_eq, hs]
  exact ⟨rfl, rfl⟩

/-- non-trivial instance: a 3x3 matrix with different entries. -/
example : symmat2vec (⟨3, fun i j => (i + j : ℚ)⟩ : Mat ℚ) false (some (1/2)) = [0, 1, 2, 1, 3, 2] := by
  norm_num [symmat2vec, scaleDiag, gather, triu, List.range, List.range.loop]

end Hyp.MathUtils
