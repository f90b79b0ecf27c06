import Verif.Plda.Weights
import Mathlib.Algebra.BigOperators.Ring.List
import Mathlib.Algebra.Module.BigOperators
import Mathlib.LinearAlgebra.Matrix.PosDef
import Mathlib.Tactic.Module
import Mathlib.Tactic.NoncommRing
import Mathlib.Tactic.Abel

/-!
C156: weights, scaling and centering of the sufficient statistics of PLDA.
-/

namespace Hyp.Plda
open Matrix

variable {n : Nat}

/-! ### Specification: a labelled or softly labelled set of vectors, each with a weight -/

/-- one vector with its posteriors and its weight -/
structure WRow (n : Nat) where
  x : Vec n
  p : Nat → ℝ
  w : ℝ

/-- one vector with its class and its weight -/
structure CRow (n : Nat) where
  x : Vec n
  c : Nat
  w : ℝ

/-! ### Lemmas -/

theorem soft_zip (M : Nat) (rows : List (Vec n × (Nat → ℝ))) : (rows.map Prod.fst).zip (rows.map Prod.snd) = rows := by
  induction rows with
  | nil => rfl
  | cons r l ih => simp [ih]

theorem statsSoft_ext {M : Nat} {D : Stats n} {rows : List (Vec n × (Nat → ℝ))} (h0 : D.M = M) (h1 : ∀ c, D.N c = (rows.map (fun r => r.2 c)).sum)
    (h2 : ∀ c, D.F c = (rows.map (fun r => r.2 c • r.1)).sum)
    (h3 : D.S = (rows.map (fun r => ((List.range M).map r.2).sum • vecMulVec r.1 r.1)).sum) : D = statsSoft M rows := by
  obtain ⟨M', N, F, S⟩ := D
  simp only at h0 h1 h2 h3
  subst h0
  unfold statsSoft
  congr
  · exact funext h1
  · exact funext h2

theorem softW_eq (M : Nat) (rows : List (WRow n)) (s : ℝ) :
    statsSoftW M (rows.map WRow.x) (rows.map WRow.p) (some (rows.map WRow.w)) (some s) =
      some ⟨statsSoft M (rows.map (fun r => (r.x, fun c => s * r.w * r.p c))), rows.map WRow.p⟩ := by
  unfold statsSoftW
  dsimp only
  rw [if_pos (by simp)]
  congr 3
  induction rows with
  | nil => rfl
  | cons r l ih =>
    simp only [List.map_cons, List.zipWith_cons_cons, List.zip_cons_cons, ih]
    congr 2
    funext c; ring

/-- **C156**: the statistics with weights and a scaling factor, for soft labels; the posteriors of the caller stay as they were -/
theorem C156_soft (M : Nat) (rows : List (WRow n)) (s : ℝ) :
    ∃ D, statsSoftW M (rows.map WRow.x) (rows.map WRow.p) (some (rows.map WRow.w)) (some s) = some ⟨D, rows.map WRow.p⟩ ∧ D.M = M ∧
      (∀ c, D.N c = (rows.map (fun r => s * r.w * r.p c)).sum) ∧ (∀ c, D.F c = (rows.map (fun r => (s * r.w * r.p c) • r.x)).sum) ∧
      D.S = (rows.map (fun r => (s * r.w * ((List.range M).map r.p).sum) • vecMulVec r.x r.x)).sum := by
  refine ⟨_, softW_eq M rows s, rfl, fun c => ?_, fun c => ?_, ?_⟩
  · unfold statsSoft; simp only [List.map_map]; rfl
  · unfold statsSoft; simp only [List.map_map]; rfl
  · unfold statsSoft
    simp only [List.map_map]
    congr 2
    funext r
    simp only [Function.comp]
    rw [List.sum_map_mul_left]

/-- **C156**: weights of 1 and a factor of 1 are the same as none -/
theorem C156_unit (M : Nat) (x : List (Vec n)) (p : List (Nat → ℝ)) (h : p.length = x.length) :
    statsSoftW M x p none none = some ⟨statsSoft M (x.zip p), p⟩ ∧ statsSoftW M x p (some (List.replicate p.length 1)) none = statsSoftW M x p none none ∧
    statsSoftW M x p none (some 1) = statsSoftW M x p none none := by
  have h1 : ∀ p : List (Nat → ℝ), List.zipWith (fun (a : ℝ) (q : Nat → ℝ) => fun c => a * q c) (List.replicate p.length 1) p = p := by
    intro p
    induction p with
    | nil => rfl
    | cons q l ih => simp [List.replicate_succ, ih]
  have h2 : p.map (fun (q : Nat → ℝ) => fun c => q c * 1) = p := by simp
  unfold statsSoftW
  dsimp only
  refine ⟨by rw [if_pos (by simp [h])], ?_, ?_⟩
  · rw [if_pos (by simp [h]), if_pos (by simp [h]), h1]
  · rw [h2]

/-- **C156**: a whole number as weight is the same as that many copies of the vector -/
theorem C156_copies (M : Nat) (rows : List (Vec n × (Nat → ℝ) × Nat)) :
    (statsSoftW M (rows.map (fun r => r.1)) (rows.map (fun r => r.2.1)) (some (rows.map (fun r => (r.2.2 : ℝ)))) none).map SoftCall.stats =
      (statsSoftW M (rows.flatMap (fun r => List.replicate r.2.2 r.1)) (rows.flatMap (fun r => List.replicate r.2.2 r.2.1)) none none).map SoftCall.stats := by
  unfold statsSoftW
  dsimp only
  have hl : (rows.flatMap (fun r => List.replicate r.2.2 r.2.1)).length = (rows.flatMap (fun r => List.replicate r.2.2 r.1)).length := by
    simp [List.length_flatMap]
  rw [if_pos (by simp), if_pos ⟨hl, by simp⟩]
  simp only [Option.map_some, Option.some.injEq]
  have hz : (rows.flatMap (fun r => List.replicate r.2.2 r.1)).zip (rows.flatMap (fun r => List.replicate r.2.2 r.2.1)) =
      rows.flatMap (fun r => List.replicate r.2.2 (r.1, r.2.1)) := by
    clear hl
    induction rows with
    | nil => rfl
    | cons r l ih =>
      simp only [List.flatMap_cons]
      rw [List.zip_append (by simp), ih, List.zip_replicate]; simp
  have hw : (rows.map (fun r => r.1)).zip (List.zipWith (fun (a : ℝ) (q : Nat → ℝ) => fun c => a * q c) (rows.map (fun r => (r.2.2 : ℝ))) (rows.map (fun r => r.2.1))) =
      rows.map (fun r => (r.1, fun c => (r.2.2 : ℝ) * r.2.1 c)) := by
    clear hl hz
    induction rows with
    | nil => rfl
    | cons r l ih => simp only [List.map_cons, List.zipWith_cons_cons, List.zip_cons_cons, ih]
  rw [hz, hw]
  apply statsSoft_ext
  · rfl
  · intro c
    unfold statsSoft
    simp only [List.map_map, List.flatMap_def, List.map_flatten, List.sum_flatten]
    congr 2
    funext r
    simp [Function.comp, List.map_replicate, List.sum_replicate]
  · intro c
    unfold statsSoft
    simp only [List.map_map, List.flatMap_def, List.map_flatten, List.sum_flatten]
    congr 2
    funext r
    simp [Function.comp, List.map_replicate, List.sum_replicate, mul_smul, Nat.cast_smul_eq_nsmul]
  · unfold statsSoft
    simp only [List.map_map, List.flatMap_def, List.map_flatten, List.sum_flatten]
    congr 2
    funext r
    simp only [Function.comp, List.map_replicate, List.sum_replicate]
    rw [List.sum_map_mul_left, mul_smul, Nat.cast_smul_eq_nsmul]

/-- **C156**: with class labels: weighted count and sum of the vectors of each class, weighted second moment of all -/
theorem C156_hard (rows : List (CRow n)) (s : ℝ) (hne : rows ≠ []) :
    ∃ D, statsHardW (rows.map CRow.x) (rows.map CRow.c) (some (rows.map CRow.w)) (some s) = some D ∧
      (∀ r ∈ rows, r.c < D.M) ∧
      (∀ c, D.N c = s * ((rows.filter (fun r => decide (r.c = c))).map CRow.w).sum) ∧
      (∀ c, D.F c = s • ((rows.filter (fun r => decide (r.c = c))).map (fun r => r.w • r.x)).sum) ∧
      D.S = s • (rows.map (fun r => r.w • vecMulVec r.x r.x)).sum := by
  unfold statsHardW
  cases hm : (rows.map CRow.c).max? with
  | none => simp [List.max?_eq_none_iff, hne] at hm
  | some m =>
    have hle : ∀ r ∈ rows, r.c ≤ m := fun r hr => (List.max?_eq_some_iff.mp hm).2 r.c (List.mem_map_of_mem hr)
    dsimp only
    rw [if_pos (by simp)]
    obtain ⟨D, hD, h0, h1, h2, h3⟩ := C156_soft (m + 1) (rows.map (fun r => (⟨r.x, fun c => if c = r.c then 1 else 0, r.w⟩ : WRow n))) s
    simp only [List.map_map] at hD h1 h2 h3 ⊢
    refine ⟨D, ?_, fun r hr => ?_, fun c => ?_, fun c => ?_, ?_⟩
    · exact congrArg (Option.map SoftCall.stats) hD
    · rw [h0]; exact Nat.lt_succ_of_le (hle r hr)
    · rw [h1]
      clear hm hle hD h0 h1 h2 h3 hne
      induction rows with
      | nil => simp
      | cons r l ih =>
        by_cases h : r.c = c
        · simp only [List.map_cons, List.sum_cons, List.filter_cons, h, decide_true, if_true, Function.comp, ih]; ring
        · simp only [List.map_cons, List.sum_cons, List.filter_cons, h, Ne.symm h, decide_false, if_false, Function.comp, ih, Bool.false_eq_true]; ring
    · rw [h2]
      clear hm hle hD h0 h1 h2 h3 hne
      induction rows with
      | nil => simp
      | cons r l ih =>
        by_cases h : r.c = c
        · simp only [List.map_cons, List.sum_cons, List.filter_cons, h, decide_true, if_true, Function.comp, ih, smul_add, smul_smul, mul_one]
        · simp only [List.map_cons, List.sum_cons, List.filter_cons, h, Ne.symm h, decide_false, if_false, Function.comp, ih, Bool.false_eq_true, mul_zero, zero_smul, zero_add]
    · rw [h3, List.smul_sum]
      simp only [List.map_map]
      congr 1
      refine List.map_congr_left fun r hr => ?_
      simp only [Function.comp]
      have : ((List.range (m + 1)).map (fun c => if c = r.c then (1 : ℝ) else 0)).sum = 1 := by
        rw [List.sum_map_ite_eq, List.count_eq_one_of_mem List.nodup_range (by simp; have := hle r hr; omega)]; simp
      rw [this, mul_one, smul_smul]

/-- **C156**: the statistics of two sets of vectors together are the sums -/
theorem C156_additive (M : Nat) (r1 r2 : List (Vec n × (Nat → ℝ))) (c : Nat) :
    (statsSoft M (r1 ++ r2)).N c = (statsSoft M r1).N c + (statsSoft M r2).N c ∧ (statsSoft M (r1 ++ r2)).F c = (statsSoft M r1).F c + (statsSoft M r2).F c ∧
    (statsSoft M (r1 ++ r2)).S = (statsSoft M r1).S + (statsSoft M r2).S := by
  simp [statsSoft]

/-- **C156**: the order of the vectors does not matter -/
theorem C156_order (M : Nat) (r1 r2 : List (Vec n × (Nat → ℝ))) (h : r1.Perm r2) : statsSoft M r1 = statsSoft M r2 :=
  statsSoft_ext rfl (fun _ => (h.map _).sum_eq) (fun _ => (h.map _).sum_eq) (h.map _).sum_eq

/-- **C156**: centering the statistics gives the statistics of the centered vectors -/
theorem C156_center (M : Nat) (rows : List (Vec n × (Nat → ℝ))) (mu : Vec n) :
    centerStats (statsSoft M rows) mu = statsSoft M (rows.map (fun r => (r.1 - mu, r.2))) := by
  apply statsSoft_ext
  · rfl
  · intro c; simp [centerStats, statsSoft, Function.comp_def]
  · intro c
    simp only [centerStats, statsSoft, List.map_map]
    induction rows with
    | nil => simp
    | cons r l ih =>
      simp only [List.map_cons, List.sum_cons, Function.comp] at ih ⊢
      rw [← ih, add_smul, smul_sub]
      abel
  · have hF : ((List.range M).map (fun c => (rows.map (fun r => r.2 c • r.1)).sum)).sum = (rows.map (fun r => ((List.range M).map r.2).sum • r.1)).sum := by
      induction rows with
      | nil => simp
      | cons r l ih =>
        simp only [List.map_cons, List.sum_cons]
        rw [List.sum_map_add, ih, List.sum_smul, List.map_map]; rfl
    have hN : ((List.range M).map (fun c => (rows.map (fun r => r.2 c)).sum)).sum = (rows.map (fun r => ((List.range M).map r.2).sum)).sum := by
      clear hF
      induction rows with
      | nil => simp
      | cons r l ih =>
        simp only [List.map_cons, List.sum_cons]
        rw [List.sum_map_add, ih]
    show _ - vecMulVec (((List.range M).map (fun c => (rows.map (fun r => r.2 c • r.1)).sum)).sum) mu -
      (vecMulVec (((List.range M).map (fun c => (rows.map (fun r => r.2 c • r.1)).sum)).sum) mu)ᵀ +
      (((List.range M).map (fun c => (rows.map (fun r => r.2 c)).sum)).sum) • vecMulVec mu mu = _
    rw [hF, hN]
    simp only [statsSoft, List.map_map]
    clear hF hN
    induction rows with
    | nil => simp [vecMulVec_zero, zero_vecMulVec]
    | cons r l ih =>
      simp only [List.map_cons, List.sum_cons, Function.comp] at ih ⊢
      rw [← ih]
      generalize ((List.range M).map r.2).sum = a
      generalize (l.map (fun r => ((List.range M).map r.2).sum • r.1)).sum = F
      generalize (l.map (fun r => ((List.range M).map r.2).sum)).sum = N
      generalize (l.map (fun r => ((List.range M).map r.2).sum • vecMulVec r.1 r.1)).sum = S
      ext i j
      simp only [vecMulVec, Matrix.add_apply, Matrix.sub_apply, Matrix.smul_apply, Matrix.transpose_apply, Matrix.of_apply, Pi.add_apply, Pi.smul_apply, Pi.sub_apply, smul_eq_mul]
      ring

/-- **C156** (defect): a scaling factor without weights is multiplied into the array of posteriors of the caller -/
theorem C156_scales_argument (M : Nat) (x : List (Vec n)) (p : List (Nat → ℝ)) (s : ℝ) (h : p.length = x.length) :
    ∃ D, statsSoftW M x p none (some s) = some ⟨D, p.map (fun q c => q c * s)⟩ ∧ (∀ c, D.N c = s * (p.map (fun q => q c)).sum) := by
  unfold statsSoftW
  dsimp only
  rw [if_pos (by simp [h])]
  refine ⟨_, rfl, fun c => ?_⟩
  unfold statsSoft
  dsimp only
  rw [← List.sum_map_mul_left]
  have : ∀ (p : List (Nat → ℝ)) (x : List (Vec n)), p.length = x.length →
      (x.zip (p.map (fun (q : Nat → ℝ) => fun c => q c * s))).map (fun r => r.2 c) = p.map (fun q => s * q c) := by
    intro p
    induction p with
    | nil => intro x _; simp
    | cons q p ih =>
      intro x hx
      cases x with
      | nil => simp at hx
      | cons y x => simp only [List.map_cons, List.zip_cons_cons, ih x (by simpa using hx), mul_comm s]
  rw [this p x h]

/-- **C156** (defect): calling it twice with the same array gives different statistics: one vector with posterior 1 and factor 1/2 -/
theorem C156_second_call_differs : ∃ (x : List (Vec 1)) (p : List (Nat → ℝ)) (r1 r2 : SoftCall 1),
    statsSoftW 1 x p none (some (1 / 2)) = some r1 ∧ statsSoftW 1 x r1.ptheta none (some (1 / 2)) = some r2 ∧ r1.stats.N 0 = 1 / 2 ∧ r2.stats.N 0 = 1 / 4 := by
  obtain ⟨D, h1, h2⟩ := C156_scales_argument 1 [fun _ => 1] [fun _ => 1] (1 / 2) rfl
  obtain ⟨D', h3, h4⟩ := C156_scales_argument 1 [fun _ => 1] (([fun _ => 1] : List (Nat → ℝ)).map (fun q c => q c * (1 / 2))) (1 / 2) rfl
  refine ⟨_, _, _, _, h1, h3, ?_, ?_⟩
  · dsimp only; rw [h2]; norm_num
  · dsimp only; rw [h4]; norm_num

/-- three vectors of two classes with weights 2, 1, 0 -/
example : ∃ D : Stats 1, statsHardW [fun _ => 3, fun _ => 5, fun _ => 7] [1, 0, 1] (some [2, 1, 0]) (some 10) = some D ∧ D.N 1 = 20 ∧ D.F 0 = 10 • fun _ => 5 := by
  obtain ⟨D, h, -, h1, h2, -⟩ := C156_hard (n := 1) [⟨fun _ => 3, 1, 2⟩, ⟨fun _ => 5, 0, 1⟩, ⟨fun _ => 7, 1, 0⟩] 10 (by simp)
  refine ⟨D, h, ?_, ?_⟩
  · rw [h1]; norm_num
  · rw [h2]
    funext i
    simp

end Hyp.Plda
