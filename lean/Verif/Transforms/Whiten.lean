import Verif.Transforms.Model
import Mathlib.Tactic.Ring
import Mathlib.Tactic.Linarith
import Mathlib.Tactic.FieldSimp
import Mathlib.Algebra.BigOperators.Field

namespace Hyp.Transforms
open scoped BigOperators
open Matrix

variable {n : Nat}

/-! ### averages -/

theorem avg_add (rows : List (WRow n)) (f g : Vec n → ℝ) : avg rows (fun x => f x + g x) = avg rows f + avg rows g := by
  unfold avg
  rw [← add_div]
  congr 1
  induction rows with
  | nil => simp
  | cons r rows ih => simp only [List.map_cons, List.sum_cons, ih]; ring

theorem avg_mul (rows : List (WRow n)) (c : ℝ) (f : Vec n → ℝ) : avg rows (fun x => c * f x) = c * avg rows f := by
  unfold avg
  rw [← mul_div_assoc]
  congr 1
  induction rows with
  | nil => simp
  | cons r rows ih => simp only [List.map_cons, List.sum_cons, ih]; ring

theorem avg_const (rows : List (WRow n)) (hw : (rows.map (fun r => r.2)).sum ≠ 0) (c : ℝ) : avg rows (fun _ => c) = c := by
  have h : (rows.map (fun r => r.2 * c)).sum = c * (rows.map (fun r => r.2)).sum := by
    clear hw
    induction rows with
    | nil => simp
    | cons r rows ih => simp only [List.map_cons, List.sum_cons, ih]; ring
  unfold avg
  rw [h]; field_simp

theorem avg_zero (rows : List (WRow n)) : avg rows (fun _ => 0) = 0 := by
  have := avg_mul rows 0 (fun _ => 0)
  simpa using this

theorem avg_sum {ι : Type} (rows : List (WRow n)) (s : Finset ι) (f : ι → Vec n → ℝ) :
    avg rows (fun x => ∑ i ∈ s, f i x) = ∑ i ∈ s, avg rows (f i) := by
  classical
  induction s using Finset.induction_on with
  | empty => simpa using avg_zero rows
  | insert a s ha ih =>
    simp only [Finset.sum_insert ha]
    rw [avg_add, ih]

theorem avg_congr (rows : List (WRow n)) {f g : Vec n → ℝ} (h : ∀ x, f x = g x) : avg rows f = avg rows g := by
  have : f = g := funext h
  rw [this]

theorem avg_center (rows : List (WRow n)) (hw : (rows.map (fun r => r.2)).sum ≠ 0) (i : Fin n) :
    avg rows (fun x => x i - gaussMu rows i) = 0 := by
  have h := avg_add rows (fun x => x i) (fun _ => -gaussMu rows i)
  rw [avg_const rows hw] at h
  have h2 : avg rows (fun x => x i - gaussMu rows i) = avg rows (fun x => x i + -gaussMu rows i) :=
    avg_congr rows (fun x => by ring)
  rw [h2, h]
  unfold gaussMu; ring

theorem avg_cov (rows : List (WRow n)) (hw : (rows.map (fun r => r.2)).sum ≠ 0) (i j : Fin n) :
    avg rows (fun x => (x i - gaussMu rows i) * (x j - gaussMu rows j)) = gaussSigma rows i j := by
  have h2 : avg rows (fun x => (x i - gaussMu rows i) * (x j - gaussMu rows j)) =
      avg rows (fun x => (x i * x j + (-gaussMu rows i) * x j) + ((-gaussMu rows j) * x i + gaussMu rows i * gaussMu rows j)) :=
    avg_congr rows (fun x => by ring)
  rw [h2, avg_add, avg_add, avg_add, avg_mul, avg_mul, avg_const rows hw]
  unfold gaussSigma
  simp only [Matrix.of_apply]
  have a1 : avg rows (fun x => x j) = gaussMu rows j := rfl
  have a2 : avg rows (fun x => x i) = gaussMu rows i := rfl
  rw [a1, a2]; ring

/-- the mean of a projection of the centred data is zero -/
theorem avg_proj (rows : List (WRow n)) (hw : (rows.map (fun r => r.2)).sum ≠ 0) (t : Vec n) :
    avg rows (fun x => (x - gaussMu rows) ⬝ᵥ t) = 0 := by
  simp only [dotProduct, Pi.sub_apply]
  rw [avg_sum]
  apply Finset.sum_eq_zero
  intro i _
  have : avg rows (fun x => (x i - gaussMu rows i) * t i) = avg rows (fun x => t i * (x i - gaussMu rows i)) :=
    avg_congr rows (fun x => by ring)
  rw [this, avg_mul, avg_center rows hw, mul_zero]

/-- the covariance of two projections -/
theorem avg_proj2 (rows : List (WRow n)) (hw : (rows.map (fun r => r.2)).sum ≠ 0) (t u : Vec n) :
    avg rows (fun x => ((x - gaussMu rows) ⬝ᵥ t) * ((x - gaussMu rows) ⬝ᵥ u)) = t ⬝ᵥ (gaussSigma rows *ᵥ u) := by
  simp only [dotProduct, Pi.sub_apply, mulVec, Finset.sum_mul_sum]
  rw [avg_sum]
  refine Finset.sum_congr rfl (fun i _ => ?_)
  rw [avg_sum, Finset.mul_sum]
  refine Finset.sum_congr rfl (fun j _ => ?_)
  have : avg rows (fun x => (x i - gaussMu rows i) * t i * ((x j - gaussMu rows j) * u j)) =
      avg rows (fun x => (t i * u j) * ((x i - gaussMu rows i) * (x j - gaussMu rows j))) :=
    avg_congr rows (fun x => by ring)
  rw [this, avg_mul, avg_cov rows hw]; ring

/-! ### eigenvectors -/

theorem signFix_eq (v : Vec (n + 1)) : ∃ s : ℝ, s * s = 1 ∧ signFix v = s • v := by
  unfold signFix
  split
  · exact ⟨-1, by norm_num, by simp⟩
  · exact ⟨1, by norm_num, by simp⟩

theorem signFix_first (v : Vec (n + 1)) : 0 ≤ signFix v 0 := by
  unfold signFix
  split
  · next h => simp; linarith
  · next h => exact not_lt.mp h

theorem quad_entry (C V : Matrix (Fin n) (Fin n) ℝ) (j k : Fin n) :
    (fun i => V i j) ⬝ᵥ (C *ᵥ (fun i => V i k)) = (Vᵀ * (C * V)) j k := by
  simp only [Matrix.mul_apply, dotProduct, mulVec, transpose_apply]

theorem IsEigh.quad {C : Matrix (Fin n) (Fin n) ℝ} {d : Vec n} {V : Matrix (Fin n) (Fin n) ℝ} (h : IsEigh C d V)
    (j k : Fin n) : (fun i => V i j) ⬝ᵥ (C *ᵥ (fun i => V i k)) = if j = k then d j else 0 := by
  rw [quad_entry, h.eig, ← Matrix.mul_assoc, h.orth, Matrix.one_mul, Matrix.diagonal_apply]

theorem IsEigh.inner {C : Matrix (Fin n) (Fin n) ℝ} {d : Vec n} {V : Matrix (Fin n) (Fin n) ℝ} (h : IsEigh C d V)
    (j k : Fin n) : (fun i => V i j) ⬝ᵥ (fun i => V i k) = if j = k then 1 else 0 := by
  have := congrFun (congrFun h.orth j) k
  rw [Matrix.one_apply] at this
  rw [← this]
  simp only [Matrix.mul_apply, dotProduct, transpose_apply]

theorem flipped_nodup (n : Nat) : (flipped n).Nodup := List.nodup_reverse.mpr (List.nodup_finRange n)

/-- two columns of the whitening matrix -/
theorem whiten_pair {C : Matrix (Fin (n + 1)) (Fin (n + 1)) ℝ} {d : Vec (n + 1)} {V : Matrix (Fin (n + 1)) (Fin (n + 1)) ℝ}
    (h : IsEigh C d V) (j k : Fin (n + 1)) (hj : 0 < d j) (hk : 0 < d k) :
    signFix (fun i => V i j * Real.sqrt (1 / d j)) ⬝ᵥ (C *ᵥ signFix (fun i => V i k * Real.sqrt (1 / d k))) =
      if j = k then 1 else 0 := by
  have sc : ∀ j, (fun i => V i j * Real.sqrt (1 / d j)) = Real.sqrt (1 / d j) • (fun i => V i j) := by
    intro j; funext i; simp [mul_comm]
  by_cases hjk : j = k
  · subst hjk
    obtain ⟨s, hs, e⟩ := signFix_eq (fun i => V i j * Real.sqrt (1 / d j))
    rw [e, sc j]
    simp only [smul_dotProduct, mulVec_smul, dotProduct_smul, smul_eq_mul]
    rw [h.quad, if_pos rfl]
    simp only [if_true]
    have h2 : Real.sqrt (1 / d j) * Real.sqrt (1 / d j) = 1 / d j := Real.mul_self_sqrt (by positivity)
    calc s * (Real.sqrt (1 / d j) * (s * (Real.sqrt (1 / d j) * d j))) = (s * s) * (Real.sqrt (1 / d j) * Real.sqrt (1 / d j)) * d j := by ring
      _ = 1 := by rw [hs, h2]; field_simp
  · obtain ⟨s, hs, e⟩ := signFix_eq (fun i => V i j * Real.sqrt (1 / d j))
    obtain ⟨s', hs', e'⟩ := signFix_eq (fun i => V i k * Real.sqrt (1 / d k))
    rw [e, e', sc j, sc k]
    simp only [smul_dotProduct, mulVec_smul, dotProduct_smul, smul_eq_mul]
    rw [h.quad, if_neg hjk, if_neg hjk]; simp

theorem whiten_cols {C : Matrix (Fin (n + 1)) (Fin (n + 1)) ℝ} {d : Vec (n + 1)} {V : Matrix (Fin (n + 1)) (Fin (n + 1)) ℝ}
    (h : IsEigh C d V) (a b : Nat) (t u : Vec (n + 1)) (ha : (whitenCols d V)[a]? = some t) (hb : (whitenCols d V)[b]? = some u) :
    t ⬝ᵥ (C *ᵥ u) = if a = b then 1 else 0 := by
  classical
  unfold whitenCols at ha hb
  rw [List.getElem?_map, Option.map_eq_some_iff] at ha hb
  obtain ⟨j, hj, rfl⟩ := ha
  obtain ⟨k, hk, rfl⟩ := hb
  have hnd : ((flipped (n + 1)).filter (fun j => decide (0 < d j))).Nodup := (flipped_nodup _).filter _
  have mem : ∀ {c : Nat} {j : Fin (n + 1)}, ((flipped (n + 1)).filter (fun j => decide (0 < d j)))[c]? = some j → 0 < d j := by
    intro c j hc
    have := List.mem_of_getElem? hc
    simpa using (List.mem_filter.mp this).2
  rw [whiten_pair h j k (mem hj) (mem hk)]
  by_cases hab : a = b
  · subst hab
    rw [hj] at hk; cases hk; simp
  · rw [if_neg hab, if_neg]
    rintro rfl
    exact hab (by
      have ha' := (List.getElem?_eq_some_iff.mp hj)
      have hb' := (List.getElem?_eq_some_iff.mp hk)
      obtain ⟨la, ea⟩ := ha'
      obtain ⟨lb, eb⟩ := hb'
      exact (hnd.getElem_inj_iff).mp (ea.trans eb.symm))

/-! ### C72 -/

/-- C72: after `fit` with more rows than dimensions, the transformed training data have (weighted) mean zero in every
coordinate, and the (weighted) covariance of any two output coordinates is one on the diagonal and zero elsewhere. -/
theorem C72_whitening (rows : List (WRow (n + 1))) (hN : n + 1 < rows.length) (hw : (rows.map (fun r => r.2)).sum ≠ 0)
    (d : Vec (n + 1)) (V : Matrix (Fin (n + 1)) (Fin (n + 1)) ℝ) (hE : IsEigh (whitenStats rows).2 d V)
    (a b : Nat) (ha : a < (whitenCols d V).length) (hb : b < (whitenCols d V).length) :
    avg rows (fun x => (project (whitenStats rows).1 (whitenCols d V) x).getD a 0) = 0 ∧
    avg rows (fun x => (project (whitenStats rows).1 (whitenCols d V) x).getD a 0 *
      (project (whitenStats rows).1 (whitenCols d V) x).getD b 0) = if a = b then 1 else 0 := by
  have hst : whitenStats rows = (gaussMu rows, gaussSigma rows) := if_pos hN
  rw [hst] at hE ⊢
  simp only at hE ⊢
  have get : ∀ (c : Nat) (hc : c < (whitenCols d V).length) (x : Vec (n + 1)),
      (project (gaussMu rows) (whitenCols d V) x).getD c 0 = (x - gaussMu rows) ⬝ᵥ (whitenCols d V)[c] := by
    intro c hc x
    simp [project, List.getD_eq_getElem?_getD, List.getElem?_eq_getElem hc]
  constructor
  · rw [avg_congr rows (get a ha)]
    exact avg_proj rows hw _
  · rw [avg_congr rows (fun x => by rw [get a ha, get b hb]), avg_proj2 rows hw]
    exact whiten_cols hE a b _ _ (List.getElem?_eq_getElem ha) (List.getElem?_eq_getElem hb)

/-- C72: no dimension is lost when the covariance has only positive eigenvalues (the code raises for a singular covariance,
which it inverts); in general the output has one coordinate per positive eigenvalue. -/
theorem C72_dimension (d : Vec (n + 1)) (V : Matrix (Fin (n + 1)) (Fin (n + 1)) ℝ) :
    (whitenCols d V).length = ((List.finRange (n + 1)).filter (fun j => 0 < d j)).length ∧
    ((∀ j, 0 < d j) → (whitenCols d V).length = n + 1) := by
  classical
  constructor
  · unfold whitenCols flipped
    rw [List.length_map, List.filter_reverse, List.length_reverse]
  · intro h
    unfold whitenCols flipped
    simp [h]

/-- C72: the direction of the axes is fixed: the first element of every column is not negative. -/
theorem C72_sign (d : Vec (n + 1)) (V : Matrix (Fin (n + 1)) (Fin (n + 1)) ℝ) (t : Vec (n + 1)) (ht : t ∈ whitenCols d V) :
    0 ≤ t 0 := by
  unfold whitenCols at ht
  obtain ⟨j, _, rfl⟩ := List.mem_map.mp ht
  exact signFix_first _

/-- rows of an orthogonal matrix -/
theorem orth_rows {V : Matrix (Fin n) (Fin n) ℝ} (h : Vᵀ * V = 1) : V * Vᵀ = 1 := mul_eq_one_comm.mp h

/-- a sum over the list of all indexes -/
theorem sum_flipped (f : Fin n → ℝ) : ((flipped n).map f).sum = ∑ j, f j := by
  unfold flipped
  rw [List.map_reverse, List.sum_reverse, ← List.ofFn_eq_map, List.sum_ofFn]

/-- C72 (limit): with no more rows than dimensions the mean that is subtracted is the plain mean of the rows, whatever the weights; the centred rows sum to zero. -/
theorem C72_few_rows_mean (rows : List (WRow n)) (hN : ¬ n < rows.length) (hne : rows ≠ []) (i : Fin n) :
    (whitenStats rows).1 i * rows.length = (rows.map (fun r => r.1 i)).sum ∧ (rows.map (fun r => (r.1 - (whitenStats rows).1) i)).sum = 0 := by
  have h0 : (rows.length : ℝ) ≠ 0 := by simpa using hne
  have h1 : (whitenStats rows).1 i * rows.length = (rows.map (fun r => r.1 i)).sum := by
    unfold whitenStats; rw [if_neg hN]; exact div_mul_cancel₀ _ h0
  refine ⟨h1, ?_⟩
  simp only [Pi.sub_apply]
  have h2 : ∀ (l : List (WRow n)) (c : ℝ), (l.map (fun r => r.1 i - c)).sum = (l.map (fun r => r.1 i)).sum - c * l.length := by
    intro l c
    induction l with
    | nil => simp
    | cons a l ih => simp only [List.map_cons, List.sum_cons, ih, List.length_cons, Nat.cast_add, Nat.cast_one]; ring
  rw [h2, ← h1, sub_self]

/-- C72 (limit): with no more rows than dimensions nothing is whitened: the transformation is a rotation (with possible
reflections) of the centred data, so all inner products, hence all variances and distances, stay as they were. -/
theorem C72_few_rows (rows : List (WRow (n + 1))) (hN : ¬ n + 1 < rows.length)
    (d : Vec (n + 1)) (V : Matrix (Fin (n + 1)) (Fin (n + 1)) ℝ) (hE : IsEigh (whitenStats rows).2 d V) (x y : Vec (n + 1)) :
    (List.zipWith (fun a b => a * b) (project (whitenStats rows).1 (whitenCols d V) x)
      (project (whitenStats rows).1 (whitenCols d V) y)).sum = (x - (whitenStats rows).1) ⬝ᵥ (y - (whitenStats rows).1) := by
  have hst : (whitenStats rows).2 = 1 := by unfold whitenStats; rw [if_neg hN]
  rw [hst] at hE
  generalize (whitenStats rows).1 = mu
  have hd : ∀ j, d j = 1 := by
    intro j
    have h1 := hE.quad j j
    rw [if_pos rfl, Matrix.one_mulVec, hE.inner, if_pos rfl] at h1
    exact h1.symm
  have hcols : whitenCols d V = (flipped (n + 1)).map (fun j => signFix (fun i => V i j)) := by
    unfold whitenCols
    rw [List.filter_eq_self.mpr (by intro j _; simp [hd])]
    apply List.map_congr_left
    intro j _
    rw [hd]; simp
  unfold project
  rw [hcols, List.map_map, List.map_map, List.zipWith_map, List.zipWith_self, sum_flipped]
  have hv : ∀ j, ((x - mu) ⬝ᵥ signFix (fun i => V i j)) * ((y - mu) ⬝ᵥ signFix (fun i => V i j)) =
      ((x - mu) ⬝ᵥ (fun i => V i j)) * ((y - mu) ⬝ᵥ (fun i => V i j)) := by
    intro j
    obtain ⟨s, hs, e⟩ := signFix_eq (fun i => V i j)
    rw [e]
    simp only [dotProduct_smul, smul_eq_mul]
    calc s * ((x - mu) ⬝ᵥ fun i => V i j) * (s * ((y - mu) ⬝ᵥ fun i => V i j)) =
        (s * s) * (((x - mu) ⬝ᵥ fun i => V i j) * ((y - mu) ⬝ᵥ fun i => V i j)) := by ring
      _ = _ := by rw [hs, one_mul]
  simp only [Function.comp_apply, hv]
  have horth := orth_rows hE.orth
  calc ∑ j, ((x - mu) ⬝ᵥ fun i => V i j) * ((y - mu) ⬝ᵥ fun i => V i j)
      = ((x - mu) ᵥ* V) ⬝ᵥ ((y - mu) ᵥ* V) := rfl
    _ = (x - mu) ⬝ᵥ ((V * Vᵀ) *ᵥ (y - mu)) := by
      rw [← Matrix.mulVec_mulVec, Matrix.dotProduct_mulVec, Matrix.mulVec_transpose]
    _ = _ := by rw [horth, Matrix.one_mulVec]

/-- three rows in one dimension: the hypotheses of `C72_whitening` are met -/
example : ∃ (rows : List (WRow 1)) (d : Vec 1) (V : Matrix (Fin 1) (Fin 1) ℝ), 1 < rows.length ∧
    (rows.map (fun r => r.2)).sum ≠ 0 ∧ IsEigh (whitenStats rows).2 d V ∧ (whitenCols d V).length = 1 := by
  refine ⟨[(fun _ => 1, 1), (fun _ => -1, 1)], fun _ => 1, 1, by decide, by norm_num, ⟨fun _ _ _ => le_refl _, by simp, ?_⟩, ?_⟩
  · have : whitenStats (n := 1) [(fun _ => 1, 1), (fun _ => -1, 1)] = (gaussMu _, gaussSigma _) := if_pos (by decide)
    rw [this]
    ext i j
    fin_cases i; fin_cases j
    simp [gaussSigma, gaussMu, avg]
  · exact (C72_dimension _ _).2 (fun _ => one_pos)

/-! ### C73 -/

/-- C73: length normalisation keeps the direction: the output is the input times one factor that is not negative. -/
theorem C73_direction (y : List ℝ) : ∃ c : ℝ, 0 ≤ c ∧ lnorm y = y.map (fun v => c * v) ∧ (y ≠ [] → 0 < c) := by
  refine ⟨Real.sqrt y.length / (Real.sqrt (y.map (fun v => v ^ 2)).sum + 1 / 10 ^ 10), by positivity, ?_, ?_⟩
  · unfold lnorm
    apply List.map_congr_left
    intro v _
    ring
  · intro h
    have : (0 : ℝ) < y.length := by exact_mod_cast List.length_pos_iff.mpr h
    have h2 := Real.sqrt_pos.mpr this
    have h3 := Real.sqrt_nonneg (y.map (fun v => v ^ 2)).sum
    positivity

theorem sq_sum_mul (c : ℝ) (y : List ℝ) : ((y.map (fun v => c * v)).map (fun v => v ^ 2)).sum = c ^ 2 * (y.map (fun v => v ^ 2)).sum := by
  induction y with
  | nil => simp
  | cons a y ih => simp only [List.map_cons, List.sum_cons, ih]; ring

/-- C73: the norm of the output is `sqrt(dim)` times `s / (s + 1e-10)`, where `s` is the norm of the input. -/
theorem C73_norm (y : List ℝ) :
    Real.sqrt ((lnorm y).map (fun v => v ^ 2)).sum =
      Real.sqrt y.length * (Real.sqrt (y.map (fun v => v ^ 2)).sum / (Real.sqrt (y.map (fun v => v ^ 2)).sum + 1 / 10 ^ 10)) := by
  have e : lnorm y = y.map (fun v => (Real.sqrt y.length / (Real.sqrt (y.map (fun v => v ^ 2)).sum + 1 / 10 ^ 10)) * v) := by
    unfold lnorm
    apply List.map_congr_left
    intro v _
    ring
  have h3 := Real.sqrt_nonneg (y.map (fun v => v ^ 2)).sum
  rw [e, sq_sum_mul, Real.sqrt_mul (by positivity), Real.sqrt_sq (by positivity)]
  ring

/-- C73: the norm of the output is at most `sqrt(dim)`, and for inputs of norm 1 or more it misses it by less than a
factor `1e-10`. Zero stays zero. -/
theorem C73_bounds (y : List ℝ) :
    Real.sqrt ((lnorm y).map (fun v => v ^ 2)).sum ≤ Real.sqrt y.length ∧
    (1 ≤ Real.sqrt (y.map (fun v => v ^ 2)).sum →
      Real.sqrt y.length * (1 - 1 / 10 ^ 10) ≤ Real.sqrt ((lnorm y).map (fun v => v ^ 2)).sum) ∧
    ((∀ v ∈ y, v = 0) → ∀ v ∈ lnorm y, v = 0) := by
  rw [C73_norm]
  have h3 := Real.sqrt_nonneg (y.map (fun v => v ^ 2)).sum
  have h4 := Real.sqrt_nonneg (y.length : ℝ)
  refine ⟨?_, ?_, ?_⟩
  · have : Real.sqrt (y.map (fun v => v ^ 2)).sum / (Real.sqrt (y.map (fun v => v ^ 2)).sum + 1 / 10 ^ 10) ≤ 1 := by
      rw [div_le_one (by positivity)]; linarith [show (0 : ℝ) < 1 / 10 ^ 10 by positivity]
    calc _ ≤ Real.sqrt y.length * 1 := mul_le_mul_of_nonneg_left this h4
      _ = _ := mul_one _
  · intro h1
    apply mul_le_mul_of_nonneg_left _ h4
    rw [le_div_iff₀ (by positivity)]
    nlinarith
  · intro h v hv
    obtain ⟨c, _, e, _⟩ := C73_direction y
    rw [e] at hv
    obtain ⟨w, hw, rfl⟩ := List.mem_map.mp hv
    rw [h w hw, mul_zero]

example : (1 : ℝ) ≤ Real.sqrt (([3, 4] : List ℝ).map (fun v => v ^ 2)).sum := by
  rw [Real.one_le_sqrt]; norm_num

end Hyp.Transforms
