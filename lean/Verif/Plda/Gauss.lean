import Verif.Plda.Spec

namespace Hyp.Plda
open scoped BigOperators
open Matrix MeasureTheory

variable {k n : Nat}

theorem gauss_std (k : Nat) : ∫ z : Vec k, Real.exp (-(1 / 2) * (z ⬝ᵥ z)) = Real.sqrt (2 * Real.pi) ^ k := by
  have h : ∀ z : Vec k, Real.exp (-(1 / 2) * (z ⬝ᵥ z)) = ∏ i, Real.exp (-(1 / 2) * z i ^ 2) := by
    intro z
    rw [← Real.exp_sum, ← Finset.mul_sum]
    congr 2
    unfold dotProduct
    exact Finset.sum_congr rfl (fun i _ => by ring)
  simp only [h]
  rw [integral_fintype_prod_volume_eq_pow (fun x : ℝ => Real.exp (-(1 / 2) * x ^ 2)), integral_gaussian]
  simp only [Fintype.card_fin]
  congr 2
  ring

theorem change (R : Mat k k) (hR : R.det ≠ 0) (g : Vec k → ℝ) (hg : Continuous g) :
    ∫ y, g (R *ᵥ y) = |R.det|⁻¹ * ∫ z, g z := by
  have h := Real.map_matrix_volume_pi_eq_smul_volume_pi hR
  have hc : Continuous (toLin' R) := LinearMap.continuous_on_pi _
  have e : ∫ z, g z ∂(Measure.map (toLin' R) volume) = ∫ y, g (toLin' R y) :=
    integral_map hc.aemeasurable (hg.aestronglyMeasurable)
  rw [h, integral_smul_measure, ENNReal.toReal_ofReal (abs_nonneg _), abs_inv, smul_eq_mul] at e
  exact e.symm

theorem quad_factor (R : Mat k k) (v : Vec k) : v ⬝ᵥ ((Rᵀ * R) *ᵥ v) = (R *ᵥ v) ⬝ᵥ (R *ᵥ v) := by
  rw [← Matrix.mulVec_mulVec, Matrix.dotProduct_mulVec, Matrix.vecMul_transpose]

/-- the Gaussian integral -/
theorem gauss_integral (R : Mat k k) (hR : R.det ≠ 0) (m : Vec k) :
    ∫ y : Vec k, Real.exp (-(1 / 2) * ((y - m) ⬝ᵥ ((Rᵀ * R) *ᵥ (y - m)))) = Real.sqrt (2 * Real.pi) ^ k / |R.det| := by
  rw [integral_sub_right_eq_self (fun y : Vec k => Real.exp (-(1 / 2) * (y ⬝ᵥ ((Rᵀ * R) *ᵥ y)))) m]
  simp only [quad_factor]
  rw [change R hR (fun z => Real.exp (-(1 / 2) * (z ⬝ᵥ z))) (by
    apply Real.continuous_exp.comp
    apply Continuous.mul continuous_const
    unfold dotProduct
    fun_prop), gauss_std]
  field_simp

theorem det_factor (R : Mat k k) : Real.sqrt (Rᵀ * R).det = |R.det| := by
  rw [Matrix.det_mul, Matrix.det_transpose, Real.sqrt_mul_self_eq_abs]

/-- sanity of the specification: a density integrates to one -/
theorem gaussPdf_integral (R : Mat k k) (hR : R.det ≠ 0) (m : Vec k) : ∫ y, gaussPdf m (Rᵀ * R) y = 1 := by
  unfold gaussPdf
  rw [integral_const_mul, gauss_integral R hR, det_factor]
  have : |R.det| ≠ 0 := abs_ne_zero.mpr hR
  have h2 : Real.sqrt (2 * Real.pi) ^ k ≠ 0 := by positivity
  field_simp

theorem symm_dot {P : Mat k k} (hP : Pᵀ = P) (u v : Vec k) : u ⬝ᵥ (P *ᵥ v) = v ⬝ᵥ (P *ᵥ u) := by
  rw [Matrix.dotProduct_mulVec, ← Matrix.mulVec_transpose, hP, dotProduct_comm]

/-- completing the square -/
theorem complete_square {L : Mat k k} (hL : Lᵀ = L) (g m y : Vec k) (hm : L *ᵥ m = g) :
    y ⬝ᵥ (L *ᵥ y) - 2 * (g ⬝ᵥ y) = (y - m) ⬝ᵥ (L *ᵥ (y - m)) - g ⬝ᵥ m := by
  rw [Matrix.mulVec_sub, sub_dotProduct, dotProduct_sub, dotProduct_sub, symm_dot hL m y, hm, dotProduct_comm y g, dotProduct_comm m g]
  ring

/-- exponent of the joint density -/
theorem joint_exponent {B : Mat k k} {W : Mat n n} (hB : Bᵀ = B) (hW : Wᵀ = W) (m : Vec k) (mu : Vec n) (V : Mat k n)
    (X : List (Vec n)) (y : Vec k) :
    (y - m) ⬝ᵥ (B *ᵥ (y - m)) + (X.map (fun x => (x - (mu + y ᵥ* V)) ⬝ᵥ (W *ᵥ (x - (mu + y ᵥ* V))))).sum =
      y ⬝ᵥ ((B + (X.length : ℝ) • (V * W * Vᵀ)) *ᵥ y) -
      2 * ((B *ᵥ m + (V * W) *ᵥ (X.map (fun x => x - mu)).sum) ⬝ᵥ y) +
      (m ⬝ᵥ (B *ᵥ m) + (X.map (fun x => (x - mu) ⬝ᵥ (W *ᵥ (x - mu)))).sum) := by
  induction X with
  | nil =>
    simp only [List.map_nil, List.sum_nil, add_zero, List.length_nil, Nat.cast_zero, zero_smul, Matrix.mulVec_zero]
    rw [Matrix.mulVec_sub, sub_dotProduct, dotProduct_sub, dotProduct_sub, symm_dot hB m y, dotProduct_comm (B *ᵥ m) y]
    ring
  | cons x X ih =>
    have hx : (x - (mu + y ᵥ* V)) ⬝ᵥ (W *ᵥ (x - (mu + y ᵥ* V))) = y ⬝ᵥ ((V * W * Vᵀ) *ᵥ y) -
        2 * (((V * W) *ᵥ (x - mu)) ⬝ᵥ y) + (x - mu) ⬝ᵥ (W *ᵥ (x - mu)) := by
      have e : x - (mu + y ᵥ* V) = (x - mu) - y ᵥ* V := by rw [sub_add_eq_sub_sub]
      have e1 : y ⬝ᵥ ((V * W * Vᵀ) *ᵥ y) = (y ᵥ* V) ⬝ᵥ (W *ᵥ (y ᵥ* V)) := by
        rw [Matrix.mul_assoc, ← Matrix.mulVec_mulVec, ← Matrix.mulVec_mulVec, Matrix.mulVec_transpose, Matrix.dotProduct_mulVec]
      have e2 : ((V * W) *ᵥ (x - mu)) ⬝ᵥ y = (y ᵥ* V) ⬝ᵥ (W *ᵥ (x - mu)) := by
        rw [dotProduct_comm, ← Matrix.mulVec_mulVec, Matrix.dotProduct_mulVec]
      rw [e, e1, e2, Matrix.mulVec_sub, sub_dotProduct, dotProduct_sub, dotProduct_sub, symm_dot hW (x - mu) (y ᵥ* V)]
      ring
    have hs : ((B + ((x :: X).length : ℝ) • (V * W * Vᵀ)) *ᵥ y) = (B + (X.length : ℝ) • (V * W * Vᵀ)) *ᵥ y + (V * W * Vᵀ) *ᵥ y := by
      rw [List.length_cons]
      push_cast
      rw [add_smul, one_smul, ← add_assoc, Matrix.add_mulVec]
    rw [hs]
    simp only [List.map_cons, List.sum_cons, hx]
    rw [Matrix.mulVec_add, dotProduct_add, add_dotProduct, add_dotProduct]
    rw [add_dotProduct] at ih
    linarith

theorem prod_exp {α : Type} (c : ℝ) (f : α → ℝ) (X : List α) :
    (X.map (fun x => c * Real.exp (f x))).prod = c ^ X.length * Real.exp ((X.map f).sum) := by
  induction X with
  | nil => simp
  | cons a X ih =>
    simp only [List.map_cons, List.prod_cons, List.sum_cons, ih, List.length_cons, Real.exp_add]
    ring

theorem sum_scale {α : Type} (c : ℝ) (f : α → ℝ) (X : List α) : (X.map (fun x => c * f x)).sum = c * (X.map f).sum := by
  induction X with
  | nil => simp
  | cons a X ih => simp only [List.map_cons, List.sum_cons, ih]; ring

/-- posterior precision of the speaker variable after `N` vectors -/
def postPrec (B : Mat k k) (V : Mat k n) (W : Mat n n) (N : ℝ) : Mat k k := B + N • (V * W * Vᵀ)

/-- posterior precision times posterior mean; `Fc` is the sum of the centred vectors -/
def postLin (m : Vec k) (B : Mat k k) (V : Mat k n) (W : Mat n n) (Fc : Vec n) : Vec k := B *ᵥ m + (V * W) *ᵥ Fc

/-- the part of the log evidence that does not depend on how vectors are grouped -/
noncomputable def baseLog (mu : Vec n) (W : Mat n n) (X : List (Vec n)) : ℝ :=
  X.length * Real.log (Real.sqrt W.det / Real.sqrt (2 * Real.pi) ^ n) - 1 / 2 * (X.map (fun x => (x - mu) ⬝ᵥ (W *ᵥ (x - mu)))).sum

/-- Bayes' rule: joint density = evidence (in closed form) times the Gaussian posterior density -/
theorem bayes {B : Mat k k} {W : Mat n n} (hB : Bᵀ = B) (hW : Wᵀ = W) (hWd : 0 < W.det) (hBd : 0 < B.det) (m : Vec k) (mu : Vec n)
    (V : Mat k n) (X : List (Vec n)) (R : Mat k k) (hR : R.det ≠ 0) (hL : Rᵀ * R = postPrec B V W X.length) (g p : Vec k)
    (hg : g = postLin m B V W (X.map (fun x => x - mu)).sum) (hp : postPrec B V W X.length *ᵥ p = g) (y : Vec k) :
    gaussPdf m B y * (X.map (fun x => gaussPdf (mu + y ᵥ* V) W x)).prod =
      Real.exp (baseLog mu W X + 1 / 2 * (Real.log B.det - Real.log (postPrec B V W X.length).det + g ⬝ᵥ p - m ⬝ᵥ (B *ᵥ m))) *
        gaussPdf p (postPrec B V W X.length) y := by
  have hdet : 0 < (postPrec B V W X.length).det := by
    rw [← hL, Matrix.det_mul, Matrix.det_transpose]
    exact mul_self_pos.mpr hR
  have hLs : (postPrec B V W X.length)ᵀ = postPrec B V W X.length := by
    rw [← hL, Matrix.transpose_mul, Matrix.transpose_transpose]
  have hpi : 0 < Real.sqrt (2 * Real.pi) := Real.sqrt_pos.mpr (by positivity)
  have hWs := Real.sqrt_pos.mpr hWd
  unfold gaussPdf baseLog
  rw [prod_exp]
  have hc : (Real.sqrt W.det / Real.sqrt (2 * Real.pi) ^ n) ^ X.length =
      Real.exp (X.length * Real.log (Real.sqrt W.det / Real.sqrt (2 * Real.pi) ^ n)) := by
    rw [Real.exp_nat_mul, Real.exp_log (by positivity)]
  have hb : Real.sqrt B.det = Real.exp (1 / 2 * Real.log B.det) := by
    rw [Real.sqrt_eq_rpow, Real.rpow_def_of_pos hBd]; congr 1; ring
  have hl : Real.sqrt (postPrec B V W X.length).det = Real.exp (1 / 2 * Real.log (postPrec B V W X.length).det) := by
    rw [Real.sqrt_eq_rpow, Real.rpow_def_of_pos hdet]; congr 1; ring
  rw [hc, hb, hl]
  have key := joint_exponent hB hW m mu V X y
  have sq := complete_square hLs g p y hp
  have hgl : (B *ᵥ m + (V * W) *ᵥ (X.map (fun x => x - mu)).sum) = g := hg.symm
  rw [hgl] at key
  change _ = y ⬝ᵥ (postPrec B V W X.length *ᵥ y) - _ + _ at key
  rw [sum_scale]
  have ee : ∀ a b c d e : ℝ, Real.exp a / c * Real.exp b * (Real.exp d * Real.exp e) = Real.exp (a + b + d + e) / c := by
    intro a b c d e
    rw [Real.exp_add, Real.exp_add, Real.exp_add]; ring
  have ef : ∀ a b c d : ℝ, Real.exp a * (Real.exp b / c * Real.exp d) = Real.exp (a + b + d) / c := by
    intro a b c d
    rw [Real.exp_add, Real.exp_add]; ring
  rw [ee, ef]
  congr 2
  linarith

/-- closed form of the evidence -/
theorem evidence_eq {B : Mat k k} {W : Mat n n} (hB : Bᵀ = B) (hW : Wᵀ = W) (hWd : 0 < W.det) (hBd : 0 < B.det) (m : Vec k)
    (mu : Vec n) (V : Mat k n) (X : List (Vec n)) (R : Mat k k) (hR : R.det ≠ 0) (hL : Rᵀ * R = postPrec B V W X.length)
    (g p : Vec k) (hg : g = postLin m B V W (X.map (fun x => x - mu)).sum) (hp : postPrec B V W X.length *ᵥ p = g) :
    evidence m B mu V W X =
      Real.exp (baseLog mu W X + 1 / 2 * (Real.log B.det - Real.log (postPrec B V W X.length).det + g ⬝ᵥ p - m ⬝ᵥ (B *ᵥ m))) := by
  unfold evidence
  simp only [bayes hB hW hWd hBd m mu V X R hR hL g p hg hp]
  rw [integral_const_mul, ← hL, gaussPdf_integral R hR, mul_one]

theorem baseLog_append (mu : Vec n) (W : Mat n n) (X Y : List (Vec n)) : baseLog mu W (X ++ Y) = baseLog mu W X + baseLog mu W Y := by
  unfold baseLog
  rw [List.length_append, List.map_append, List.sum_append]
  push_cast
  ring

end Hyp.Plda
