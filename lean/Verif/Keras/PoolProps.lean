import Verif.Keras.Pool
import Mathlib.Algebra.BigOperators.Ring.List
import Mathlib.Algebra.Order.BigOperators.Group.List
import Mathlib.Algebra.BigOperators.Group.List.Basic
import Mathlib.Tactic.Linarith
import Mathlib.Tactic.Ring
import Mathlib.Tactic.FieldSimp
import Mathlib.Algebra.BigOperators.Field

/-! C144: pooling of sequences. -/

namespace Hyp.Keras
open Real

variable {D : Nat}

/-! ### specification -/

/-- the weighted mean of coordinate `d` -/
noncomputable def wMean (f : List (Frame D)) (d : Fin D) : ℝ :=
  (f.map (fun p => p.2 d * p.1 d)).sum / (f.map (fun p => p.2 d)).sum

/-- the weighted variance of coordinate `d` -/
noncomputable def wVar (f : List (Frame D)) (d : Fin D) : ℝ :=
  (f.map (fun p => p.2 d * (p.1 d - wMean f d) ^ 2)).sum / (f.map (fun p => p.2 d)).sum

/-! ### means -/

theorem kmean_div (a b : List ℝ) (h : a.length = b.length) : kmean a / kmean b = a.sum / b.sum := by
  unfold kmean
  rw [h]
  by_cases hb : (b.length : ℝ) = 0
  · have : b = [] := by simpa using hb
    subst this
    have : a = [] := by simpa using h
    subst this
    simp
  · rw [div_div_div_cancel_right₀ hb]

/-- **C144 (values).** The pooling layers compute, for every coordinate, the weighted mean; the weighted mean and standard
deviation; the weighted mean and the logarithm of the variance floored by `1e-10`; the weighted sum. -/
theorem C144_values (f : List (Frame D)) (d : Fin D) :
    wAvg f d = wMean f d ∧ (wMeanStd f).1 d = wMean f d ∧ (wMeanStd f).2 d = sqrt (wVar f d) ∧
    (wMeanLogVar f).1 d = wMean f d ∧ (wMeanLogVar f).2 d = log (wVar f d + 1 / 10 ^ 10) ∧
    wSum f d = (f.map (fun p => p.2 d * p.1 d)).sum := by
  have h1 : kmean (f.map (fun p => p.1 d * p.2 d)) / kmean (f.map (fun p => p.2 d)) = wMean f d := by
    rw [kmean_div _ _ (by simp)]
    unfold wMean
    simp only [mul_comm]
  have h2 : kmean (f.map (fun p => (p.1 d - wMean f d) ^ 2 * p.2 d)) / kmean (f.map (fun p => p.2 d)) = wVar f d := by
    rw [kmean_div _ _ (by simp)]
    unfold wVar
    simp only [mul_comm]
  refine ⟨h1, h1, ?_, h1, ?_, ?_⟩
  · show sqrt (kmean (f.map (fun p => (p.1 d - kmean (f.map (fun p => p.1 d * p.2 d)) / kmean (f.map (fun p => p.2 d))) ^ 2 * p.2 d)) / _) = _
    rw [h1, h2]
  · show log (kmean (f.map (fun p => (p.1 d - kmean (f.map (fun p => p.1 d * p.2 d)) / kmean (f.map (fun p => p.2 d))) ^ 2 * p.2 d)) / _ + _) = _
    rw [h1, h2]
  · unfold wSum; simp only [mul_comm]

/-- two sequences with the same weighted sums have the same pooled values -/
theorem pool_congr {D' : Nat} (f : List (Frame D)) (g : List (Frame D')) (d : Fin D) (d' : Fin D')
    (h : ∀ q : ℝ → ℝ, (f.map (fun p => p.2 d * q (p.1 d))).sum = (g.map (fun p => p.2 d' * q (p.1 d'))).sum) :
    wMean f d = wMean g d' ∧ wVar f d = wVar g d' := by
  have h0 : (f.map (fun p => p.2 d)).sum = (g.map (fun p => p.2 d')).sum := by simpa using h (fun _ => 1)
  have h1 : wMean f d = wMean g d' := by unfold wMean; rw [h0, h (fun x => x)]
  refine ⟨h1, ?_⟩
  unfold wVar
  rw [h0, h1, h (fun x => (x - wMean g d') ^ 2)]

theorem pools_congr (f g : List (Frame D))
    (h : ∀ d, ∀ q : ℝ → ℝ, (f.map (fun p => p.2 d * q (p.1 d))).sum = (g.map (fun p => p.2 d * q (p.1 d))).sum) :
    wAvg f = wAvg g ∧ wMeanStd f = wMeanStd g ∧ wMeanLogVar f = wMeanLogVar g ∧ wSum f = wSum g := by
  have hf := C144_values f
  have hg := C144_values g
  have hp := fun d => pool_congr f g d d (h d)
  refine ⟨funext fun d => ?_, Prod.ext (funext fun d => ?_) (funext fun d => ?_), Prod.ext (funext fun d => ?_) (funext fun d => ?_),
    funext fun d => ?_⟩
  · rw [(hf d).1, (hg d).1, (hp d).1]
  · rw [(hf d).2.1, (hg d).2.1, (hp d).1]
  · rw [(hf d).2.2.1, (hg d).2.2.1, (hp d).2]
  · rw [(hf d).2.2.2.1, (hg d).2.2.2.1, (hp d).1]
  · rw [(hf d).2.2.2.2.1, (hg d).2.2.2.2.1, (hp d).2]
  · rw [(hf d).2.2.2.2.2, (hg d).2.2.2.2.2]; exact h d (fun x => x)

open Classical in
theorem sum_filter_weight {α : Type} (w : α → Fin D → ℝ) (l : List α) (d : Fin D) (q : α → ℝ) :
    (l.map (fun p => w p d * q p)).sum = ((l.filter (fun p => decide (w p ≠ 0))).map (fun p => w p d * q p)).sum := by
  induction l with
  | nil => rfl
  | cons a l ih =>
    by_cases h : w a = 0
    · rw [List.filter_cons_of_neg (by simpa using h), List.map_cons, List.sum_cons, ih, h]; simp
    · rw [List.filter_cons_of_pos (by simpa using h), List.map_cons, List.map_cons, List.sum_cons, List.sum_cons, ih]

open Classical in
/-- **C144 (padding and order).** Frames of weight zero - whatever is in them, wherever they are - and the order of the
frames do not change the pooled values. -/
theorem C144_padding (f g : List (Frame D))
    (h : (f.filter (fun p => decide (p.2 ≠ 0))).Perm (g.filter (fun p => decide (p.2 ≠ 0)))) :
    wAvg f = wAvg g ∧ wMeanStd f = wMeanStd g ∧ wMeanLogVar f = wMeanLogVar g ∧ wSum f = wSum g := by
  refine pools_congr f g (fun d q => ?_)
  rw [sum_filter_weight (fun p : Frame D => p.2) f d (fun p => q (p.1 d)), sum_filter_weight (fun p : Frame D => p.2) g d (fun p => q (p.1 d))]
  exact (h.map _).sum_eq

/-- **C144 (repeated frames).** A weight `n` counts as `n` frames of weight one. -/
theorem C144_repeats (l : List ((Fin D → ℝ) × Nat)) :
    let f : List (Frame D) := expandW (l.map (fun p => (p.1, (p.2 : ℝ))))
    let g : List (Frame D) := expandW (l.flatMap (fun p => List.replicate p.2 (p.1, 1)))
    wAvg f = wAvg g ∧ wMeanStd f = wMeanStd g ∧ wMeanLogVar f = wMeanLogVar g ∧ wSum f = wSum g := by
  refine pools_congr _ _ (fun d q => ?_)
  unfold expandW
  induction l with
  | nil => rfl
  | cons a l ih =>
    simp only [List.map_cons, List.sum_cons, List.flatMap_cons, List.map_append, List.sum_append]
    rw [ih]
    simp

/-- **C144 (scale of the weights).** Multiplying all weights by the same number changes neither mean nor deviation; it
multiplies the sum. -/
theorem C144_scale (f : List (Frame D)) (c : ℝ) (hc : c ≠ 0) :
    let g : List (Frame D) := f.map (fun p => (p.1, fun d => c * p.2 d))
    wAvg g = wAvg f ∧ wMeanStd g = wMeanStd f ∧ wMeanLogVar g = wMeanLogVar f ∧ ∀ d, wSum g d = c * wSum f d := by
  intro g
  have hs : ∀ d (q : ℝ → ℝ), (g.map (fun p => p.2 d * q (p.1 d))).sum = c * (f.map (fun p => p.2 d * q (p.1 d))).sum := by
    intro d q
    show ((f.map (fun p => (p.1, fun d => c * p.2 d))).map (fun p : Frame D => p.2 d * q (p.1 d))).sum = _
    rw [List.map_map, ← List.sum_map_mul_left]
    congr 1
    refine List.map_congr_left (fun p _ => ?_)
    simp [mul_assoc]
  have h0 : ∀ d, (g.map (fun p => p.2 d)).sum = c * (f.map (fun p => p.2 d)).sum := fun d => by simpa using hs d (fun _ => 1)
  have hm : ∀ d, wMean g d = wMean f d := fun d => by
    unfold wMean; rw [h0, hs d (fun x => x), mul_div_mul_left _ _ hc]
  have hv : ∀ d, wVar g d = wVar f d := fun d => by
    unfold wVar; rw [h0, hm, hs d (fun x => (x - wMean f d) ^ 2), mul_div_mul_left _ _ hc]
  have hf := C144_values f
  have hg := C144_values g
  refine ⟨funext fun d => ?_, Prod.ext (funext fun d => ?_) (funext fun d => ?_), Prod.ext (funext fun d => ?_) (funext fun d => ?_),
    fun d => ?_⟩
  · rw [(hg d).1, (hf d).1, hm]
  · rw [(hg d).2.1, (hf d).2.1, hm]
  · rw [(hg d).2.2.1, (hf d).2.2.1, hv]
  · rw [(hg d).2.2.2.1, (hf d).2.2.2.1, hm]
  · rw [(hg d).2.2.2.2.1, (hf d).2.2.2.2.1, hv]
  · rw [(hg d).2.2.2.2.2, (hf d).2.2.2.2.2]; exact hs d (fun x => x)

/-- **C144 (affine maps).** Pooling follows an affine map of the frames. -/
theorem C144_affine (f : List (Frame D)) (a b : ℝ) (d : Fin D) (hw : (f.map (fun p => p.2 d)).sum ≠ 0) :
    let g : List (Frame D) := f.map (fun p => (fun d => a * p.1 d + b, p.2))
    wAvg g d = a * wAvg f d + b ∧ (wMeanStd g).1 d = a * (wMeanStd f).1 d + b ∧ (wMeanStd g).2 d = |a| * (wMeanStd f).2 d := by
  intro g
  have hs : ∀ (q : ℝ → ℝ), (g.map (fun p => p.2 d * q (p.1 d))).sum = (f.map (fun p => p.2 d * q (a * p.1 d + b))).sum := by
    intro q
    show ((f.map (fun p => (fun d => a * p.1 d + b, p.2))).map (fun p : Frame D => p.2 d * q (p.1 d))).sum = _
    rw [List.map_map]; rfl
  have h0 : (g.map (fun p => p.2 d)).sum = (f.map (fun p => p.2 d)).sum := by simpa using hs (fun _ => 1)
  have hm : wMean g d = a * wMean f d + b := by
    unfold wMean
    rw [h0, hs (fun x => x)]
    have : (f.map (fun p => p.2 d * (a * p.1 d + b))).sum = a * (f.map (fun p => p.2 d * p.1 d)).sum + b * (f.map (fun p => p.2 d)).sum := by
      rw [← List.sum_map_mul_left, ← List.sum_map_mul_left, ← List.sum_map_add]
      congr 1
      refine List.map_congr_left (fun p _ => ?_)
      ring
    rw [this]
    field_simp
  have hv : wVar g d = a ^ 2 * wVar f d := by
    unfold wVar
    rw [h0, hm, hs (fun x => (x - (a * wMean f d + b)) ^ 2)]
    have : (f.map (fun p => p.2 d * (a * p.1 d + b - (a * wMean f d + b)) ^ 2)).sum = a ^ 2 * (f.map (fun p => p.2 d * (p.1 d - wMean f d) ^ 2)).sum := by
      rw [← List.sum_map_mul_left]
      congr 1
      refine List.map_congr_left (fun p _ => ?_)
      ring
    rw [this, mul_div_assoc]
  have hf := C144_values f d
  have hg := C144_values g d
  refine ⟨by rw [hg.1, hf.1, hm], by rw [hg.2.1, hf.2.1, hm], ?_⟩
  rw [hg.2.2.1, hf.2.2.1, hv, sqrt_mul (sq_nonneg a), sqrt_sq_eq_abs]

/-- **C144 (range).** With weights that are not negative and not all zero the mean lies between any bounds of the frames of
positive weight, the deviation is at most their distance, and it is zero only when all of these frames agree. -/
theorem C144_range (f : List (Frame D)) (d : Fin D) (hw : ∀ p ∈ f, 0 ≤ p.2 d) (hpos : 0 < (f.map (fun p => p.2 d)).sum) (lo hi : ℝ)
    (hb : ∀ p ∈ f, 0 < p.2 d → lo ≤ p.1 d ∧ p.1 d ≤ hi) :
    lo ≤ wAvg f d ∧ wAvg f d ≤ hi ∧ (wMeanStd f).2 d ≤ hi - lo ∧
      ((wMeanStd f).2 d = 0 ↔ ∀ p ∈ f, 0 < p.2 d → p.1 d = wAvg f d) := by
  have hv := C144_values f d
  rw [hv.1, hv.2.2.1]
  have hbd : ∀ p ∈ f, p.2 d * lo ≤ p.2 d * p.1 d ∧ p.2 d * p.1 d ≤ p.2 d * hi := fun p hp => by
    rcases (hw p hp).eq_or_lt with h0 | h0
    · rw [← h0]; simp
    · exact ⟨mul_le_mul_of_nonneg_left (hb p hp h0).1 h0.le, mul_le_mul_of_nonneg_left (hb p hp h0).2 h0.le⟩
  have h1 : lo ≤ wMean f d := by
    unfold wMean
    rw [le_div_iff₀ hpos, ← List.sum_map_mul_left]
    refine List.sum_le_sum (fun p hp => ?_)
    rw [mul_comm]; exact (hbd p hp).1
  have h2 : wMean f d ≤ hi := by
    unfold wMean
    rw [div_le_iff₀ hpos, ← List.sum_map_mul_left]
    refine List.sum_le_sum (fun p hp => ?_)
    rw [mul_comm hi]; exact (hbd p hp).2
  have hnn : ∀ t ∈ f.map (fun p => p.2 d * (p.1 d - wMean f d) ^ 2), 0 ≤ t := fun t ht => by
    obtain ⟨p, hp, rfl⟩ := List.mem_map.1 ht
    exact mul_nonneg (hw p hp) (sq_nonneg _)
  have h3 : wVar f d ≤ (hi - lo) ^ 2 := by
    unfold wVar
    rw [div_le_iff₀ hpos, ← List.sum_map_mul_left]
    refine List.sum_le_sum (fun p hp => ?_)
    rcases (hw p hp).eq_or_lt with h0 | h0
    · rw [← h0]; simp
    · obtain ⟨a, b⟩ := hb p hp h0
      rw [mul_comm]
      refine mul_le_mul_of_nonneg_right ?_ h0.le
      apply sq_le_sq'
      · linarith
      · linarith
  refine ⟨h1, h2, ?_, ?_⟩
  · rw [← sqrt_sq (show 0 ≤ hi - lo by linarith)]
    exact sqrt_le_sqrt h3
  · have h4 : 0 ≤ wVar f d := div_nonneg (List.sum_nonneg hnn) hpos.le
    rw [sqrt_eq_zero h4]
    unfold wVar
    rw [div_eq_zero_iff, or_iff_left hpos.ne']
    constructor
    · intro h p hp h0
      have := List.single_le_sum hnn (p.2 d * (p.1 d - wMean f d) ^ 2) (List.mem_map.2 ⟨p, hp, rfl⟩)
      rw [h] at this
      have h5 : (p.1 d - wMean f d) ^ 2 ≤ 0 := by
        by_contra hn
        have := mul_pos h0 (not_le.1 hn)
        linarith
      have := pow_eq_zero_iff (two_ne_zero) |>.1 (le_antisymm h5 (sq_nonneg _))
      linarith
    · intro h
      refine List.sum_eq_zero (fun t ht => ?_)
      obtain ⟨p, hp, rfl⟩ := List.mem_map.1 ht
      rcases (hw p hp).eq_or_lt with h0 | h0
      · rw [← h0]; simp
      · rw [h p hp h0]; simp

/-! ### masks -/

open Classical in
theorem mask_zip (x : List (Fin D → ℝ)) : (expandW (x.zip (createMask 0 none x))).filter (fun p => decide (p.2 ≠ 0)) =
    (expandW ((x.filter (fun v => decide (v ≠ 0))).map (fun v => (v, 1)))).filter (fun p => decide (p.2 ≠ 0)) := by
  unfold createMask expandW
  dsimp only
  induction x with
  | nil => rfl
  | cons a x ih =>
    rw [List.map_cons, List.zip_cons_cons, List.map_cons]
    by_cases ha : a = 0
    · have : ¬ ∃ d, a d ≠ 0 := by rintro ⟨d, hd⟩; exact hd (by rw [ha]; rfl)
      rw [if_neg this, List.filter_cons_of_neg (by simp [funext_iff]), List.filter_cons_of_neg (by simpa using ha)]
      exact ih
    · have hex : ∃ d, a d ≠ 0 := by
        by_contra hn
        push Not at hn
        exact ha (funext hn)
      have hD : (fun _ : Fin D => (1 : ℝ)) ≠ 0 := by
        obtain ⟨d, _⟩ := hex
        intro h
        have := congrFun h d
        simp at this
      rw [if_pos hex, List.filter_cons_of_pos (by simpa using hD), List.filter_cons_of_pos (p := fun v => decide (v ≠ 0)) (by simpa using ha), List.map_cons,
        List.map_cons, List.filter_cons_of_pos (by simpa using hD), ih]

open Classical in
/-- **C144 (mask).** With the mask that `CreateMask(0)` makes, pooling is the plain mean (and deviation) of the frames that
are not all zero: padding with frames of zeros does not change it. -/
theorem C144_mask (x : List (Fin D → ℝ)) (n : Nat) :
    let pooled := fun y : List (Fin D → ℝ) => expandW (y.zip (createMask 0 none y))
    let plain := expandW ((x.filter (fun v => decide (v ≠ 0))).map (fun v => (v, 1)))
    (wAvg (pooled x) = wAvg plain ∧ wMeanStd (pooled x) = wMeanStd plain ∧ wMeanLogVar (pooled x) = wMeanLogVar plain) ∧
    (wAvg (pooled (x ++ List.replicate n 0)) = wAvg (pooled x) ∧ wMeanStd (pooled (x ++ List.replicate n 0)) = wMeanStd (pooled x) ∧
      wMeanLogVar (pooled (x ++ List.replicate n 0)) = wMeanLogVar (pooled x)) := by
  have hf : (x ++ List.replicate n (0 : Fin D → ℝ)).filter (fun v => decide (v ≠ 0)) = x.filter (fun v => decide (v ≠ 0)) := by
    rw [List.filter_append]
    have : (List.replicate n (0 : Fin D → ℝ)).filter (fun v => decide (v ≠ 0)) = [] := by
      rw [List.filter_eq_nil_iff]; intro a ha; rw [List.eq_of_mem_replicate ha]; simp
    rw [this, List.append_nil]
  have h1 := C144_padding (expandW (x.zip (createMask 0 none x))) _ (List.Perm.of_eq (mask_zip x))
  have h2 := C144_padding (expandW ((x ++ List.replicate n 0).zip (createMask 0 none (x ++ List.replicate n 0)))) (expandW (x.zip (createMask 0 none x)))
    (List.Perm.of_eq (by rw [mask_zip, mask_zip, hf]))
  exact ⟨⟨h1.1, h1.2.1, h1.2.2.1⟩, h2.1, h2.2.1, h2.2.2.1⟩

/-- **C144 (mask of the input).** The mask that comes with the input is multiplied in; a frame is masked when all of its
coordinates have the value of the mask. -/
theorem C144_create_mask (value : ℝ) (x : List (Fin D → ℝ)) (k : List ℝ) (t : Nat) (v : Fin D → ℝ) (b : ℝ) (hv : x[t]? = some v) (hb : k[t]? = some b) :
    ((createMask value none x)[t]? = some 0 ↔ v = fun _ => value) ∧ ((createMask value none x)[t]? = some 1 ↔ v ≠ fun _ => value) ∧
    (createMask value (some k) x)[t]? = ((createMask value none x)[t]?).map (· * b) := by
  have h : (createMask value none x)[t]? = some (@ite ℝ (∃ d, v d ≠ value) (Classical.propDecidable _) 1 0) := by
    unfold createMask; simp [hv]
  have hiff : (∃ d, v d ≠ value) ↔ v ≠ fun _ => value := by
    rw [Ne, funext_iff, not_forall]
  refine ⟨?_, ?_, ?_⟩
  · rw [h]
    split
    · rename_i he; simp; exact fun h => hiff.1 he h
    · rename_i he; simp; by_contra hn; exact he (hiff.2 hn)
  · rw [h]
    split
    · rename_i he; simpa using hiff.1 he
    · rename_i he; simp; by_contra hn; exact he (hiff.2 hn)
  · unfold createMask; simp [hv, hb, List.getElem?_zipWith]

theorem kmax_spec : ∀ (l : List ℝ) (m : ℝ), kmax l = some m ↔ IsGreatest {a | a ∈ l} m
  | [], m => by simp [kmax, IsGreatest]
  | a :: l, m => by
    have key : ∀ (l : List ℝ) (a : ℝ), IsGreatest {b | b ∈ a :: l} (l.foldl max a) := by
      intro l
      induction l with
      | nil => intro a; simp [IsGreatest, upperBounds]
      | cons b l ih =>
        intro a
        have h := ih (max a b)
        rw [List.foldl_cons]
        refine ⟨?_, fun c hc => ?_⟩
        · have := h.1
          simp only [Set.mem_setOf_eq, List.mem_cons] at this ⊢
          rcases this with h | h
          · rcases max_choice a b with e | e
            · left; rw [h, e]
            · right; left; rw [h, e]
          · exact Or.inr (Or.inr h)
        · have hmax : max a b ≤ l.foldl max (max a b) := h.2 List.mem_cons_self
          simp only [Set.mem_setOf_eq, List.mem_cons] at hc
          rcases hc with rfl | rfl | hc
          · exact le_trans (le_max_left _ _) hmax
          · exact le_trans (le_max_right _ _) hmax
          · exact h.2 (List.mem_cons_of_mem _ hc)
    show some (l.foldl max a) = some m ↔ _
    constructor
    · intro h; injection h with h; rw [← h]; exact key l a
    · intro h; rw [(key l a).unique h]

/-- **C144 (masked maximum).** With weights zero and one: without masked frames the layer returns the maximum; with a
masked frame it returns the larger of zero and the maximum of the frames that are not masked. -/
theorem C144_max (f : List (Frame D)) (d : Fin D) (hw : ∀ p ∈ f, p.2 d = 0 ∨ p.2 d = 1) (m : ℝ) :
    ((∀ p ∈ f, p.2 d = 1) → (maxMask f d = some m ↔ IsGreatest {a | ∃ p ∈ f, a = p.1 d} m)) ∧
    ((∃ p ∈ f, p.2 d = 0) → (maxMask f d = some m ↔ IsGreatest ({0} ∪ {a | ∃ p ∈ f, p.2 d = 1 ∧ a = p.1 d}) m)) := by
  unfold maxMask
  rw [kmax_spec]
  have h1 : ∀ p ∈ f, p.2 d = 1 → (p.1 d - 10 ^ 10 * (1 - p.2 d)) * p.2 d = p.1 d := fun p _ h => by rw [h]; ring
  have h0 : ∀ p ∈ f, p.2 d = 0 → (p.1 d - 10 ^ 10 * (1 - p.2 d)) * p.2 d = 0 := fun p _ h => by rw [h]; ring
  constructor
  · intro h
    have : {a | a ∈ f.map (fun p => (p.1 d - 10 ^ 10 * (1 - p.2 d)) * p.2 d)} = {a | ∃ p ∈ f, a = p.1 d} := by
      ext a
      simp only [Set.mem_setOf_eq, List.mem_map]
      constructor
      · rintro ⟨p, hp, rfl⟩; exact ⟨p, hp, h1 p hp (h p hp)⟩
      · rintro ⟨p, hp, rfl⟩; exact ⟨p, hp, h1 p hp (h p hp)⟩
    rw [this]
  · rintro ⟨p0, hp0, hz⟩
    have : {a | a ∈ f.map (fun p => (p.1 d - 10 ^ 10 * (1 - p.2 d)) * p.2 d)} = {0} ∪ {a | ∃ p ∈ f, p.2 d = 1 ∧ a = p.1 d} := by
      ext a
      simp only [Set.mem_setOf_eq, List.mem_map, Set.mem_union, Set.mem_singleton_iff]
      constructor
      · rintro ⟨p, hp, rfl⟩
        rcases hw p hp with h | h
        · exact Or.inl (h0 p hp h)
        · exact Or.inr ⟨p, hp, h, h1 p hp h⟩
      · rintro (rfl | ⟨p, hp, h, rfl⟩)
        · exact ⟨p0, hp0, h0 p0 hp0 hz⟩
        · exact ⟨p, hp, h1 p hp h⟩
    rw [this]

/-- **C144 (masked maximum, negative frames).** So a masked frame hides a negative maximum. -/
theorem C144_max_negative (f : List (Frame D)) (d : Fin D) (hw : ∀ p ∈ f, p.2 d = 0 ∨ p.2 d = 1) (h0 : ∃ p ∈ f, p.2 d = 0)
    (hneg : ∀ p ∈ f, p.2 d = 1 → p.1 d < 0) : maxMask f d = some 0 := by
  rw [(C144_max f d hw 0).2 h0]
  refine ⟨Or.inl rfl, ?_⟩
  rintro a (h | ⟨p, hp, h, rfl⟩)
  · rw [h]
  · exact (hneg p hp h).le

/-- **C144 (sums).** Sum pooling is the sum over the frames: it does not depend on their order, and frames of zeros add
nothing. -/
theorem C144_sum (f g : List (Fin D → ℝ)) (h : f.Perm g) (n : Nat) :
    (∀ d, sumPool f d = (f.map (fun x => x d)).sum) ∧ sumPool f = sumPool g ∧ sumPool (f ++ List.replicate n 0) = sumPool f := by
  refine ⟨fun _ => rfl, funext fun d => (h.map _).sum_eq, funext fun d => ?_⟩
  unfold sumPool
  simp

/-! ### dictionary encoding -/

variable {C : Nat}

/-- **C144 (assignments).** The assignments of a frame to the components are positive and add up to one. -/
theorem C144_lde_assign [NeZero C] (order : Nat) (mu : Fin C → Fin D → ℝ) (s : Fin C → ℝ) (x : Fin D → ℝ) :
    (∀ k, 0 < ldeAssign order mu s x k) ∧ ∑ k, ldeAssign order mu s x k = 1 := by
  have hpos : 0 < ∑ j, exp (-s j * ldeDelta order x (mu j)) :=
    Finset.sum_pos (fun j _ => exp_pos _) ⟨0, Finset.mem_univ _⟩
  refine ⟨fun k => div_pos (exp_pos _) hpos, ?_⟩
  unfold ldeAssign
  rw [← Finset.sum_div, div_self hpos.ne']

/-- **C144 (assignments, values).** The assignment of a frame to component `k` is proportional to `exp (-s k * dist)`, with the
city-block distance for `order = 1` and the squared Euclidean distance for the default `order = 2`. -/
theorem C144_lde_proportional [NeZero C] (mu : Fin C → Fin D → ℝ) (s : Fin C → ℝ) (x : Fin D → ℝ) (j k : Fin C) :
    ldeAssign 1 mu s x k * exp (-(s j * ∑ d, |x d - mu j d|)) = ldeAssign 1 mu s x j * exp (-(s k * ∑ d, |x d - mu k d|)) ∧
    ldeAssign 2 mu s x k * exp (-(s j * ∑ d, (x d - mu j d) ^ 2)) = ldeAssign 2 mu s x j * exp (-(s k * ∑ d, (x d - mu k d) ^ 2)) := by
  have h1 : ∀ i, ldeDelta 1 x (mu i) = ∑ d, |x d - mu i d| := fun i => rfl
  have h2 : ∀ i, ldeDelta 2 x (mu i) = ∑ d, (x d - mu i d) ^ 2 := fun i => by
    show ∑ d, (x d - mu i d) * (x d - mu i d) = _
    simp only [sq]
  unfold ldeAssign
  simp only [h1, h2, neg_mul]
  constructor <;> ring

/-- **C144 (dictionary encoding).** The vector of a component is the mean of the frames, weighted by their weight and their
assignment to the component, minus its centre: weighted by the total assignments the means add up to the sum of the
frames. -/
theorem C144_lde [NeZero C] (order : Nat) (mu : Fin C → Fin D → ℝ) (s : Fin C → ℝ) (f : List ((Fin D → ℝ) × ℝ))
    (hw : ∀ p ∈ f, 0 ≤ p.2) (hpos : 0 < (f.map Prod.snd).sum) (d : Fin D) :
    (∀ k, (f.map (fun p => ldeAssign order mu s p.1 k * p.2)).sum * (lde order mu s f k d + mu k d) =
      (f.map (fun p => ldeAssign order mu s p.1 k * p.2 * p.1 d)).sum) ∧
    ∑ k, (f.map (fun p => ldeAssign order mu s p.1 k * p.2)).sum * (lde order mu s f k d + mu k d) = (f.map (fun p => p.2 * p.1 d)).sum := by
  have hex : ∃ p ∈ f, 0 < p.2 := by
    by_contra hn
    push Not at hn
    have : (f.map Prod.snd).sum ≤ 0 := by
      have : (f.map Prod.snd).sum ≤ (f.map (fun _ => (0 : ℝ))).sum := List.sum_le_sum (fun p hp => hn p hp)
      simpa using this
    linarith
  have h1 : ∀ k, (f.map (fun p => ldeAssign order mu s p.1 k * p.2)).sum * (lde order mu s f k d + mu k d) =
      (f.map (fun p => ldeAssign order mu s p.1 k * p.2 * p.1 d)).sum := by
    intro k
    have hk : 0 < (f.map (fun p => ldeAssign order mu s p.1 k * p.2)).sum := by
      obtain ⟨p, hp, h0⟩ := hex
      have hnn : ∀ t ∈ f.map (fun p => ldeAssign order mu s p.1 k * p.2), 0 ≤ t := fun t ht => by
        obtain ⟨p, hp, rfl⟩ := List.mem_map.1 ht
        exact mul_nonneg ((C144_lde_assign order mu s p.1).1 k).le (hw p hp)
      have h2 := List.single_le_sum hnn (ldeAssign order mu s p.1 k * p.2) (List.mem_map.2 ⟨p, hp, rfl⟩)
      exact lt_of_lt_of_le (mul_pos ((C144_lde_assign order mu s p.1).1 k) h0) h2
    unfold lde
    dsimp only
    rw [neg_add_cancel_right, kmean_div _ _ (by simp), mul_div_cancel₀ _ hk.ne']
    simp only [mul_comm]
  refine ⟨h1, ?_⟩
  rw [Finset.sum_congr rfl (fun k _ => h1 k)]
  clear h1 hex hw hpos
  induction f with
  | nil => simp
  | cons a f ih =>
    simp only [List.map_cons, List.sum_cons, Finset.sum_add_distrib]
    rw [ih]
    congr 1
    rw [← Finset.sum_mul, ← Finset.sum_mul, (C144_lde_assign order mu s a.1).2, one_mul]

open Classical in
/-- **C144 (dictionary encoding, invariance).** Frames of weight zero and the order of the frames do not change it, nor does
a shift of the frames together with the centres; with one component it is the weighted mean minus the centre. -/
theorem C144_lde_invariance (order : Nat) (mu : Fin C → Fin D → ℝ) (s : Fin C → ℝ) (f g : List ((Fin D → ℝ) × ℝ))
    (h : (f.filter (fun p => decide (p.2 ≠ 0))).Perm (g.filter (fun p => decide (p.2 ≠ 0)))) (c : Fin D → ℝ) :
    lde order mu s f = lde order mu s g ∧
    ((f.map Prod.snd).sum ≠ 0 → ∀ (m : Fin D → ℝ) (r : ℝ) d, lde order (fun _ : Fin 1 => m) (fun _ => r) f 0 d = wAvg (expandW f) d - m d) ∧
    (∀ k d, (f.map (fun p => ldeAssign order mu s p.1 k * p.2)).sum ≠ 0 →
      lde order (fun k d => mu k d + c d) s (f.map (fun p => (fun d => p.1 d + c d, p.2))) k d = lde order mu s f k d) := by
  have hfil : ∀ (l : List ((Fin D → ℝ) × ℝ)) (q : (Fin D → ℝ) → ℝ), (l.map (fun p => q p.1 * p.2)).sum =
      ((l.filter (fun p => decide (p.2 ≠ 0))).map (fun p => q p.1 * p.2)).sum := by
    intro l q
    induction l with
    | nil => rfl
    | cons a l ih =>
      by_cases h : a.2 = 0
      · rw [List.filter_cons_of_neg (by simpa using h), List.map_cons, List.sum_cons, ih, h]; simp
      · rw [List.filter_cons_of_pos (by simpa using h), List.map_cons, List.map_cons, List.sum_cons, List.sum_cons, ih]
  have hsum : ∀ q : (Fin D → ℝ) → ℝ, (f.map (fun p => q p.1 * p.2)).sum = (g.map (fun p => q p.1 * p.2)).sum := fun q => by
    rw [hfil f, hfil g]; exact (h.map _).sum_eq
  have hl : ∀ (mu : Fin C → Fin D → ℝ) (l : List ((Fin D → ℝ) × ℝ)) k d, lde order mu s l k d =
      (l.map (fun p => (p.1 d * ldeAssign order mu s p.1 k) * p.2)).sum / (l.map (fun p => ldeAssign order mu s p.1 k * p.2)).sum - mu k d := by
    intro mu l k d
    unfold lde
    dsimp only
    rw [kmean_div _ _ (by simp), sub_eq_add_neg]
    simp only [mul_assoc]
  refine ⟨?_, ?_, ?_⟩
  · funext k d
    rw [hl, hl, hsum (fun x => ldeAssign order mu s x k), hsum (fun x => x d * ldeAssign order mu s x k)]
  · intro _ m r d
    have ha : ∀ x : Fin D → ℝ, ldeAssign order (fun _ : Fin 1 => m) (fun _ => r) x 0 = 1 := fun x => by
      unfold ldeAssign; simp [div_self (exp_pos _).ne']
    unfold lde wAvg expandW
    dsimp only
    simp only [ha, one_mul, List.map_map, Function.comp_def, ← sub_eq_add_neg]
  · intro k d hne
    have ha : ∀ x : Fin D → ℝ, ldeAssign order (fun k d => mu k d + c d) s (fun d => x d + c d) k = ldeAssign order mu s x k := fun x => by
      unfold ldeAssign ldeDelta; simp
    rw [hl, hl]
    simp only [List.map_map, Function.comp_def, ha]
    have : (f.map (fun p => (p.1 d + c d) * ldeAssign order mu s p.1 k * p.2)).sum =
        (f.map (fun p => p.1 d * ldeAssign order mu s p.1 k * p.2)).sum + c d * (f.map (fun p => ldeAssign order mu s p.1 k * p.2)).sum := by
      rw [← List.sum_map_mul_left, ← List.sum_map_add]
      congr 1
      refine List.map_congr_left (fun p _ => ?_)
      ring
    rw [this]
    field_simp
    ring

/-- non-vacuity: two frames and one of padding -/
example : let f : List (Frame 1) := [(fun _ => 1, fun _ => 1), (fun _ => 3, fun _ => 1), (fun _ => 100, fun _ => 0)]
    wAvg f 0 = 2 ∧ (wMeanStd f).2 0 = 1 ∧ (f.map (fun p => p.2 0)).sum ≠ 0 := by
  refine ⟨?_, ?_, ?_⟩
  · rw [(C144_values _ 0).1]; unfold wMean; norm_num
  · rw [(C144_values _ 0).2.2.1]; unfold wVar wMean; norm_num
  · norm_num

/-- non-vacuity: a masked frame hides the maximum `-1` -/
example : maxMask ([(fun _ => -1, fun _ => 1), (fun _ => 5, fun _ => 0)] : List (Frame 1)) 0 = some 0 := by
  refine C144_max_negative _ 0 ?_ ⟨_, List.mem_cons_of_mem _ List.mem_cons_self, rfl⟩ ?_
  · intro p hp; simp at hp; rcases hp with rfl | rfl <;> simp
  · intro p hp; simp at hp; rcases hp with rfl | rfl <;> simp

end Hyp.Keras
