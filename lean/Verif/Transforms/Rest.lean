import Verif.Transforms.Pca
import Verif.NpLemmas
import Mathlib.Algebra.BigOperators.Group.List.Basic
import Mathlib.Algebra.Order.Floor.Ring
import Mathlib.Order.Nat
import Mathlib.Data.List.Sort

namespace Hyp.Transforms
open scoped BigOperators
open Matrix

variable {n : Nat}

/-! ### between and within class matrices -/

theorem list_sum_apply (l : List (Vec n)) (i : Fin n) : l.sum i = (l.map (fun v => v i)).sum := by
  induction l with
  | nil => simp
  | cons a l ih => simp [ih]

theorem list_sum_apply2 (l : List (Matrix (Fin n) (Fin n) ℝ)) (i j : Fin n) : l.sum i j = (l.map (fun v => v i j)).sum := by
  induction l with
  | nil => simp
  | cons a l ih => simp [ih, Matrix.add_apply]

/-- the classes that occur, in ascending order -/
def classes (rows : List (CRow n)) : List Nat := npUnique (rows.map Prod.fst)

/-- the list of class means -/
noncomputable def classMeans (rows : List (CRow n)) : List (Vec n) := (classes rows).map (fun c => pcaMu (ofClass rows c))

theorem fit_eq (rows : List (CRow n)) : ∃ s, SbSw.fit rows = some s ∧ s.numClasses = (classes rows).length ∧
    s.mu = some (pcaMu (classMeans rows)) ∧
    s.Sb = some (Matrix.of (fun i j => ((classMeans rows).map (fun m => m i * m j)).sum / (classes rows).length -
      pcaMu (classMeans rows) i * pcaMu (classMeans rows) j)) ∧
    s.Sw = some (Matrix.of (fun i j => ((classes rows).map (fun c => pcaCov (ofClass rows c) i j)).sum / (classes rows).length)) := by
  have hm : ∀ i, ((classes rows).map (fun c => (classStats (ofClass rows c)).1)).sum i / ((classes rows).length : ℝ) =
      pcaMu (classMeans rows) i := by
    intro i
    rw [list_sum_apply]
    unfold pcaMu classMeans
    simp only [List.map_map, List.length_map]
    rfl
  refine ⟨_, rfl, rfl, ?_, ?_, ?_⟩
  · change some _ = some _
    congr 1
    funext i
    exact hm i
  · change some _ = some _
    congr 1
    ext i j
    simp only [Matrix.of_apply]
    have h1 := hm i
    have h2 := hm j
    have hn : ((SbSw.fitRaw rows).numClasses : ℝ) = ((classes rows).length : ℝ) := rfl
    change _ / _ - (((classes rows).map (fun c => (classStats (ofClass rows c)).1)).sum i / _) *
      (((classes rows).map (fun c => (classStats (ofClass rows c)).1)).sum j / _) = _
    rw [hn, h1, h2, list_sum_apply2]
    unfold classMeans classes
    simp only [List.map_map]
    rfl
  · change some _ = some _
    congr 1
    ext i j
    simp only [Matrix.of_apply]
    rw [list_sum_apply2]
    unfold classes
    simp only [List.map_map]
    rfl

theorem ofClass_ne {rows : List (CRow n)} {c : Nat} (h : c ∈ classes rows) : ofClass rows c ≠ [] := by
  unfold classes at h
  rw [mem_npUnique] at h
  obtain ⟨r, hr, e⟩ := List.mem_map.mp h
  intro h0
  unfold ofClass at h0
  rw [List.map_eq_nil_iff] at h0
  have : r ∈ rows.filter (fun r => decide (r.1 = c)) := List.mem_filter.mpr ⟨hr, by simp [e]⟩
  rw [h0] at this
  cases this

theorem dot_mulVec_sum (M : Matrix (Fin n) (Fin n) ℝ) (t u : Vec n) : t ⬝ᵥ (M *ᵥ u) = ∑ i, ∑ j, t i * u j * M i j := by
  simp only [dotProduct, mulVec, Finset.mul_sum]
  refine Finset.sum_congr rfl (fun i _ => Finset.sum_congr rfl (fun j _ => by ring))

/-- C75: what `fit` stores. `mu` is the mean of the class means (every class counts the same, whatever its size); in any two
directions, `Sb` is the covariance of the class means and `Sw` the average over classes of the covariance within the
class. -/
theorem C75_between_within (rows : List (CRow n)) (hN : rows ≠ []) :
    ∃ s mu Sb Sw, SbSw.fit rows = some s ∧ s.mu = some mu ∧ s.Sb = some Sb ∧ s.Sw = some Sw ∧
      mu = pcaMu (classMeans rows) ∧
      (∀ t u : Vec n, t ⬝ᵥ (Sb *ᵥ u) =
        ((classes rows).map (fun c => ((pcaMu (ofClass rows c) - mu) ⬝ᵥ t) * ((pcaMu (ofClass rows c) - mu) ⬝ᵥ u))).sum /
          (classes rows).length) ∧
      (∀ t u : Vec n, t ⬝ᵥ (Sw *ᵥ u) =
        ((classes rows).map (fun c => ((ofClass rows c).map (fun x => ((x - pcaMu (ofClass rows c)) ⬝ᵥ t) *
          ((x - pcaMu (ofClass rows c)) ⬝ᵥ u))).sum / (ofClass rows c).length)).sum / (classes rows).length) := by
  obtain ⟨s, h1, _, h3, h4, h5⟩ := fit_eq rows
  have hc : classes rows ≠ [] := by
    intro h0
    obtain ⟨r, hr⟩ := List.exists_mem_of_ne_nil rows hN
    have : r.1 ∈ classes rows := by unfold classes; rw [mem_npUnique]; exact List.mem_map.mpr ⟨r, hr, rfl⟩
    rw [h0] at this; cases this
  have hcm : classMeans rows ≠ [] := by unfold classMeans; simpa using hc
  have hlen : (classMeans rows).length = (classes rows).length := by simp [classMeans]
  refine ⟨s, _, _, _, h1, h3, h4, h5, rfl, ?_, ?_⟩
  · intro t u
    have e : (Matrix.of (fun i j => ((classMeans rows).map (fun m => m i * m j)).sum / ((classes rows).length : ℝ) -
        pcaMu (classMeans rows) i * pcaMu (classMeans rows) j)) = gaussSigma (unw (classMeans rows)) := by
      ext i j
      unfold gaussSigma
      simp only [Matrix.of_apply]
      rw [avg_unw, ← pcaMu_unw, hlen]
    rw [e, ← avg_proj2 _ (unw_ne hcm), avg_unw, ← pcaMu_unw, hlen]
    congr 1
    unfold classMeans
    rw [List.map_map]
    rfl
  · intro t u
    have key : ∀ c ∈ classes rows, ((ofClass rows c).map (fun x => ((x - pcaMu (ofClass rows c)) ⬝ᵥ t) *
          ((x - pcaMu (ofClass rows c)) ⬝ᵥ u))).sum / (ofClass rows c).length = t ⬝ᵥ (pcaCov (ofClass rows c) *ᵥ u) := by
      intro c hcm
      have hne := ofClass_ne hcm
      rw [pcaCov_unw hne, ← avg_proj2 _ (unw_ne hne), avg_unw, ← pcaMu_unw]
    rw [List.map_congr_left key, dot_mulVec_sum]
    simp only [Matrix.of_apply, dot_mulVec_sum]
    generalize classes rows = cs
    generalize (cs.length : ℝ) = N
    induction cs with
    | nil => simp
    | cons c cs ih =>
      simp only [List.map_cons, List.sum_cons, add_div, mul_add, Finset.sum_add_distrib]
      rw [ih]
      congr 1
      simp only [Finset.sum_div]
      refine Finset.sum_congr rfl (fun i _ => Finset.sum_congr rfl (fun j _ => by ring))

/-- C75: an LDA trained on labelled data. In the transformed training data the coordinates are uncorrelated both within the
classes (averaged over the classes), with unit variance, and between the class means, with variances that do not
increase. -/
theorem C75_data (rows : List (CRow (n + 1))) (hN : rows ≠ []) (s : SbSw (n + 1)) (hs : SbSw.fit rows = some s)
    (mu : Vec (n + 1)) (Sb Sw : Matrix (Fin (n + 1)) (Fin (n + 1)) ℝ) (hmu : s.mu = some mu) (hSb : s.Sb = some Sb) (hSw : s.Sw = some Sw)
    (d : Vec (n + 1)) (V : Matrix (Fin (n + 1)) (Fin (n + 1)) ℝ) (hE : IsEighGen Sb Sw d V) (ldaDim : Option Nat)
    (T : List (Vec (n + 1))) (hT : ldaCols V ldaDim = some T) (a b : Nat) (ha : a < T.length) (hb : b < T.length) :
    ((classes rows).map (fun c => ((ofClass rows c).map (fun x =>
        ((project mu T x).getD a 0 - (project mu T (pcaMu (ofClass rows c))).getD a 0) *
        ((project mu T x).getD b 0 - (project mu T (pcaMu (ofClass rows c))).getD b 0))).sum / (ofClass rows c).length)).sum /
      (classes rows).length = (if a = b then 1 else 0) ∧
    (a ≠ b → ((classes rows).map (fun c => (project mu T (pcaMu (ofClass rows c))).getD a 0 *
      (project mu T (pcaMu (ofClass rows c))).getD b 0)).sum / ((classes rows).length : ℝ) = 0) ∧
    (a ≤ b → ((classes rows).map (fun c => (project mu T (pcaMu (ofClass rows c))).getD b 0 ^ 2)).sum / ((classes rows).length : ℝ) ≤
      ((classes rows).map (fun c => (project mu T (pcaMu (ofClass rows c))).getD a 0 ^ 2)).sum / ((classes rows).length : ℝ)) := by
  obtain ⟨s', mu', Sb', Sw', h1, h2, h3, h4, _, hb1, hw1⟩ := C75_between_within rows hN
  rw [hs] at h1; cases h1
  rw [hmu] at h2; cases h2
  rw [hSb] at h3; cases h3
  rw [hSw] at h4; cases h4
  obtain ⟨q1, q2, q3⟩ := C75_diagonal Sb Sw d V hE ldaDim T hT a b ha hb
  simp only [project_get _ _ _ a ha, project_get _ _ _ b hb]
  refine ⟨?_, ?_, ?_⟩
  · rw [← q1, hw1]
    simp only [← sub_dotProduct, sub_sub_sub_cancel_right]
  · intro hab
    rw [← hb1]; exact q2 hab
  · intro hab
    simp only [pow_two]
    rw [← hb1, ← hb1]; exact q3 hab

/-- two classes of different size: class means 1 and 3; the mean is 2, not the mean of the rows -/
example : ∃ s, SbSw.fit (n := 1) [(0, fun _ => 1), (1, fun _ => 2), (1, fun _ => 4), (0, fun _ => 1), (0, fun _ => 1)] = some s ∧
    s.mu = some (fun _ => 2) := by
  obtain ⟨s, h1, _, h3, _⟩ := fit_eq (n := 1) [(0, fun _ => 1), (1, fun _ => 2), (1, fun _ => 4), (0, fun _ => 1), (0, fun _ => 1)]
  refine ⟨s, h1, ?_⟩
  rw [h3]
  have hc : classes (n := 1) [(0, fun _ => (1 : ℝ)), (1, fun _ => 2), (1, fun _ => 4), (0, fun _ => 1), (0, fun _ => 1)] = [0, 1] := by
    unfold classes; simp [npUnique, insU]
  unfold classMeans
  rw [hc]
  congr 1
  funext i
  simp [pcaMu, ofClass]
  norm_num

/-- an LDA of two classes in one dimension: the hypotheses of `C75_data` are met -/
example : ∃ (rows : List (CRow 1)) (s : SbSw 1) (mu : Vec 1) (Sb Sw : Matrix (Fin 1) (Fin 1) ℝ) (d : Vec 1) (V : Matrix (Fin 1) (Fin 1) ℝ),
    rows ≠ [] ∧ SbSw.fit rows = some s ∧ s.mu = some mu ∧ s.Sb = some Sb ∧ s.Sw = some Sw ∧ IsEighGen Sb Sw d V ∧ d 0 = 4 := by
  have hc : classes (n := 1) [(0, fun _ => (0 : ℝ)), (0, fun _ => 2), (1, fun _ => 4), (1, fun _ => 6)] = [0, 1] := by
    unfold classes; simp [npUnique, insU]
  obtain ⟨s, h1, _, h3, h4, h5⟩ := fit_eq (n := 1) [(0, fun _ => (0 : ℝ)), (0, fun _ => 2), (1, fun _ => 4), (1, fun _ => 6)]
  refine ⟨_, s, _, _, _, fun _ => 4, 1, by simp, h1, h3, h4, h5, ⟨fun _ _ _ => le_refl _, ?_, ?_⟩, rfl⟩
  · ext i j
    fin_cases i; fin_cases j
    simp only [Matrix.mul_one, Matrix.transpose_one, Matrix.one_mul, Matrix.of_apply]
    rw [hc]
    simp [pcaCov, pcaMu, ofClass]
    norm_num
  · ext i j
    fin_cases i; fin_cases j
    simp only [Matrix.mul_one]
    unfold classMeans
    rw [hc]
    simp [pcaCov, pcaMu, ofClass, Matrix.mul_apply]
    norm_num

/-! ### C76: statistics of parts of the data -/

theorem npUnique_append_perm (a b : List Nat) (h : ∀ x ∈ a, x ∉ b) : (npUnique (a ++ b)).Perm (npUnique a ++ npUnique b) := by
  apply (List.perm_ext_iff_of_nodup (npUnique_nodup _) _).mpr
  · intro x; simp
  · rw [List.nodup_append]
    refine ⟨npUnique_nodup _, npUnique_nodup _, ?_⟩
    intro x hx y hy e
    subst e
    rw [mem_npUnique] at hx hy
    exact h x hx hy

theorem ofClass_append (a b : List (CRow n)) (c : Nat) : ofClass (a ++ b) c = ofClass a c ++ ofClass b c := by
  simp [ofClass]

theorem ofClass_nil {a : List (CRow n)} {c : Nat} (h : c ∉ a.map Prod.fst) : ofClass a c = [] := by
  unfold ofClass
  rw [List.map_eq_nil_iff, List.filter_eq_nil_iff]
  intro r hr e
  apply h
  simp only [decide_eq_true_eq] at e
  exact List.mem_map.mpr ⟨r, hr, e⟩

/-- component-wise sum of raw statistics -/
def SbSw.add (a b : SbSw n) : SbSw n where
  Sb := do return (← a.Sb) + (← b.Sb)
  Sw := do return (← a.Sw) + (← b.Sw)
  mu := do return (← a.mu) + (← b.mu)
  numClasses := a.numClasses + b.numClasses

/-- C76: the statistics computed with `normalize=False` on two parts of a data set that share no class add up to those of
the whole data set. -/
theorem C76_additive_partial (a b : List (CRow n)) (h : ∀ r ∈ a, ∀ q ∈ b, r.1 ≠ q.1) :
    SbSw.fitRaw (a ++ b) = (SbSw.fitRaw a).add (SbSw.fitRaw b) := by
  have hd : ∀ x ∈ a.map Prod.fst, x ∉ b.map Prod.fst := by
    intro x hx hy
    obtain ⟨r, hr, rfl⟩ := List.mem_map.mp hx
    obtain ⟨q, hq, e⟩ := List.mem_map.mp hy
    exact h r hr q hq e.symm
  have hp := npUnique_append_perm (a.map Prod.fst) (b.map Prod.fst) hd
  have sum : ∀ {M : Type} [AddCommMonoid M] (f : List (Vec n) → M),
      ((npUnique ((a ++ b).map Prod.fst)).map (fun c => f (ofClass (a ++ b) c))).sum =
      ((npUnique (a.map Prod.fst)).map (fun c => f (ofClass a c))).sum + ((npUnique (b.map Prod.fst)).map (fun c => f (ofClass b c))).sum := by
    intro M _ f
    rw [List.map_append, (hp.map _).sum_eq, List.map_append, List.sum_append]
    congr 2
    · apply List.map_congr_left
      intro c hc
      rw [mem_npUnique] at hc
      rw [ofClass_append, ofClass_nil (hd c hc), List.append_nil]
    · apply List.map_congr_left
      intro c hc
      rw [mem_npUnique] at hc
      rw [ofClass_append, ofClass_nil (a := a) (fun h => hd c h hc), List.nil_append]
  unfold SbSw.fitRaw SbSw.add
  simp only [SbSw.mk.injEq]
  refine ⟨?_, ?_, ?_, ?_⟩
  · rw [sum (fun l => (classStats l).2.1)]; rfl
  · rw [sum (fun l => (classStats l).2.2)]; rfl
  · rw [sum (fun l => (classStats l).1)]; rfl
  · rw [List.map_append, hp.length_eq, List.length_append]

/-- C76 (defect): the class method that is meant to add up the statistics of the parts returns an object without any
statistics (the constructor ignores them); normalising it raises. -/
theorem C76_accum_loses (parts : List (List (CRow n))) (hne : parts ≠ []) :
    ∃ s, SbSw.accumStats (parts.map SbSw.fitRaw) = some s ∧ s.Sb = none ∧ s.Sw = none ∧ s.mu = none ∧
      s.numClasses = (parts.map (fun p => (npUnique (p.map Prod.fst)).length)).sum ∧ s.normalize = none := by
  have e1 : (parts.map SbSw.fitRaw).mapM (fun s => s.mu) = some (parts.map (fun p => ((SbSw.fitRaw p).mu).getD 0)) := by
    rw [mapM_eq_some_iff, List.map_map, List.map_map]; rfl
  have e2 : (parts.map SbSw.fitRaw).mapM (fun s => s.Sb) = some (parts.map (fun p => ((SbSw.fitRaw p).Sb).getD 0)) := by
    rw [mapM_eq_some_iff, List.map_map, List.map_map]; rfl
  have e3 : (parts.map SbSw.fitRaw).mapM (fun s => s.Sw) = some (parts.map (fun p => ((SbSw.fitRaw p).Sw).getD 0)) := by
    rw [mapM_eq_some_iff, List.map_map, List.map_map]; rfl
  unfold SbSw.accumStats
  split
  · next h => simp at h; exact absurd h hne
  · rw [e1, e2, e3]
    refine ⟨_, rfl, rfl, rfl, rfl, ?_, rfl⟩
    simp only [SbSw.new, List.map_map]
    rfl

example : ∀ r ∈ ([(0, fun _ => 1), (0, fun _ => 2)] : List (CRow 1)), ∀ q ∈ ([(1, fun _ => 5)] : List (CRow 1)), r.1 ≠ q.1 := by
  intro r hr q hq
  simp only [List.mem_cons, List.not_mem_nil, or_false] at hr hq
  subst hq
  rcases hr with rfl | rfl <;> simp

/-! ### C77 -/

/-- C77: after `fit`, the training data transformed by `predict` have mean zero and mean square one in every coordinate
that is not constant. -/
theorem C77_mvn (rows : List (Vec n)) (hN : rows ≠ []) (i : Fin n) (x0 : Vec n) (hx : x0 ∈ rows) (hv : x0 i ≠ pcaMu rows i) :
    ((rows.map (mvnPredict (pcaMu rows) (mvnStd rows))).map (fun y => y i)).sum / (rows.length : ℝ) = 0 ∧
    ((rows.map (mvnPredict (pcaMu rows) (mvnStd rows))).map (fun y => y i ^ 2)).sum / (rows.length : ℝ) = 1 := by
  have hpos : (0 : ℝ) < rows.length := by exact_mod_cast List.length_pos_iff.mpr hN
  have hcov : pcaCov rows i i = (rows.map (fun x => (x i - pcaMu rows i) ^ 2)).sum / rows.length := by
    unfold pcaCov
    simp only [Matrix.of_apply, Pi.sub_apply, pow_two]
  have hsum : 0 < (rows.map (fun x => (x i - pcaMu rows i) ^ 2)).sum := by
    have h1 : (x0 i - pcaMu rows i) ^ 2 ≤ (rows.map (fun x => (x i - pcaMu rows i) ^ 2)).sum := by
      apply List.single_le_sum
      · intro v hv
        obtain ⟨x, _, rfl⟩ := List.mem_map.mp hv
        exact sq_nonneg _
      · exact List.mem_map.mpr ⟨x0, hx, rfl⟩
    have h2 : 0 < (x0 i - pcaMu rows i) ^ 2 := by
      have := sub_ne_zero.mpr hv
      positivity
    linarith
  have hcp : 0 < pcaCov rows i i := by rw [hcov]; positivity
  have hs := Real.sqrt_pos.mpr hcp
  constructor
  · have e : ((rows.map (mvnPredict (pcaMu rows) (mvnStd rows))).map (fun y => y i)).sum =
        (rows.map (fun x => (x i - pcaMu rows i))).sum * (1 / mvnStd rows i) := by
      rw [List.map_map, ← List.sum_map_mul_right]
      congr 1
      apply List.map_congr_left
      intro x _
      simp [mvnPredict, div_eq_mul_inv]
    have h0 := avg_center (unw rows) (unw_ne hN) i
    rw [avg_unw, ← pcaMu_unw, div_eq_zero_iff] at h0
    rcases h0 with h0 | h0
    · rw [e, h0, zero_mul, zero_div]
    · exact absurd h0 hpos.ne'
  · have e : ((rows.map (mvnPredict (pcaMu rows) (mvnStd rows))).map (fun y => y i ^ 2)).sum =
        (rows.map (fun x => (x i - pcaMu rows i) ^ 2)).sum * (1 / (mvnStd rows i) ^ 2) := by
      rw [List.map_map, ← List.sum_map_mul_right]
      congr 1
      apply List.map_congr_left
      intro x _
      simp only [Function.comp_apply, mvnPredict]
      ring
    rw [e]
    unfold mvnStd
    rw [Real.sq_sqrt hcp.le, hcov]
    field_simp

example : ∃ x0 : Vec 1, x0 ∈ ([fun _ => 1, fun _ => 3] : List (Vec 1)) ∧ x0 0 ≠ pcaMu ([fun _ => 1, fun _ => 3] : List (Vec 1)) 0 := by
  refine ⟨fun _ => 1, by simp, ?_⟩
  simp [pcaMu]; norm_num

/-! ### C79: NAP -/

/-- C79: with orthonormal nuisance directions the output has no component along any of them, applying the projection twice
is the same as once, and vectors without nuisance component are not changed. -/
theorem C79_nap {k : Nat} (U : Matrix (Fin k) (Fin n) ℝ) (hU : U * Uᵀ = 1) (x : Vec n) :
    (∀ a, U a ⬝ᵥ napPredict U x = 0) ∧ napPredict U (napPredict U x) = napPredict U x ∧
    ((∀ a, U a ⬝ᵥ x = 0) → napPredict U x = x) ∧
    (∀ y, (∀ a, U a ⬝ᵥ y = 0) → y ⬝ᵥ napPredict U x = y ⬝ᵥ x) := by
  have h1 : napPredict U x ᵥ* Uᵀ = 0 := by
    unfold napPredict
    rw [Matrix.sub_vecMul, Matrix.vecMul_vecMul, hU, Matrix.vecMul_one, sub_self]
  refine ⟨?_, ?_, ?_, ?_⟩
  · intro a
    have := congrFun h1 a
    rw [dotProduct_comm]
    exact this
  · conv_lhs => unfold napPredict
    rw [show (x - (x ᵥ* Uᵀ) ᵥ* U) = napPredict U x from rfl, h1, Matrix.zero_vecMul, sub_zero]
  · intro h
    have : x ᵥ* Uᵀ = 0 := by
      funext a
      rw [Pi.zero_apply, ← h a, dotProduct_comm]
      rfl
    unfold napPredict
    rw [this, Matrix.zero_vecMul, sub_zero]
  · intro y hy
    have : y ᵥ* Uᵀ = 0 := by
      funext a
      rw [Pi.zero_apply, ← hy a, dotProduct_comm]
      rfl
    unfold napPredict
    rw [dotProduct_sub, dotProduct_comm y (x ᵥ* Uᵀ ᵥ* U), ← Matrix.dotProduct_mulVec, ← Matrix.vecMul_transpose, this,
      dotProduct_zero, sub_zero]

example : (!![1, 0] : Matrix (Fin 1) (Fin 2) ℝ) * (!![1, 0] : Matrix (Fin 1) (Fin 2) ℝ)ᵀ = 1 ∧
    napPredict (!![1, 0] : Matrix (Fin 1) (Fin 2) ℝ) ![3, 5] = ![0, 5] := by
  constructor
  · ext i j; fin_cases i; fin_cases j; simp [Matrix.mul_apply, Fin.sum_univ_two]
  · ext i
    fin_cases i <;> simp [napPredict, Matrix.vecMul, dotProduct, Fin.sum_univ_two, Matrix.mul_apply]

/-! ### C78: Gaussianizer -/

open Classical in
theorem searchSorted_count (r : List ℝ) (hs : r.Pairwise (· ≤ ·)) (x : ℝ) :
    searchSorted r x = r.countP (fun v => decide (v < x)) := by
  unfold searchSorted
  induction r with
  | nil => simp
  | cons a r ih =>
    rw [List.pairwise_cons] at hs
    by_cases h : a < x
    · rw [List.takeWhile_cons_of_pos (by simpa using h), List.countP_cons_of_pos (by simpa using h), List.length_cons, ih hs.2]
    · rw [List.takeWhile_cons_of_neg (by simpa using h), List.countP_cons_of_neg (by simpa using h)]
      symm
      rw [List.length_nil, List.countP_eq_zero]
      intro v hv
      have := hs.1 v hv
      simp only [decide_eq_true_eq, not_lt]
      linarith [not_lt.mp h]

open Classical in
/-- C78: `predict` never fails after `fit`; a value is mapped to the normal quantile of
`(number of stored background values below it + 1) / (number of stored values + 2)`, a number strictly between 0 and 1. -/
theorem C78_value (quantile : ℝ → ℝ) (r : List ℝ) (hs : r.Pairwise (· ≤ ·)) (x : ℝ) :
    gaussianize quantile r x = some (quantile ((r.countP (fun v => decide (v < x)) + 1) / (r.length + 2))) ∧
    (0 : ℝ) < (r.countP (fun v => decide (v < x)) + 1) / (r.length + 2) ∧
    ((r.countP (fun v => decide (v < x)) + 1) / (r.length + 2) : ℝ) < 1 := by
  have hle : r.countP (fun v => decide (v < x)) ≤ r.length := List.countP_le_length
  have hle' : (r.countP (fun v => decide (v < x)) : ℝ) ≤ r.length := by exact_mod_cast hle
  refine ⟨?_, by positivity, ?_⟩
  · unfold gaussianize
    rw [searchSorted_count r hs x, if_pos (by omega)]
    push_cast
    rfl
  · rw [div_lt_one (by positivity)]
    linarith

/-- C78: the mapping never reverses the order of two values of a dimension. -/
theorem C78_monotone (quantile : ℝ → ℝ) (hq : ∀ p q, 0 < p → p ≤ q → q < 1 → quantile p ≤ quantile q) (r : List ℝ)
    (hs : r.Pairwise (· ≤ ·)) (x y : ℝ) (hxy : x ≤ y) :
    ∃ a b, gaussianize quantile r x = some a ∧ gaussianize quantile r y = some b ∧ a ≤ b := by
  classical
  obtain ⟨ex, px, _⟩ := C78_value quantile r hs x
  obtain ⟨ey, _, py⟩ := C78_value quantile r hs y
  refine ⟨_, _, ex, ey, hq _ _ px ?_ py⟩
  apply div_le_div_of_nonneg_right _ (by positivity)
  have : r.countP (fun v => decide (v < x)) ≤ r.countP (fun v => decide (v < y)) := by
    apply List.countP_mono_left
    intro v _ h
    simp only [decide_eq_true_eq] at h ⊢
    linarith
  have h' : (r.countP (fun v => decide (v < x)) : ℝ) ≤ r.countP (fun v => decide (v < y)) := by exact_mod_cast this
  linarith

/-- C78: values on both sides of a stored background value are told apart (strictly increasing quantile function). -/
theorem C78_separates (quantile : ℝ → ℝ) (hq : ∀ p q, 0 < p → p < q → q < 1 → quantile p < quantile q) (r : List ℝ)
    (hs : r.Pairwise (· ≤ ·)) (x y v : ℝ) (hv : v ∈ r) (hxv : x ≤ v) (hvy : v < y) :
    ∃ a b, gaussianize quantile r x = some a ∧ gaussianize quantile r y = some b ∧ a < b := by
  classical
  obtain ⟨ex, px, _⟩ := C78_value quantile r hs x
  obtain ⟨ey, _, py⟩ := C78_value quantile r hs y
  refine ⟨_, _, ex, ey, hq _ _ px ?_ py⟩
  apply div_lt_div_of_pos_right _ (by positivity)
  have key : ∀ l : List ℝ, v ∈ l → l.countP (fun v => decide (v < x)) < l.countP (fun v => decide (v < y)) := by
    intro l hl
    have hmono : ∀ l : List ℝ, l.countP (fun v => decide (v < x)) ≤ l.countP (fun v => decide (v < y)) := by
      intro l
      apply List.countP_mono_left
      intro v _ h
      simp only [decide_eq_true_eq] at h ⊢
      linarith
    induction l with
    | nil => cases hl
    | cons a l ih =>
      rcases List.mem_cons.mp hl with rfl | hl
      · rw [List.countP_cons_of_neg (by simpa using hxv), List.countP_cons_of_pos (by simpa using hvy)]
        have := hmono l; omega
      · have := ih hl
        by_cases hax : a < x
        · rw [List.countP_cons_of_pos (by simpa using hax), List.countP_cons_of_pos (by simp; linarith)]
          omega
        · rw [List.countP_cons_of_neg (by simpa using hax), List.countP_cons]
          omega
  have h' : (r.countP (fun v => decide (v < x)) : ℝ) < r.countP (fun v => decide (v < y)) := by exact_mod_cast key r hv
  linarith

theorem subIdx_val {N m i : Nat} (hm : m < N) (hi : i < m) :
    ∃ v : ℤ, v = roundEven ((i : ℚ) * ((N : ℚ) - 1) / ((m : ℚ) - 1)) ∧ 0 ≤ v ∧ v ≤ N - 1 := by
  refine ⟨_, rfl, ?_, ?_⟩
  · apply le_roundEven
    have h1 : (1 : ℚ) ≤ N := by exact_mod_cast (by omega : 1 ≤ N)
    have h2 : (1 : ℚ) ≤ m := by exact_mod_cast (by omega : 1 ≤ m)
    push_cast
    apply div_nonneg
    · apply mul_nonneg (by positivity); linarith
    · linarith
  · apply roundEven_le
    have h1 : (1 : ℚ) ≤ N := by exact_mod_cast (by omega : 1 ≤ N)
    have h3 : (i : ℚ) ≤ m - 1 := by
      have : (i : ℚ) + 1 ≤ m := by exact_mod_cast hi
      linarith
    push_cast
    by_cases h1m : m = 1
    · subst h1m
      simp; linarith
    · have h2 : (1 : ℚ) < m := by exact_mod_cast (by omega : 1 < m)
      rw [div_le_iff₀ (by linarith)]
      nlinarith

theorem subIdx_lt {N m : Nat} (hm : m < N) : ∀ i ∈ subIdx N m, i < N := by
  intro i hi
  unfold subIdx at hi
  obtain ⟨k, hk, rfl⟩ := List.mem_map.mp hi
  obtain ⟨v, e, h0, h1⟩ := subIdx_val hm (List.mem_range.mp hk)
  rw [← e]; omega

theorem subIdx_mono {N m : Nat} (hm : m < N) : (subIdx N m).Pairwise (· ≤ ·) := by
  unfold subIdx
  rw [List.pairwise_map]
  apply List.Pairwise.imp_of_mem _ (List.pairwise_lt_range (n := m))
  intro a b ha hb hab
  apply Int.toNat_le_toNat
  apply roundEven_mono
  have h1 : (1 : ℚ) ≤ N := by exact_mod_cast (by omega : 1 ≤ N)
  have h2 : (1 : ℚ) ≤ m := by exact_mod_cast (by have := List.mem_range.mp ha; omega : 1 ≤ m)
  apply div_le_div_of_nonneg_right _ (by linarith)
  apply mul_le_mul_of_nonneg_right _ (by linarith)
  exact_mod_cast hab.le

open Classical in
/-- C78: what `fit` keeps. The stored values are sorted and are values of the data; up to `max_vectors` values nothing is
lost, above that exactly `max_vectors` values are kept, with the smallest and the largest value among them (if at
least two are kept). `max_vectors=None`, the default, raises. -/
theorem C78_fit (maxVectors : Option Nat) (x : List ℝ) :
    (maxVectors = none → gaussFit maxVectors x = none) ∧
    (∀ m, maxVectors = some m → ∃ r, gaussFit maxVectors x = some r ∧ r.Pairwise (· ≤ ·) ∧ (∀ v ∈ r, v ∈ x) ∧
      r.length = min m x.length ∧ (x.length ≤ m → r.Perm x) ∧
      (2 ≤ m → ∀ v ∈ x, (∃ lo ∈ r, lo ≤ v) ∧ (∃ hi ∈ r, v ≤ hi))) := by
  refine ⟨fun h => by rw [h]; rfl, ?_⟩
  intro m hm
  subst hm
  have hp : (x.mergeSort (fun a b => decide (a ≤ b))).Perm x := List.mergeSort_perm _ _
  have hsort : (x.mergeSort (fun a b => decide (a ≤ b))).Pairwise (· ≤ ·) := by
    have := List.pairwise_mergeSort (le := fun a b : ℝ => decide (a ≤ b)) (by intro a b c h1 h2; simp at *; linarith)
      (by intro a b; simp; exact le_total a b) x
    exact this.imp (by intro a b h; simpa using h)
  simp only [gaussFit]
  generalize x.mergeSort (fun a b => decide (a ≤ b)) = s at hp hsort
  have hl := hp.length_eq
  by_cases hgt : s.length > m
  · rw [if_pos hgt, gather_eq_map (subIdx_lt hgt)]
    have hget : ∀ i, i < s.length → s.getD i default ∈ s := by
      intro i hi
      rw [List.getD_eq_getElem?_getD, List.getElem?_eq_getElem hi]
      exact List.getElem_mem hi
    refine ⟨_, rfl, ?_, ?_, ?_, ?_, ?_⟩
    · rw [List.pairwise_map]
      apply List.Pairwise.imp_of_mem _ (subIdx_mono hgt)
      intro a b ha hb hab
      have ha' := subIdx_lt hgt a ha
      have hb' := subIdx_lt hgt b hb
      simp only [List.getD_eq_getElem?_getD, List.getElem?_eq_getElem ha', List.getElem?_eq_getElem hb', Option.getD_some]
      rcases Nat.lt_or_eq_of_le hab with h | h
      · exact List.pairwise_iff_getElem.mp hsort a b ha' hb' h
      · subst h; exact le_refl _
    · intro v hv
      obtain ⟨i, hi, rfl⟩ := List.mem_map.mp hv
      exact hp.mem_iff.mp (hget i (subIdx_lt hgt i hi))
    · simp [subIdx]; omega
    · intro h; omega
    · intro h2 v hv
      have hvs := hp.mem_iff.mpr hv
      obtain ⟨k, hk, rfl⟩ := List.getElem_of_mem hvs
      have h0 : (0 : Nat) ∈ subIdx s.length m := by
        unfold subIdx
        refine List.mem_map.mpr ⟨0, List.mem_range.mpr (by omega), ?_⟩
        simp
        exact roundEven_le (by simp)
      have h1 : s.length - 1 ∈ subIdx s.length m := by
        unfold subIdx
        refine List.mem_map.mpr ⟨m - 1, List.mem_range.mpr (by omega), ?_⟩
        have e : (((m - 1 : ℕ) : ℚ) * ((s.length : ℚ) - 1) / ((m : ℚ) - 1)) = (((s.length - 1 : ℕ) : ℤ) : ℚ) := by
          have hm2 : (2 : ℚ) ≤ m := by exact_mod_cast h2
          rw [Nat.cast_sub (by omega)]
          push_cast [Nat.cast_sub (show 1 ≤ s.length by omega)]
          exact mul_div_cancel_left₀ _ (by linarith)
        rw [e, roundEven_int]
        simp
      constructor
      · refine ⟨s.getD 0 default, List.mem_map.mpr ⟨0, h0, rfl⟩, ?_⟩
        rw [List.getD_eq_getElem?_getD, List.getElem?_eq_getElem (by omega), Option.getD_some]
        rcases Nat.eq_zero_or_pos k with h | h
        · subst h; exact le_refl _
        · exact List.pairwise_iff_getElem.mp hsort 0 k (by omega) hk h
      · refine ⟨s.getD (s.length - 1) default, List.mem_map.mpr ⟨_, h1, rfl⟩, ?_⟩
        rw [List.getD_eq_getElem?_getD, List.getElem?_eq_getElem (by omega), Option.getD_some]
        rcases Nat.lt_or_eq_of_le (show k ≤ s.length - 1 by omega) with h | h
        · exact List.pairwise_iff_getElem.mp hsort k (s.length - 1) hk (by omega) h
        · subst h; exact le_refl _
  · rw [if_neg hgt]
    refine ⟨s, rfl, hsort, fun v hv => hp.mem_iff.mp hv, by omega, fun _ => hp, ?_⟩
    intro _ v hv
    exact ⟨⟨v, hp.mem_iff.mpr hv, le_refl _⟩, ⟨v, hp.mem_iff.mpr hv, le_refl _⟩⟩

/-- three background values: 1.5 lies above one of them -/
example : gaussianize id [1, 2, 3] (3 / 2) = some (2 / 5) := by
  classical
  rw [(C78_value id [1, 2, 3] (by simp; norm_num) (3 / 2)).1]
  simp [List.countP_cons]
  norm_num

end Hyp.Transforms
