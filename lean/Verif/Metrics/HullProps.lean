import Verif.Metrics.RocProps
import Mathlib.Algebra.Order.Ring.Rat
import Mathlib.Algebra.Field.Rat

/-!
# C30 (ROC convex hull), C31 (minimum detection cost)
-/

namespace Hyp.Metrics

variable {K : Type} [Field K] [LinearOrder K] [IsStrictOrderedRing K]

section segs
variable {tar non : List K} {segs : List (List K)}

/-- position of the operating point `k` with respect to the line through the ends of block `i`. -/
theorem cross_eq (ht : tar ≠ []) (hn : non ≠ []) (hy : segs.flatten = sortedLabels tar non) (hne : ∀ s ∈ segs, s ≠ [])
    {i : Nat} (hi : i < segs.length) (k : Nat) :
    ((pt tar non (bnd segs (i + 1))).1 - (pt tar non (bnd segs i)).1) * ((pt tar non k).2 - (pt tar non (bnd segs i)).2) +
      ((pt tar non (bnd segs i)).2 - (pt tar non (bnd segs (i + 1))).2) * ((pt tar non k).1 - (pt tar non (bnd segs i)).1) =
    (segs[i].length : K) / ((tar.length : K) * (non.length : K)) *
      ((misses tar non k - avg segs[i] * (k : K)) - fval tar non segs (avg segs[i]) i) := by
  have h1 : (tar.length : K) ≠ 0 := by simpa using ht
  have h2 : (non.length : K) ≠ 0 := by simpa using hn
  simp only [pt, fval]
  rw [misses_succ hy hne hi, bnd_succ hi]
  push_cast
  field_simp
  ring

end segs

/-- The vertices returned by `compute_rocch`, in the form used below. -/
theorem hull_core (tar non : List K) (ht : tar ≠ []) (hn : non ≠ []) : ∃ pts : List (K × K), computeRocch tar non = some pts ∧
    pts.head? = some (0, 1) ∧ pts.getLast? = some (1, 0) ∧
    pts.Pairwise (fun v w => v.1 ≤ w.1 ∧ w.2 ≤ v.2 ∧ v ≠ w) ∧
    (∀ v ∈ pts, 0 ≤ v.1 ∧ v.1 ≤ 1 ∧ 0 ≤ v.2 ∧ v.2 ≤ 1) ∧
    (∀ v ∈ pts, ∃ θ : K, v = (pMissAt tar θ, pFaAt non θ)) ∧
    (∀ (i : Nat) (v w : K × K) (θ : K), pts[i]? = some v → pts[i + 1]? = some w →
      0 ≤ (w.1 - v.1) * (pFaAt non θ - v.2) + (v.2 - w.2) * (pMissAt tar θ - v.1)) ∧
    (∀ (i j : Nat) (v w u : K × K), pts[i]? = some v → pts[i + 1]? = some w → pts[j]? = some u → j ≠ i → j ≠ i + 1 →
      0 < (w.1 - v.1) * (u.2 - v.2) + (v.2 - w.2) * (u.1 - v.1)) ∧
    (∀ (a b θ : K), 0 ≤ a → 0 ≤ b → ∃ v ∈ pts, a * v.1 + b * v.2 ≤ a * pMissAt tar θ + b * pFaAt non θ) := by
  obtain ⟨segs, hy, hne, hs, hp, he⟩ := rocch_segs tar non ht hn
  have h1 : (0 : K) < (tar.length : K) := by
    have : 0 < tar.length := List.length_pos_of_ne_nil ht
    exact_mod_cast this
  have h2 : (0 : K) < (non.length : K) := by
    have : 0 < non.length := List.length_pos_of_ne_nil hn
    exact_mod_cast this
  have hsne : segs ≠ [] := by
    intro h
    have := bnd_last hy
    rw [h] at this
    have h3 : 0 < tar.length := List.length_pos_of_ne_nil ht
    simp [bnd] at this
    omega
  have hcount : ∀ θ : K, (tar ++ non).countP (fun x => decide (x < θ)) ≤ tar.length + non.length := by
    intro θ
    have := List.countP_le_length (p := fun x => decide (x < θ)) (l := tar ++ non)
    rwa [List.length_append] at this
  have hget : ∀ (i : Nat) (v : K × K), ((List.range (segs.length + 1)).map (fun i => pt tar non (bnd segs i)))[i]? = some v →
      i ≤ segs.length ∧ v = pt tar non (bnd segs i) := by
    intro i v h
    rw [List.getElem?_map] at h
    rcases Nat.lt_or_ge i (segs.length + 1) with hi | hi
    · rw [List.getElem?_range hi, Option.map_some] at h
      exact ⟨by omega, (Option.some.inj h).symm⟩
    · rw [List.getElem?_eq_none (by simpa using hi)] at h
      cases h
  have hhead : pt tar non (bnd segs 0) = (0, 1) := by
    rw [bnd_zero]
    simp [pt, misses, h2.ne']
  have hlast : pt tar non (bnd segs segs.length) = (1, 0) := by
    rw [bnd_last hy]
    have : misses tar non (tar.length + non.length) = (tar.length : K) := by
      unfold misses
      rw [← sortedLabels_length, List.take_length, sum_labels]
    simp only [pt, this]
    push_cast
    rw [show (non.length : K) - ((tar.length : K) + (non.length : K) - (tar.length : K)) = 0 by ring]
    simp [h1.ne']
  have hop : ∀ i ≤ segs.length, ∃ θ : K, pt tar non (bnd segs i) = (pMissAt tar θ, pFaAt non θ) := by
    intro i hi
    obtain ⟨θ, hθ⟩ := bnd_threshold hy hne hs hp hi
    exact ⟨θ, by rw [← hθ, pt_threshold]⟩
  have hA : ∀ s ∈ segs, 0 ≤ avg s ∧ avg s ≤ 1 := by
    intro s hs
    have hm : ∀ x ∈ s, x = 0 ∨ x = 1 := fun x hx => labels_mem tar non x (by rw [← hy]; exact List.mem_flatten.2 ⟨s, hs, hx⟩)
    have b1 := last_le (hne s hs) (hp s hs)
    have b2 := le_first (hne s hs) (hp s hs)
    have c1 := hm _ (List.getLast_mem (hne s hs))
    have c2 := hm _ (List.head_mem (hne s hs))
    constructor
    · rcases c1 with c | c <;> rw [c] at b1 <;> linarith
    · rcases c2 with c | c <;> rw [c] at b2 <;> linarith
  have hstep : ∀ i (hi : i < segs.length),
      (pt tar non (bnd segs i)).1 ≤ (pt tar non (bnd segs (i + 1))).1 ∧
      (pt tar non (bnd segs (i + 1))).2 ≤ (pt tar non (bnd segs i)).2 := by
    intro i hi
    obtain ⟨a0, a1⟩ := hA _ (List.getElem_mem hi)
    have hl := len_pos (K := K) hne hi
    simp only [pt]
    rw [misses_succ hy hne hi, bnd_succ hi]
    constructor
    · apply div_le_div_of_nonneg_right _ h1.le
      nlinarith
    · apply div_le_div_of_nonneg_right _ h2.le
      push_cast
      nlinarith
  have hmono : ∀ d i, i + d ≤ segs.length →
      (pt tar non (bnd segs i)).1 ≤ (pt tar non (bnd segs (i + d))).1 ∧
      (pt tar non (bnd segs (i + d))).2 ≤ (pt tar non (bnd segs i)).2 := by
    intro d
    induction d with
    | zero => intro i _; exact ⟨le_rfl, le_rfl⟩
    | succ d ih =>
      intro i hi
      obtain ⟨x1, x2⟩ := ih i (by omega)
      obtain ⟨y1, y2⟩ := hstep (i + d) (by omega)
      exact ⟨x1.trans y1, y2.trans x2⟩
  have hinj : ∀ i j, i < j → j ≤ segs.length → pt tar non (bnd segs i) ≠ pt tar non (bnd segs j) := by
    intro i j hij hj heq
    have e1 := congrArg Prod.fst heq
    have e2 := congrArg Prod.snd heq
    simp only [pt] at e1 e2
    have e1' := (div_left_inj' h1.ne').1 e1
    have e2' := (div_left_inj' h2.ne').1 e2
    rw [e1'] at e2'
    have e3 : ((bnd segs i : Nat) : K) = ((bnd segs j : Nat) : K) := by linarith
    have e4 : bnd segs i = bnd segs j := by exact_mod_cast e3
    have hlt : ∀ d, i + 1 + d ≤ segs.length → bnd segs i < bnd segs (i + 1 + d) := by
      intro d
      induction d with
      | zero =>
        intro h
        rw [Nat.add_zero, bnd_succ (by omega)]
        have := List.length_pos_of_ne_nil (hne _ (List.getElem_mem (show i < segs.length by omega)))
        omega
      | succ d ih =>
        intro h
        have := ih (by omega)
        rw [← Nat.add_assoc, bnd_succ (show i + 1 + d < segs.length by omega)]
        omega
    have := hlt (j - (i + 1)) (by omega)
    rw [show i + 1 + (j - (i + 1)) = j by omega] at this
    omega
  refine ⟨_, he, ?_, ?_, ?_, ?_, ?_, ?_, ?_, ?_⟩
  · rw [List.head?_eq_getElem?, List.getElem?_map, List.getElem?_range (by omega), Option.map_some, hhead]
  · rw [List.range_succ, List.map_append, List.map_singleton, List.getLast?_append]
    simp [hlast]
  · rw [List.pairwise_map, List.pairwise_iff_getElem]
    intro i j hi hj hij
    simp only [List.length_range] at hi hj
    simp only [List.getElem_range]
    have := hmono (j - i) i (by omega)
    rw [show i + (j - i) = j by omega] at this
    exact ⟨this.1, this.2, hinj i j hij (by omega)⟩
  · intro v hv
    obtain ⟨i, hi, rfl⟩ := List.mem_map.1 hv
    have hi' : i ≤ segs.length := by have := List.mem_range.1 hi; omega
    have g1 := hmono i 0 (by omega)
    have g2 := hmono (segs.length - i) i (by omega)
    rw [show i + (segs.length - i) = segs.length by omega, hlast] at g2
    rw [Nat.zero_add, hhead] at g1
    exact ⟨g1.1, g2.1, g2.2, g1.2⟩
  · intro v hv
    obtain ⟨i, hi, rfl⟩ := List.mem_map.1 hv
    exact hop i (by have := List.mem_range.1 hi; omega)
  · intro i v w θ hv hw
    obtain ⟨_, rfl⟩ := hget i v hv
    obtain ⟨hi, rfl⟩ := hget (i + 1) w hw
    have hi' : i < segs.length := by omega
    have e := pt_threshold tar non θ
    have e1 := congrArg Prod.fst e
    have e2 := congrArg Prod.snd e
    simp only at e1 e2
    rw [← e1, ← e2, cross_eq ht hn hy hne hi']
    have := point_above hy hne hs hp hi' (hcount θ)
    exact mul_nonneg (by positivity) (by linarith)
  · intro i j v w u hv hw hu h3 h4
    obtain ⟨_, rfl⟩ := hget i v hv
    obtain ⟨hi, rfl⟩ := hget (i + 1) w hw
    obtain ⟨hj, rfl⟩ := hget j u hu
    have hi' : i < segs.length := by omega
    rw [cross_eq ht hn hy hne hi']
    have := (fval_min hy hne hs hi' hj).2 h3 h4
    have hl := len_pos (K := K) hne hi'
    rw [show misses tar non (bnd segs j) - avg segs[i] * (bnd segs j : K) = fval tar non segs (avg segs[i]) j from rfl]
    exact mul_pos (by positivity) (by linarith)
  · intro a b θ ha hb
    obtain ⟨j, hj, hc⟩ := cost_vertex hy hne hsne hp (hcount θ) (a / (tar.length : K) + b / (non.length : K)) (b / (non.length : K)) (by positivity)
    refine ⟨pt tar non (bnd segs j), List.mem_map.2 ⟨j, List.mem_range.2 (by omega), rfl⟩, ?_⟩
    have e := pt_threshold tar non θ
    have e1 := congrArg Prod.fst e
    have e2 := congrArg Prod.snd e
    simp only at e1 e2
    rw [← e1, ← e2]
    have key : ∀ k : Nat, a * (pt tar non k).1 + b * (pt tar non k).2 =
        (a / (tar.length : K) + b / (non.length : K)) * misses tar non k - b / (non.length : K) * (k : K) + b := by
      intro k
      simp only [pt]
      field_simp
      ring
    rw [key, key]
    linarith

/-! ## C30 -/

/-- The hull starts at (P_miss, P_fa) = (0, 1), ends at (1, 0); along it P_miss never decreases and P_fa never increases,
no vertex is repeated, and all rates are in [0, 1]. -/
theorem C30_shape (tar non : List K) (ht : tar ≠ []) (hn : non ≠ []) : ∃ pts : List (K × K), computeRocch tar non = some pts ∧
    pts.head? = some (0, 1) ∧ pts.getLast? = some (1, 0) ∧
    pts.Pairwise (fun v w => v.1 ≤ w.1 ∧ w.2 ≤ v.2 ∧ v ≠ w) ∧
    (∀ v ∈ pts, 0 ≤ v.1 ∧ v.1 ≤ 1 ∧ 0 ≤ v.2 ∧ v.2 ≤ 1) := by
  obtain ⟨pts, h0, h1, h2, h3, h4, _⟩ := hull_core tar non ht hn
  exact ⟨pts, h0, h1, h2, h3, h4⟩

/-- Every vertex is the operating point of a threshold: tied scores are never split. -/
theorem C30_operating_points (tar non : List K) (pts : List (K × K)) (h : computeRocch tar non = some pts)
    (v : K × K) (hv : v ∈ pts) : ∃ θ : K, v = (pMissAt tar θ, pFaAt non θ) := by
  by_cases hc : tar = [] ∨ non = []
  · simp [computeRocch, hc] at h
  · rw [not_or] at hc
    obtain ⟨pts', h0, _, _, _, _, h5, _⟩ := hull_core tar non hc.1 hc.2
    rw [h] at h0
    cases h0
    exact h5 v hv

/-- No operating point is below the line through two consecutive vertices. -/
theorem C30_below_roc (tar non : List K) (pts : List (K × K)) (h : computeRocch tar non = some pts)
    (i : Nat) (v w : K × K) (hv : pts[i]? = some v) (hw : pts[i + 1]? = some w) (θ : K) :
    0 ≤ (w.1 - v.1) * (pFaAt non θ - v.2) + (v.2 - w.2) * (pMissAt tar θ - v.1) := by
  by_cases hc : tar = [] ∨ non = []
  · simp [computeRocch, hc] at h
  · rw [not_or] at hc
    obtain ⟨pts', h0, _, _, _, _, _, h6, _⟩ := hull_core tar non hc.1 hc.2
    rw [h] at h0
    cases h0
    exact h6 i v w θ hv hw

/-- The vertices are in strictly convex position: all other vertices are strictly above the line through two
consecutive ones. -/
theorem C30_strictly_convex (tar non : List K) (pts : List (K × K)) (h : computeRocch tar non = some pts)
    (i j : Nat) (v w u : K × K) (hv : pts[i]? = some v) (hw : pts[i + 1]? = some w) (hu : pts[j]? = some u)
    (hj : j ≠ i) (hj' : j ≠ i + 1) :
    0 < (w.1 - v.1) * (u.2 - v.2) + (v.2 - w.2) * (u.1 - v.1) := by
  by_cases hc : tar = [] ∨ non = []
  · simp [computeRocch, hc] at h
  · rw [not_or] at hc
    obtain ⟨pts', h0, _, _, _, _, _, _, h7, _⟩ := hull_core tar non hc.1 hc.2
    rw [h] at h0
    cases h0
    exact h7 i j v w u hv hw hu hj hj'

/-- For every pair of non-negative costs, some vertex costs no more than any threshold. -/
theorem C30_dominates (tar non : List K) (pts : List (K × K)) (h : computeRocch tar non = some pts)
    (a b θ : K) (ha : 0 ≤ a) (hb : 0 ≤ b) : ∃ v ∈ pts, a * v.1 + b * v.2 ≤ a * pMissAt tar θ + b * pFaAt non θ := by
  by_cases hc : tar = [] ∨ non = []
  · simp [computeRocch, hc] at h
  · rw [not_or] at hc
    obtain ⟨pts', h0, _, _, _, _, _, _, _, h8⟩ := hull_core tar non hc.1 hc.2
    rw [h] at h0
    cases h0
    exact h8 a b θ ha hb

/-- Without targets or without nontargets the function raises. -/
theorem C30_raises (tar non : List K) : computeRocch tar non = none ↔ tar = [] ∨ non = [] := by
  constructor
  · intro h
    by_contra hc
    rw [not_or] at hc
    obtain ⟨pts', h0, _⟩ := hull_core tar non hc.1 hc.2
    rw [h] at h0
    cases h0
  · intro h
    simp [computeRocch, h]

/-- `compute_roc`: the point number `i` has the `i` lowest-ranked trials rejected; in particular the operating point
of every threshold is on the curve. -/
theorem C30_roc_contains_thresholds (tar non : List K) (ht : tar ≠ []) (hn : non ≠ []) (θ : K) :
    ∃ pts : List (K × K), computeRoc tar non = some pts ∧ pts.length = tar.length + non.length + 1 ∧
      pts[(tar ++ non).countP (fun x => decide (x < θ))]? = some (pMissAt tar θ, pFaAt non θ) := by
  have hn0 : (non.length : K) ≠ 0 := by simpa using hn
  refine ⟨_, by unfold computeRoc; rw [if_neg (by simp [ht, hn])], by simp, ?_⟩
  have hle := List.countP_le_length (p := fun x => decide (x < θ)) (l := tar ++ non)
  rw [List.length_append] at hle
  rw [← pt_threshold]
  generalize List.countP (fun x => decide (x < θ)) (tar ++ non) = k at *
  cases k with
  | zero => simp [pt, misses, hn0]
  | succ k =>
    rw [List.getElem?_cons_succ, List.getElem?_map, List.getElem?_range (by omega), Option.map_some]
    simp [pt, misses]

/-- two targets, two nontargets, a tie between a target and a nontarget. -/
theorem hull_example : computeRocch [(1 : ℚ), 3] [1, 0] = some [(0, 1), (0, 1/2), (1/2, 0), (1, 0)] := by
  have h : sortedLabels [(1 : ℚ), 3] [1, 0] = [0, 1, 0, 1] := by
    have h : stableArgsort ([(1 : ℚ), 3] ++ [1, 0]) = [3, 0, 2, 1] := by
      norm_num [stableArgsort, List.range, List.range.loop, List.mergeSort, List.MergeSort.Internal.splitInTwo, List.merge, stableBefore]
    rw [sortedLabels, h]; rfl
  have hp : pavx [(0 : ℚ), 1, 0, 1] = some ⟨[0, 1/2, 1/2, 1], [1, 2, 1], [0, 1/2, 1]⟩ := by
    rw [pavx, if_neg (by simp)]
    norm_num [pavLoop, pool, pavFill, List.replicate]
  rw [computeRocch, if_neg (by simp), h]
  dsimp only
  rw [hp]
  norm_num [rocchLoop]

/-! ## C31 -/

theorem argminOf_spec (l : List K) (hl : l ≠ []) : ∃ (i : Nat) (c : K), argminOf l = some i ∧ l[i]? = some c ∧ ∀ x ∈ l, c ≤ x := by
  cases l with
  | nil => exact absurd rfl hl
  | cons x xs =>
    have key : ∀ (ys pre : List K) (n m : Nat) (c : K), n + 1 = pre.length → pre[m]? = some c → (∀ z ∈ pre, c ≤ z) →
        ∃ c', (pre ++ ys)[(ys.foldl (fun (st : Nat × Nat × K) y => if y < st.2.2 then (st.1 + 1, st.1 + 1, y) else (st.1 + 1, st.2.1, st.2.2)) (n, m, c)).2.1]? = some c' ∧
          ∀ z ∈ pre ++ ys, c' ≤ z := by
      intro ys
      induction ys with
      | nil => intro pre n m c _ h2 h3; exact ⟨c, by simpa using h2, by simpa using h3⟩
      | cons y ys ih =>
        intro pre n m c h1 h2 h3
        rw [List.foldl_cons]
        have e : pre ++ y :: ys = (pre ++ [y]) ++ ys := by simp
        rw [e]
        simp only
        by_cases hy : y < c
        · rw [if_pos hy]
          apply ih
          · simp [h1]
          · rw [h1]; simp
          · intro z hz
            rcases List.mem_append.1 hz with hz | hz
            · exact hy.le.trans (h3 z hz)
            · rw [List.mem_singleton.1 hz]
        · rw [if_neg hy]
          apply ih
          · simp [h1]
          · have : m < pre.length := by
              by_contra hc
              rw [List.getElem?_eq_none (by omega)] at h2
              cases h2
            rw [List.getElem?_append_left this]; exact h2
          · intro z hz
            rcases List.mem_append.1 hz with hz | hz
            · exact h3 z hz
            · rw [List.mem_singleton.1 hz]; exact not_lt.1 hy
    obtain ⟨c', h1, h2⟩ := key xs [x] 0 0 x rfl rfl (by simp)
    exact ⟨_, c', rfl, h1, h2⟩

/-- the cost of deciding with threshold `θ`, `P_miss` weighted by the prior and `P_fa` by its complement; normalised by
the cost of the best decision without looking at the score. -/
def costAt (tar non : List K) (prior : K) (normalize : Bool) (θ : K) : K :=
  let c := prior * pMissAt tar θ + (1 - prior) * pFaAt non θ
  if normalize then c / min prior (1 - prior) else c

/-- `compute_min_dcf` returns the cost and the rates of some threshold, and no threshold has a smaller cost. -/
theorem C31_min_dcf (tar non : List K) (ht : tar ≠ []) (hn : non ≠ []) (prior : K) (h0 : 0 < prior) (h1 : prior < 1)
    (normalize : Bool) : ∃ (dcf pMiss pFa : K), computeMinDcf tar non prior normalize = some (dcf, pMiss, pFa) ∧
      (∃ θ : K, pMiss = pMissAt tar θ ∧ pFa = pFaAt non θ ∧ dcf = costAt tar non prior normalize θ) ∧
      (∀ θ : K, dcf ≤ costAt tar non prior normalize θ) := by
  obtain ⟨pts, e0, e1, _⟩ := hull_core tar non ht hn
  have hne : pts ≠ [] := by intro h; rw [h] at e1; cases e1
  obtain ⟨i, c, a1, a2, a3⟩ := argminOf_spec (pts.map (fun p => computeDcf p prior normalize)) (by simpa using hne)
  have a2' := a2
  rw [List.getElem?_map] at a2'
  obtain ⟨p, hp, hpc⟩ := Option.map_eq_some_iff.1 a2'
  have hmem : p ∈ pts := List.mem_of_getElem? hp
  refine ⟨c, p.1, p.2, ?_, ?_, ?_⟩
  · simp [computeMinDcf, e0, a1, a2, hp, hpc]
  · obtain ⟨θ, hθ⟩ := C30_operating_points tar non pts e0 p hmem
    refine ⟨θ, by rw [hθ], by rw [hθ], ?_⟩
    rw [← hpc, hθ]
    rfl
  · intro θ
    obtain ⟨v, hv, hle⟩ := C30_dominates tar non pts e0 prior (1 - prior) θ h0.le (by linarith)
    refine le_trans (a3 (computeDcf v prior normalize) (List.mem_map.2 ⟨v, hv, rfl⟩)) ?_
    unfold computeDcf costAt
    cases normalize
    · simpa using hle
    · simp only [if_true]
      exact div_le_div_of_nonneg_right hle (le_min h0.le (by linarith))

/-- non-trivial instance: the minimum for prior 1/4 is at (P_miss, P_fa) = (1/2, 0). -/
example : computeMinDcf [(1 : ℚ), 3] [1, 0] (1/4) true = some (1/2, 1/2, 0) := by
  have : argminOf ([(0, 1), (0, 1/2), (1/2, 0), (1, 0)].map (fun p : ℚ × ℚ => computeDcf p (1/4) true)) = some 2 := by
    norm_num [argminOf, computeDcf]
  simp only [computeMinDcf, hull_example, Option.bind_eq_bind, Option.bind_some, this]
  norm_num [computeDcf]

theorem C31_raises (tar non : List K) (prior : K) (normalize : Bool) (h : tar = [] ∨ non = []) :
    computeMinDcf tar non prior normalize = none := by
  simp [computeMinDcf, (C30_raises tar non).2 h]

/-- The effective prior is in (0, 1), and the cost with it is, up to a constant factor, the cost with the given prior
and costs of errors: so minimising with the effective prior minimises the expected cost. -/
theorem C31_effective_prior (p cMiss cFa : K) (h0 : 0 < p) (h1 : p < 1) (hm : 0 < cMiss) (hf : 0 < cFa) :
    0 < effectivePrior p cMiss cFa ∧ effectivePrior p cMiss cFa < 1 ∧ ∀ pMiss pFa : K,
      p * cMiss * pMiss + (1 - p) * cFa * pFa = (p * cMiss + (1 - p) * cFa) *
        (effectivePrior p cMiss cFa * pMiss + (1 - effectivePrior p cMiss cFa) * pFa) := by
  have h2 : 0 < 1 - p := by linarith
  have hA : 0 < p * cMiss := mul_pos h0 hm
  have hB : 0 < (1 - p) * cFa := mul_pos h2 hf
  have e : effectivePrior p cMiss cFa = p * cMiss / (p * cMiss + (1 - p) * cFa) := by
    unfold effectivePrior
    have : 1 + p * cMiss / (1 - p) / cFa = (p * cMiss + (1 - p) * cFa) / ((1 - p) * cFa) := by
      field_simp; ring
    simp only
    rw [this]
    field_simp
  rw [e]
  refine ⟨by positivity, ?_, ?_⟩
  · rw [div_lt_one (by positivity)]; linarith
  · intro a b
    field_simp
    ring

example : effectivePrior (1/100 : ℚ) 10 1 = 10/109 := by norm_num [effectivePrior]

end Hyp.Metrics
