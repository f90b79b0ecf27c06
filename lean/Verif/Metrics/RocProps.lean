import Verif.Metrics.RocLemmas

/-!
# Properties of the ROC convex hull and the detection costs (C30, C31, C33)

Specification: a detector accepts the trials with score `≥ θ`. `pMissAt`: fraction of targets rejected, `pFaAt`:
fraction of nontargets accepted.
-/

namespace Hyp.Metrics

variable {K : Type} [Field K] [LinearOrder K]

/-- miss rate at threshold `θ`. -/
def pMissAt (tar : List K) (θ : K) : K := (tar.countP (fun x => decide (x < θ)) : K) / (tar.length : K)

/-- false alarm rate at threshold `θ`. -/
def pFaAt (non : List K) (θ : K) : K := (non.countP (fun x => decide (θ ≤ x)) : K) / (non.length : K)

theorem countP_lt_le (l : List K) (θ : K) :
    l.countP (fun x => decide (x < θ)) + l.countP (fun x => decide (θ ≤ x)) = l.length := by
  induction l with
  | nil => rfl
  | cons a l ih =>
    by_cases h : a < θ
    · have h' : ¬ θ ≤ a := not_le.2 h
      simp [h, h']; omega
    · have h' : θ ≤ a := not_lt.1 h
      simp [h, h']; omega

/-- the point with the trials below `θ` rejected is the operating point of `θ`. -/
theorem pt_threshold (tar non : List K) (θ : K) :
    pt tar non ((tar ++ non).countP (fun x => decide (x < θ))) = (pMissAt tar θ, pFaAt non θ) := by
  unfold pt pMissAt pFaAt
  rw [misses_count]
  have h1 := countP_lt_le non θ
  have h2 : ((non.countP (fun x => decide (x < θ)) : K)) + (non.countP (fun x => decide (θ ≤ x)) : K) = (non.length : K) := by
    rw [← Nat.cast_add, h1]
  congr 2
  rw [List.countP_append]
  push_cast
  rw [← h2]; ring

variable [IsStrictOrderedRing K]

section segs
variable {tar non : List K} {segs : List (List K)}

theorem take_block (hy : segs.flatten = sortedLabels tar non) {i k : Nat} (hi : i < segs.length) (hk : k ≤ segs[i].length) :
    (sortedLabels tar non).take (bnd segs i + k) = (segs.take i).flatten ++ segs[i].take k := by
  have h1 : sortedLabels tar non = (segs.take i).flatten ++ (segs[i] ++ (segs.drop (i + 1)).flatten) := by
    rw [← hy]
    have e : segs = segs.take i ++ segs[i] :: segs.drop (i + 1) := by
      rw [← List.drop_eq_getElem_cons hi, List.take_append_drop]
    have := congrArg List.flatten e
    rwa [List.flatten_append, List.flatten_cons] at this
  rw [h1, bnd, List.take_length_add_append, List.take_append_of_le_length hk]

theorem misses_block (hy : segs.flatten = sortedLabels tar non) {i k : Nat} (hi : i < segs.length) (hk : k ≤ segs[i].length) :
    misses tar non (bnd segs i + k) = misses tar non (bnd segs i) + (segs[i].take k).sum := by
  have h0 := take_block hy hi (k := 0) (by omega)
  simp only [Nat.add_zero, List.take_zero, List.append_nil] at h0
  unfold misses
  rw [take_block hy hi hk, h0, List.sum_append]

theorem bnd_succ {i : Nat} (hi : i < segs.length) : bnd segs (i + 1) = bnd segs i + segs[i].length := by
  unfold bnd
  rw [List.take_succ_eq_append_getElem hi, List.flatten_append, List.length_append]
  simp only [List.flatten_singleton]

theorem bnd_zero : bnd segs 0 = 0 := by simp [bnd]

theorem bnd_last (hy : segs.flatten = sortedLabels tar non) : bnd segs segs.length = tar.length + non.length := by
  rw [bnd, List.take_length, hy, sortedLabels_length]

theorem sum_avg {s : List K} (hs : s ≠ []) : s.sum = avg s * (s.length : K) := by
  have : (s.length : K) ≠ 0 := by
    simpa using hs
  unfold avg
  field_simp

theorem misses_succ (hy : segs.flatten = sortedLabels tar non) (hne : ∀ s ∈ segs, s ≠ []) {i : Nat} (hi : i < segs.length) :
    misses tar non (bnd segs (i + 1)) = misses tar non (bnd segs i) + avg segs[i] * (segs[i].length : K) := by
  rw [bnd_succ hi, misses_block hy hi le_rfl, List.take_length, sum_avg (hne _ (List.getElem_mem hi))]

theorem len_pos (hne : ∀ s ∈ segs, s ≠ []) {i : Nat} (hi : i < segs.length) : (0 : K) < (segs[i].length : K) := by
  have : 0 < segs[i].length := List.length_pos_of_ne_nil (hne _ (List.getElem_mem hi))
  exact_mod_cast this

theorem avg_lt (hs : (segs.map avg).Pairwise (· < ·)) {i j : Nat} (hij : i < j) (hj : j < segs.length) :
    avg segs[i] < avg segs[j] := by
  have := List.pairwise_iff_getElem.1 hs i j (by simp; omega) (by simpa using hj) hij
  simpa using this

theorem avg_le (hs : (segs.map avg).Pairwise (· < ·)) {i j : Nat} (hij : i ≤ j) (hj : j < segs.length) :
    avg segs[i] ≤ avg segs[j] := by
  rcases Nat.lt_or_eq_of_le hij with h | h
  · exact (avg_lt hs h hj).le
  · subst h; exact le_rfl

/-- height of the line of slope `h` below the vertex `j`. -/
def fval (tar non : List K) (segs : List (List K)) (h : K) (j : Nat) : K :=
  misses tar non (bnd segs j) - h * (bnd segs j : K)

theorem fval_succ (hy : segs.flatten = sortedLabels tar non) (hne : ∀ s ∈ segs, s ≠ []) (h : K) {j : Nat} (hj : j < segs.length) :
    fval tar non segs h (j + 1) = fval tar non segs h j + (segs[j].length : K) * (avg segs[j] - h) := by
  unfold fval
  rw [misses_succ hy hne hj, bnd_succ hj]
  push_cast; ring

/-- to the right of block `i` the vertices are above its line. -/
theorem fval_right (hy : segs.flatten = sortedLabels tar non) (hne : ∀ s ∈ segs, s ≠ [])
    (hs : (segs.map avg).Pairwise (· < ·)) {i : Nat} (hi : i < segs.length) (d : Nat) (hd : i + d ≤ segs.length) :
    fval tar non segs (avg segs[i]) i ≤ fval tar non segs (avg segs[i]) (i + d) ∧
      (2 ≤ d → fval tar non segs (avg segs[i]) i < fval tar non segs (avg segs[i]) (i + d)) := by
  induction d with
  | zero => exact ⟨le_rfl, fun h => by omega⟩
  | succ d ih =>
    obtain ⟨h1, h2⟩ := ih (by omega)
    have hj : i + d < segs.length := by omega
    have e := fval_succ hy hne (avg segs[i]) hj
    have hl := len_pos (K := K) hne hj
    have ha := avg_le hs (show i ≤ i + d by omega) hj
    refine ⟨?_, ?_⟩
    · rw [← Nat.add_assoc, e]; nlinarith
    · intro hd2
      have ha' := avg_lt hs (show i < i + d by omega) hj
      rw [← Nat.add_assoc, e]; nlinarith

/-- to the left of block `i` the vertices are above its line. -/
theorem fval_left (hy : segs.flatten = sortedLabels tar non) (hne : ∀ s ∈ segs, s ≠ [])
    (hs : (segs.map avg).Pairwise (· < ·)) {i : Nat} (hi : i < segs.length) (d : Nat) : ∀ j, j + d = i →
    fval tar non segs (avg segs[i]) i ≤ fval tar non segs (avg segs[i]) j ∧
      (1 ≤ d → fval tar non segs (avg segs[i]) i < fval tar non segs (avg segs[i]) j) := by
  induction d with
  | zero => intro j hj; subst hj; exact ⟨le_rfl, fun h => by omega⟩
  | succ d ih =>
    intro j hj
    obtain ⟨h1, h2⟩ := ih (j + 1) (by omega)
    have hj' : j < segs.length := by omega
    have e := fval_succ hy hne (avg segs[i]) hj'
    have hl := len_pos (K := K) hne hj'
    have ha := avg_lt hs (show j < i by omega) hi
    rw [e] at h1
    have : fval tar non segs (avg segs[i]) i < fval tar non segs (avg segs[i]) j := by nlinarith
    exact ⟨this.le, fun _ => this⟩

theorem fval_min (hy : segs.flatten = sortedLabels tar non) (hne : ∀ s ∈ segs, s ≠ [])
    (hs : (segs.map avg).Pairwise (· < ·)) {i j : Nat} (hi : i < segs.length) (hj : j ≤ segs.length) :
    fval tar non segs (avg segs[i]) i ≤ fval tar non segs (avg segs[i]) j ∧
      (j ≠ i → j ≠ i + 1 → fval tar non segs (avg segs[i]) i < fval tar non segs (avg segs[i]) j) := by
  rcases Nat.lt_or_ge j i with h | h
  · obtain ⟨h1, h2⟩ := fval_left hy hne hs hi (i - j) j (by omega)
    exact ⟨h1, fun _ _ => h2 (by omega)⟩
  · obtain ⟨h1, h2⟩ := fval_right hy hne hs hi (j - i) (by omega)
    rw [show i + (j - i) = j by omega] at h1 h2
    exact ⟨h1, fun _ _ => h2 (by omega)⟩

/-- every number of rejected trials falls in a block. -/
theorem in_block (hy : segs.flatten = sortedLabels tar non) (hne : segs ≠ []) {k : Nat} (hk : k ≤ tar.length + non.length) :
    ∃ (j : Nat) (k' : Nat) (hj : j < segs.length), k' ≤ segs[j].length ∧ k = bnd segs j + k' := by
  have key : ∀ m : Nat, m < segs.length → k ≤ bnd segs (m + 1) →
      ∃ (j : Nat) (k' : Nat) (hj : j < segs.length), k' ≤ segs[j].length ∧ k = bnd segs j + k' := by
    intro m
    induction m with
    | zero =>
      intro hm hk
      rw [bnd_succ hm, bnd_zero] at hk
      exact ⟨0, k, hm, by omega, by rw [bnd_zero]; omega⟩
    | succ m ih =>
      intro hm hk
      rcases Nat.le_total k (bnd segs (m + 1)) with h | h
      · exact ih (by omega) h
      · rw [bnd_succ hm] at hk
        exact ⟨m + 1, k - bnd segs (m + 1), hm, by omega, by omega⟩
  have hpos : 0 < segs.length := List.length_pos_of_ne_nil hne
  apply key (segs.length - 1) (by omega)
  rw [show segs.length - 1 + 1 = segs.length by omega, bnd_last hy]
  exact hk

/-- every point of the ROC is above the line of every block. -/
theorem point_above (hy : segs.flatten = sortedLabels tar non) (hne : ∀ s ∈ segs, s ≠ [])
    (hs : (segs.map avg).Pairwise (· < ·)) (hp : ∀ s ∈ segs, ∀ k : Nat, k ≤ s.length → avg s * k ≤ (s.take k).sum)
    {i k : Nat} (hi : i < segs.length) (hk : k ≤ tar.length + non.length) :
    fval tar non segs (avg segs[i]) i ≤ misses tar non k - avg segs[i] * (k : K) := by
  obtain ⟨j, k', hj, hk', rfl⟩ := in_block hy (by intro h; subst h; simp at hi) hk
  have e1 := misses_block hy hj hk'
  have e2 := hp _ (List.getElem_mem hj) k' hk'
  have e3 := (fval_min hy hne hs hi (show j ≤ segs.length by omega)).1
  have e4 := (fval_min hy hne hs hi (show j + 1 ≤ segs.length by omega)).1
  rw [fval_succ hy hne _ hj] at e4
  have hk'' : (k' : K) ≤ (segs[j].length : K) := by exact_mod_cast hk'
  have hk0 : (0 : K) ≤ (k' : K) := Nat.cast_nonneg _
  rw [e1]
  rw [show fval tar non segs (avg segs[i]) j = misses tar non (bnd segs j) - avg segs[i] * (bnd segs j : K) from rfl] at e3 e4
  push_cast
  rcases le_total (avg segs[i]) (avg segs[j]) with h | h
  · have : (0 : K) ≤ (k' : K) * (avg segs[j] - avg segs[i]) := mul_nonneg hk0 (by linarith)
    linarith
  · have : (0 : K) ≤ ((segs[j].length : K) - (k' : K)) * (avg segs[i] - avg segs[j]) := mul_nonneg (by linarith) (by linarith)
    linarith

/-- linear costs of the points of the ROC are bounded below by a vertex. -/
theorem cost_vertex (hy : segs.flatten = sortedLabels tar non) (hne : ∀ s ∈ segs, s ≠ [])
    (hsne : segs ≠ [])
    (hp : ∀ s ∈ segs, ∀ k : Nat, k ≤ s.length → avg s * k ≤ (s.take k).sum)
    {k : Nat} (hk : k ≤ tar.length + non.length) (a b : K) (ha : 0 ≤ a) :
    ∃ j, j ≤ segs.length ∧ a * misses tar non (bnd segs j) - b * (bnd segs j : K) ≤ a * misses tar non k - b * (k : K) := by
  obtain ⟨j, k', hj, hk', rfl⟩ := in_block hy hsne hk
  have e1 := misses_block hy hj hk'
  have e2 := hp _ (List.getElem_mem hj) k' hk'
  have hk'' : (k' : K) ≤ (segs[j].length : K) := by exact_mod_cast hk'
  have hk0 : (0 : K) ≤ (k' : K) := Nat.cast_nonneg _
  have e3 := mul_le_mul_of_nonneg_left e2 ha
  rcases le_total b (a * avg segs[j]) with h | h
  · refine ⟨j, hj.le, ?_⟩
    rw [e1]; push_cast
    have : (0 : K) ≤ (k' : K) * (a * avg segs[j] - b) := mul_nonneg hk0 (by linarith)
    nlinarith
  · refine ⟨j + 1, hj, ?_⟩
    rw [misses_succ hy hne hj, bnd_succ hj, e1]; push_cast
    have : (0 : K) ≤ ((segs[j].length : K) - (k' : K)) * (b - a * avg segs[j]) := mul_nonneg (by linarith) (by linarith)
    nlinarith

theorem exists_lower (l : List K) : ∃ θ : K, ∀ x ∈ l, θ ≤ x := by
  induction l with
  | nil => exact ⟨0, by simp⟩
  | cons a l ih =>
    obtain ⟨θ, h⟩ := ih
    refine ⟨min a θ, fun x hx => ?_⟩
    rcases List.mem_cons.1 hx with rfl | hx
    · exact min_le_left _ _
    · exact (min_le_right _ _).trans (h x hx)

theorem exists_upper (l : List K) : ∃ θ : K, ∀ x ∈ l, x < θ := by
  induction l with
  | nil => exact ⟨0, by simp⟩
  | cons a l ih =>
    obtain ⟨θ, h⟩ := ih
    refine ⟨max (a + 1) θ, fun x hx => ?_⟩
    rcases List.mem_cons.1 hx with rfl | hx
    · exact lt_max_of_lt_left (by linarith)
    · exact lt_max_of_lt_right (h x hx)

/-- last label of a block. -/
theorem last_le {s : List K} (hs : s ≠ []) (hp : ∀ k : Nat, k ≤ s.length → avg s * k ≤ (s.take k).sum) :
    s.getLast hs ≤ avg s := by
  have hl : 0 < s.length := List.length_pos_of_ne_nil hs
  have h := hp (s.length - 1) (by omega)
  have e := sum_avg hs
  have e2 : s.sum = (s.take (s.length - 1)).sum + s.getLast hs := by
    have := congrArg List.sum (List.dropLast_append_getLast hs)
    rw [List.sum_append, List.sum_singleton, List.dropLast_eq_take] at this
    exact this.symm
  have e3 : ((s.length - 1 : Nat) : K) = (s.length : K) - 1 := by
    rw [Nat.cast_sub (by omega)]; simp
  rw [e3] at h
  linarith

/-- first label of a block. -/
theorem le_first {s : List K} (hs : s ≠ []) (hp : ∀ k : Nat, k ≤ s.length → avg s * k ≤ (s.take k).sum) :
    avg s ≤ s.head hs := by
  have hl : 0 < s.length := List.length_pos_of_ne_nil hs
  have h := hp 1 (by omega)
  cases s with
  | nil => exact absurd rfl hs
  | cons a l => simpa using h

/-- block boundaries are never inside a group of tied scores: there is a threshold that rejects exactly the trials
before the boundary. -/
theorem bnd_threshold (hy : segs.flatten = sortedLabels tar non) (hne : ∀ s ∈ segs, s ≠ [])
    (hs : (segs.map avg).Pairwise (· < ·)) (hp : ∀ s ∈ segs, ∀ k : Nat, k ≤ s.length → avg s * k ≤ (s.take k).sum)
    {i : Nat} (hi : i ≤ segs.length) :
    ∃ θ : K, (tar ++ non).countP (fun x => decide (x < θ)) = bnd segs i := by
  rcases Nat.eq_zero_or_pos i with h0 | h0
  · subst h0
    obtain ⟨θ, h⟩ := exists_lower (tar ++ non)
    refine ⟨θ, ?_⟩
    rw [bnd_zero, List.countP_eq_zero]
    intro x hx
    simpa using h x hx
  rcases Nat.lt_or_ge i segs.length with h1 | h1
  swap
  · have : i = segs.length := by omega
    subst this
    obtain ⟨θ, h⟩ := exists_upper (tar ++ non)
    refine ⟨θ, ?_⟩
    rw [bnd_last hy, ← List.length_append, List.countP_eq_length]
    intro x hx
    simpa using h x hx
  obtain ⟨m, rfl⟩ : ∃ m, i = m + 1 := ⟨i - 1, by omega⟩
  have hm : m < segs.length := by omega
  have hl0 : segs[m] ≠ [] := hne _ (List.getElem_mem hm)
  have hr0 : segs[m + 1] ≠ [] := hne _ (List.getElem_mem h1)
  have c1 := last_le hl0 (hp _ (List.getElem_mem hm))
  have c2 := le_first hr0 (hp _ (List.getElem_mem h1))
  have c3 := avg_lt hs (show m < m + 1 by omega) h1
  set k := bnd segs (m + 1) with hk
  -- the labels around the boundary
  have hlen := sortedLabels_length tar non
  have hpos : 0 < segs[m].length := List.length_pos_of_ne_nil hl0
  have hpos2 : 0 < segs[m + 1].length := List.length_pos_of_ne_nil hr0
  have hkpos : 0 < k := by rw [hk, bnd_succ hm]; omega
  have hkN : k + 1 ≤ (sortedLabels tar non).length := by
    have := take_block hy h1 (k := 1) (by omega)
    have := congrArg List.length this
    simp only [List.length_take, List.length_append] at this
    have hb : (segs.take (m + 1)).flatten.length = k := rfl
    omega
  have d1 : (sortedLabels tar non)[k - 1]'(by omega) = segs[m].getLast hl0 := by
    have t := take_block hy hm (k := segs[m].length) le_rfl
    rw [← bnd_succ hm, ← hk] at t
    have t' := congrArg (fun l => l[k - 1]?) t
    simp only [List.getElem?_take, show k - 1 < k by omega, if_true, List.take_length] at t'
    rw [List.getElem?_append_right (by have : (segs.take m).flatten.length = bnd segs m := rfl; rw [this]; have := bnd_succ hm; omega)] at t'
    have hb : (segs.take m).flatten.length = bnd segs m := rfl
    rw [hb, show k - 1 - bnd segs m = segs[m].length - 1 by have := bnd_succ hm; omega, ← List.getLast?_eq_getElem?,
      List.getLast?_eq_getLast_of_ne_nil hl0, List.getElem?_eq_getElem (by omega)] at t'
    exact Option.some.inj t'
  have d2 : (sortedLabels tar non)[k]'(by omega) = segs[m + 1].head hr0 := by
    have t := take_block hy h1 (k := 1) (by omega)
    rw [← hk] at t
    have t' := congrArg (fun l => l[k]?) t
    simp only [List.getElem?_take, show k < k + 1 by omega, if_true] at t'
    have hb : (segs.take (m + 1)).flatten.length = k := rfl
    rw [List.getElem?_append_right (by omega), hb, Nat.sub_self, List.getElem?_take, if_pos (by omega),
      ← List.head?_eq_getElem?, List.head?_eq_some_head hr0, List.getElem?_eq_getElem (by omega)] at t'
    exact Option.some.inj t'
  have m1 := labels_mem tar non _ (List.getElem_mem (show k - 1 < (sortedLabels tar non).length by omega))
  have m2 := labels_mem tar non _ (List.getElem_mem (show k < (sortedLabels tar non).length by omega))
  have hlt : (sortedLabels tar non)[k - 1]'(by omega) < (sortedLabels tar non)[k]'(by omega) := by rw [d1, d2]; linarith
  -- the trials around the boundary
  set π := stableArgsort (tar ++ non) with hπ
  have hπl : π.length = (sortedLabels tar non).length := by rw [hπ, stableArgsort_length, hlen, List.length_append]
  have a1 : (sortedLabels tar non)[k - 1]'(by omega) = lab K tar.length non.length (π[k - 1]'(by omega)) := by
    simp only [sortedLabels_eq, List.getElem_map, hπ]
  have a2 : (sortedLabels tar non)[k]'(by omega) = lab K tar.length non.length (π[k]'(by omega)) := by
    simp only [sortedLabels_eq, List.getElem_map, hπ]
  rw [a1, a2] at hlt
  have b1 : tar.length ≤ π[k - 1]'(by omega) := by
    by_contra hc
    rw [lab_tar (not_le.1 hc)] at hlt
    rcases Nat.lt_or_ge (π[k]'(by omega)) tar.length with h | h
    · rw [lab_tar h] at hlt; exact lt_irrefl _ hlt
    · rw [lab_non h] at hlt; linarith
  have b2 : π[k]'(by omega) < tar.length := by
    by_contra hc
    rw [lab_non (not_lt.1 hc), lab_non b1] at hlt
    exact lt_irrefl _ hlt
  have hsorted := stableArgsort_sorted (tar ++ non)
  rw [← hπ] at hsorted
  have hle : ∀ (p q : Nat) (hp : p < π.length) (hq : q < π.length), p ≤ q → (tar ++ non).getD π[p] 0 ≤ (tar ++ non).getD π[q] 0 := by
    intro p q hp hq hpq
    rcases Nat.lt_or_eq_of_le hpq with h | h
    · have := List.pairwise_iff_getElem.1 hsorted p q hp hq h
      simp only [stableBefore, decide_eq_true_eq] at this
      rcases this with h | ⟨h, _⟩
      · exact h.le
      · exact h.le
    · subst h; exact le_rfl
  have hstrict : (tar ++ non).getD (π[k - 1]'(by omega)) 0 < (tar ++ non).getD (π[k]'(by omega)) 0 := by
    have := List.pairwise_iff_getElem.1 hsorted (k - 1) k (by omega) (by omega) (by omega)
    simp only [stableBefore, decide_eq_true_eq] at this
    rcases this with h | ⟨_, h⟩
    · exact h
    · omega
  refine ⟨(tar ++ non).getD (π[k]'(by omega)) 0, ?_⟩
  set θ := (tar ++ non).getD (π[k]'(by omega)) 0 with hθ
  rw [← countP_range_getD (tar ++ non), ← (stableArgsort_perm (tar ++ non)).countP_eq, ← hπ]
  conv_lhs => rw [← List.take_append_drop k π, List.countP_append]
  have e1 : (π.take k).countP (fun i => decide ((tar ++ non).getD i 0 < θ)) = k := by
    have : (π.take k).countP (fun i => decide ((tar ++ non).getD i 0 < θ)) = (π.take k).length := by
      rw [List.countP_eq_length]
      intro x hx
      obtain ⟨p, hpl, rfl⟩ := List.getElem_of_mem hx
      rw [List.length_take] at hpl
      simp only [List.getElem_take, decide_eq_true_eq]
      exact lt_of_le_of_lt (hle p (k - 1) (by omega) (by omega) (by omega)) hstrict
    rw [this, List.length_take]; omega
  have e2 : (π.drop k).countP (fun i => decide ((tar ++ non).getD i 0 < θ)) = 0 := by
    rw [List.countP_eq_zero]
    intro x hx
    obtain ⟨p, hpl, rfl⟩ := List.getElem_of_mem hx
    rw [List.length_drop] at hpl
    simp only [List.getElem_drop, decide_eq_true_eq, not_lt]
    exact hle k (k + p) (by omega) (by omega) (by omega)
  rw [e1, e2, Nat.add_zero]

end segs

end Hyp.Metrics
