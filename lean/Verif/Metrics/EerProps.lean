import Verif.Metrics.HullProps

/-!
# C33: equal error rate and precision-recall break-even point
-/

namespace Hyp.Metrics

variable {K : Type} [Field K] [LinearOrder K] [IsStrictOrderedRing K]

/-- A convex hull from (0, q) to (p, 0) in the (miss, false alarm) plane. -/
structure IsHull (p q : K) (pts : List (K × K)) : Prop where
  first : pts.head? = some (0, q)
  last : pts.getLast? = some (p, 0)
  mono : pts.Pairwise (fun v w => v.1 ≤ w.1 ∧ w.2 ≤ v.2)
  above : ∀ (i j : Nat) (v w u : K × K), pts[i]? = some v → pts[i + 1]? = some w → pts[j]? = some u →
    0 ≤ (w.1 - v.1) * (u.2 - v.2) + (v.2 - w.2) * (u.1 - v.1)

/-- `e` is on the polygonal line: the point (e, e) is between two consecutive vertices. -/
def OnHull (pts : List (K × K)) (e : K) : Prop :=
  ∃ (i : Nat) (v w : K × K) (t : K), pts[i]? = some v ∧ pts[i + 1]? = some w ∧ 0 ≤ t ∧ t ≤ 1 ∧
    e = v.1 + t * (w.1 - v.1) ∧ e = v.2 + t * (w.2 - v.2)

omit [IsStrictOrderedRing K] in
theorem eerLoop_spec (pts : List (K × K)) : ∀ (e0 E : K), e0 ≤ E →
    (∀ (i : Nat) (v w : K × K), pts[i]? = some v → pts[i + 1]? = some w → ∃ c, eerSeg v w = some c ∧ c ≤ E) →
    ∃ r, eerLoop pts e0 = some r ∧ e0 ≤ r ∧ r ≤ E ∧
      ∀ (i : Nat) (v w : K × K) (c : K), pts[i]? = some v → pts[i + 1]? = some w → eerSeg v w = some c → c ≤ r := by
  induction pts with
  | nil => intro e0 E h _; exact ⟨e0, rfl, le_rfl, h, by simp⟩
  | cons a l ih =>
    cases l with
    | nil => intro e0 E h _; exact ⟨e0, rfl, le_rfl, h, by simp⟩
    | cons b l =>
      intro e0 E h hseg
      obtain ⟨c, hc, hcE⟩ := hseg 0 a b rfl rfl
      obtain ⟨r, h1, h2, h3, h4⟩ := ih (max e0 c) E (max_le h hcE) (fun i v w hv hw => hseg (i + 1) v w hv hw)
      refine ⟨r, ?_, (le_max_left _ _).trans h2, h3, ?_⟩
      · rw [eerLoop, hc]; exact h1
      · intro i v w c' hv hw hc'
        cases i with
        | zero =>
          simp only [List.getElem?_cons_zero, Option.some.injEq, List.getElem?_cons_succ] at hv hw
          subst hv hw
          rw [hc] at hc'
          cases hc'
          exact (le_max_right _ _).trans h2
        | succ i => exact h4 i v w c' hv hw hc'

theorem crossing (pts : List (K × K)) : ∀ (a z : K × K), pts.head? = some a → pts.getLast? = some z → a.1 ≤ a.2 → z.2 < z.1 →
    ∃ (i : Nat) (v w : K × K), pts[i]? = some v ∧ pts[i + 1]? = some w ∧ v.1 ≤ v.2 ∧ w.2 < w.1 := by
  induction pts with
  | nil => intro a z h; cases h
  | cons x l ih =>
    intro a z h1 h2 h3 h4
    have hx : x = a := by simpa using h1
    subst hx
    cases l with
    | nil =>
      have : x = z := by simpa using h2
      subst this
      exact absurd h4 (not_lt.2 h3)
    | cons y l =>
      rcases lt_or_ge y.2 y.1 with h | h
      · exact ⟨0, x, y, rfl, rfl, h3, h⟩
      · obtain ⟨i, v, w, g1, g2, g3, g4⟩ := ih y z rfl (by rw [List.getLast?_cons_cons] at h2; exact h2) h h4
        exact ⟨i + 1, v, w, g1, g2, g3, g4⟩

theorem hull_bounds {p q : K} {pts : List (K × K)} (h : IsHull p q pts) : ∀ v ∈ pts, 0 ≤ v.1 ∧ 0 ≤ v.2 := by
  intro v hv
  obtain ⟨i, hi, rfl⟩ := List.getElem_of_mem hv
  have hp := List.pairwise_iff_getElem.1 h.mono
  have h0 : pts[0]'(by omega) = (0, q) := by
    have := h.first
    rw [List.head?_eq_getElem?, List.getElem?_eq_getElem (by omega)] at this
    exact Option.some.inj this
  have h1 : pts[pts.length - 1]'(by omega) = (p, 0) := by
    have := h.last
    rw [List.getLast?_eq_getElem?, List.getElem?_eq_getElem (by omega)] at this
    exact Option.some.inj this
  constructor
  · rcases Nat.eq_zero_or_pos i with h' | h'
    · subst h'; rw [h0]
    · have := (hp 0 i (by omega) hi h').1
      rw [h0] at this; exact this
  · rcases Nat.lt_or_ge i (pts.length - 1) with h' | h'
    · have := (hp i (pts.length - 1) hi (by omega) h').2
      rw [h1] at this; exact this
    · have : i = pts.length - 1 := by omega
      subst this
      rw [h1]

/-- value computed for a segment that is not parallel to an axis. -/
theorem eerSeg_val {v w : K × K} (hv1 : 0 ≤ v.1) (hw2 : 0 ≤ w.2) (h1 : v.1 < w.1) (h2 : w.2 < v.2) :
    ∃ c, eerSeg v w = some c ∧ c * ((w.1 - v.1) + (v.2 - w.2)) = v.2 * w.1 - v.1 * w.2 := by
  have hdet : 0 < v.2 * w.1 - v.1 * w.2 := by nlinarith
  have hs : 0 < (w.1 - v.1) + (v.2 - w.2) := by linarith
  unfold eerSeg
  simp only
  rw [if_neg, if_neg hdet.ne']
  · refine ⟨_, rfl, ?_⟩
    have h3 : (w.1 - v.1) / (v.2 * w.1 - v.1 * w.2) + (v.2 - w.2) / (v.2 * w.1 - v.1 * w.2) =
        ((w.1 - v.1) + (v.2 - w.2)) / (v.2 * w.1 - v.1 * w.2) := by rw [add_div]
    rw [h3]
    field_simp
  · have g1 : 0 < |v.2 - w.2| := abs_pos.2 (by intro h; linarith)
    have g2 : 0 < |v.1 - w.1| := abs_pos.2 (by intro h; linarith)
    exact (lt_min g1 g2).ne'

theorem eerSeg_axis {v w : K × K} (h : v.1 = w.1 ∨ v.2 = w.2) : eerSeg v w = some 0 := by
  unfold eerSeg
  simp only
  rw [if_pos]
  rcases h with h | h
  · rw [h, sub_self, abs_zero, min_eq_right (abs_nonneg _)]
  · rw [h, sub_self, abs_zero, min_eq_left (abs_nonneg _)]

/-- `rocch2eer` on any convex hull from (0, q) to (p, 0): it never raises, and the value `e` returned is where the hull
crosses the diagonal. -/
theorem rocch2eer_hull {p q : K} {pts : List (K × K)} (hp : 0 < p) (hq : 0 < q) (h : IsHull p q pts) :
    ∃ e, rocch2eer pts = some e ∧ 0 ≤ e ∧ e * (p + q) ≤ p * q ∧ OnHull pts e := by
  obtain ⟨i, v, w, hv, hw, hv', hw'⟩ := crossing pts (0, q) (p, 0) h.first h.last hq.le hp
  have hb := hull_bounds h
  have bv := hb v (List.mem_of_getElem? hv)
  have bw := hb w (List.mem_of_getElem? hw)
  have hmono : ∀ (i : Nat) (v w : K × K), pts[i]? = some v → pts[i + 1]? = some w → v.1 ≤ w.1 ∧ w.2 ≤ v.2 := by
    intro i v w hv hw
    obtain ⟨hi, rfl⟩ := List.getElem?_eq_some_iff.1 hv
    obtain ⟨hi', rfl⟩ := List.getElem?_eq_some_iff.1 hw
    exact List.pairwise_iff_getElem.1 h.mono i (i + 1) hi hi' (by omega)
  obtain ⟨m1, m2⟩ := hmono i v w hv hw
  -- the crossing point
  set s := (w.1 - v.1) + (v.2 - w.2) with hs
  have hspos : 0 < s := by rw [hs]; linarith
  set t := (v.2 - v.1) / s with ht
  have ht0 : 0 ≤ t := div_nonneg (by linarith) hspos.le
  have ht1 : t ≤ 1 := by rw [ht, div_le_one hspos, hs]; linarith
  set E := v.1 + t * (w.1 - v.1) with hE
  have hE2 : E = v.2 + t * (w.2 - v.2) := by
    have : t * s = v.2 - v.1 := by rw [ht]; field_simp
    rw [hs] at this
    rw [hE]; linarith
  have hE0 : 0 ≤ E := by
    rw [hE]
    have := mul_nonneg ht0 (sub_nonneg.2 m1)
    linarith
  have hdetE : E * s = v.2 * w.1 - v.1 * w.2 := by
    have : t * s = v.2 - v.1 := by rw [ht]; field_simp
    calc E * s = v.1 * s + (t * s) * (w.1 - v.1) := by rw [hE]; ring
      _ = v.2 * w.1 - v.1 * w.2 := by rw [this, hs]; ring
  -- every line passes below (E, E)
  have hline : ∀ (k : Nat) (a b : K × K), pts[k]? = some a → pts[k + 1]? = some b →
      a.2 * b.1 - a.1 * b.2 ≤ E * ((b.1 - a.1) + (a.2 - b.2)) := by
    intro k a b ha hb
    have c1 := h.above k i a b v ha hb hv
    have c2 := h.above k (i + 1) a b w ha hb hw
    have e1 : E = (1 - t) * v.1 + t * w.1 := by rw [hE]; ring
    have e2 : E = (1 - t) * v.2 + t * w.2 := by rw [hE2]; ring
    have c3 := mul_nonneg (sub_nonneg.2 ht1) c1
    have c4 := mul_nonneg ht0 c2
    have : 0 ≤ (b.1 - a.1) * (E - a.2) + (a.2 - b.2) * (E - a.1) := by
      have : (b.1 - a.1) * (E - a.2) + (a.2 - b.2) * (E - a.1) =
          (1 - t) * ((b.1 - a.1) * (v.2 - a.2) + (a.2 - b.2) * (v.1 - a.1)) +
            t * ((b.1 - a.1) * (w.2 - a.2) + (a.2 - b.2) * (w.1 - a.1)) := by
        calc _ = (b.1 - a.1) * (((1 - t) * v.2 + t * w.2) - a.2) + (a.2 - b.2) * (((1 - t) * v.1 + t * w.1) - a.1) := by
              rw [← e1, ← e2]
          _ = _ := by ring
      rw [this]; linarith
    nlinarith
  obtain ⟨r, r1, r2, r3, r4⟩ := eerLoop_spec pts 0 E hE0 (by
    intro k a b ha hb'
    obtain ⟨n1, n2⟩ := hmono k a b ha hb'
    rcases eq_or_lt_of_le n1 with n1 | n1
    · exact ⟨0, eerSeg_axis (Or.inl n1), hE0⟩
    rcases eq_or_lt_of_le n2 with n2 | n2
    · exact ⟨0, eerSeg_axis (Or.inr n2.symm), hE0⟩
    obtain ⟨c, hc, hcv⟩ := eerSeg_val (hb a (List.mem_of_getElem? ha)).1 (hb b (List.mem_of_getElem? hb')).2 n1 n2
    refine ⟨c, hc, ?_⟩
    have := hline k a b ha hb'
    rw [← hcv] at this
    exact le_of_mul_le_mul_right this (by linarith))
  have hrE : r = E := by
    apply le_antisymm r3
    rcases eq_or_lt_of_le m1 with n1 | n1
    · -- vertical in P_miss: the crossing is at the corner
      have c0' : ∃ j u, pts[j]? = some u ∧ u = ((0 : K), q) := ⟨0, _, by rw [← List.head?_eq_getElem?]; exact h.first, rfl⟩
      obtain ⟨j1, u1, hu1, hu1'⟩ := c0'
      have cr := h.above i j1 v w u1 hv hw hu1
      rw [hu1', ← n1, sub_self, zero_mul, zero_add] at cr
      have hd : 0 < v.2 - w.2 := by rw [hs, ← n1] at hspos; linarith
      have : v.1 ≤ 0 := by
        by_contra hc
        rw [not_le] at hc
        have : (v.2 - w.2) * ((0 : K) - v.1) < 0 := mul_neg_of_pos_of_neg hd (by linarith)
        simp only at cr
        linarith
      have hE' : E = v.1 := by rw [hE, ← n1]; ring
      rw [hE']; linarith
    rcases eq_or_lt_of_le m2 with n2 | n2
    · have c0 : ∃ j u, pts[j]? = some u ∧ u = (p, (0 : K)) :=
        ⟨pts.length - 1, _, by rw [← List.getLast?_eq_getElem?]; exact h.last, rfl⟩
      obtain ⟨j0, u0, hu0, hu0'⟩ := c0
      have cr := h.above i j0 v w u0 hv hw hu0
      rw [hu0', ← n2, sub_self, zero_mul, add_zero] at cr
      have hd : 0 < w.1 - v.1 := by linarith
      have : w.2 ≤ 0 := by
        by_contra hc
        rw [not_le] at hc
        have : (w.1 - v.1) * ((0 : K) - w.2) < 0 := mul_neg_of_pos_of_neg hd (by linarith)
        simp only at cr
        linarith
      have hE' : E = w.2 := by rw [hE2, n2]; ring
      rw [hE']; linarith
    · obtain ⟨c, hc, hcv⟩ := eerSeg_val bv.1 bw.2 n1 n2
      have : c = E := by
        rw [← hdetE] at hcv
        exact mul_right_cancel₀ hspos.ne' hcv
      rw [← this]
      exact r4 i v w c hv hw hc
  refine ⟨E, ?_, hE0, ?_, ⟨i, v, w, t, hv, hw, ht0, ht1, hE, hE2⟩⟩
  · unfold rocch2eer
    rw [if_pos, r1, hrE]
    constructor
    · rw [List.pairwise_map]; exact h.mono.imp (fun h => h.1)
    · rw [List.pairwise_map]; exact h.mono.imp (fun h => h.2)
  · have c1 := h.above i 0 v w (0, q) hv hw (by rw [← List.head?_eq_getElem?]; exact h.first)
    have c2 := h.above i (pts.length - 1) v w (p, 0) hv hw (by rw [← List.getLast?_eq_getElem?]; exact h.last)
    simp only at c1 c2
    have g1 : E * s ≤ (w.1 - v.1) * q := by rw [hdetE]; nlinarith
    have g2 : E * s ≤ (v.2 - w.2) * p := by rw [hdetE]; nlinarith
    have g3 := mul_le_mul_of_nonneg_right g1 hp.le
    have g4 := mul_le_mul_of_nonneg_right g2 hq.le
    have : E * (p + q) * s ≤ p * q * s := by
      calc E * (p + q) * s = E * s * p + E * s * q := by ring
        _ ≤ (w.1 - v.1) * q * p + (v.2 - w.2) * p * q := by linarith
        _ = p * q * s := by rw [hs]; ring
    exact le_of_mul_le_mul_right this hspos

theorem rocch_isHull (tar non : List K) (pts : List (K × K)) (h : computeRocch tar non = some pts) : IsHull 1 1 pts := by
  by_cases hc : tar = [] ∨ non = []
  · simp [computeRocch, hc] at h
  rw [not_or] at hc
  obtain ⟨pts', h0, h1, h2, h3, _⟩ := hull_core tar non hc.1 hc.2
  rw [h] at h0
  cases h0
  refine ⟨h1, h2, h3.imp (fun h => ⟨h.1, h.2.1⟩), ?_⟩
  intro i j v w u hv hw hu
  obtain ⟨θ, hθ⟩ := C30_operating_points tar non pts h u (List.mem_of_getElem? hu)
  rw [hθ]
  exact C30_below_roc tar non pts h i v w hv hw θ

omit [IsStrictOrderedRing K] in
/-- scaling the axes. -/
theorem isHull_scale [IsStrictOrderedRing K] {p q : K} {pts : List (K × K)} (hp : 0 ≤ p) (hq : 0 ≤ q) (h : IsHull 1 1 pts) :
    IsHull p q (pts.map (fun v => (v.1 * p, v.2 * q))) := by
  refine ⟨?_, ?_, ?_, ?_⟩
  · rw [List.head?_map, h.first]; simp
  · rw [List.getLast?_map, h.last]; simp
  · rw [List.pairwise_map]
    exact h.mono.imp (fun h => ⟨mul_le_mul_of_nonneg_right h.1 hp, mul_le_mul_of_nonneg_right h.2 hq⟩)
  · intro i j v w u hv hw hu
    rw [List.getElem?_map, Option.map_eq_some_iff] at hv hw hu
    obtain ⟨v, hv, rfl⟩ := hv
    obtain ⟨w, hw, rfl⟩ := hw
    obtain ⟨u, hu, rfl⟩ := hu
    have := h.above i j v w u hv hw hu
    have := mul_nonneg (mul_nonneg hp hq) this
    simp only
    linarith

/-! ## C33 -/

/-- `compute_eer` never raises on non-empty lists; the value returned is in [0, 1/2] and is the point where the ROC
convex hull crosses the diagonal P_miss = P_fa. -/
theorem C33_eer (tar non : List K) (ht : tar ≠ []) (hn : non ≠ []) : ∃ (pts : List (K × K)) (e : K),
    computeRocch tar non = some pts ∧ computeEer tar non = some e ∧ 0 ≤ e ∧ e ≤ 1 / 2 ∧ OnHull pts e := by
  obtain ⟨pts, h0, _⟩ := hull_core tar non ht hn
  obtain ⟨e, e1, e2, e3, e4⟩ := rocch2eer_hull zero_lt_one zero_lt_one (rocch_isHull tar non pts h0)
  refine ⟨pts, e, h0, by simp [computeEer, h0, e1], e2, by linarith, e4⟩

/-- No threshold has both a smaller miss rate and a smaller false alarm rate than the EER. -/
theorem C33_no_better (tar non : List K) (e : K) (h : computeEer tar non = some e) (θ : K) :
    e ≤ max (pMissAt tar θ) (pFaAt non θ) := by
  have hne : ¬ (tar = [] ∨ non = []) := by
    intro hc
    simp [computeEer, (C30_raises tar non).2 hc] at h
  rw [not_or] at hne
  obtain ⟨pts, e', h0, h1, _, _, i, v, w, t, hv, hw, ht0, ht1, ea, eb⟩ := C33_eer tar non hne.1 hne.2
  rw [h] at h1
  cases h1
  have hc := C30_below_roc tar non pts h0 i v w hv hw θ
  have hh := rocch_isHull tar non pts h0
  obtain ⟨hi, hv'⟩ := List.getElem?_eq_some_iff.1 hv
  obtain ⟨hi', hw'⟩ := List.getElem?_eq_some_iff.1 hw
  obtain ⟨m1, m2⟩ := List.pairwise_iff_getElem.1 hh.mono i (i + 1) hi hi' (by omega)
  rw [hv', hw'] at m1 m2
  obtain ⟨pts', h0', _, _, hd, _⟩ := C30_shape tar non hne.1 hne.2
  rw [h0] at h0'
  cases h0'
  have hdist := (List.pairwise_iff_getElem.1 hd i (i + 1) hi hi' (by omega)).2.2
  rw [hv', hw'] at hdist
  by_contra hcon
  rw [not_le, max_lt_iff] at hcon
  have hs : 0 < (w.1 - v.1) + (v.2 - w.2) := by
    rcases eq_or_lt_of_le m1 with n1 | n1
    · rcases eq_or_lt_of_le m2 with n2 | n2
      · exact absurd (Prod.ext n1 n2.symm) hdist
      · linarith
    · linarith
  have e1 : (w.1 - v.1) * (e - v.2) + (v.2 - w.2) * (e - v.1) = 0 := by
    calc (w.1 - v.1) * (e - v.2) + (v.2 - w.2) * (e - v.1)
        = (w.1 - v.1) * ((v.2 + t * (w.2 - v.2)) - v.2) + (v.2 - w.2) * ((v.1 + t * (w.1 - v.1)) - v.1) := by rw [← ea, ← eb]
      _ = 0 := by ring
  have g1 : 0 ≤ (w.1 - v.1) * (e - pFaAt non θ) := mul_nonneg (by linarith) (by linarith [hcon.2])
  have g2 : 0 ≤ (v.2 - w.2) * (e - pMissAt tar θ) := mul_nonneg (by linarith) (by linarith [hcon.1])
  rcases eq_or_lt_of_le m1 with n1 | n1
  · have hd2 : 0 < v.2 - w.2 := by linarith
    have := mul_pos hd2 (sub_pos.2 hcon.1)
    nlinarith
  · have := mul_pos (sub_pos.2 n1) (sub_pos.2 hcon.2)
    nlinarith

/-- `compute_prbep` (precision-recall break-even point): the crossing of the hull of the *numbers* of misses and false
alarms with the diagonal. -/
theorem C33_prbep (tar non : List K) (ht : tar ≠ []) (hn : non ≠ []) : ∃ (pts : List (K × K)) (e : K),
    computeRocch tar non = some pts ∧ computePrbep tar non = some e ∧ 0 ≤ e ∧
    e * ((tar.length : K) + (non.length : K)) ≤ (tar.length : K) * (non.length : K) ∧
    OnHull (pts.map (fun v => (v.1 * (tar.length : K), v.2 * (non.length : K)))) e := by
  obtain ⟨pts, h0, _⟩ := hull_core tar non ht hn
  have h1 : (0 : K) < (tar.length : K) := by
    have : 0 < tar.length := List.length_pos_of_ne_nil ht
    exact_mod_cast this
  have h2 : (0 : K) < (non.length : K) := by
    have : 0 < non.length := List.length_pos_of_ne_nil hn
    exact_mod_cast this
  obtain ⟨e, e1, e2, e3, e4⟩ := rocch2eer_hull h1 h2 (isHull_scale h1.le h2.le (rocch_isHull tar non pts h0))
  exact ⟨pts, e, h0, by simp [computePrbep, h0, e1], e2, e3, e4⟩

/-- non-trivial instance: one tie, EER 1/4. -/
example : computeEer [(1 : ℚ), 3] [1, 0] = some (1/4) := by
  simp only [computeEer, hull_example, Option.bind_some]
  norm_num [rocch2eer, eerLoop, eerSeg]

end Hyp.Metrics
