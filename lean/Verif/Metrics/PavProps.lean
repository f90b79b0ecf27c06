import Verif.Metrics.Pav
import Mathlib.Tactic.IntervalCases

/-! Property C29: `pavx` is the isotonic regression. -/

namespace Hyp.Metrics

variable {K : Type} [Field K] [LinearOrder K] [IsStrictOrderedRing K]

/-! ### specification -/

/-- mean of a list of numbers. -/
def avg (s : List K) : K := s.sum / (s.length : K)

/-- sum of squared differences. -/
def sse (a b : List K) : K := (List.zipWith (fun x y => (x - y) ^ 2) a b).sum

/-! ### invariant of the loop -/

/-- a block is the interval `s`: its mean is that of `s` and no prefix of `s` has a smaller mean. -/
structure BlockOk (b : Block K) (s : List K) : Prop where
  ne : s ≠ []
  len : b.len = s.length
  sum : s.sum = b.mean * (s.length : K)
  pre : ∀ k : Nat, k ≤ s.length → b.mean * (k : K) ≤ (s.take k).sum

/-- the stack of blocks stands for the intervals `segs` (last interval first). -/
def Inv : List (Block K) → List (List K) → Prop
  | [], [] => True
  | b :: st, s :: ss => BlockOk b s ∧ b.idx = (ss.map List.length).sum ∧ Inv st ss
  | _, _ => False

theorem blockOk_single (j : Nat) (x : K) : BlockOk ⟨j, 1, x⟩ [x] := by
  refine ⟨by simp, rfl, by simp, ?_⟩
  intro k hk
  simp at hk
  interval_cases k <;> simp

/-- merging two blocks in the wrong order. -/
theorem blockOk_merge {b c : Block K} {sb sc : List K} (hb : BlockOk b sb) (hc : BlockOk c sc) (h : c.mean ≤ b.mean) (j : Nat) :
    BlockOk ⟨j, b.len + c.len, b.mean + (c.len : K) / ((b.len + c.len : Nat) : K) * (c.mean - b.mean)⟩ (sb ++ sc) := by
  have hlb : (0 : K) < sb.length := Nat.cast_pos.2 (List.length_pos_of_ne_nil hb.ne)
  have hlc : (0 : K) < sc.length := Nat.cast_pos.2 (List.length_pos_of_ne_nil hc.ne)
  rw [hb.len, hc.len]
  push_cast
  set m : K := b.mean + (sc.length : K) / ((sb.length : K) + sc.length) * (c.mean - b.mean) with hm
  have hpos : (0 : K) < (sb.length : K) + sc.length := by linarith
  have hfrac0 : 0 ≤ (sc.length : K) / ((sb.length : K) + sc.length) := div_nonneg hlc.le hpos.le
  have hfrac1 : (sc.length : K) / ((sb.length : K) + sc.length) ≤ 1 := (div_le_one hpos).2 (by linarith)
  have hmb : m ≤ b.mean := by nlinarith
  have hmc : c.mean ≤ m := by nlinarith
  have hsum : sb.sum + sc.sum = m * ((sb.length : K) + sc.length) := by
    rw [hb.sum, hc.sum, hm]; field_simp; ring
  refine ⟨by simp [hb.ne], by simp, by simpa using hsum, ?_⟩
  intro k hk
  rw [List.length_append] at hk
  simp only
  rw [List.take_append]
  rcases Nat.le_total k sb.length with h1 | h1
  · have := hb.pre k h1
    have hk0 : (0 : K) ≤ k := Nat.cast_nonneg k
    rw [show k - sb.length = 0 by omega]
    simp only [List.take_zero, List.append_nil]
    nlinarith
  · obtain ⟨i, rfl⟩ : ∃ i, k = sb.length + i := ⟨k - sb.length, by omega⟩
    have hi : i ≤ sc.length := by omega
    have := hc.pre i hi
    rw [List.take_of_length_le (by omega), Nat.add_sub_cancel_left, List.sum_append]
    have hi' : (i : K) ≤ sc.length := Nat.cast_le.2 hi
    push_cast
    -- the rest of `sc` sums to at most `m` times its length
    have h2 : sc.sum - (sc.take i).sum ≤ c.mean * ((sc.length : K) - i) := by rw [hc.sum]; nlinarith
    nlinarith

theorem pool_spec (st : List (Block K)) : ∀ (c : Block K) (sc : List K) (ss : List (List K)),
    Inv (c :: st) (sc :: ss) → (st.map Block.mean).Pairwise (· > ·) →
    ∃ segs, Inv (pool (c :: st)) segs ∧ segs.reverse.flatten = (sc :: ss).reverse.flatten ∧
      ((pool (c :: st)).map Block.mean).Pairwise (· > ·) := by
  induction st with
  | nil =>
    intro c sc ss h _
    refine ⟨sc :: ss, ?_, rfl, ?_⟩
    · rw [pool]; exact h
    · rw [pool]; simp
  | cons b st ih =>
    intro c sc ss h hp
    match ss, h with
    | sb :: ss, h =>
      obtain ⟨hc, hci, hb, hbi, hst⟩ := h
      rw [pool]
      by_cases hle : b.mean ≥ c.mean
      · rw [if_pos hle]
        obtain ⟨segs, h1, h2, h3⟩ := ih _ (sb ++ sc) ss ⟨blockOk_merge hb hc hle b.idx, hbi, hst⟩
          (by simp only [List.map_cons, List.pairwise_cons] at hp; exact hp.2)
        exact ⟨segs, h1, by rw [h2]; simp, h3⟩
      · rw [if_neg hle]
        refine ⟨sc :: sb :: ss, ⟨hc, hci, hb, hbi, hst⟩, rfl, ?_⟩
        simp only [List.map_cons, List.pairwise_cons] at hp ⊢
        refine ⟨?_, hp⟩
        intro m hm
        rcases List.mem_cons.1 hm with rfl | hm
        · exact not_le.1 hle
        · exact lt_trans (hp.1 m hm) (not_le.1 hle)

theorem inv_length {st : List (Block K)} {segs : List (List K)} (h : Inv st segs) : st.length = segs.length := by
  induction st generalizing segs with
  | nil => cases segs with
    | nil => rfl
    | cons a l => exact absurd h (by simp [Inv])
  | cons b st ih => cases segs with
    | nil => exact absurd h (by simp [Inv])
    | cons a l => simp [ih h.2.2]

theorem flatten_length {α : Type} (l : List (List α)) : l.flatten.length = (l.map List.length).sum := by
  induction l with
  | nil => rfl
  | cons a l ih => simp [ih]

theorem pavLoop_spec (ys : List K) : ∀ (st : List (Block K)) (segs : List (List K)) (j : Nat),
    Inv st segs → (st.map Block.mean).Pairwise (· > ·) → j = segs.reverse.flatten.length →
    ∃ segs', Inv (pavLoop ys j st) segs' ∧ segs'.reverse.flatten = segs.reverse.flatten ++ ys ∧
      ((pavLoop ys j st).map Block.mean).Pairwise (· > ·) := by
  induction ys with
  | nil => intro st segs j h hp _; exact ⟨segs, h, by simp, hp⟩
  | cons y ys ih =>
    intro st segs j h hp hj
    have hj' : j = (segs.map List.length).sum := by
      rw [hj, flatten_length, List.map_reverse, List.sum_reverse]
    obtain ⟨s1, h1, h2, h3⟩ := pool_spec st ⟨j, 1, y⟩ [y] segs ⟨blockOk_single j y, hj', h⟩ hp
    obtain ⟨s2, g1, g2, g3⟩ := ih (pool (⟨j, 1, y⟩ :: st)) s1 (j + 1) h1 h3 (by rw [h2, hj]; simp)
    exact ⟨s2, g1, by rw [g2, h2]; simp, g3⟩

theorem pavFill_spec {st : List (Block K)} {segs : List (List K)} (h : Inv st segs) :
    pavFill st segs.reverse.flatten.length = (segs.reverse.map (fun s => List.replicate s.length (avg s))).flatten := by
  induction st generalizing segs with
  | nil => cases segs with
    | nil => rfl
    | cons a l => exact absurd h (by simp [Inv])
  | cons b st ih =>
    cases segs with
    | nil => exact absurd h (by simp [Inv])
    | cons s ss =>
      obtain ⟨hb, hi, hst⟩ := h
      have hl : b.idx = ss.reverse.flatten.length := by
        rw [hi, flatten_length, List.map_reverse, List.sum_reverse]
      have hm : b.mean = avg s := by
        have : (s.length : K) ≠ 0 := Nat.cast_ne_zero.2 (List.length_pos_of_ne_nil hb.ne).ne'
        unfold avg; rw [hb.sum]; field_simp
      simp only [pavFill, List.reverse_cons, List.map_append, List.flatten_append]
      rw [hl, ih hst, hm]
      congr 1
      simp

theorem inv_len {st : List (Block K)} {segs : List (List K)} (h : Inv st segs) :
    st.map Block.len = segs.map List.length ∧ st.map Block.mean = segs.map avg ∧ (∀ s ∈ segs, s ≠ []) ∧
    (∀ s ∈ segs, ∀ k : Nat, k ≤ s.length → avg s * (k : K) ≤ (s.take k).sum) := by
  induction st generalizing segs with
  | nil => cases segs with
    | nil => simp
    | cons a l => exact absurd h (by simp [Inv])
  | cons b st ih =>
    cases segs with
    | nil => exact absurd h (by simp [Inv])
    | cons s ss =>
      obtain ⟨hb, hi, hst⟩ := h
      have hm : b.mean = avg s := by
        have : (s.length : K) ≠ 0 := Nat.cast_ne_zero.2 (List.length_pos_of_ne_nil hb.ne).ne'
        unfold avg; rw [hb.sum]; field_simp
      obtain ⟨h1, h2, h3, h4⟩ := ih hst
      refine ⟨by simp [h1, hb.len], by simp [h2, hm], ?_, ?_⟩
      · intro x hx
        rcases List.mem_cons.1 hx with rfl | hx
        · exact hb.ne
        · exact h3 x hx
      · intro x hx
        rcases List.mem_cons.1 hx with rfl | hx
        · rw [← hm]; exact hb.pre
        · exact h4 x hx

/-- The result of `pavx` in terms of intervals of the input: everything else follows from this. -/
theorem pavx_segs (y : List K) (hy : y ≠ []) : ∃ (r : Pav K) (segs : List (List K)), pavx y = some r ∧ segs.flatten = y ∧ (∀ s ∈ segs, s ≠ []) ∧
    r.width = segs.map List.length ∧ r.height = segs.map avg ∧
    r.ghat = (segs.map (fun s => List.replicate s.length (avg s))).flatten ∧ r.height.Pairwise (· < ·) ∧
    (∀ s ∈ segs, ∀ k : Nat, k ≤ s.length → avg s * (k : K) ≤ (s.take k).sum) := by
  obtain ⟨segs, h1, h2, h3⟩ := pavLoop_spec y [] [] 0 trivial (by simp) (by simp)
  simp only [List.reverse_nil, List.flatten_nil, List.nil_append] at h2
  obtain ⟨g1, g2, g3, g4⟩ := inv_len h1
  refine ⟨⟨_, _, _⟩, segs.reverse, by unfold pavx; rw [if_neg hy], h2, by simpa using g3, ?_, ?_, ?_, ?_, by simpa using g4⟩
  · simp only [g1, List.map_reverse]
  · simp only [g2, List.map_reverse]
  · simp only
    have := pavFill_spec h1
    rw [h2] at this
    exact this
  · simp only
    rw [List.pairwise_reverse]
    exact h3

/-! ## C29 -/

/-- `pavx(y)` cuts `y` into non-empty intervals; `width` are their lengths, `height` their means, strictly
increasing, and `ghat` replaces every element by the mean of its interval. -/
theorem C29_blocks (y : List K) (hy : y ≠ []) : ∃ (r : Pav K) (segs : List (List K)), pavx y = some r ∧ segs.flatten = y ∧ (∀ s ∈ segs, s ≠ []) ∧
    r.width = segs.map List.length ∧ r.height = segs.map avg ∧
    r.ghat = (segs.map (fun s => List.replicate s.length (avg s))).flatten ∧ r.height.Pairwise (· < ·) := by
  obtain ⟨r, segs, h1, h2, h3, h4, h5, h6, h7, _⟩ := pavx_segs y hy
  exact ⟨r, segs, h1, h2, h3, h4, h5, h6, h7⟩

theorem C29_empty_raises : pavx ([] : List K) = none := rfl

theorem ghat_length (segs : List (List K)) :
    ((segs.map (fun s => List.replicate s.length (avg s))).flatten).length = segs.flatten.length := by
  induction segs with
  | nil => rfl
  | cons s ss ih => simp [ih]

/-- The result has the length of the input, is non-decreasing, and the widths add up to the length. -/
theorem C29_shape (y : List K) (hy : y ≠ []) : ∃ r, pavx y = some r ∧ r.ghat.length = y.length ∧
    r.ghat.Pairwise (· ≤ ·) ∧ r.width.sum = y.length ∧ (∀ w ∈ r.width, 0 < w) ∧ r.width.length = r.height.length := by
  obtain ⟨r, segs, h1, h2, h3, h4, h5, h6, h7⟩ := C29_blocks y hy
  refine ⟨r, h1, by rw [h6, ghat_length, h2], ?_, ?_, ?_, by simp [h4, h5]⟩
  · rw [h6, List.pairwise_flatten]
    constructor
    · intro l hl
      obtain ⟨s, _, rfl⟩ := List.mem_map.1 hl
      rw [List.pairwise_replicate]
      right; exact le_refl _
    · rw [h5] at h7
      rw [List.pairwise_map] at h7 ⊢
      refine h7.imp ?_
      intro a b hab x hx y hy
      rw [List.eq_of_mem_replicate hx, List.eq_of_mem_replicate hy]
      exact hab.le
  · rw [h4, ← flatten_length, h2]
  · intro w hw
    rw [h4] at hw
    obtain ⟨s, hs, rfl⟩ := List.mem_map.1 hw
    exact List.length_pos_of_ne_nil (h3 s hs)

/-- Summation by parts: weights with non-negative running sums, against a non-decreasing sequence. -/
theorem abel : ∀ (d z : List K) (c z0 M : K), d.length = z.length → 0 ≤ c →
    (∀ k ≤ d.length, 0 ≤ c + (d.take k).sum) → (∀ x ∈ z, z0 ≤ x) → z0 ≤ M → (∀ x ∈ z, x ≤ M) → z.Pairwise (· ≤ ·) →
    c * z0 + (List.zipWith (· * ·) d z).sum ≤ (c + d.sum) * M
  | [], [], c, z0, M, _, hc, _, _, h0M, _, _ => by simp; exact mul_le_mul_of_nonneg_left h0M hc
  | d :: ds, z :: zs, c, z0, M, hl, hc, hpre, hz0, h0M, hM, hp => by
    have h1 := hpre 1 (by simp)
    simp only [List.take_succ_cons, List.take_zero, List.sum_cons, List.sum_nil, add_zero] at h1
    simp only [List.pairwise_cons] at hp
    have ih := abel ds zs (c + d) z M (by simpa using hl) h1 (by
      intro k hk
      have := hpre (k + 1) (by simpa using hk)
      simp only [List.take_succ_cons, List.sum_cons] at this
      linarith) (fun x hx => hp.1 x hx) (hM z (by simp)) (fun x hx => hM x (List.mem_cons_of_mem _ hx)) hp.2
    simp only [List.zipWith_cons_cons, List.sum_cons]
    have := mul_le_mul_of_nonneg_left (hz0 z (by simp)) hc
    nlinarith

theorem sum_map_sub_const (s : List K) (m : K) : (s.map (fun x => x - m)).sum = s.sum - m * (s.length : K) := by
  induction s with
  | nil => simp
  | cons a s ih => simp [ih]; ring

/-- one interval: replacing it by its mean is at least as good as any non-decreasing sequence. -/
theorem block_opt (s z : List K) (hs : s ≠ []) (hl : s.length = z.length) (hp : z.Pairwise (· ≤ ·))
    (hpre : ∀ k : Nat, k ≤ s.length → avg s * (k : K) ≤ (s.take k).sum) :
    sse s (List.replicate s.length (avg s)) + sse (List.replicate s.length (avg s)) z ≤ sse s z := by
  have hne : (s.length : K) ≠ 0 := Nat.cast_ne_zero.2 (List.length_pos_of_ne_nil hs).ne'
  have hsum : s.sum = avg s * (s.length : K) := by unfold avg; field_simp
  generalize avg s = m at *
  -- the cross term
  obtain ⟨z0, zs, rfl⟩ : ∃ z0 zs, z = z0 :: zs := by
    cases z with
    | nil => simp at hl; exact absurd hl hs
    | cons a l => exact ⟨a, l, rfl⟩
  have habel := abel (s.map (fun x => x - m)) (z0 :: zs) 0 z0 ((z0 :: zs).getLast (by simp)) (by simpa using hl) le_rfl
    (by
      intro k hk
      rw [List.length_map] at hk
      rw [← List.map_take, sum_map_sub_const, List.length_take, Nat.min_eq_left hk]
      have := hpre k hk
      linarith)
    (by
      intro x hx
      rcases List.mem_cons.1 hx with rfl | hx
      · exact le_rfl
      · exact (List.pairwise_cons.1 hp).1 x hx)
    (by
      have := List.getLast_mem (l := z0 :: zs) (by simp)
      rcases List.mem_cons.1 this with h | h
      · exact le_of_eq h.symm
      · exact (List.pairwise_cons.1 hp).1 _ h)
    (by
      intro x hx
      have hne : z0 :: zs ≠ [] := by simp
      have hdl := List.dropLast_append_getLast hne
      have hp' := hp
      rw [← hdl, List.pairwise_append] at hp'
      rw [← hdl] at hx
      rcases List.mem_append.1 hx with hx | hx
      · exact hp'.2.2 x hx _ (by simp)
      · simp at hx; exact le_of_eq hx)
    hp
  rw [sum_map_sub_const, hsum, sub_self, zero_mul, add_zero, zero_add, zero_mul] at habel
  have key : ∀ (s z : List K), s.length = z.length →
      sse s z = sse s (List.replicate s.length m) + sse (List.replicate s.length m) z +
        2 * m * ((s.map (fun x => x - m)).sum) - 2 * (List.zipWith (· * ·) (s.map (fun x => x - m)) z).sum := by
    intro s
    induction s with
    | nil => intro z h; cases z <;> simp [sse]
    | cons a s ih =>
      intro z h
      cases z with
      | nil => simp at h
      | cons b z =>
        have := ih z (by simpa using h)
        simp only [sse, List.length_cons, List.replicate_succ, List.zipWith_cons_cons, List.sum_cons, List.map_cons] at this ⊢
        rw [this]; ring
  rw [key s (z0 :: zs) hl, sum_map_sub_const, hsum, sub_self, mul_zero]
  linarith

theorem sse_append (a b c d : List K) (h : a.length = c.length) : sse (a ++ b) (c ++ d) = sse a c + sse b d := by
  unfold sse
  rw [List.zipWith_append h, List.sum_append]

/-- `ghat` minimises the sum of squared errors over all non-decreasing sequences, and is the only minimiser: any
other sequence `z` is worse by at least its squared distance to `ghat`. -/
theorem C29_optimal (y z : List K) (hy : y ≠ []) (hz : z.length = y.length) (hmono : z.Pairwise (· ≤ ·)) :
    ∃ r, pavx y = some r ∧ sse y r.ghat + sse r.ghat z ≤ sse y z := by
  obtain ⟨r, segs, h1, h2, h3, h4, h5, h6, h7, h8⟩ := pavx_segs y hy
  refine ⟨r, h1, ?_⟩
  rw [h6, ← h2]
  rw [← h2] at hz
  clear h1 h2 h4 h5 h6 h7 hy
  induction segs generalizing z with
  | nil => simp at hz; subst hz; simp [sse]
  | cons s ss ih =>
    have hlen : z.length = s.length + ss.flatten.length := by simpa using hz
    obtain ⟨z1, z2, rfl, hz1⟩ : ∃ z1 z2, z = z1 ++ z2 ∧ z1.length = s.length :=
      ⟨z.take s.length, z.drop s.length, (List.take_append_drop _ _).symm, by rw [List.length_take]; omega⟩
    rw [List.pairwise_append] at hmono
    have hb := block_opt s z1 (h3 s (by simp)) hz1.symm hmono.1 (h8 s (by simp))
    have hr := ih z2 hmono.2.1 (by rw [List.length_append] at hlen; omega) (fun x hx => h3 x (List.mem_cons_of_mem _ hx))
      (fun x hx => h8 x (List.mem_cons_of_mem _ hx))
    simp only [List.flatten_cons, List.map_cons]
    rw [sse_append _ _ _ _ (by simp), sse_append _ _ _ _ (by simp [hz1]), sse_append _ _ _ _ hz1.symm]
    linarith

theorem sse_nonneg (a b : List K) : 0 ≤ sse a b := by
  unfold sse
  apply List.sum_nonneg
  intro x hx
  rw [List.mem_iff_getElem] at hx
  obtain ⟨i, hi, rfl⟩ := hx
  rw [List.getElem_zipWith]
  positivity

/-- In particular no non-decreasing sequence has a smaller sum of squared errors. -/
theorem C29_least_squares (y z : List K) (hy : y ≠ []) (hz : z.length = y.length) (hmono : z.Pairwise (· ≤ ·)) :
    ∃ r, pavx y = some r ∧ sse y r.ghat ≤ sse y z := by
  obtain ⟨r, h1, h2⟩ := C29_optimal y z hy hz hmono
  exact ⟨r, h1, by have := sse_nonneg r.ghat z; linarith⟩

/-! ### a concrete case -/

example : pavx [(1 : ℚ), 3, 2, 4] = some ⟨[1, 5/2, 5/2, 4], [1, 2, 1], [1, 5/2, 4]⟩ := by
  have h : pavLoop [(1 : ℚ), 3, 2, 4] 0 [] = [⟨3, 1, 4⟩, ⟨1, 2, 5/2⟩, ⟨0, 1, 1⟩] := by
    simp only [pavLoop]
    norm_num [pool]
  unfold pavx
  rw [if_neg (by simp)]
  simp only [h]
  norm_num [pavFill, List.replicate]

end Hyp.Metrics
