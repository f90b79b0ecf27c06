import Verif.Feats.Mvn
import Mathlib.Tactic.Linarith
import Mathlib.Tactic.FieldSimp
import Mathlib.Tactic.Ring
import Mathlib.Tactic.NormNum

/-!
# C35 (sliding mean and variance normalisation), C36 (frame selection)
-/

namespace Hyp.Feats

/-- prefix sum. -/
def P (x : List ℝ) (k : Nat) : ℝ := (x.take k).sum

theorem P_of_ge (x : List ℝ) {k : Nat} (h : x.length ≤ k) : P x k = P x x.length := by
  unfold P; rw [List.take_of_length_le h, List.take_length]

theorem cumsum_length (x : List ℝ) : (cumsum x).length = x.length := by simp [cumsum]

theorem padCum_length (L R : Nat) (cs : List ℝ) : (padCum L R cs).length = L + 1 + cs.length + R := by
  simp [padCum]; omega

/-- entry `j` of a padded array of cumulative values given by `f` (`f 0 = 0`). -/
theorem padCum_get (L R : Nat) (T : Nat) (f : Nat → ℝ) (hf : f 0 = 0) (j : Nat) (hj : j < L + 1 + T + R) :
    (padCum L R ((List.range T).map (fun i => f (i + 1)))).getD j 0 = f (min (j - L) T) := by
  unfold padCum
  rw [List.getD_eq_getElem?_getD]
  rcases Nat.lt_or_ge j (L + 1) with h1 | h1
  · rw [List.append_assoc, List.getElem?_append_left (by simpa using h1), List.getElem?_replicate, if_pos h1,
      show min (j - L) T = 0 by omega, hf]
    rfl
  rcases Nat.lt_or_ge j (L + 1 + T) with h2 | h2
  · rw [List.getElem?_append_left (by simpa using h2), List.getElem?_append_right (by simpa using h1), List.length_replicate,
      List.getElem?_map, List.getElem?_range (by omega), show min (j - L) T = j - (L + 1) + 1 by omega]
    rfl
  · rw [List.getElem?_append_right (by simpa using h2)]
    simp only [List.length_append, List.length_replicate, List.length_map, List.length_range]
    rw [List.getElem?_replicate, if_pos (by omega), show min (j - L) T = T by omega]
    cases T with
    | zero => simp [hf]
    | succ T => rw [List.range_succ, List.map_append, List.map_singleton, List.getLastD_eq_getLast?, List.getLast?_append]; rfl

theorem diffTotal_get (total n : Nat) (c : List ℝ) (hc : c.length = n + total) (t : Nat) (ht : t < n) :
    (diffTotal total n c)[t]? = some (c.getD (t + total) 0 - c.getD t 0) := by
  unfold diffTotal
  rw [List.getElem?_zipWith, List.getElem?_drop, List.getElem?_take, if_pos ht]
  rw [List.getElem?_eq_getElem (show total + t < c.length by omega), List.getElem?_eq_getElem (show t < c.length by omega)]
  simp only [List.getD_eq_getElem?_getD]
  rw [List.getElem?_eq_getElem (show t + total < c.length by omega), List.getElem?_eq_getElem (show t < c.length by omega)]
  simp [Nat.add_comm]

theorem diffTotal_length (total n : Nat) (c : List ℝ) (hc : c.length = n + total) : (diffTotal total n c).length = n := by
  simp [diffTotal, hc]

theorem window_sum (x : List ℝ) (L R t : Nat) (ht : t < x.length) :
    (window x L R t).sum = P x (min (t + R + 1) x.length) - P x (t - L) := by
  unfold window P
  have h1 : min (t + R) (x.length - 1) + 1 = min (t + R + 1) x.length := by omega
  rw [h1]
  set b := min (t + R + 1) x.length with hb
  have hab : t - L ≤ b := by omega
  have : x.take b = x.take (t - L) ++ (x.drop (t - L)).take (b - (t - L)) := by
    rw [← List.take_add]; congr 1; omega
  rw [this, List.sum_append]; ring

theorem window_length (x : List ℝ) (L R t : Nat) (ht : t < x.length) :
    (window x L R t).length = min (t + R + 1) x.length - (t - L) := by
  unfold window
  rw [List.length_take, List.length_drop]; omega

theorem window_pos (x : List ℝ) (L R t : Nat) (ht : t < x.length) : 0 < (window x L R t).length := by
  rw [window_length x L R t ht]; omega

theorem window_map (x : List ℝ) (L R t : Nat) (f : ℝ → ℝ) : window (x.map f) L R t = (window x L R t).map f := by
  simp [window]

/-- local sums by cumulative sums. -/
theorem cum_get (x : List ℝ) (L R t : Nat) (ht : t < x.length) :
    (diffTotal (L + R + 1) x.length (padCum L R (cumsum x)))[t]? = some ((window x L R t).sum) := by
  rw [diffTotal_get _ _ _ (by rw [padCum_length, cumsum_length]; omega) t ht, window_sum x L R t ht]
  have e : cumsum x = (List.range x.length).map (fun i => P x (i + 1)) := rfl
  rw [e, padCum_get L R x.length (P x) (by simp [P]) _ (by omega), padCum_get L R x.length (P x) (by simp [P]) _ (by omega)]
  rw [show min (t + (L + R + 1) - L) x.length = min (t + R + 1) x.length by omega, show min (t - L) x.length = t - L by omega]

theorem counts_get (x : List ℝ) (L R t : Nat) (ht : t < x.length) :
    (diffTotal (L + R + 1) x.length (padCum L R ((List.range x.length).map (fun i : Nat => (i : ℝ) + 1))))[t]? =
      some (((window x L R t).length : Nat) : ℝ) := by
  rw [diffTotal_get _ _ _ (by rw [padCum_length]; simp; omega) t ht, window_length x L R t ht]
  have e : (List.range x.length).map (fun i : Nat => (i : ℝ) + 1) = (List.range x.length).map (fun i => (fun k : Nat => (k : ℝ)) (i + 1)) := by
    simp
  rw [e, padCum_get L R x.length (fun k : Nat => (k : ℝ)) (by simp) _ (by omega), padCum_get L R x.length (fun k : Nat => (k : ℝ)) (by simp) _ (by omega)]
  rw [show min (t + (L + R + 1) - L) x.length = min (t + R + 1) x.length by omega, show min (t - L) x.length = t - L by omega]
  rw [Nat.cast_sub (show t - L ≤ min (t + R + 1) x.length by omega)]

/-- local sums by convolution. -/
theorem conv_get (x : List ℝ) (L R t : Nat) (ht : t < x.length) :
    (convOnes (L + R + 1) R x)[t]? = some ((window x L R t).sum) := by
  unfold convOnes
  rw [List.getElem?_take, if_pos ht, List.getElem?_drop, List.getElem?_map, List.getElem?_range (by omega), Option.map_some]
  congr 1
  rw [window_sum x L R t ht]
  -- sum of the first m terms of the window from the right end
  have key : ∀ m : Nat, ((List.range m).map (fun k => if k ≤ R + t then x.getD (R + t - k) 0 else 0)).sum =
      P x (R + t + 1) - P x (R + t + 1 - m) := by
    intro m
    induction m with
    | zero => simp
    | succ m ih =>
      rw [List.range_succ, List.map_append, List.sum_append, ih]
      simp only [List.map_cons, List.map_nil, List.sum_cons, List.sum_nil, add_zero]
      split
      · rename_i h
        have e : R + t + 1 - m = (R + t - m) + 1 := by omega
        have e2 : R + t + 1 - (m + 1) = R + t - m := by omega
        rw [e, e2]
        have : P x (R + t - m + 1) = P x (R + t - m) + x.getD (R + t - m) 0 := by
          unfold P
          rcases Nat.lt_or_ge (R + t - m) x.length with h' | h'
          · rw [List.take_succ_eq_append_getElem h', List.sum_append, List.getD_eq_getElem?_getD, List.getElem?_eq_getElem h']
            simp
          · rw [List.take_of_length_le h', List.take_of_length_le (by omega), List.getD_eq_getElem?_getD, List.getElem?_eq_none h']
            simp
        rw [this]; ring
      · rename_i h
        rw [show R + t + 1 - (m + 1) = 0 by omega, show R + t + 1 - m = 0 by omega]; ring
  rw [key, show R + t + 1 - (L + R + 1) = t - L by omega]
  congr 1
  rcases Nat.le_total (R + t + 1) x.length with h | h
  · rw [show min (t + R + 1) x.length = R + t + 1 by omega]
  · rw [show min (t + R + 1) x.length = x.length by omega, P_of_ge x h]

theorem conv_length (x : List ℝ) (L R : Nat) : (convOnes (L + R + 1) R x).length = x.length := by
  simp [convOnes]; omega

/-- variance as the difference of moments. -/
theorem var_eq (w : List ℝ) (hw : 0 < w.length) : var w = (w.map (fun a => a * a)).sum / (w.length : ℝ) - (w.sum / (w.length : ℝ)) ^ 2 := by
  have hn : (0 : ℝ) < (w.length : ℝ) := by exact_mod_cast hw
  have key : ∀ (m : ℝ) (l : List ℝ), (l.map (fun a => (a - m) ^ 2)).sum = (l.map (fun a => a * a)).sum - 2 * m * l.sum + m ^ 2 * (l.length : ℝ) := by
    intro m l
    induction l with
    | nil => simp
    | cons a l ih => simp only [List.map_cons, List.sum_cons, ih, List.length_cons, Nat.cast_add, Nat.cast_one]; ring
  unfold var mean
  rw [List.length_map, key]
  field_simp
  ring

theorem sqrt_floor (v : ℝ) : Real.sqrt (if v < 1 / 100000 then 1 / 100000 else v) =
    (if Real.sqrt v < Real.sqrt (1 / 100000) then Real.sqrt (1 / 100000) else Real.sqrt v) := by
  by_cases h : v < 1 / 100000
  · rw [if_pos h, if_pos]
    rcases le_or_gt 0 v with h0 | h0
    · exact Real.sqrt_lt_sqrt h0 h
    · rw [Real.sqrt_eq_zero_of_nonpos h0.le]; exact Real.sqrt_pos.2 (by norm_num)
  · rw [if_neg h, if_neg]
    rw [not_lt] at *
    exact Real.sqrt_le_sqrt h

/-- the result at frame `t` as a function of the (globally normalised) column. -/
noncomputable def slowAt (c : MvnConfig) (x : List ℝ) (L R t : Nat) : ℝ :=
  let y := if c.normMean then x.getD t 0 - mean (window x L R t) else x.getD t 0
  if c.normVar then y / (if std (window x L R t) < Real.sqrt (1 / 100000) then Real.sqrt (1 / 100000) else std (window x L R t)) else y

theorem getD_map_range (x : List ℝ) : (List.range x.length).map (fun t => x.getD t 0) = x := by
  apply List.ext_getElem
  · simp
  · intro i h1 h2; simp [List.getD_eq_getElem?_getD, h2]

theorem slow_eq (c : MvnConfig) (x : List ℝ) (L R : Nat) :
    (let m := (List.range x.length).map (fun t => mean (window x L R t))
     let s := (List.range x.length).map (fun t => std (window x L R t))
     let y := if c.normMean then List.zipWith (fun a b => a - b) x m else x
     if c.normVar then
       List.zipWith (fun a b => a / (if b < Real.sqrt (1 / 100000) then Real.sqrt (1 / 100000) else b)) y s
     else y) = (List.range x.length).map (slowAt c x L R) := by
  apply List.ext_getElem?
  intro t
  rcases Nat.lt_or_ge t x.length with h | h
  · simp only [slowAt, List.getElem?_map, List.getElem?_range h, Option.map_some]
    cases c.normMean <;> cases c.normVar <;>
      simp [List.getElem?_zipWith, h, List.getD_eq_getElem?_getD]
  · rw [List.getElem?_eq_none (l := List.map _ _) (by simpa using h)]
    cases c.normMean <;> cases c.normVar <;> simp [h]

theorem applyStats_eq (c : MvnConfig) (x m m2 : List ℝ) (L R : Nat)
    (hm : ∀ t, t < x.length → m[t]? = some ((window x L R t).sum / ((window x L R t).length : ℝ)))
    (hm2 : ∀ t, t < x.length → m2[t]? = some (((window x L R t).map (fun a => a * a)).sum / ((window x L R t).length : ℝ)))
    (hl : m.length = x.length) (hl2 : m2.length = x.length) :
    applyStats c x m m2 = (List.range x.length).map (slowAt c x L R) := by
  apply List.ext_getElem?
  intro t
  rcases Nat.lt_or_ge t x.length with h | h
  · have e1 := hm t h
    have e2 := hm2 t h
    have hx : x[t]? = some (x.getD t 0) := by rw [List.getD_eq_getElem?_getD, List.getElem?_eq_getElem h]; rfl
    have hv := var_eq (window x L R t) (window_pos x L R t h)
    have hs := sqrt_floor (var (window x L R t))
    simp only [List.getElem?_map, List.getElem?_range h, Option.map_some]
    unfold applyStats slowAt
    cases c.normMean <;> cases c.normVar
    · simpa using hx
    · simp only [Bool.false_eq_true, if_false, if_true, List.getElem?_zipWith, e1, e2, hx, Option.map₂_some_some]
      congr 2
      rw [← hv, hs]; rfl
    · simp only [Bool.false_eq_true, if_false, if_true, List.getElem?_zipWith, e1, hx]
      rfl
    · simp only [if_true, List.getElem?_zipWith, e1, e2, hx]
      congr 2
      rw [← hv, hs]; rfl
  · rw [List.getElem?_eq_none (l := List.map _ _) (by simpa using h)]
    unfold applyStats
    cases c.normMean <;> cases c.normVar <;> simp [h]

theorem mean_center (x : List ℝ) (hx : x ≠ []) (a : ℝ) : mean (x.map (fun b => b - a)) = mean x - a := by
  have hn : (x.length : ℝ) ≠ 0 := by simpa using hx
  have : (x.map (fun b => b - a)).sum = x.sum - a * (x.length : ℝ) := by
    clear hn hx
    induction x with
    | nil => simp
    | cons b l ih => simp only [List.map_cons, List.sum_cons, ih, List.length_cons, Nat.cast_add, Nat.cast_one]; ring
  unfold mean
  rw [this, List.length_map]
  field_simp

theorem mean_scale (x : List ℝ) (a : ℝ) : mean (x.map (fun b => b / a)) = mean x / a := by
  have : (x.map (fun b => b / a)).sum = x.sum / a := by
    induction x with
    | nil => simp
    | cons b l ih => simp only [List.map_cons, List.sum_cons, ih, add_div]
  unfold mean
  rw [this, List.length_map]; ring

theorem var_center (x : List ℝ) (hx : x ≠ []) (a : ℝ) : var (x.map (fun b => b - a)) = var x := by
  unfold var
  rw [mean_center x hx, List.map_map]
  congr 1
  apply List.map_congr_left
  intro b _
  simp only [Function.comp]; ring

theorem var_scale (x : List ℝ) (a : ℝ) : var (x.map (fun b => b / a)) = var x / a ^ 2 := by
  unfold var
  rw [mean_scale, List.map_map]
  have : (fun b => (b - mean x / a) ^ 2) ∘ (fun b => b / a) = (fun b => b / a ^ 2) ∘ (fun b => (b - mean x) ^ 2) := by
    funext b; simp only [Function.comp]; ring
  rw [this, ← List.map_map, mean_scale]

theorem var_nonneg (x : List ℝ) : 0 ≤ var x := by
  unfold var mean
  apply div_nonneg _ (Nat.cast_nonneg _)
  apply List.sum_nonneg
  intro y hy
  obtain ⟨a, _, rfl⟩ := List.mem_map.1 hy
  exact sq_nonneg _

theorem normalizeGlobal_length (c : MvnConfig) (x : List ℝ) : (normalizeGlobal c x).length = x.length := by
  unfold normalizeGlobal
  cases c.normMean <;> cases c.normVar <;> simp

/-- mean and deviation of a globally normalised column. -/
theorem global_stats (c : MvnConfig) (x : List ℝ) (hx : x ≠ []) (hv : c.normVar = true → var x ≠ 0) :
    (c.normMean = true → mean (normalizeGlobal c x) = 0) ∧ (c.normVar = true → std (normalizeGlobal c x) = 1) := by
  have h1 : mean (x.map (fun a => a - mean x)) = 0 := by rw [mean_center x hx]; ring
  have h2 := var_center x hx (mean x)
  constructor
  · intro hm
    unfold normalizeGlobal
    rw [if_pos hm]
    cases c.normVar
    · simpa using h1
    · simp only [if_true]; rw [mean_scale, h1]; simp
  · intro hvv
    have hne := hv hvv
    have hpos : 0 < var x := lt_of_le_of_ne (var_nonneg x) (Ne.symm hne)
    unfold normalizeGlobal
    simp only [hvv, if_true]
    have key : ∀ y : List ℝ, var y = var x → std (y.map (fun a => a / std y)) = 1 := by
      intro y hy
      unfold std
      rw [var_scale, Real.sq_sqrt (var_nonneg y), hy, div_self hne, Real.sqrt_one]
    cases c.normMean
    · simpa using key x rfl
    · simpa using key _ h2

/-- for an utterance inside both contexts the window is everything, and there is nothing left to normalise. -/
theorem slow_short (c : MvnConfig) (x : List ℝ) (L R : Nat) (h : x.length ≤ min R L + 1)
    (hm : c.normMean = true → mean x = 0) (hs : c.normVar = true → std x = 1) :
    (List.range x.length).map (slowAt c x L R) = x := by
  conv_rhs => rw [← getD_map_range x]
  apply List.map_congr_left
  intro t ht
  have ht : t < x.length := List.mem_range.1 ht
  have hw : window x L R t = x := by
    unfold window
    rw [show t - L = 0 by omega, List.drop_zero, List.take_of_length_le (by omega)]
  unfold slowAt
  rw [hw]
  have h1 : ¬ (1 : ℝ) < Real.sqrt (1 / 100000) := by
    rw [not_lt, Real.sqrt_le_one]; norm_num
  generalize Real.sqrt (1 / 100000) = q at *
  cases hm' : c.normMean <;> cases hs' : c.normVar <;> simp_all [not_lt.2]

/-! ## C35 -/

/-- The cumulative-sum implementation equals the window-by-window one, for every column, options and contexts
(if the variance is normalised, the column must not be constant: NumPy then divides by zero in all of them). -/
theorem C35_cumsum_eq_slow (c : MvnConfig) (x : List ℝ) (hv : c.normVar = true → var x ≠ 0) :
    normalizeCumsum c x = normalizeSlow c x := by
  rcases eq_or_ne x [] with rfl | hx
  · have : normalizeGlobal c [] = [] := List.eq_nil_of_length_eq_zero (by simp [normalizeGlobal_length])
    simp [normalizeCumsum, normalizeSlow, this]
  obtain ⟨g1, g2⟩ := global_stats c x hx hv
  unfold normalizeCumsum normalizeSlow
  generalize normalizeGlobal c x = z at *
  simp only
  split
  · rfl
  · have e := slow_eq c z (c.left.getD z.length) (c.right.getD z.length)
    simp only at e
    rw [e]
    split
    · rename_i h
      exact (slow_short c z _ _ h g1 g2).symm
    · have hc := counts_get z (c.left.getD z.length) (c.right.getD z.length)
      apply applyStats_eq
      · intro t ht
        rw [List.getElem?_zipWith, cum_get z _ _ t ht, hc t ht]
      · intro t ht
        have := cum_get (z.map (fun a => a * a)) (c.left.getD z.length) (c.right.getD z.length) t (by simpa using ht)
        rw [List.length_map, window_map] at this
        rw [List.getElem?_zipWith, this, hc t ht]
      · rw [List.length_zipWith, diffTotal_length, diffTotal_length]
        · omega
        · rw [padCum_length]; simp; omega
        · rw [padCum_length, cumsum_length]; omega
      · rw [List.length_zipWith, diffTotal_length, diffTotal_length]
        · omega
        · rw [padCum_length]; simp; omega
        · rw [padCum_length, cumsum_length]; simp; omega

/-- The convolution implementation equals the window-by-window one. -/
theorem C35_conv_eq_slow (c : MvnConfig) (x : List ℝ) (hv : c.normVar = true → var x ≠ 0) :
    normalizeConv c x = normalizeSlow c x := by
  rcases eq_or_ne x [] with rfl | hx
  · have : normalizeGlobal c [] = [] := List.eq_nil_of_length_eq_zero (by simp [normalizeGlobal_length])
    simp [normalizeConv, normalizeSlow, this]
  obtain ⟨g1, g2⟩ := global_stats c x hx hv
  unfold normalizeConv normalizeSlow
  generalize normalizeGlobal c x = z at *
  simp only
  split
  · rfl
  · have e := slow_eq c z (c.left.getD z.length) (c.right.getD z.length)
    simp only at e
    rw [e]
    split
    · rename_i h
      exact (slow_short c z _ _ h g1 g2).symm
    · have hc : ∀ t, t < z.length → (convOnes (c.left.getD z.length + c.right.getD z.length + 1) (c.right.getD z.length) (List.replicate z.length 1))[t]? =
          some ((window z (c.left.getD z.length) (c.right.getD z.length) t).length : ℝ) := by
        intro t ht
        have := conv_get (List.replicate z.length 1) (c.left.getD z.length) (c.right.getD z.length) t (by simpa using ht)
        rw [this]
        have e2 : List.replicate z.length (1 : ℝ) = z.map (fun _ => 1) := by simp
        rw [e2, window_map]
        simp
      apply applyStats_eq
      · intro t ht
        rw [List.getElem?_zipWith, conv_get z _ _ t ht, hc t ht]
      · intro t ht
        have := conv_get (z.map (fun a => a * a)) (c.left.getD z.length) (c.right.getD z.length) t (by simpa using ht)
        rw [window_map] at this
        rw [List.getElem?_zipWith, this, hc t ht]
      · simp [conv_length]
      · simp [conv_length]

/-- Mean normalisation only: frame `t` of the output is the input minus the mean of the input over the frames
`t-L .. t+R` of the utterance (the global centering cancels out). -/
theorem C35_mean_only (L R : Nat) (x : List ℝ) :
    normalizeCumsum ⟨true, false, some L, some R⟩ x =
      (List.range x.length).map (fun t => x.getD t 0 - mean ((x.drop (t - L)).take (min (t + R) (x.length - 1) + 1 - (t - L)))) := by
  rw [C35_cumsum_eq_slow _ _ (by simp)]
  unfold normalizeSlow
  simp only [normalizeGlobal, if_true, Bool.false_eq_true, if_false, Option.getD_some, reduceCtorEq, false_and, List.length_map]
  apply List.ext_getElem?
  intro t
  rcases Nat.lt_or_ge t x.length with h | h
  · rw [List.getElem?_zipWith, List.getElem?_map, List.getElem?_map, List.getElem?_range h, List.getElem?_map, List.getElem?_range h,
      List.getElem?_eq_getElem h]
    simp only [Option.map_some]
    rw [window_map, mean_center _ (List.length_pos_iff.1 (window_pos x L R t h))]
    have : x.getD t 0 = x[t] := by rw [List.getD_eq_getElem?_getD, List.getElem?_eq_getElem h]; rfl
    rw [this]
    unfold window
    congr 1; ring
  · rw [List.getElem?_eq_none (by simp [h]), List.getElem?_eq_none (by simpa using h)]

/-- Mean and variance normalisation: frame `t` is standardised with the mean and deviation of the input over its
window, whenever the deviation of the window is at least sqrt(1e-5) times that of the utterance (otherwise the floor
acts). -/
theorem C35_mean_var (L R : Nat) (x : List ℝ) (hv : var x ≠ 0) (t : Nat) (ht : t < x.length)
    (hfloor : 1 / 100000 * var x ≤ var (window x L R t)) :
    (normalizeCumsum ⟨true, true, some L, some R⟩ x)[t]? = some ((x.getD t 0 - mean (window x L R t)) / std (window x L R t)) := by
  have hx : x ≠ [] := by intro h; rw [h] at ht; simp at ht
  have hpos : 0 < var x := lt_of_le_of_ne (var_nonneg x) (Ne.symm hv)
  have hstd : 0 < std x := Real.sqrt_pos.2 hpos
  rw [C35_cumsum_eq_slow _ _ (by simpa using hv)]
  unfold normalizeSlow
  simp only [normalizeGlobal, if_true, Option.getD_some, reduceCtorEq, false_and, if_false, List.length_map]
  have hs1 : std (x.map (fun a => a - mean x)) = std x := by unfold std; rw [var_center x hx]
  rw [hs1]
  have hw := List.length_pos_iff.1 (window_pos x L R t ht)
  have e1 : window ((x.map (fun a => a - mean x)).map (fun a => a / std x)) L R t =
      ((window x L R t).map (fun a => a - mean x)).map (fun a => a / std x) := by rw [window_map, window_map]
  have em : mean (((window x L R t).map (fun a => a - mean x)).map (fun a => a / std x)) = (mean (window x L R t) - mean x) / std x := by
    rw [mean_scale, mean_center _ hw]
  have es : std (((window x L R t).map (fun a => a - mean x)).map (fun a => a / std x)) = std (window x L R t) / std x := by
    unfold std
    rw [var_scale, var_center _ hw, Real.sqrt_div (var_nonneg _), Real.sqrt_sq (Real.sqrt_nonneg _)]
  have hfl : ¬ std (window x L R t) / std x < Real.sqrt (1 / 100000) := by
    rw [not_lt, le_div_iff₀ hstd]
    unfold std
    rw [← Real.sqrt_mul (by norm_num)]
    exact Real.sqrt_le_sqrt hfloor
  have hsw : 0 < std (window x L R t) := by
    apply Real.sqrt_pos.2
    have : 0 < 1 / 100000 * var x := by positivity
    linarith
  rw [List.getElem?_zipWith, List.getElem?_zipWith]
  simp only [List.getElem?_map, List.getElem?_range ht, Option.map_some, List.getElem?_eq_getElem ht]
  rw [e1, em, es, if_neg hfl]
  have : x.getD t 0 = x[t] := by rw [List.getD_eq_getElem?_getD, List.getElem?_eq_getElem ht]; rfl
  rw [this]
  congr 1
  field_simp
  ring

/-- With both contexts None the normalisation is global. -/
theorem C35_global (c : MvnConfig) (x : List ℝ) (hl : c.left = none) (hr : c.right = none) :
    normalizeCumsum c x = normalizeGlobal c x := by
  simp [normalizeCumsum, hl, hr]

/-- non-trivial instance: window of 3 frames over 4, values at the border and inside. -/
example : normalizeCumsum ⟨true, false, some 1, some 1⟩ [1, 2, 6, 1] = [1 - 3 / 2, 2 - 9 / 3, 6 - 9 / 3, 1 - 7 / 2] := by
  rw [C35_mean_only]
  norm_num [List.range, List.range.loop, mean]

/-! ## C36 -/

/-- specification: number of frames both sequences have. -/
theorem maskRows_eq {α : Type} (x : List α) (sel : List Bool) (h : x.length = sel.length) :
    maskRows x sel = some ((x.zip sel).filterMap (fun p => if p.2 then some p.1 else none)) := by
  rw [maskRows, if_pos h]

/-- `select` returns the frames with a true decision, in order, comparing frame by frame up to the shorter length, when
the lengths differ by at most the tolerance, and raises otherwise. -/
theorem C36_select {α : Type} (tol : Int) (htol : 0 ≤ tol) (x : List α) (sel : List Bool) :
    select tol x sel = if |(x.length : Int) - sel.length| ≤ tol then
      some ((x.zip sel).filterMap (fun p => if p.2 then some p.1 else none)) else none := by
  unfold select
  by_cases h1 : x.length = sel.length
  · rw [if_pos h1, maskRows_eq _ _ h1, if_pos]
    rw [h1, sub_self, abs_zero]; exact htol
  · rw [if_neg h1]
    by_cases h2 : x.length > sel.length
    · rw [if_pos h2, abs_of_nonneg (by omega)]
      split
      · rw [maskRows_eq _ _ (by simp; omega)]
        congr 2
        apply List.ext_getElem?
        intro i
        simp only [List.zip, List.getElem?_zipWith, List.getElem?_take]
        by_cases hi : i < sel.length
        · simp [hi]
        · simp [hi]
      · rfl
    · rw [if_neg h2, abs_of_nonpos (by omega), neg_sub]
      split
      · rw [maskRows_eq _ _ (by simp; omega)]
        congr 2
        apply List.ext_getElem?
        intro i
        simp only [List.zip, List.getElem?_zipWith, List.getElem?_take]
        by_cases hi : i < x.length
        · simp [hi]
        · simp [hi]
      · rfl

/-- Every selected frame is a frame of the input with a true decision at its position, and the number of frames
returned is the number of true decisions among the common frames. -/
theorem C36_count {α : Type} (tol : Int) (x y : List α) (sel : List Bool) (h : select tol x sel = some y) (htol : 0 ≤ tol) :
    y.length = (sel.take x.length).countP id ∧ y.Sublist x := by
  rw [C36_select tol htol] at h
  split at h
  swap
  · cases h
  cases h
  clear htol
  constructor
  · induction x generalizing sel with
    | nil => simp
    | cons a x ih =>
      cases sel with
      | nil => simp
      | cons b sel =>
        have := ih sel (by simp at *; omega)
        cases b <;> simp [this]
  · induction x generalizing sel with
    | nil => simp
    | cons a x ih =>
      cases sel with
      | nil => simp
      | cons b sel =>
        have := ih sel (by simp at *; omega)
        cases b
        · simpa using List.Sublist.cons a this
        · simpa using List.Sublist.cons_cons a this

example : select 3 [10, 20, 30, 40] [true, false, true] = some [10, 30] := by decide
example : select 0 [10, 20, 30, 40] [true, false, true] = none := by decide

end Hyp.Feats
