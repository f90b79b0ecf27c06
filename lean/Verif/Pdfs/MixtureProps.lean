import Verif.Pdfs.Mixture
import Verif.MathUtils.NumericProps
import Verif.NpLemmas
import Mathlib.Algebra.BigOperators.Group.List.Basic
import Mathlib.Algebra.BigOperators.Ring.List
import Mathlib.Algebra.BigOperators.Pi

/-!
Properties C67 and C68: sufficient statistics of mixtures do not depend on how the data are cut into batches, add up over
segments, and the sliding-window version returns the statistics of each window.
-/

namespace Hyp.Pdfs
open scoped BigOperators
open Hyp.MathUtils

variable {K : Nat} {ι : Type} [Fintype ι]

/-! ### specification -/

/-- the statistics of component `k`: the sum over the rows of posterior times weight, and of posterior times weight times
the vector, for a posterior function `q` -/
def SpecStats (q : (ι → ℝ) → Fin (K + 1) → ℝ) (rows : List (Row ι)) (st : Stats K ι) : Prop :=
  ∀ k, st.1 k = (rows.map (fun r => r.2 * q r.1 k)).sum ∧ ∀ i, st.2 k i = (rows.map (fun r => r.2 * q r.1 k * r.1 i)).sum

/-- the posterior of component `k` for a mixture with weights `a k` and unnormalised component scores `exp (s k)` -/
noncomputable def posterior (a s : Fin (K + 1) → ℝ) (k : Fin (K + 1)) : ℝ := a k * Real.exp (s k) / ∑ j, a j * Real.exp (s j)

/-! ### lemmas -/

theorem batches_flatten {α : Type} (bs : Nat) (h : 0 < bs) (fuel : Nat) (l : List α) (hf : l.length ≤ fuel) :
    (batches bs fuel l).flatten = l := by
  induction fuel generalizing l with
  | zero => simp [batches, List.length_eq_zero_iff.mp (Nat.le_zero.mp hf)]
  | succ n ih =>
    unfold batches
    split
    · next e => simp [e]
    · next e =>
      have hl : 0 < l.length := List.length_pos_iff.mpr e
      rw [List.flatten_cons, ih _ (by rw [List.length_drop]; omega), List.take_append_drop]

theorem batches_length_le {α : Type} (bs : Nat) (fuel : Nat) (l : List α) : ∀ b ∈ batches bs fuel l, b.length ≤ bs := by
  induction fuel generalizing l with
  | zero => simp [batches]
  | succ n ih =>
    unfold batches
    split
    · simp
    · intro b hb
      rcases List.mem_cons.mp hb with rfl | hb
      · simp
      · exact ih _ b hb

theorem foldl_stat {α S : Type} [Add S] (stat : List α → S) (hadd : ∀ a b, stat (a ++ b) = stat a + stat b)
    (a : List α) (rest : List (List α)) :
    rest.foldl (fun acc c => acc + stat c) (stat a) = stat (a ++ rest.flatten) := by
  induction rest generalizing a with
  | nil => simp
  | cons b r ih => rw [List.foldl_cons, ← hadd, ih, List.flatten_cons, List.append_assoc]

theorem accumBatches_eq {α S : Type} [Add S] (stat : List α → S) (hadd : ∀ a b, stat (a ++ b) = stat a + stat b)
    (bs : Nat) (rows : List α) (h : 0 < bs) (hr : rows ≠ []) : accumBatches stat bs rows = some (stat rows) := by
  have hfl := batches_flatten bs h rows.length rows (le_refl _)
  unfold accumBatches
  rw [if_neg (by omega)]
  cases hb : batches bs rows.length rows with
  | nil => rw [hb] at hfl; simp at hfl; exact absurd hfl hr
  | cons b rest =>
    rw [hb, List.flatten_cons] at hfl
    simp only
    rw [foldl_stat stat hadd, hfl]

theorem stats1_append (pz : (ι → ℝ) → Fin (K + 1) → ℝ) (a b : List (Row ι)) :
    stats1 pz (a ++ b) = stats1 pz a + stats1 pz b := by
  unfold stats1
  ext <;> simp

theorem segProb1_append {s : Nat} (g : Mix K ι) (a b : List (PRow ι s)) : g.segProb1 (a ++ b) = g.segProb1 a + g.segProb1 b := by
  unfold Mix.segProb1
  funext j
  ext <;> simp

/-! ### C67 -/

/-- C67: the posterior used for a row is the Bayes posterior of the mixture with weights `exp(log_pi)` (which is
`pi + 1e-15` until the weights are updated) and components `exp(u·eta_k - A_k)`; posteriors are positive and sum to one. -/
theorem C67_posterior (g : Mix K ι) (u : ι → ℝ) :
    (∀ k, g.pz u k = posterior (fun k => Real.exp (g.logPiVal k)) (fun k => (∑ i, u i * g.eta k i) - g.A k) k) ∧
    (∀ k, 0 < g.pz u k) ∧ ∑ k, g.pz u k = 1 := by
  refine ⟨fun k => ?_, (C66_softmax_distribution _).1, (C66_softmax_distribution _).2⟩
  unfold Mix.pz posterior
  rw [C66_softmax_value]
  unfold Mix.logr
  simp only [Real.exp_add]
  simp only [mul_comm]

/-- C67: with any batch size the statistics are the weighted sums over all rows. -/
theorem C67_stats (g : Mix K ι) (rows : List (Row ι)) (h : rows ≠ []) (bs : Option Nat) (hb : bs ≠ some 0) :
    ∃ st, g.accumSuffStats rows bs = some st ∧ SpecStats g.pz rows st := by
  have hspec : SpecStats g.pz rows (stats1 g.pz rows) := by
    intro k
    refine ⟨?_, fun i => ?_⟩ <;> simp only [stats1, mul_comm]
  cases bs with
  | none => exact ⟨_, rfl, hspec⟩
  | some n =>
    refine ⟨stats1 g.pz rows, ?_, hspec⟩
    have hn : 0 < n := Nat.pos_of_ne_zero (fun e => hb (by rw [e]))
    exact accumBatches_eq _ (stats1_append _) n rows hn h

/-- C67: two batch sizes give the same statistics. -/
theorem C67_batch_invariance (g : Mix K ι) (rows : List (Row ι)) (h : rows ≠ []) (b1 b2 : Option Nat)
    (h1 : b1 ≠ some 0) (h2 : b2 ≠ some 0) : g.accumSuffStats rows b1 = g.accumSuffStats rows b2 := by
  have key : ∀ b : Option Nat, b ≠ some 0 → g.accumSuffStats rows b = some (stats1 g.pz rows) := by
    intro b hb
    cases b with
    | none => rfl
    | some n => exact accumBatches_eq _ (stats1_append _) n rows (Nat.pos_of_ne_zero (fun e => hb (by rw [e]))) h
  rw [key b1 h1, key b2 h2]

/-- C67: the total mass of the statistics is the total weight: no frame is lost or counted twice. -/
theorem C67_total_mass (g : Mix K ι) (rows : List (Row ι)) (bs : Option Nat) (st : Stats K ι)
    (h : g.accumSuffStats rows bs = some st) : ∑ k, st.1 k = (rows.map (fun r => r.2)).sum := by
  have hst : st = stats1 g.pz rows := by
    cases bs with
    | none => exact (Option.some.inj h).symm
    | some n =>
      rcases Nat.eq_zero_or_pos n with rfl | hn
      · simp [Mix.accumSuffStats, accumBatches] at h
      · by_cases hr : rows = []
        · subst hr; simp [Mix.accumSuffStats, accumBatches, batches] at h
        · have := accumBatches_eq _ (stats1_append (K := K) g.pz) n rows hn hr
          unfold Mix.accumSuffStats at h
          simp only at h
          rw [this] at h
          exact (Option.some.inj h).symm
  subst hst
  unfold stats1
  simp only
  clear h
  induction rows with
  | nil => simp
  | cons r rs ih =>
    simp only [List.map_cons, List.sum_cons]
    rw [Finset.sum_add_distrib, ih, ← Finset.sum_mul, (C67_posterior g r.1).2.2, one_mul]

/-- C67: no rows and a batch size: the code raises; without a batch size it returns zeros. -/
theorem C67_no_rows (g : Mix K ι) (n : Nat) :
    g.accumSuffStats [] (some n) = none ∧ g.accumSuffStats [] none = some (fun _ => 0, fun _ _ => 0) := by
  constructor
  · unfold Mix.accumSuffStats accumBatches; simp [batches]
  · simp [Mix.accumSuffStats, stats1]

/-- consecutive segments that start at `s`, as index pairs with both ends included -/
def segmentsOf : Nat → List Nat → List (Nat × Nat)
  | _, [] => []
  | s, l :: ls => (s, s + l) :: segmentsOf (s + l + 1) ls

/-- C67: the statistics of consecutive segments that cover the recording add up to the statistics of the recording. The
segments have lengths `l + 1` for `l` in `ls`. -/
theorem C67_segments_additive (g : Mix K ι) (rows : List (Row ι)) (ls : List Nat)
    (hcov : (ls.map (fun l => l + 1)).sum = rows.length) :
    ∃ sts, g.accumSegments rows (segmentsOf 0 ls) none = some sts ∧ sts.length = ls.length ∧ sts.sum = stats1 g.pz rows := by
  have key : ∀ (ls : List Nat) (s : Nat), s + (ls.map (fun l => l + 1)).sum = rows.length →
      ∃ sts, g.accumSegments rows (segmentsOf s ls) none = some sts ∧ sts.length = ls.length ∧
        sts.sum = stats1 g.pz (rows.drop s) := by
    intro ls
    induction ls with
    | nil =>
      intro s hs
      refine ⟨[], rfl, rfl, ?_⟩
      rw [List.drop_eq_nil_of_le (by simpa using hs.ge)]
      rfl
    | cons l ls ih =>
      intro s hs
      rw [List.map_cons, List.sum_cons] at hs
      obtain ⟨sts, h1, h2, h3⟩ := ih (s + l + 1) (by omega)
      refine ⟨stats1 g.pz ((rows.take (s + l + 1)).drop s) :: sts, ?_, by simp [h2], ?_⟩
      · unfold Mix.accumSegments at h1 ⊢
        simp only [segmentsOf, List.mapM_cons, h1]
        rfl
      · rw [List.sum_cons, h3, ← stats1_append]
        congr 1
        have e : rows.drop (s + l + 1) = (rows.drop s).drop (l + 1) := by rw [List.drop_drop]; congr 1
        rw [e, show s + l + 1 = s + (l + 1) by omega, List.drop_take]
        simp
  obtain ⟨sts, h1, h2, h3⟩ := key ls 0 (by omega)
  exact ⟨sts, h1, h2, by simpa using h3⟩

/-- three rows cut into segments of two rows and one row meet the hypothesis -/
example : (([1, 0] : List Nat).map (fun l => l + 1)).sum = ([(![1], 1), (![2], 1), (![3], 1)] : List (Row (Fin 1))).length := rfl

/-- C67: statistics weighted with segment probabilities do not depend on the batch size, and if the probabilities of every
frame sum to one they add up to the statistics of the recording. -/
theorem C67_segment_probabilities {s : Nat} (g : Mix K ι) (rows : List (PRow ι s)) (h : rows ≠ []) (bs : Option Nat)
    (hb : bs ≠ some 0) (hp : ∀ r ∈ rows, ∑ j, r.2 j = 1) :
    ∃ out, g.segProb rows bs = some out ∧ g.segProb rows none = some out ∧
      ∑ j, out j = stats1 g.pz (rows.map (fun r => r.1)) := by
  refine ⟨g.segProb1 rows, ?_, rfl, ?_⟩
  · cases bs with
    | none => rfl
    | some n => exact accumBatches_eq _ (segProb1_append g) n rows (Nat.pos_of_ne_zero (fun e => hb (by rw [e]))) h
  · clear h
    induction rows with
    | nil => unfold Mix.segProb1 stats1; ext <;> simp [Prod.fst_sum, Prod.snd_sum]
    | cons r rs ih =>
      have e : r :: rs = [r] ++ rs := rfl
      rw [e, segProb1_append, List.map_append, stats1_append, ← ih (fun r' hr' => hp r' (List.mem_cons_of_mem _ hr'))]
      simp only [Pi.add_apply, Finset.sum_add_distrib]
      congr 1
      have hr := hp r (List.mem_cons_self ..)
      unfold Mix.segProb1 stats1
      ext k
      · simp [Prod.fst_sum, ← Finset.mul_sum, hr]
      · rename_i i
        simp only [Prod.snd_sum, Finset.sum_apply, List.map_cons, List.map_nil, List.sum_cons, List.sum_nil, add_zero]
        rw [← Finset.sum_mul, ← Finset.mul_sum, hr, mul_one]

/-- two rows shared between two segments meet the hypotheses -/
example : ∀ r ∈ ([((![1], 1), ![1 / 2, 1 / 2]), ((![2], 1), ![1, 0])] : List (PRow (Fin 1) 2)), ∑ j, r.2 j = 1 := by
  intro r hr
  simp only [List.mem_cons, List.not_mem_nil, or_false] at hr
  rcases hr with rfl | rfl <;> simp [Fin.sum_univ_two] <;> norm_num

/-! ### C68 -/

theorem cumsum_length (x : List ℝ) : (cumsum x).length = x.length := by simp [cumsum]

theorem cumsum_get (x : List ℝ) (i : Nat) (h : i < x.length) : (cumsum x)[i]? = some ((x.take (i + 1)).sum) := by
  simp [cumsum, h]

theorem strided_get (step : Nat) (h : 0 < step) (fuel : Nat) (l : List ℝ) (hf : l.length ≤ fuel) (j : Nat) :
    (strided step fuel l)[j]? = l[j * step]? := by
  induction fuel generalizing l j with
  | zero => simp [strided, List.length_eq_zero_iff.mp (Nat.le_zero.mp hf)]
  | succ n ih =>
    cases l with
    | nil => simp [strided]
    | cons a l =>
      cases j with
      | zero => simp [strided]
      | succ j =>
        simp only [strided, List.getElem?_cons_succ]
        rw [ih _ (by simp at hf ⊢; omega), List.getElem?_drop, show (j + 1) * step = (step - 1 + j * step) + 1 by
          rw [Nat.add_mul]; omega, List.getElem?_cons_succ]

theorem slice_get (x : List ℝ) (start stop step : Nat) (h : 0 < step) (j : Nat) (hj : start + j * step < stop) :
    (slice x start stop step)[j]? = x[start + j * step]? := by
  unfold slice
  rw [strided_get step h _ _ (by simp), List.getElem?_drop, List.getElem?_take, if_pos hj]

theorem slice_get_none (x : List ℝ) (start stop step : Nat) (h : 0 < step) (j : Nat) (hj : stop ≤ start + j * step) :
    (slice x start stop step)[j]? = none := by
  unfold slice
  rw [strided_get step h _ _ (by simp), List.getElem?_drop, List.getElem?_take, if_neg (by omega)]

theorem length_of_get {α : Type} (l : List α) (n : Nat) (h1 : ∀ j, j < n → l[j]? ≠ none) (h2 : l[n]? = none) : l.length = n := by
  have a : l.length ≤ n := by simpa using h2
  rcases Nat.lt_or_ge l.length n with h | h
  · exact absurd (by simp) (h1 l.length h)
  · omega

theorem numSegments_spec (T len shift : Nat) (hs : 0 < shift) (n : Nat) (hn : 2 ≤ n) (h : numSegments T len shift = n) :
    (n - 1) * shift + len ≤ T ∧ T < n * shift + len := by
  unfold numSegments at h
  have hs' : (0 : Int) < shift := by omega
  have e : ((T : Int) - len) / shift = (n : Int) - 1 := by omega
  have h1 := Int.ediv_mul_le ((T : Int) - len) (b := (shift : Int)) (by omega)
  have h2 := Int.lt_ediv_add_one_mul_self ((T : Int) - len) hs'
  rw [e] at h1 h2
  have e2 : ((n - 1 : Nat) : Int) = (n : Int) - 1 := by omega
  constructor
  · have : (((n - 1) * shift + len : Nat) : Int) ≤ T := by push_cast [e2]; linarith
    exact_mod_cast this
  · have : (T : Int) < ((n * shift + len : Nat) : Int) := by push_cast; linarith
    exact_mod_cast this

theorem sum_window (v : List ℝ) (a len : Nat) : (v.take (a + len)).sum - (v.take a).sum = ((v.drop a).take len).sum := by
  rw [List.take_add, List.sum_append]; ring

/-- C68: with at least two windows the sliding-window statistics of a recording of `T` frames are, for window `w`, the
sums over the frames `w*shift ... w*shift+len-1`, and there is one per window that fits into the recording. -/
theorem C68_windows_partial (len shift : Nat) (hl : 0 < len) (hs : 0 < shift) (v : List ℝ) (hT : len + shift ≤ v.length) :
    ∃ out, sortTime1 len shift v = some out ∧ out.length = (v.length - len) / shift + 1 ∧
      ∀ w, w * shift + len ≤ v.length → out[w]? = some (((v.drop (w * shift)).take len).sum) := by
  obtain ⟨n, hn⟩ : ∃ n : Nat, n = (v.length - len) / shift + 1 := ⟨_, rfl⟩
  have hn2 : 2 ≤ n := by
    have : 1 ≤ (v.length - len) / shift := (Nat.le_div_iff_mul_le hs).mpr (by omega)
    omega
  have hns : numSegments v.length len shift = n := by
    unfold numSegments
    rw [hn, ← Nat.cast_sub (by omega : len ≤ v.length)]
    push_cast
    rfl
  obtain ⟨hb1, hb2⟩ := numSegments_spec _ _ _ hs n hn2 hns
  have hhi : ∀ j, j < n - 1 → (slice (cumsum v) (shift - 1 + len) ((n - 1) * shift + len) shift)[j]? =
      some ((v.take ((j + 1) * shift + len)).sum) := by
    intro j hj
    have hm : (j + 1) * shift ≤ (n - 1) * shift := Nat.mul_le_mul_right _ (by omega)
    have hexp : (j + 1) * shift = j * shift + shift := by ring
    rw [slice_get _ _ _ _ hs _ (by omega), cumsum_get _ _ (by omega)]
    congr 3; omega
  have hlo : ∀ j, j < n - 1 → (slice (cumsum v) (shift - 1) ((n - 1) * shift) shift)[j]? =
      some ((v.take ((j + 1) * shift)).sum) := by
    intro j hj
    have hm : (j + 1) * shift ≤ (n - 1) * shift := Nat.mul_le_mul_right _ (by omega)
    have hexp : (j + 1) * shift = j * shift + shift := by ring
    rw [slice_get _ _ _ _ hs _ (by omega), cumsum_get _ _ (by omega)]
    congr 3; omega
  have hLhi := length_of_get _ (n - 1) (fun j hj => by rw [hhi j hj]; simp)
    (slice_get_none (cumsum v) (shift - 1 + len) ((n - 1) * shift + len) shift hs (n - 1) (by omega))
  have hLlo := length_of_get _ (n - 1) (fun j hj => by rw [hlo j hj]; simp)
    (slice_get_none (cumsum v) (shift - 1) ((n - 1) * shift) shift hs (n - 1) (by omega))
  unfold sortTime1
  rw [if_neg (by omega)]
  simp only [hns]
  rw [if_neg (by omega)]
  simp only [Int.toNat_natCast]
  rw [if_pos ⟨hLhi, hLlo⟩, if_neg (by omega), cumsum_get _ _ (by omega), show len - 1 + 1 = len by omega]
  refine ⟨_, rfl, by simp [hLhi, hLlo]; omega, ?_⟩
  intro w hw
  cases w with
  | zero => simp
  | succ j =>
    have hj : j < n - 1 := by
      by_contra hc
      have : n * shift ≤ (j + 1) * shift := Nat.mul_le_mul_right _ (by omega)
      omega
    rw [List.getElem?_cons_succ, List.getElem?_zipWith, hhi j hj, hlo j hj]
    simp only
    rw [sum_window]

example : sortTime1 2 1 [1, 2, 3] = some [3, 5] := by
  obtain ⟨out, h1, h2, h3⟩ := C68_windows_partial 2 1 (by decide) (by decide) [1, 2, 3] (by decide)
  rw [h1]
  have e0 := h3 0 (by decide)
  have e1 := h3 1 (by decide)
  match out, h2 with
  | [a, b], _ =>
    simp at e0 e1
    rw [e0, e1]; norm_num

/-- C68: a recording with room for only one window (or none) is refused: the code raises. -/
theorem C68_one_window_raises (len shift : Nat) (v : List ℝ) (h : v.length < len + shift) : sortTime1 len shift v = none := by
  unfold sortTime1
  split
  · rfl
  · next hs =>
    have : numSegments v.length len shift ≤ 1 := by
      unfold numSegments
      have h0 : (0 : Int) < shift := by omega
      have : ((v.length : Int) - len) / shift < 1 := by
        apply Int.ediv_lt_of_lt_mul h0; omega
      omega
    simp only [this, if_true]

/-- C68: with a batch size the code raises for all windows that overlap (`shift < len`), whatever the data: the sizes of
the batches are computed from the length of the recording and the second batch is always too short. -/
theorem C68_batches_raise (len shift : Nat) (h : shift < len) (v : List ℝ) : sortTimeN len shift v = none := by
  unfold sortTimeN
  by_cases hs : shift = 0
  · simp [hs]
  · rw [if_neg hs]
    have hsp : 0 < shift := Nat.pos_of_ne_zero hs
    simp only
    split
    · rfl
    · next hns =>
      obtain ⟨n, hn⟩ : ∃ n : Nat, (n : Int) = numSegments v.length len shift := ⟨(numSegments v.length len shift).toNat, by omega⟩
      rw [← hn] at hns ⊢
      obtain ⟨hb1, hb2⟩ := numSegments_spec _ _ _ hsp n (by omega) hn.symm
      simp only [Int.toNat_natCast]
      have hexp : n * shift = (n - 1) * shift + shift := by
        obtain ⟨m, rfl⟩ : ∃ m, n = m + 1 := ⟨n - 1, by omega⟩
        simp [Nat.add_mul]
      have hmem : n * shift ∈ (List.range v.length).filter (fun i => i % (n * shift) = 0) := by
        rw [List.mem_filter, List.mem_range]
        exact ⟨by omega, by simp⟩
      have hnone : sortTime1 len shift ((v.take (n * shift + ((n - 1) * shift + len))).drop (n * shift)) = none := by
        apply C68_one_window_raises
        simp; omega
      cases hm : ((List.range v.length).filter (fun i => i % (n * shift) = 0)).mapM
          (fun i1 => sortTime1 len shift ((v.take (i1 + ((n - 1) * shift + len))).drop i1)) with
      | none => rfl
      | some r =>
        rw [mapM_eq_some_iff] at hm
        have := List.mem_map_of_mem (f := fun i1 => sortTime1 len shift ((v.take (i1 + ((n - 1) * shift + len))).drop i1)) hmem
        rw [hm] at this
        simp only [hnone] at this
        simp at this

end Hyp.Pdfs
