import Verif.Feats.FilterBankProps
import Verif.Feats.StftProps
import Mathlib.Analysis.SpecialFunctions.Trigonometric.Bounds

/-! C92: the analysis windows, and reconstruction with them. -/

namespace Hyp.FB
open Hyp.Stft

/-- The window types of the factory. -/
def IsType (type : String) : Prop :=
  type = "povey" ∨ type = "hamming" ∨ type = "hanning" ∨ type = "blackman" ∨ type = "rectangular"

/-- **C92** (valid types): a window exists exactly for the five types (the Povey window needs a point), and has the
length asked for. -/
theorem C92_exists (type : String) (N : Nat) (hN : 0 < N) :
    (IsType type ↔ ∃ w, window type N = some w) ∧ ∀ w, window type N = some w → w.length = N ∧
      ∀ i < N, w.getD i 0 = windowAt type N i := by
  have h0 : ¬ (type = "povey" ∧ N = 0) := by omega
  refine ⟨⟨fun h => ?_, fun ⟨w, h⟩ => ?_⟩, fun w h => ?_⟩
  · have h' : type = "povey" ∨ type = "hamming" ∨ type = "hanning" ∨ type = "blackman" ∨ type = "rectangular" := h
    exact ⟨_, by rw [window, if_neg h0, if_pos h']⟩
  · rw [window, if_neg h0] at h
    by_contra hc
    have hc' : ¬ (type = "povey" ∨ type = "hamming" ∨ type = "hanning" ∨ type = "blackman" ∨ type = "rectangular") := hc
    rw [if_neg hc'] at h
    simp at h
  · rw [window, if_neg h0] at h
    split_ifs at h with ht
    injection h with h
    subst h
    refine ⟨by simp, fun i hi => by simp [List.getD_eq_getElem?_getD, hi]⟩

theorem cos_lt_one {N i : Nat} (h0 : 0 < i) (hi : i < N) : Real.cos (2 * Real.pi * i / N) < 1 := by
  have hN : (0 : ℝ) < N := by exact_mod_cast (by omega : 0 < N)
  have hi' : (0 : ℝ) < i := by exact_mod_cast h0
  have hiN : (i : ℝ) < N := by exact_mod_cast hi
  refine lt_of_le_of_ne (Real.cos_le_one _) (fun h => ?_)
  rw [Real.cos_eq_one_iff_of_lt_of_lt] at h
  · have : 0 < 2 * Real.pi * i / N := by positivity
    linarith
  · have : 0 < 2 * Real.pi * i / N := by positivity
    linarith [Real.pi_pos]
  · rw [div_lt_iff₀ hN]
    have := Real.pi_pos
    nlinarith

theorem blackman_eq (c : ℝ) (x : ℝ) (hc : c = Real.cos x) :
    0.42 - 0.5 * c + 0.08 * Real.cos (2 * x) = 0.16 * (1 - c) * (2.125 - c) := by
  rw [Real.cos_two_mul, ← hc]
  ring

/-- **C92** (range): every window value is in [0,1], and inside the window (all points but the first) it is positive. -/
theorem C92_range (type : String) (N i : Nat) (hi : i < N) :
    0 ≤ windowAt type N i ∧ windowAt type N i ≤ 1 ∧ (0 < i → 0 < windowAt type N i) := by
  have h1 := Real.cos_le_one (2 * Real.pi * i / N)
  have h2 := Real.neg_one_le_cos (2 * Real.pi * i / N)
  have h3 : 0 < i → Real.cos (2 * Real.pi * i / N) < 1 := fun h => cos_lt_one h hi
  simp only [windowAt, blackman_eq _ _ rfl]
  set c := Real.cos (2 * Real.pi * i / N)
  clear_value c
  split_ifs
  · refine ⟨Real.rpow_nonneg (by linarith) _, Real.rpow_le_one (by linarith) (by linarith) (by norm_num), fun h => ?_⟩
    exact Real.rpow_pos_of_pos (by linarith [h3 h]) _
  · exact ⟨zero_le_one, le_refl _, fun _ => zero_lt_one⟩
  · refine ⟨by linarith, by linarith, fun _ => by linarith⟩
  · exact ⟨zero_le_one, le_refl _, fun _ => zero_lt_one⟩
  · refine ⟨by linarith, by linarith, fun h => by linarith [h3 h]⟩
  · exact ⟨zero_le_one, le_refl _, fun _ => zero_lt_one⟩
  · have h4 : 0 ≤ (1 - c) := by linarith
    have h5 : 0 ≤ (2.125 - c) := by linarith
    refine ⟨by positivity, by nlinarith, fun h => ?_⟩
    have h6 : 0 < (1 - c) := by linarith [h3 h]
    have h7 : 0 < (2.125 - c) := by linarith
    positivity
  · exact ⟨zero_le_one, le_refl _, fun _ => zero_lt_one⟩

/-- **C92** (periodic symmetry): point `i` and point `N-i` are equal. -/
theorem C92_symmetric (type : String) (N i : Nat) (hi : i ≤ N) (hN : 0 < N) :
    windowAt type N (N - i) = windowAt type N i := by
  have hN' : (N : ℝ) ≠ 0 := by exact_mod_cast (by omega : N ≠ 0)
  have hx : 2 * Real.pi * ((N - i : Nat) : ℝ) / N = 2 * Real.pi - 2 * Real.pi * i / N := by
    rw [Nat.cast_sub hi]
    field_simp
  have hc : Real.cos (2 * Real.pi * ((N - i : Nat) : ℝ) / N) = Real.cos (2 * Real.pi * i / N) := by
    rw [hx, Real.cos_two_pi_sub]
  simp only [windowAt, Real.cos_two_mul, hc]

/-- **C92** (shape): a window of `2M` points starts at 0 (Hamming: at 0.08), its middle point is 1, and it never
decreases up to the middle. -/
theorem C92_shape (type : String) (M : Nat) (hM : 0 < M) (ht : type = "povey" ∨ type = "hanning" ∨ type = "blackman" ∨ type = "hamming") :
    windowAt type (2 * M) 0 = (if type = "hamming" then 0.08 else 0) ∧ windowAt type (2 * M) M = 1 ∧
      ∀ i j, i ≤ j → j ≤ M → windowAt type (2 * M) i ≤ windowAt type (2 * M) j := by
  have hM' : (0 : ℝ) < M := by exact_mod_cast hM
  have h1 : 2 * M ≠ 1 := by omega
  have hmid : Real.cos (2 * Real.pi * (M : ℝ) / ((2 * M : Nat) : ℝ)) = -1 := by
    rw [← Real.cos_pi]; congr 1; push_cast; field_simp
  have hzero : Real.cos (2 * Real.pi * ((0 : Nat) : ℝ) / ((2 * M : Nat) : ℝ)) = 1 := by simp
  have hmono : ∀ i j : Nat, i ≤ j → j ≤ M → Real.cos (2 * Real.pi * (j : ℝ) / ((2 * M : Nat) : ℝ)) ≤
      Real.cos (2 * Real.pi * (i : ℝ) / ((2 * M : Nat) : ℝ)) := by
    intro i j hij hj
    have hp := Real.pi_pos
    have hij' : (i : ℝ) ≤ j := by exact_mod_cast hij
    have hj' : (j : ℝ) ≤ M := by exact_mod_cast hj
    have hi0 : (0 : ℝ) ≤ i := Nat.cast_nonneg i
    apply Real.cos_le_cos_of_nonneg_of_le_pi
    · positivity
    · push_cast
      rw [div_le_iff₀ (by positivity)]
      nlinarith
    · push_cast
      apply div_le_div_of_nonneg_right _ (by positivity)
      nlinarith
  refine ⟨?_, ?_, ?_⟩
  · rcases ht with rfl | rfl | rfl | rfl <;> simp only [windowAt, blackman_eq _ _ rfl, hzero] <;> simp [h1] <;> norm_num
  · rcases ht with rfl | rfl | rfl | rfl <;> simp only [windowAt, Real.cos_two_mul, hmid] <;> simp [h1] <;> norm_num
  · intro i j hij hj
    have hc := hmono i j hij hj
    have ha := Real.cos_le_one (2 * Real.pi * (i : ℝ) / ((2 * M : Nat) : ℝ))
    have hb := Real.cos_le_one (2 * Real.pi * (j : ℝ) / ((2 * M : Nat) : ℝ))
    have hmin := Real.neg_one_le_cos (2 * Real.pi * (j : ℝ) / ((2 * M : Nat) : ℝ))
    rcases ht with rfl | rfl | rfl | rfl <;> simp only [windowAt, blackman_eq _ _ rfl] <;>
      generalize Real.cos (2 * Real.pi * (i : ℝ) / ((2 * M : Nat) : ℝ)) = a at * <;>
      generalize Real.cos (2 * Real.pi * (j : ℝ) / ((2 * M : Nat) : ℝ)) = b at * <;> simp [h1]
    · apply Real.rpow_le_rpow <;> linarith
    · linarith
    · nlinarith
    · linarith

/-- **C92** (Hann windows overlap to one): at half overlap the periodic Hann window and its shift add up to 1. -/
theorem C92_hann_overlap (M i : Nat) (hM : 0 < M) :
    windowAt "hanning" (2 * M) i + windowAt "hanning" (2 * M) (i + M) = 1 := by
  have hM' : (M : ℝ) ≠ 0 := by exact_mod_cast (by omega : M ≠ 0)
  have h1 : 2 * M ≠ 1 := by omega
  have hc : Real.cos (2 * Real.pi * ((i + M : Nat) : ℝ) / ((2 * M : Nat) : ℝ)) =
      -Real.cos (2 * Real.pi * (i : ℝ) / ((2 * M : Nat) : ℝ)) := by
    rw [← Real.cos_add_pi]
    congr 1
    push_cast
    field_simp
  simp only [windowAt, hc]
  simp [h1]
  ring

/-- With a factory window and overlapping frames, every sample but the first is covered with a positive weight. -/
theorem coverage_pos (type : String) (N S F t : Nat) (w : List ℝ) (hw : window type N = some w) (hN : 0 < N)
    (hS : 0 < S) (hSN : S < N) (hF : 0 < F) (h0 : 0 < t) (ht : t < (F - 1) * S + N) : 0 < coverage w S F t := by
  obtain ⟨hl, hv⟩ := (C92_exists type N hN).2 w hw
  rw [coverage, hl]
  apply Finset.sum_pos'
  · intro i _
    split_ifs with h
    · rw [hv _ (by omega)]
      exact (C92_range type N _ (by omega)).1
    · exact le_refl _
  · refine ⟨min ((t - 1) / S) (F - 1), Finset.mem_range.2 (by omega), ?_⟩
    have h1 := Nat.div_mul_le_self (t - 1) S
    have h2 := Nat.lt_div_mul_add (a := t - 1) hS
    have h3 : min ((t - 1) / S) (F - 1) * S < t ∧ t < min ((t - 1) / S) (F - 1) * S + N := by
      rcases Nat.le_total ((t - 1) / S) (F - 1) with h | h
      · rw [Nat.min_eq_left h]
        omega
      · rw [Nat.min_eq_right h]
        have := Nat.mul_le_mul_right S h
        omega
    rw [if_pos ⟨h3.1.le, h3.2⟩, hv _ (by omega)]
    exact (C92_range type N _ (by omega)).2.2 (by omega)

/-- **C92** (analysis and resynthesis with the factory windows): for any signal of at least one frame, any factory
window, a shift smaller than the frame and an even FFT length that holds it, `istrft(strft(x, window), window)` returns
every covered sample of the signal except possibly the very first. -/
theorem C92_resynthesis (type : String) (N S n : Nat) (w x : List ℝ) (hw : window type N = some w) (hN : 0 < N)
    (hS : 0 < S) (hSN : S < N) (hn : N ≤ n) (he : n % 2 = 0) (hx : N ≤ x.length) :
    ∃ X y, strft x N S n (some w) = some X ∧ istrft X N S (some w) = some y ∧
      y.length = (x.length - N) / S * S + N ∧ ∀ t, 0 < t → t < y.length → y.getD t 0 = x.getD t 0 := by
  obtain ⟨hl, -⟩ := (C92_exists type N hN).2 w hw
  obtain ⟨X, y, h1, h2, h3, h4, h5, -⟩ := C87_istrft x N S n (some w) hS hN hn he
    (fun v h => by injection h with h; rw [← h]; exact hl) hx
  refine ⟨X, y, h1, h2, h4, fun t h0 ht => h5 t ht ?_⟩
  have hF : 0 < X.length := by rw [h3]; exact Nat.succ_pos _
  exact ne_of_gt (coverage_pos type N S X.length t w hw hN hS hSN hF h0 (by rw [h3]; simpa [h4] using ht))

/-- **C92** (the first sample): the Povey, Hann and Blackman windows start at 0, so the first sample of the signal is
lost: it comes back as 0. -/
theorem C92_first_sample (type : String) (ht : type = "povey" ∨ type = "hanning" ∨ type = "blackman")
    (N S n : Nat) (w x : List ℝ) (hw : window type N = some w) (hN : 1 < N)
    (hS : 0 < S) (hn : N ≤ n) (he : n % 2 = 0) (hx : N ≤ x.length) :
    ∃ X y, strft x N S n (some w) = some X ∧ istrft X N S (some w) = some y ∧ y.getD 0 0 = 0 := by
  obtain ⟨hl, hv⟩ := (C92_exists type N (by omega)).2 w hw
  obtain ⟨X, y, h1, h2, h3, h4, -, h6⟩ := C87_istrft x N S n (some w) hS (by omega) hn he
    (fun v h => by injection h with h; rw [← h]; exact hl) hx
  refine ⟨X, y, h1, h2, h6 0 (by omega) ?_⟩
  have hw0 : w.getD 0 0 = 0 := by
    rw [hv 0 (by omega)]
    have h1 : N ≠ 1 := by omega
    rcases ht with rfl | rfl | rfl
    · simp [windowAt]
      norm_num
    · simp [windowAt, h1]
    · simp [windowAt, h1]
      norm_num
  rw [coverage]
  apply Finset.sum_eq_zero
  intro i _
  rw [show windowOrOnes N (some w) = w from rfl]
  split_ifs with h
  · have : i * S = 0 := by omega
    rw [this]
    exact hw0
  · rfl

example : ∃ w, window "povey" 400 = some w := ((C92_exists "povey" 400 (by decide)).1).1 (Or.inl rfl)

end Hyp.FB
