import Verif.Feats.FilterBank
import Verif.NpLemmas
import Mathlib.Tactic.Ring
import Mathlib.Tactic.Linarith
import Mathlib.Tactic.FieldSimp
import Mathlib.Tactic.Positivity
import Mathlib.Algebra.BigOperators.Intervals

/-! C91: the filter banks. C92: the analysis windows. -/

namespace Hyp.FB

/-! ### The mel scale -/

/-- **C91** (mel scale): the two conversions are inverse to each other. -/
theorem C91_mel_inverse (x : ℝ) (hx : -700 < x) (m : ℝ) : mel2lin (lin2mel x) = x ∧ lin2mel (mel2lin m) = m := by
  constructor
  · rw [mel2lin, lin2mel]
    have h : (1127 * Real.log (1 + x / 700)) / 1127 = Real.log (1 + x / 700) := by ring
    rw [h, Real.exp_log (by linarith)]
    ring
  · rw [mel2lin, lin2mel]
    have h : (1 + 700 * (Real.exp (m / 1127) - 1) / 700) = Real.exp (m / 1127) := by ring
    rw [h, Real.log_exp]
    ring

theorem lin2mel_strictMono {x y : ℝ} (hx : -700 < x) (h : x < y) : lin2mel x < lin2mel y := by
  rw [lin2mel, lin2mel]
  have := Real.log_lt_log (by linarith : 0 < 1 + x / 700) (by linarith : 1 + x / 700 < 1 + y / 700)
  linarith

theorem lin2mel_mono {x y : ℝ} (hx : -700 < x) (h : x ≤ y) : lin2mel x ≤ lin2mel y := by
  rcases h.eq_or_lt with h | h
  · rw [h]
  · exact (lin2mel_strictMono hx h).le

theorem mel2lin_mono {x y : ℝ} (h : x ≤ y) : mel2lin x ≤ mel2lin y := by
  rw [mel2lin, mel2lin]
  have := Real.exp_le_exp.2 (by linarith : x / 1127 ≤ y / 1127)
  linarith

theorem lin2mel_nonneg {x : ℝ} (h : 0 ≤ x) : 0 ≤ lin2mel x := by
  rw [lin2mel]
  have := Real.log_nonneg (by linarith : 1 ≤ 1 + x / 700)
  linarith

/-! ### Triangles -/

theorem triangle_range {l c r m : ℝ} (h1 : l < c) (h2 : c < r) : 0 ≤ triangle l c r m ∧ triangle l c r m ≤ 1 := by
  rw [triangle]
  split_ifs with h h3
  · have : 0 < c - l := by linarith
    exact ⟨div_nonneg (by linarith [h.1]) this.le, (div_le_one this).2 (by linarith)⟩
  · have : 0 < r - c := by linarith
    exact ⟨div_nonneg (by linarith [h.2]) this.le, (div_le_one this).2 (by linarith)⟩
  · exact ⟨le_refl _, zero_le_one⟩

theorem triangle_pos_iff {l c r m : ℝ} (h1 : l < c) (h2 : c < r) : 0 < triangle l c r m ↔ l < m ∧ m < r := by
  rw [triangle]
  split_ifs with h h3
  · exact ⟨fun _ => h, fun _ => div_pos (by linarith [h.1]) (by linarith)⟩
  · exact ⟨fun _ => h, fun _ => div_pos (by linarith [h.2]) (by linarith)⟩
  · exact ⟨fun h' => absurd h' (lt_irrefl _), fun h' => absurd h' h⟩

/-- Specification: the frequency (in Hz) that the code gives to FFT bin `j`. -/
noncomputable def binFreq (fs : ℝ) (n j : Nat) : ℝ := (j : ℝ) * fs / ((n : ℝ) - 1)

/-- Specification: the `i`-th of `nf+2` points equally spaced in mels between the two cut-off frequencies. -/
noncomputable def melPoint (nf : Nat) (low high : ℝ) (i : Nat) : ℝ :=
  lin2mel low + (i : ℝ) * ((lin2mel high - lin2mel low) / ((nf : ℝ) + 1))

theorem linspace_mel (nf : Nat) (low high : ℝ) (i : Nat) :
    linspace (lin2mel low) (lin2mel high) (nf + 2) i = melPoint nf low high i := by
  rw [linspace, if_neg (by omega), melPoint]
  push_cast
  simp

theorem weight_kaldi (nf n : Nat) (fs low high : ℝ) (hn : 1 < n) {j k : Nat} (hk : k < nf) (hj : j < n / 2 + 1) :
    weight (melKaldi nf n fs low high) j k = if j < n / 2 then
      triangle (melPoint nf low (highFreq fs high) k) (melPoint nf low (highFreq fs high) (k + 1))
        (melPoint nf low (highFreq fs high) (k + 2)) (lin2mel (binFreq fs n j)) else 0 := by
  have hb : linspace 0 fs n j = binFreq fs n j := by
    rw [linspace, if_neg (by omega), binFreq]
    push_cast [Nat.cast_sub (by omega : 1 ≤ n)]
    ring
  simp only [weight, melKaldi, List.getD_eq_getElem?_getD, List.getElem?_map, List.getElem?_range hk,
    Option.map_some, Option.getD_some, List.getElem?_range hj, linspace_mel, hb]

theorem melPoint_lt {nf : Nat} {low high : ℝ} (h : -700 < low) (h' : low < high) (i : Nat) :
    melPoint nf low high i < melPoint nf low high (i + 1) := by
  have h1 := lin2mel_strictMono h h'
  have h2 : 0 < (lin2mel high - lin2mel low) / ((nf : ℝ) + 1) := div_pos (by linarith) (by positivity)
  rw [melPoint, melPoint]
  push_cast
  nlinarith

/-- **C91** (Kaldi mel filters): every weight is between 0 and 1, it is positive exactly for the bins (below the last)
whose frequency, in mels, is strictly between the left and the right edge of the filter, the last bin gets no weight,
and the matrix has `fft_length/2+1` bins and `num_filters` filters. -/
theorem C91_kaldi (nf n : Nat) (fs low high : ℝ) (hn : 1 < n) (hlow : -700 < low) (hlt : low < highFreq fs high) :
    (melKaldi nf n fs low high).length = nf ∧
    (∀ k < nf, ((melKaldi nf n fs low high).getD k []).length = n / 2 + 1) ∧
    ∀ (k : Nat), k < nf → ∀ (j : Nat), j < n / 2 + 1 →
      0 ≤ weight (melKaldi nf n fs low high) j k ∧ weight (melKaldi nf n fs low high) j k ≤ 1 ∧
      (0 < weight (melKaldi nf n fs low high) j k ↔ j < n / 2 ∧
        melPoint nf low (highFreq fs high) k < lin2mel (binFreq fs n j) ∧
        lin2mel (binFreq fs n j) < melPoint nf low (highFreq fs high) (k + 2)) := by
  refine ⟨by simp [melKaldi], fun k hk => by simp [melKaldi, List.getD_eq_getElem?_getD, hk], fun k hk j hj => ?_⟩
  have h1 := melPoint_lt (nf := nf) hlow hlt k
  have h2 := melPoint_lt (nf := nf) hlow hlt (k + 1)
  rw [weight_kaldi nf n fs low high hn hk hj]
  split_ifs with hj2
  · obtain ⟨ha, hb⟩ := triangle_range (m := lin2mel (binFreq fs n j)) h1 h2
    refine ⟨ha, hb, ?_⟩
    rw [triangle_pos_iff h1 h2]
    exact ⟨fun h => ⟨hj2, h⟩, fun h => h.2⟩
  · exact ⟨le_refl _, zero_le_one, ⟨fun h => absurd h (lt_irrefl _), fun h => absurd h.1 hj2⟩⟩

/-- On an equally spaced grid the triangles are `max(0, 1 - |u - (k+1)|)`. -/
theorem triangle_unit {lo d : ℝ} (hd : 0 < d) (k : Nat) (m : ℝ) :
    triangle (lo + (k : ℝ) * d) (lo + ((k + 1 : Nat) : ℝ) * d) (lo + ((k + 2 : Nat) : ℝ) * d) m =
      if (k : ℝ) < (m - lo) / d ∧ (m - lo) / d < k + 2 then
        (if (m - lo) / d ≤ k + 1 then (m - lo) / d - k else k + 2 - (m - lo) / d) else 0 := by
  have e : m = lo + (m - lo) / d * d := by field_simp; ring
  set u := (m - lo) / d
  clear_value u
  subst e
  rw [triangle]
  have c1 : (lo + u * d > lo + (k : ℝ) * d ∧ lo + u * d < lo + ((k + 2 : Nat) : ℝ) * d) ↔ ((k : ℝ) < u ∧ u < k + 2) := by
    push_cast
    constructor
    · rintro ⟨h1, h2⟩
      exact ⟨lt_of_mul_lt_mul_right (by linarith) hd.le, lt_of_mul_lt_mul_right (by linarith) hd.le⟩
    · rintro ⟨h1, h2⟩
      have := mul_lt_mul_of_pos_right h1 hd
      have := mul_lt_mul_of_pos_right h2 hd
      constructor <;> linarith
  have c2 : (lo + u * d ≤ lo + ((k + 1 : Nat) : ℝ) * d) ↔ (u ≤ k + 1) := by
    push_cast
    constructor
    · intro h1
      exact le_of_mul_le_mul_right (by linarith) hd
    · intro h1
      have := mul_le_mul_of_nonneg_right h1 hd.le
      linarith
  by_cases h : (k : ℝ) < u ∧ u < k + 2
  · rw [if_pos h, if_pos (c1.2 h)]
    by_cases h' : u ≤ k + 1
    · rw [if_pos h', if_pos (c2.2 h')]
      push_cast
      rw [div_eq_iff (by nlinarith)]
      ring
    · rw [if_neg h', if_neg (fun h'' => h' (c2.1 h''))]
      push_cast
      rw [div_eq_iff (by nlinarith)]
      ring
  · rw [if_neg h, if_neg (fun h' => h (c1.1 h'))]

/-- **C91** (Kaldi mel filters cover the band): for a bin whose frequency lies between the centres of the first and of
the last filter, the weights of all the filters add up to 1. -/
theorem C91_kaldi_partition (nf n : Nat) (fs low high : ℝ) (hn : 1 < n) (hlow : -700 < low)
    (hlt : low < highFreq fs high) (j : Nat) (hj : j < n / 2)
    (h1 : melPoint nf low (highFreq fs high) 1 ≤ lin2mel (binFreq fs n j))
    (h2 : lin2mel (binFreq fs n j) ≤ melPoint nf low (highFreq fs high) nf) (hnf : 0 < nf) :
    ∑ k ∈ Finset.range nf, weight (melKaldi nf n fs low high) j k = 1 := by
  have hd : 0 < (lin2mel (highFreq fs high) - lin2mel low) / ((nf : ℝ) + 1) :=
    div_pos (by linarith [lin2mel_strictMono hlow hlt]) (by positivity)
  have hw : ∀ k ∈ Finset.range nf, weight (melKaldi nf n fs low high) j k =
      triangle (melPoint nf low (highFreq fs high) k) (melPoint nf low (highFreq fs high) (k + 1))
        (melPoint nf low (highFreq fs high) (k + 2)) (lin2mel (binFreq fs n j)) := by
    intro k hk
    rw [weight_kaldi nf n fs low high hn (Finset.mem_range.1 hk) (by omega), if_pos hj]
  rw [Finset.sum_congr rfl hw]
  simp only [melPoint] at h1 h2 ⊢
  set d := (lin2mel (highFreq fs high) - lin2mel low) / ((nf : ℝ) + 1)
  set lo := lin2mel low
  set m := lin2mel (binFreq fs n j)
  clear_value d lo m
  rw [Finset.sum_congr rfl (fun k _ => triangle_unit hd k m)]
  have hu1 : 1 ≤ (m - lo) / d := by
    rw [le_div_iff₀ hd]
    push_cast at h1
    linarith
  have hu2 : (m - lo) / d ≤ nf := by
    rw [div_le_iff₀ hd]
    linarith
  set u := (m - lo) / d
  clear_value u
  obtain ⟨i, hi⟩ : ∃ i : Nat, (i : ℝ) ≤ u ∧ u < i + 1 := by
    refine ⟨⌊u⌋₊, Nat.floor_le (by linarith), ?_⟩
    exact_mod_cast Nat.lt_floor_add_one u
  have hi1 : 1 ≤ i := by
    by_contra hlt'
    have : i = 0 := by omega
    rw [this] at hi
    push_cast at hi
    linarith
  have hcast : ((i - 1 : Nat) : ℝ) = (i : ℝ) - 1 := by push_cast [Nat.cast_sub hi1]; ring
  have hif : (i : ℝ) ≤ nf := by linarith
  have hif' : i ≤ nf := by exact_mod_cast hif
  rcases Nat.lt_or_ge i nf with hlt' | hge
  · rw [Finset.sum_eq_add (i - 1) i (by omega)]
    · rw [hcast]
      by_cases he : u = i
      · rw [he, if_pos (by constructor <;> linarith), if_pos (by linarith), if_neg (by intro h; linarith [h.1])]
        ring
      · have hgt : (i : ℝ) < u := lt_of_le_of_ne hi.1 (Ne.symm he)
        rw [if_pos (by constructor <;> linarith), if_neg (by linarith), if_pos (by constructor <;> linarith),
          if_pos (by linarith)]
        ring
    · intro k hk hne
      rw [if_neg]
      rintro ⟨ha, hb⟩
      have h3 : k < i + 1 := by exact_mod_cast (by linarith : (k : ℝ) < (i : ℝ) + 1)
      have h4 : i < k + 2 := by exact_mod_cast (by linarith : (i : ℝ) < (k : ℝ) + 2)
      omega
    · intro h; exact absurd (Finset.mem_range.2 (by omega)) h
    · intro h; exact absurd (Finset.mem_range.2 hlt') h
  · have hinf : i = nf := by omega
    have hu : u = nf := by
      rw [hinf] at hi
      linarith [hi.1]
    rw [Finset.sum_eq_single (nf - 1)]
    · have : ((nf - 1 : Nat) : ℝ) = (nf : ℝ) - 1 := by push_cast [Nat.cast_sub (by omega : 1 ≤ nf)]; ring
      rw [this, hu, if_pos (by constructor <;> linarith), if_pos (by linarith)]
      ring
    · intro k hk hne
      have hk' := Finset.mem_range.1 hk
      rw [if_neg]
      rintro ⟨ha, hb⟩
      rw [hu] at hb
      have h4 : nf < k + 2 := by exact_mod_cast hb
      omega
    · intro h; exact absurd (Finset.mem_range.2 (by omega)) h

/-- **C91** (the DC bin): with a non-negative low cut-off frequency, no Kaldi mel filter looks at bin 0. -/
theorem C91_kaldi_dc (nf n : Nat) (fs low high : ℝ) (hn : 1 < n) (hlow : 0 ≤ low) (hlt : low < highFreq fs high)
    (k : Nat) (hk : k < nf) : weight (melKaldi nf n fs low high) 0 k = 0 := by
  obtain ⟨-, -, h⟩ := C91_kaldi nf n fs low high hn (by linarith) hlt
  obtain ⟨h1, -, h3⟩ := h k hk 0 (by omega)
  refine le_antisymm (not_lt.1 (fun hp => ?_)) h1
  obtain ⟨-, h4, -⟩ := h3.1 hp
  have h0 : lin2mel (binFreq fs n 0) = 0 := by simp [binFreq, lin2mel]
  rw [h0, melPoint] at h4
  have h5 := lin2mel_nonneg hlow
  have h6 : 0 ≤ (lin2mel (highFreq fs high) - lin2mel low) / ((nf : ℝ) + 1) :=
    div_nonneg (by linarith [lin2mel_strictMono (by linarith) hlt]) (by positivity)
  have : 0 ≤ (k : ℝ) * ((lin2mel (highFreq fs high) - lin2mel low) / ((nf : ℝ) + 1)) := by positivity
  linarith

/-- **C91** (negation): the frequency the code gives to bin `j` is `j*fs/(fft_length-1)`, not that of the FFT bin,
`j*fs/fft_length`: with an FFT of 4 points at 6 Hz and a filter from 0 to 2 Hz, bin 1 (1.5 Hz) is inside the filter and
gets no weight. -/
theorem C91_kaldi_bin_frequency_wrong :
    weight (melKaldi 1 4 6 0 2) 1 0 = 0 ∧
      0 < triangle (melPoint 1 0 2 0) (melPoint 1 0 2 1) (melPoint 1 0 2 2) (lin2mel (1 * 6 / 4)) := by
  have hh : highFreq 6 2 = 2 := by simp [highFreq]
  constructor
  · obtain ⟨-, -, h⟩ := C91_kaldi 1 4 6 0 2 (by decide) (by norm_num) (by rw [hh]; norm_num)
    obtain ⟨h1, -, h3⟩ := h 0 (by decide) 1 (by decide)
    refine le_antisymm (not_lt.1 (fun hp => ?_)) h1
    obtain ⟨-, -, h4⟩ := h3.1 hp
    rw [hh] at h4
    have : binFreq 6 4 1 = 2 := by rw [binFreq]; norm_num
    rw [this, melPoint] at h4
    push_cast at h4
    have h0 : lin2mel 0 = 0 := by simp [lin2mel]
    rw [h0] at h4
    linarith
  · have h1 := melPoint_lt (nf := 1) (low := 0) (high := 2) (by norm_num) (by norm_num)
    rw [triangle_pos_iff (h1 0) (h1 1)]
    have h0 : lin2mel 0 = 0 := by simp [lin2mel]
    constructor
    · rw [melPoint, h0]
      have := lin2mel_strictMono (x := 0) (y := 1 * 6 / 4) (by norm_num) (by norm_num)
      rw [h0] at this
      simpa using this
    · rw [melPoint, h0]
      have := lin2mel_strictMono (x := 1 * 6 / 4) (y := 2) (by norm_num) (by norm_num)
      push_cast
      linarith

/-! ### Bin filters -/

theorem setIdx_ok {l : List ℝ} {j : Nat} (h : j < l.length) (v : ℝ) : setIdx l (j : Int) v = some (l.set j v) := by
  rw [setIdx, if_pos (by omega)]
  simp

/-- Filling the bins `a .. a+m-1`. -/
theorem fillLoop_spec (f : Int → ℝ) : ∀ (m a : Nat) (l : List ℝ), a + m ≤ l.length →
    ∃ l', fillLoop f m (a : Int) l = some l' ∧ l'.length = l.length ∧
      ∀ j : Nat, l'.getD j 0 = if a ≤ j ∧ j < a + m then f (j : Int) else l.getD j 0
  | 0, a, l, _ => ⟨l, rfl, rfl, fun j => by rw [if_neg (by omega)]⟩
  | m + 1, a, l, h => by
    obtain ⟨l', h1, h2, h3⟩ := fillLoop_spec f m (a + 1) (l.set a (f (a : Int))) (by simp; omega)
    refine ⟨l', ?_, by simpa using h2, fun j => ?_⟩
    · rw [fillLoop, setIdx_ok (by omega)]
      simpa using h1
    · rw [h3]
      by_cases hja : j = a
      · subst hja
        rw [if_neg (by omega), if_pos (by omega)]
        have : j < l.length := by omega
        simp [List.getD_eq_getElem?_getD, this]
      · have e : (l.set a (f (a : Int))).getD j 0 = l.getD j 0 := by
          simp [List.getD_eq_getElem?_getD, List.getElem?_set_ne (Ne.symm hja)]
        rw [e]
        by_cases h4 : a + 1 ≤ j ∧ j < a + 1 + m
        · rw [if_pos h4, if_pos (by omega)]
        · rw [if_neg h4, if_neg (by omega)]

/-- One bin filter: its weights. -/
theorem binFilter_spec (rows a b c : Nat) (hab : a ≤ b) (hbc : b ≤ c) (hc : c < rows) :
    ∃ l, binFilter rows (a : Int) (b : Int) (c : Int) = some l ∧ l.length = rows ∧
      ∀ j : Nat, l.getD j 0 =
        if a ≤ j ∧ j ≤ b then ((j : ℝ) - a + 1) / ((b : ℝ) - a + 1)
        else if b < j ∧ j ≤ c then ((c : ℝ) - j + 1) / ((c : ℝ) - b + 1) else 0 := by
  obtain ⟨l1, h1, hl1, hg1⟩ := fillLoop_spec
    (fun j => ((j - (a : Int) + 1 : Int) : ℝ) / (((b : Int) - (a : Int) + 1 : Int) : ℝ)) (b + 1 - a) a
    (List.replicate rows 0) (by simp; omega)
  obtain ⟨l2, h2, hl2, hg2⟩ := fillLoop_spec
    (fun j => (((c : Int) - j + 1 : Int) : ℝ) / (((c : Int) - (b : Int) + 1 : Int) : ℝ)) (c - b) (b + 1) l1
    (by rw [hl1]; simp; omega)
  refine ⟨l2, ?_, by rw [hl2, hl1]; simp, fun j => ?_⟩
  · rw [binFilter]
    have e1 : ((b : Int) + 1 - (a : Int)).toNat = b + 1 - a := by omega
    have e2 : ((c : Int) - (b : Int)).toNat = c - b := by omega
    rw [e1, e2, h1]
    simpa using h2
  · rw [hg2, hg1]
    have h0 : (List.replicate rows (0 : ℝ)).getD j 0 = 0 := by
      simp only [List.getD_eq_getElem?_getD, List.getElem?_replicate]
      split_ifs <;> simp
    rw [h0]
    by_cases hj : a ≤ j ∧ j ≤ b
    · rw [if_neg (by omega), if_pos (by omega), if_pos hj]
      push_cast
      rfl
    · rw [if_neg hj]
      by_cases hj2 : b < j ∧ j ≤ c
      · rw [if_pos (by omega), if_pos hj2]
        push_cast
        rfl
      · rw [if_neg (by omega), if_neg (by omega), if_neg hj2]

/-- The filters built on non-decreasing bins inside the spectrum. -/
theorem binFilters_spec (nf n : Nat) (cbin : Nat → Int) (h0 : 0 ≤ cbin 0) (hm : ∀ i ≤ nf, cbin i ≤ cbin (i + 1))
    (hmax : cbin (nf + 1) ≤ (n / 2 : Nat)) :
    ∃ B, binFilters nf n cbin = some B ∧ B.length = nf ∧ (∀ k < nf, (B.getD k []).length = n / 2 + 1) ∧
      (∀ i ≤ nf + 1, 0 ≤ cbin i ∧ cbin i ≤ (n / 2 : Nat)) ∧
      ∀ k < nf, ∀ j : Nat, weight B j k =
        if cbin k ≤ j ∧ (j : Int) ≤ cbin (k + 1) then ((j : ℝ) - cbin k + 1) / ((cbin (k + 1) : ℝ) - cbin k + 1)
        else if cbin (k + 1) < (j : Int) ∧ (j : Int) ≤ cbin (k + 2) then
          ((cbin (k + 2) : ℝ) - j + 1) / ((cbin (k + 2) : ℝ) - cbin (k + 1) + 1) else 0 := by
  have hup : ∀ i ≤ nf + 1, 0 ≤ cbin i := by
    intro i
    induction i with
    | zero => intro _; exact h0
    | succ i ih => intro hi; have := ih (by omega); have := hm i (by omega); omega
  have hdn : ∀ m i, i + m = nf + 1 → cbin i ≤ (n / 2 : Nat) := by
    intro m
    induction m with
    | zero => intro i hi; have : i = nf + 1 := by omega
              rw [this]; exact hmax
    | succ m ih => intro i hi; have := ih (i + 1) (by omega); have := hm i (by omega); omega
  have hbnd : ∀ i ≤ nf + 1, 0 ≤ cbin i ∧ cbin i ≤ (n / 2 : Nat) := fun i hi => ⟨hup i hi, hdn (nf + 1 - i) i (by omega)⟩
  have key : ∀ k < nf, ∃ l, binFilter (n / 2 + 1) (cbin k) (cbin (k + 1)) (cbin (k + 2)) = some l ∧
      l.length = n / 2 + 1 ∧ ∀ j : Nat, l.getD j 0 =
        if cbin k ≤ j ∧ (j : Int) ≤ cbin (k + 1) then ((j : ℝ) - cbin k + 1) / ((cbin (k + 1) : ℝ) - cbin k + 1)
        else if cbin (k + 1) < (j : Int) ∧ (j : Int) ≤ cbin (k + 2) then
          ((cbin (k + 2) : ℝ) - j + 1) / ((cbin (k + 2) : ℝ) - cbin (k + 1) + 1) else 0 := by
    intro k hk
    obtain ⟨a, ha⟩ := Int.eq_ofNat_of_zero_le (hup k (by omega))
    obtain ⟨b, hb⟩ := Int.eq_ofNat_of_zero_le (hup (k + 1) (by omega))
    obtain ⟨c, hc⟩ := Int.eq_ofNat_of_zero_le (hup (k + 2) (by omega))
    have h1 := hm k (by omega)
    have h2 := hm (k + 1) (by omega)
    have h3 := (hbnd (k + 2) (by omega)).2
    rw [show k + 1 + 1 = k + 2 by rfl] at h2
    rw [ha, hb] at h1
    rw [hb, hc] at h2
    rw [hc] at h3
    obtain ⟨l, hl1, hl2, hl3⟩ := binFilter_spec (n / 2 + 1) a b c (by omega) (by omega) (by omega)
    refine ⟨l, by rw [ha, hb, hc]; exact hl1, hl2, fun j => ?_⟩
    rw [hl3, ha, hb, hc]
    simp only [Nat.cast_le, Nat.cast_lt, Int.cast_natCast]
  choose! L hL1 hL2 hL3 using key
  refine ⟨(List.range nf).map L, ?_, by simp, fun k hk => ?_, hbnd, fun k hk j => ?_⟩
  · rw [binFilters, mapM_eq_some_iff, List.map_map]
    refine List.map_congr_left (fun k hk => ?_)
    exact hL1 k (List.mem_range.1 hk)
  · simp [List.getD_eq_getElem?_getD, hk, hL2 k hk]
  · rw [weight]
    have : ((List.range nf).map L).getD k [] = L k := by simp [List.getD_eq_getElem?_getD, hk]
    rw [this, hL3 k hk]

/-- What a user expects of a bank of triangular filters centred at FFT bins. -/
structure IsBinBank (nf n : Nat) (cbin : Nat → Int) (B : List (List ℝ)) : Prop where
  filters : B.length = nf
  bins : ∀ k < nf, (B.getD k []).length = n / 2 + 1
  mono : ∀ i ≤ nf, cbin i ≤ cbin (i + 1)
  range : ∀ k < nf, ∀ j : Nat, 0 ≤ weight B j k ∧ weight B j k ≤ 1
  support : ∀ k < nf, ∀ j : Nat, 0 < weight B j k ↔ cbin k ≤ j ∧ (j : Int) ≤ cbin (k + 2)
  peak : ∀ k < nf, weight B (cbin (k + 1)).toNat k = 1

theorem isBinBank (nf n : Nat) (cbin : Nat → Int) (h0 : 0 ≤ cbin 0) (hm : ∀ i ≤ nf, cbin i ≤ cbin (i + 1))
    (hmax : cbin (nf + 1) ≤ (n / 2 : Nat)) : ∃ B, binFilters nf n cbin = some B ∧ IsBinBank nf n cbin B := by
  obtain ⟨B, hB, hl, hr, hb, hw⟩ := binFilters_spec nf n cbin h0 hm hmax
  refine ⟨B, hB, ⟨hl, hr, hm, fun k hk j => ?_, fun k hk j => ?_, fun k hk => ?_⟩⟩
  · have h1 := hm k (by omega)
    have h2 := hm (k + 1) (by omega)
    have h1' : (cbin k : ℝ) ≤ cbin (k + 1) := by exact_mod_cast h1
    have h2' : (cbin (k + 1) : ℝ) ≤ cbin (k + 2) := by exact_mod_cast h2
    rw [hw k hk]
    split_ifs with ha hc
    · have h3 : (cbin k : ℝ) ≤ j := by exact_mod_cast ha.1
      have h4 : (j : ℝ) ≤ cbin (k + 1) := by exact_mod_cast ha.2
      exact ⟨div_nonneg (by linarith) (by linarith), (div_le_one (by linarith)).2 (by linarith)⟩
    · have h3 : (cbin (k + 1) : ℝ) < j := by exact_mod_cast hc.1
      have h4 : (j : ℝ) ≤ cbin (k + 2) := by exact_mod_cast hc.2
      exact ⟨div_nonneg (by linarith) (by linarith), (div_le_one (by linarith)).2 (by linarith)⟩
    · exact ⟨le_refl _, zero_le_one⟩
  · have h1 := hm k (by omega)
    have h2 := hm (k + 1) (by omega)
    rw [show k + 1 + 1 = k + 2 by rfl] at h2
    have h1' : (cbin k : ℝ) ≤ cbin (k + 1) := by exact_mod_cast h1
    have h2' : (cbin (k + 1) : ℝ) ≤ cbin (k + 2) := by exact_mod_cast h2
    rw [hw k hk]
    split_ifs with ha hc
    · have h3 : (cbin k : ℝ) ≤ j := by exact_mod_cast ha.1
      exact ⟨fun _ => ⟨ha.1, by omega⟩, fun _ => div_pos (by linarith) (by linarith)⟩
    · have h4 : (j : ℝ) ≤ cbin (k + 2) := by exact_mod_cast hc.2
      exact ⟨fun _ => ⟨by omega, hc.2⟩, fun _ => div_pos (by linarith) (by linarith)⟩
    · exact ⟨fun h => absurd h (lt_irrefl _), fun h => by omega⟩
  · have h1 := hm k (by omega)
    obtain ⟨b, hbb⟩ := Int.eq_ofNat_of_zero_le (hb (k + 1) (by omega)).1
    have h1' : (cbin k : ℝ) ≤ cbin (k + 1) := by exact_mod_cast h1
    rw [hw k hk, hbb]
    rw [hbb] at h1 h1'
    simp only [Int.toNat_natCast]
    rw [if_pos ⟨h1, le_refl _⟩]
    apply div_self
    rw [Int.cast_natCast] at h1'
    have : 0 < (b : ℝ) - (cbin k : ℝ) + 1 := by linarith
    exact ne_of_gt this

theorem linspace_mono {a b : ℝ} (h : a ≤ b) (n i : Nat) : linspace a b n i ≤ linspace a b n (i + 1) := by
  rw [linspace, linspace]
  split_ifs
  · exact le_refl _
  · have : 0 ≤ (b - a) / ((n - 1 : Nat) : ℝ) := div_nonneg (by linarith) (by positivity)
    push_cast
    nlinarith

theorem linspace_zero (a b : ℝ) (n : Nat) : linspace a b n 0 = a := by rw [linspace]; split_ifs <;> simp

theorem linspace_last (a b : ℝ) (nf : Nat) : linspace a b (nf + 2) (nf + 1) = b := by
  rw [linspace, if_neg (by omega)]
  have : ((nf + 2 - 1 : Nat) : ℝ) = (nf : ℝ) + 1 := by push_cast; simp
  rw [this]
  have : ((nf : ℝ) + 1) ≠ 0 := by positivity
  push_cast
  field_simp
  ring

theorem half_le {n : Nat} (he : n % 2 = 0) {fs f : ℝ} (hfs : 0 < fs) (hf : f ≤ fs / 2) :
    roundEven (f / fs * (n : ℝ)) ≤ (n / 2 : Nat) := by
  apply roundEven_le
  have h2 : (n : ℝ) = 2 * ((n / 2 : Nat) : ℝ) := by
    have : n = 2 * (n / 2) := by omega
    exact_mod_cast this
  rw [h2]
  have h3 : f / fs ≤ 1 / 2 := by
    rw [div_le_iff₀ hfs]
    linarith
  have h4 : (0 : ℝ) ≤ ((n / 2 : Nat) : ℝ) := Nat.cast_nonneg _
  rw [Int.cast_natCast]
  nlinarith

/-- **C91** (linear filters): for an even FFT length and `0 ≤ low ≤ high ≤ fs/2` the linear filter bank exists; its
weights are in [0,1], positive exactly from the left edge bin to the right edge bin, 1 at the centre bin. -/
theorem C91_linear (nf n : Nat) (fs low high : ℝ) (he : n % 2 = 0) (hfs : 0 < fs) (h0 : 0 ≤ low)
    (h1 : low ≤ highFreq fs high) (h2 : highFreq fs high ≤ fs / 2) :
    ∃ B, linear nf n fs low high = some B ∧ IsBinBank nf n (cbinLinear nf n fs low high) B := by
  have hn0 : (0 : ℝ) ≤ (n : ℝ) := by positivity
  refine isBinBank nf n _ ?_ (fun i _ => ?_) ?_
  · rw [cbinLinear, linspace_zero]
    apply le_roundEven
    push_cast
    positivity
  · rw [cbinLinear, cbinLinear]
    apply roundEven_mono
    exact mul_le_mul_of_nonneg_right (div_le_div_of_nonneg_right (linspace_mono h1 _ _) hfs.le) hn0
  · rw [cbinLinear, linspace_last]
    exact half_le he hfs h2

/-- **C91** (ETSI mel filters): the same for `mel_etsi`. -/
theorem C91_etsi (nf n : Nat) (fs low high : ℝ) (he : n % 2 = 0) (hfs : 0 < fs) (h0 : 0 ≤ low)
    (h1 : low ≤ highFreq fs high) (h2 : highFreq fs high ≤ fs / 2) :
    ∃ B, melEtsi nf n fs low high = some B ∧ IsBinBank nf n (cbinEtsi nf n fs low high) B := by
  have hn0 : (0 : ℝ) ≤ (n : ℝ) := by positivity
  have hm := lin2mel_mono (by linarith : -700 < low) h1
  refine isBinBank nf n _ ?_ (fun i _ => ?_) ?_
  · rw [cbinEtsi, linspace_zero, (C91_mel_inverse low (by linarith) 0).1]
    apply le_roundEven
    push_cast
    positivity
  · rw [cbinEtsi, cbinEtsi]
    apply roundEven_mono
    exact mul_le_mul_of_nonneg_right (div_le_div_of_nonneg_right (mel2lin_mono (linspace_mono hm _ _)) hfs.le) hn0
  · rw [cbinEtsi, linspace_last, (C91_mel_inverse (highFreq fs high) (by linarith) 0).1]
    exact half_le he hfs h2

theorem sum_getD (l : List ℝ) : l.sum = ∑ j ∈ Finset.range l.length, l.getD j 0 := by
  induction l with
  | nil => simp
  | cons a l ih =>
    rw [List.sum_cons, List.length_cons, Finset.sum_range_succ', ih, add_comm]
    simp

/-- **C91** (every bin filter picks something up): each column of a bin bank has a positive sum. -/
theorem colsum_pos {nf n : Nat} {cbin : Nat → Int} {B : List (List ℝ)} (hB : IsBinBank nf n cbin B) {k : Nat}
    (hk : k < nf) : 0 < (B.getD k []).sum := by
  rw [sum_getD]
  have hp := hB.peak k hk
  rw [weight] at hp
  have hlt : (cbin (k + 1)).toNat < (B.getD k []).length := by
    by_contra hge
    rw [List.getD_eq_getElem?_getD, List.getElem?_eq_none (by omega)] at hp
    simp at hp
  apply Finset.sum_pos'
  · intro j _
    exact (hB.range k hk j).1
  · exact ⟨_, Finset.mem_range.2 hlt, by rw [hp]; norm_num⟩

theorem sum_map_div (l : List ℝ) (s : ℝ) : (l.map (fun a => a / s)).sum = l.sum / s := by
  induction l with
  | nil => simp
  | cons a l ih => simp [ih, add_div]

/-- **C91** (normalised filters): with `norm_filters` the weights of every filter that picks something up add up to 1;
with the linear and ETSI banks that is every filter. -/
theorem C91_norm (B : List (List ℝ)) (k : Nat) (hk : k < B.length) (h : (B.getD k []).sum ≠ 0) :
    ((normCols B).getD k []).sum = 1 := by
  have : (normCols B).getD k [] = (B.getD k []).map (fun a => a / (B.getD k []).sum) := by
    simp [normCols, List.getD_eq_getElem?_getD, hk]
  rw [this, sum_map_div, div_self h]

theorem C91_norm_bin {nf n : Nat} {fs low high : ℝ} (he : n % 2 = 0) (hfs : 0 < fs) (h0 : 0 ≤ low)
    (h1 : low ≤ highFreq fs high) (h2 : highFreq fs high ≤ fs / 2) (type : String)
    (ht : type = "mel_etsi" ∨ type = "linear") :
    ∃ B, create type nf n fs low high true = some B ∧ B.length = nf ∧ ∀ k < nf, (B.getD k []).sum = 1 := by
  rcases ht with rfl | rfl
  · obtain ⟨B, hB, hbank⟩ := C91_etsi nf n fs low high he hfs h0 h1 h2
    refine ⟨normCols B, by simp [create, hB], by simp [normCols, hbank.filters], fun k hk => ?_⟩
    exact C91_norm B k (by rw [hbank.filters]; exact hk) (ne_of_gt (colsum_pos hbank hk))
  · obtain ⟨B, hB, hbank⟩ := C91_linear nf n fs low high he hfs h0 h1 h2
    refine ⟨normCols B, by simp [create, hB], by simp [normCols, hbank.filters], fun k hk => ?_⟩
    exact C91_norm B k (by rw [hbank.filters]; exact hk) (ne_of_gt (colsum_pos hbank hk))

/-- **C91** (odd FFT length, negation): up to the Nyquist frequency with an odd FFT length the centre bin of the last
edge can round up past the spectrum: 3 points, one filter from 0 to fs/2 raises. -/
theorem C91_odd_fft_raises : linear 1 3 2 0 0 = none := by
  have hh : highFreq 2 0 = 1 := by simp [highFreq]
  have h0 : cbinLinear 1 3 2 0 0 0 = 0 := by
    rw [cbinLinear, linspace_zero]
    have := roundEven_int (K := ℝ) 0
    simpa using this
  have hfl : ∀ (x : ℝ) (m : Int), (m : ℝ) ≤ x → x < m + 1 → ⌊x⌋ = m := fun x m h1 h2 => Int.floor_eq_iff.2 ⟨h1, h2⟩
  have h1 : cbinLinear 1 3 2 0 0 1 = 1 := by
    rw [cbinLinear, hh, linspace]
    norm_num
    rw [roundEven, hfl (3 / 4) 0 (by norm_num) (by norm_num)]
    norm_num
  have h2 : cbinLinear 1 3 2 0 0 2 = 2 := by
    rw [cbinLinear, hh, linspace]
    norm_num
    rw [roundEven, hfl (3 / 2) 1 (by norm_num) (by norm_num)]
    norm_num
  rw [linear, binFilters]
  simp only [List.range_one, List.mapM_cons, List.mapM_nil, Nat.zero_add, h0, h1, h2]
  simp [binFilter, fillLoop, setIdx]

/-- Non-vacuity: an 8 kHz bank of 3 linear filters on 8 points. -/
example : ∃ B, linear 3 8 8000 20 0 = some B ∧ IsBinBank 3 8 (cbinLinear 3 8 8000 20 0) B :=
  C91_linear 3 8 8000 20 0 (by decide) (by norm_num) (by norm_num) (by simp [highFreq]; norm_num)
    (by simp [highFreq])

end Hyp.FB
