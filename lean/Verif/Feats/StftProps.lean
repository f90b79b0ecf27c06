import Verif.Feats.StftLemmas

/-!
C86: the number and position of the short-time frames. C87: `istft(stft(x))` and `istrft(strft(x))` return the signal.
-/

namespace Hyp.Stft

/-- Specification: the sum of the analysis windows over sample `t` when `F` windows `w` are placed at `0, S, 2S, ...`. -/
def coverage (w : List ℝ) (S F t : Nat) : ℝ :=
  ∑ i ∈ Finset.range F, if i * S ≤ t ∧ t < i * S + w.length then w.getD (t - i * S) 0 else 0

/-- Specification: the `i`-th frame of the signal. -/
def frame (x : List ℝ) (L S i : Nat) : List ℝ := (List.range L).map (fun u => x.getD (i * S + u) 0)

/-- A window argument is valid if it is absent or has the frame length. -/
def WinOk (L : Nat) (w : Option (List ℝ)) : Prop := ∀ v, w = some v → v.length = L

theorem winOr1_bmul {L : Nat} {w : Option (List ℝ)} (hw : WinOk L w) {fr : List ℝ} (hf : fr.length = L) :
    bmul fr (windowOr1 w) = some (List.zipWith (· * ·) fr (windowOrOnes L w)) := by
  cases w with
  | some v =>
    have hv := hw v rfl
    have h : fr.length = v.length := by omega
    simp [windowOr1, windowOrOnes, bmul, h]
  | none =>
    simp only [windowOr1, windowOrOnes, Option.getD_none, bmul]
    have h1 : List.zipWith (· * ·) fr (List.replicate L (1 : ℝ)) = fr := by
      apply List.ext_getElem
      · simp [hf]
      · intro i h1 h2; simp
    rw [h1]
    by_cases hL : fr.length = 1
    · match fr, hL with
      | [a], _ => simp
    · simp [hL]

theorem windowOrOnes_length {L : Nat} {w : Option (List ℝ)} (hw : WinOk L w) : (windowOrOnes L w).length = L := by
  cases w with
  | some v => exact hw v rfl
  | none => simp [windowOrOnes]

theorem frame_eq (x : List ℝ) {L S i : Nat} (h : i * S + L ≤ x.length) :
    (x.drop (i * S)).take L = frame x L S i := by
  apply List.ext_getElem
  · simp [frame]; omega
  · intro u h1 h2
    have h3 : u < L := by simpa [frame] using h2
    have h4 : i * S + u < x.length := by omega
    simp [frame, List.getD_eq_getElem?_getD, h4]

theorem frames_fit {len L S i : Nat} (hL : L ≤ len) (hi : i < (len - L) / S + 1) : i * S + L ≤ len := by
  have h1 : i * S ≤ (len - L) / S * S := Nat.mul_le_mul_right _ (by omega)
  have h2 := Nat.div_mul_le_self (len - L) S
  omega

/-- **C86** (every short-time function uses the same frames): the signal frames are the complete windows that fit:
`F` frames starting at `0, S, 2S, ...`, all inside the signal, and one more would not fit. Applied to any per-frame
computation `f` (Fourier transform in `stft`/`strft`, energy in `st_logE`). -/
theorem C86_frames {α : Type} (f : List ℝ → Option α) (x : List ℝ) (L S : Nat) (hS : 0 < S) (hL : L ≤ x.length) :
    ∃ F : Nat, 0 < F ∧ (∀ i < F, i * S + L ≤ x.length) ∧ x.length < F * S + L ∧
      frameMap f x L S = (List.range F).mapM (fun i => f (frame x L S i)) := by
  refine ⟨(x.length - L) / S + 1, Nat.succ_pos _, fun i hi => frames_fit hL hi, ?_, ?_⟩
  · have := Nat.lt_div_mul_add (a := x.length - L) hS
    rw [Nat.add_mul]
    omega
  · rw [frameMap_of_le f x hS hL]
    have hcongr : ∀ l : List Nat, (∀ i ∈ l, i < (x.length - L) / S + 1) →
        l.mapM (fun i : Nat => f ((x.drop (i * S)).take L)) = l.mapM (fun i => f (frame x L S i)) := by
      intro l
      induction l with
      | nil => intro _; rfl
      | cons a l ih =>
        intro h
        rw [List.mapM_cons, List.mapM_cons, ih (fun i hi => h i (by simp [hi])),
          frame_eq x (frames_fit hL (h a (by simp)))]
    exact hcongr _ (fun i hi => List.mem_range.1 hi)

/-- **C86** (short signals): a signal shorter than one window gives no frames if it is at most one shift too short,
and otherwise the functions raise instead of returning no frames. -/
theorem C86_short {α : Type} (f : List ℝ → Option α) (x : List ℝ) (L S : Nat) (hS : 0 < S) (hL : x.length < L) :
    frameMap f x L S = if L ≤ x.length + S then some [] else none := by
  split_ifs with h
  · exact frameMap_short f x hS hL h
  · exact frameMap_too_short f x hS (by omega)

/-- **C86** (log energy): entry `i` of `st_logE` is the logarithm of the energy of frame `i`. -/
theorem C86_logE (x : List ℝ) (L S : Nat) (hS : 0 < S) (hL : L ≤ x.length) :
    stLogE x L S = some ((List.range ((x.length - L) / S + 1)).map
      (fun i => Real.log ((∑ u ∈ Finset.range L, x.getD (i * S + u) 0 ^ 2) + 1e-15))) := by
  rw [stLogE, frameMap_of_le _ x hS hL]
  have h : (List.range ((x.length - L) / S + 1)).mapM
      (fun i : Nat => some ((((x.drop (i * S)).take L).map (fun a => a ^ 2)).sum)) =
      some ((List.range ((x.length - L) / S + 1)).map (fun i => ∑ u ∈ Finset.range L, x.getD (i * S + u) 0 ^ 2)) := by
    rw [mapM_eq_some_iff, List.map_map]
    refine List.map_congr_left (fun i hi => ?_)
    rw [frame_eq x (frames_fit hL (List.mem_range.1 hi)), frame, List.map_map]
    simp only [Function.comp, sum_range_list]
  rw [h]
  simp [Function.comp_def]

/-! ### C87 -/

theorem contrib_replicate (w : List ℝ) (S F t : Nat) {L : Nat} (hw : w.length = L) :
    contrib L S (List.replicate F w) 0 t = coverage w S F t := by
  subst hw
  rw [contrib, coverage, List.length_replicate]
  refine Finset.sum_congr rfl (fun i hi => ?_)
  have := Finset.mem_range.1 hi
  simp [List.getD_eq_getElem?_getD, this]

/-- What the frames of the analysis add up to. -/
theorem contrib_frames {K : Type} [CommRing K] (φ : ℝ →+* K) (x w : List ℝ) (S F t : Nat) :
    contrib w.length S ((List.range F).map (fun i : Nat => (List.range w.length).map
      (fun u : Nat => φ (x.getD (i * S + u) 0 * w.getD u 0)))) 0 t = φ (x.getD t 0 * coverage w S F t) := by
  rw [contrib, coverage, Finset.mul_sum, map_sum]
  simp only [List.length_map, List.length_range, Nat.zero_add]
  refine Finset.sum_congr rfl (fun i hi => ?_)
  have hi' := Finset.mem_range.1 hi
  by_cases h : i * S ≤ t ∧ t < i * S + w.length
  · rw [if_pos h, if_pos h]
    have h1 : t - i * S < w.length := by omega
    have h2 : i * S + (t - i * S) = t := by omega
    simp [List.getD_eq_getElem?_getD, hi', h1, h2]
  · rw [if_neg h, if_neg h]
    simp

theorem numSamples_pos {F L S : Nat} (hF : 0 < F) : numSamples F L S = some ((F - 1) * S + L) := by
  have h : ((F : Int) - 1) * S + L = (((F - 1) * S + L : Nat) : Int) := by
    push_cast
    rw [Int.ofNat_sub (by omega : 1 ≤ F)]
    rfl
  rw [numSamples, h, if_neg (Int.not_lt.2 (Int.natCast_nonneg _)), Int.toNat_natCast]

theorem getD_zipWith_mul (x w : List ℝ) {L S i u : Nat} (hw : w.length = L) :
    (List.zipWith (· * ·) (frame x L S i) w).getD u 0 =
      if u < L then x.getD (i * S + u) 0 * w.getD u 0 else 0 := by
  simp only [List.getD_eq_getElem?_getD, List.getElem?_zipWith, frame, List.getElem?_map]
  split_ifs with h
  · rw [List.getElem?_range h, List.getElem?_eq_getElem (by omega : u < w.length)]
    simp
  · rw [List.getElem?_eq_none (l := List.range L) (by simp; omega)]
    simp

/-- The result of the overlap-add of the windowed frames. -/
theorem overlap_result {K : Type} [Field K] (φ : ℝ →+* K) (x w : List ℝ) (S F : Nat) (hF : 0 < F) :
    ∃ xo wo, overlapLoop w.length S w ((List.range F).map (fun i : Nat => (List.range w.length).map
        (fun u : Nat => φ (x.getD (i * S + u) 0 * w.getD u 0)))) 0
        (List.replicate ((F - 1) * S + w.length) 0) (List.replicate ((F - 1) * S + w.length) 0) = some (xo, wo) ∧
      xo.length = (F - 1) * S + w.length ∧ wo.length = (F - 1) * S + w.length ∧
      (∀ t, xo.getD t 0 = φ (x.getD t 0 * coverage w S F t)) ∧ (∀ t, wo.getD t 0 = coverage w S F t) := by
  obtain ⟨xo, wo, h, h1, h2, h3, h4⟩ := overlapLoop_spec w.length S w rfl
    ((List.range F).map (fun i : Nat => (List.range w.length).map
        (fun u : Nat => φ (x.getD (i * S + u) 0 * w.getD u 0)))) 0
    (List.replicate ((F - 1) * S + w.length) (0 : K)) (List.replicate ((F - 1) * S + w.length) 0)
    (by simp) (by simp) (by simp)
  refine ⟨xo, wo, h, by simpa using h1, by simpa using h2, fun t => ?_, fun t => ?_⟩
  · rw [h3, contrib_frames]
    have : (List.replicate ((F - 1) * S + w.length) (0 : K)).getD t 0 = 0 := by
      simp only [List.getD_eq_getElem?_getD, List.getElem?_replicate]
      split_ifs <;> simp
    rw [this, zero_add]
  · rw [h4, List.length_map, List.length_range, contrib_replicate _ _ _ _ rfl]
    have : (List.replicate ((F - 1) * S + w.length) (0 : ℝ)).getD t 0 = 0 := by
      simp only [List.getD_eq_getElem?_getD, List.getElem?_replicate]
      split_ifs <;> simp
    rw [this, zero_add]

theorem inv_frames {K : Type} (φ : ℝ → K) (x w : List ℝ) {L S n i : Nat} (hw : w.length = L)
    (hn : L ≤ n) :
    (((List.range n).map (fun t => φ ((List.zipWith (· * ·) (frame x L S i) w).getD t 0))).take L) =
      (List.range L).map (fun u : Nat => φ (x.getD (i * S + u) 0 * w.getD u 0)) := by
  rw [← List.map_take, List.take_range, Nat.min_eq_left hn]
  refine List.map_congr_left (fun u hu => ?_)
  rw [getD_zipWith_mul x w hw, if_pos (List.mem_range.1 hu)]

/-- **C87**: for any signal of at least one window, any shift, any window of the frame length (or none) and any FFT
length that holds a frame, `istft(stft(x))` succeeds, is as long as the part of the signal the frames cover, and equals
the signal at every sample where the windows do not add up to zero (there it is 0). -/
theorem C87_istft (x : List ℝ) (L S n : Nat) (w : Option (List ℝ)) (hS : 0 < S) (hL : 0 < L) (hn : L ≤ n)
    (hw : WinOk L w) (hx : L ≤ x.length) :
    ∃ X y, stft x L S n w = some X ∧ istft X L S w = some y ∧
      X.length = (x.length - L) / S + 1 ∧ y.length = (x.length - L) / S * S + L ∧
      (∀ t < y.length, coverage (windowOrOnes L w) S X.length t ≠ 0 → y.getD t 0 = ((x.getD t 0 : ℝ) : ℂ)) ∧
      (∀ t < y.length, coverage (windowOrOnes L w) S X.length t = 0 → y.getD t 0 = 0) := by
  have hn0 : n ≠ 0 := by omega
  set W := windowOrOnes L w with hWdef
  have hWl : W.length = L := windowOrOnes_length hw
  set F := (x.length - L) / S + 1 with hFdef
  have hF : 0 < F := Nat.succ_pos _
  -- the analysis
  choose A hA hAi using fun i : Nat =>
    ifft_fft ((List.zipWith (· * ·) (frame x L S i) W).map Complex.ofReal) hn0
  have hstft : stft x L S n w = some ((List.range F).map A) := by
    rw [stft, frameMap_of_le _ x hS hx, mapM_eq_some_iff, List.map_map]
    refine List.map_congr_left (fun i hi => ?_)
    have hfit := frames_fit hx (List.mem_range.1 hi)
    rw [frame_eq x hfit, winOr1_bmul hw (by simp [frame])]
    exact hA i
  have hxx : ((List.range F).map A).mapM (fun r => (ifft r).map (fun y => y.take L)) =
      some ((List.range F).map (fun i : Nat => (List.range W.length).map
        (fun u : Nat => Complex.ofRealHom (x.getD (i * S + u) 0 * W.getD u 0)))) := by
    rw [mapM_eq_some_iff, List.map_map, List.map_map]
    refine List.map_congr_left (fun i _ => ?_)
    simp only [Function.comp, hAi, Option.map_some]
    congr 1
    have h0 : ∀ t, ((List.zipWith (· * ·) (frame x L S i) W).map Complex.ofReal).getD t 0 =
        Complex.ofRealHom ((List.zipWith (· * ·) (frame x L S i) W).getD t 0) := by
      intro t
      simp only [List.getD_eq_getElem?_getD, List.getElem?_map]
      cases (List.zipWith (· * ·) (frame x L S i) W)[t]? <;> simp
    simp only [h0]
    rw [inv_frames (fun r => Complex.ofRealHom r) x W hWl hn, hWl]
  obtain ⟨xo, wo, ho, hlx, hlw, hgx, hgw⟩ := overlap_result Complex.ofRealHom x W S F hF
  have hgd : ∀ t < (F - 1) * S + L, (List.zipWith (fun (a : ℂ) (b : ℝ) => a * ((1 / b : ℝ) : ℂ)) xo
      (wo.map (fun a => if a = 0 then 1 else a))).getD t 0 =
      Complex.ofRealHom (x.getD t 0 * coverage W S F t) *
        ((1 / (if coverage W S F t = 0 then 1 else coverage W S F t) : ℝ) : ℂ) := by
    intro t ht
    have h1 : t < xo.length := by rw [hlx, hWl]; exact ht
    have h2 : t < wo.length := by rw [hlw, hWl]; exact ht
    have e1 : xo[t] = Complex.ofRealHom (x.getD t 0 * coverage W S F t) := by
      rw [← hgx t]; simp [List.getD_eq_getElem?_getD, h1]
    have e2 : wo[t] = coverage W S F t := by
      rw [← hgw t]; simp [List.getD_eq_getElem?_getD, h2]
    rw [List.getD_eq_getElem?_getD, List.getElem?_zipWith, List.getElem?_map, List.getElem?_eq_getElem h1,
      List.getElem?_eq_getElem h2, e1, e2]
    simp
  have hy : istft ((List.range F).map A) L S w = some
      (List.zipWith (fun (a : ℂ) (b : ℝ) => a * ((1 / b : ℝ) : ℂ)) xo (wo.map (fun a => if a = 0 then 1 else a))) := by
    rw [istft]
    simp only [List.length_map, List.length_range, numSamples_pos hF, hxx, Option.bind_eq_bind, Option.bind_some]
    rw [← hWdef]
    rw [hWl] at ho ⊢
    rw [ho]
    rfl
  have hFs : F - 1 = (x.length - L) / S := by omega
  have hyl : (List.zipWith (fun (a : ℂ) (b : ℝ) => a * ((1 / b : ℝ) : ℂ)) xo
      (wo.map (fun a => if a = 0 then 1 else a))).length = (F - 1) * S + L := by
    simp [hlx, hlw, hWl]
  refine ⟨_, _, hstft, hy, by simp, by rw [hyl, hFs], fun t ht hc => ?_, fun t ht hc => ?_⟩
  · simp only [List.length_map, List.length_range] at hc
    rw [hgd t (by rw [hyl] at ht; exact ht), if_neg hc, Complex.ofRealHom_eq_coe, ← Complex.ofReal_mul]
    congr 1
    field_simp
  · simp only [List.length_map, List.length_range] at hc
    rw [hgd t (by rw [hyl] at ht; exact ht), if_pos hc, hc]
    simp

/-- **C87** (real transform): the same for `istrft(strft(x))` with an even FFT length. -/
theorem C87_istrft (x : List ℝ) (L S n : Nat) (w : Option (List ℝ)) (hS : 0 < S) (hL : 0 < L) (hn : L ≤ n)
    (he : n % 2 = 0) (hw : WinOk L w) (hx : L ≤ x.length) :
    ∃ X y, strft x L S n w = some X ∧ istrft X L S w = some y ∧
      X.length = (x.length - L) / S + 1 ∧ y.length = (x.length - L) / S * S + L ∧
      (∀ t < y.length, coverage (windowOrOnes L w) S X.length t ≠ 0 → y.getD t 0 = x.getD t 0) ∧
      (∀ t < y.length, coverage (windowOrOnes L w) S X.length t = 0 → y.getD t 0 = 0) := by
  have hn0 : n ≠ 0 := by omega
  set W := windowOrOnes L w with hWdef
  have hWl : W.length = L := windowOrOnes_length hw
  set F := (x.length - L) / S + 1 with hFdef
  have hF : 0 < F := Nat.succ_pos _
  choose A hA hAi using fun i : Nat => irfft_rfft (List.zipWith (· * ·) (frame x L S i) W) hn0 he
  have hstft : strft x L S n w = some ((List.range F).map A) := by
    rw [strft, frameMap_of_le _ x hS hx, mapM_eq_some_iff, List.map_map]
    refine List.map_congr_left (fun i hi => ?_)
    have hfit := frames_fit hx (List.mem_range.1 hi)
    rw [frame_eq x hfit, winOr1_bmul hw (by simp [frame])]
    exact hA i
  have hxx : ((List.range F).map A).mapM (fun r => (irfft r).map (fun y => y.take L)) =
      some ((List.range F).map (fun i : Nat => (List.range W.length).map
        (fun u : Nat => RingHom.id ℝ (x.getD (i * S + u) 0 * W.getD u 0)))) := by
    rw [mapM_eq_some_iff, List.map_map, List.map_map]
    refine List.map_congr_left (fun i _ => ?_)
    simp only [Function.comp, hAi, Option.map_some]
    congr 1
    rw [inv_frames (fun r => r) x W hWl hn, hWl]
    rfl
  obtain ⟨xo, wo, ho, hlx, hlw, hgx, hgw⟩ := overlap_result (RingHom.id ℝ) x W S F hF
  have hgd : ∀ t < (F - 1) * S + L, (List.zipWith (fun (a : ℝ) (b : ℝ) => a * (1 / b)) xo
      (wo.map (fun a => if a = 0 then 1 else a))).getD t 0 =
      (x.getD t 0 * coverage W S F t) * (1 / (if coverage W S F t = 0 then 1 else coverage W S F t)) := by
    intro t ht
    have h1 : t < xo.length := by rw [hlx, hWl]; exact ht
    have h2 : t < wo.length := by rw [hlw, hWl]; exact ht
    have e1 : xo[t] = x.getD t 0 * coverage W S F t := by
      have := hgx t
      rw [RingHom.id_apply] at this
      rw [← this]; simp [List.getD_eq_getElem?_getD, h1]
    have e2 : wo[t] = coverage W S F t := by
      rw [← hgw t]; simp [List.getD_eq_getElem?_getD, h2]
    rw [List.getD_eq_getElem?_getD, List.getElem?_zipWith, List.getElem?_map, List.getElem?_eq_getElem h1,
      List.getElem?_eq_getElem h2, e1, e2]
    simp
  have hy : istrft ((List.range F).map A) L S w = some
      (List.zipWith (fun (a : ℝ) (b : ℝ) => a * (1 / b)) xo (wo.map (fun a => if a = 0 then 1 else a))) := by
    rw [istrft]
    simp only [List.length_map, List.length_range, numSamples_pos hF, hxx, Option.bind_eq_bind, Option.bind_some]
    rw [← hWdef]
    rw [hWl] at ho ⊢
    rw [ho]
    rfl
  have hFs : F - 1 = (x.length - L) / S := by omega
  have hyl : (List.zipWith (fun (a : ℝ) (b : ℝ) => a * (1 / b)) xo
      (wo.map (fun a => if a = 0 then 1 else a))).length = (F - 1) * S + L := by
    simp [hlx, hlw, hWl]
  refine ⟨_, _, hstft, hy, by simp, by rw [hyl, hFs], fun t ht hc => ?_, fun t ht hc => ?_⟩
  · simp only [List.length_map, List.length_range] at hc
    rw [hgd t (by rw [hyl] at ht; exact ht), if_neg hc]
    field_simp
  · simp only [List.length_map, List.length_range] at hc
    rw [hgd t (by rw [hyl] at ht; exact ht), if_pos hc, hc]
    simp

/-- Without a window and with overlapping (or adjacent) frames every covered sample has a positive window sum. -/
theorem coverage_ones (L S F t : Nat) (hS : 0 < S) (hSL : S ≤ L) (hF : 0 < F) (ht : t < (F - 1) * S + L) :
    0 < coverage (List.replicate L 1) S F t := by
  rw [coverage]
  have hv : ∀ i, (if i * S ≤ t ∧ t < i * S + (List.replicate L (1 : ℝ)).length then
      (List.replicate L (1 : ℝ)).getD (t - i * S) 0 else 0) = if i * S ≤ t ∧ t < i * S + L then (1 : ℝ) else 0 := by
    intro i
    rw [List.length_replicate]
    by_cases h : i * S ≤ t ∧ t < i * S + L
    · rw [if_pos h, if_pos h, List.getD_eq_getElem?_getD, List.getElem?_replicate, if_pos (by omega)]
      rfl
    · rw [if_neg h, if_neg h]
  simp only [hv]
  apply Finset.sum_pos'
  · intro i _
    split_ifs <;> norm_num
  · refine ⟨min (t / S) (F - 1), Finset.mem_range.2 (by omega), ?_⟩
    rw [if_pos]
    · norm_num
    · have h1 := Nat.div_mul_le_self t S
      have h2 := Nat.lt_div_mul_add (a := t) hS
      rcases Nat.le_total (t / S) (F - 1) with h | h
      · rw [Nat.min_eq_left h]
        omega
      · rw [Nat.min_eq_right h]
        have := Nat.mul_le_mul_right S h
        omega

/-- **C87** (no window): if the frames overlap or touch, `istft(stft(x))` is exactly the covered part of the signal. -/
theorem C87_no_window (x : List ℝ) (L S n : Nat) (hS : 0 < S) (hSL : S ≤ L) (hn : L ≤ n) (hx : L ≤ x.length) :
    ∃ X, stft x L S n none = some X ∧
      istft X L S none = some ((x.take ((x.length - L) / S * S + L)).map Complex.ofReal) := by
  obtain ⟨X, y, h1, h2, h3, h4, h5, -⟩ := C87_istft x L S n none hS (by omega) hn (fun v h => by simp at h) hx
  refine ⟨X, h1, ?_⟩
  rw [h2]
  congr 1
  have hle : (x.length - L) / S * S + L ≤ x.length := by
    have := Nat.div_mul_le_self (x.length - L) S
    omega
  apply List.ext_getElem
  · simp [h4, hle]
  · intro t ht ht'
    have h6 := h5 t ht (ne_of_gt (coverage_ones L S X.length t hS hSL (h3 ▸ Nat.succ_pos _) (by rw [h3]; simpa [h4] using ht)))
    have h7 : t < x.length := by rw [h4] at ht; omega
    simpa [List.getD_eq_getElem?_getD, ht, h7] using h6

/-- **C87** (the FFT must hold a frame): with `1 < fft_length < frame_length` the analysis succeeds and the inverse
raises, for every signal of at least one frame. -/
theorem C87_fft_too_short (x : List ℝ) (L S n : Nat) (hS : 0 < S) (h1 : 1 < n) (hn : n < L) (hx : L ≤ x.length) :
    ∃ X, stft x L S n none = some X ∧ istft X L S none = none := by
  have hn0 : n ≠ 0 := by omega
  have hw : WinOk L none := fun v h => by simp at h
  choose A hA hAi using fun i : Nat =>
    ifft_fft ((List.zipWith (· * ·) (frame x L S i) (windowOrOnes L none)).map Complex.ofReal) hn0
  refine ⟨(List.range ((x.length - L) / S + 1)).map A, ?_, ?_⟩
  · rw [stft, frameMap_of_le _ x hS hx, mapM_eq_some_iff, List.map_map]
    refine List.map_congr_left (fun i hi => ?_)
    rw [frame_eq x (frames_fit hx (List.mem_range.1 hi)), winOr1_bmul hw (by simp [frame])]
    exact hA i
  · rw [istft]
    simp only [List.length_map, List.length_range, numSamples_pos (Nat.succ_pos _), Option.bind_eq_bind,
      Option.bind_some]
    obtain ⟨xx, hxx⟩ : ∃ xx, ((List.range ((x.length - L) / S + 1)).map A).mapM
        (fun r => (ifft r).map (fun y => y.take L)) = some xx := by
      refine ⟨(List.range ((x.length - L) / S + 1)).map (fun i => ((List.range n).map (fun t =>
        ((List.zipWith (· * ·) (frame x L S i) (windowOrOnes L none)).map Complex.ofReal).getD t 0)).take L), ?_⟩
      rw [mapM_eq_some_iff, List.map_map, List.map_map]
      refine List.map_congr_left (fun i _ => ?_)
      simp only [Function.comp, hAi, Option.map_some]
    rw [hxx]
    have h' := hxx
    rw [mapM_eq_some_iff, List.range_succ_eq_map, List.map_cons, List.map_cons, hAi, Option.map_some] at h'
    match xx, h' with
    | v :: vs, h' =>
      simp only [List.map_cons, List.cons.injEq, Option.some.injEq] at h'
      have hv : v.length = n := by
        rw [← h'.1]; simp; omega
      simp only [Option.bind_some, overlapLoop, addSlice, List.drop_zero]
      rw [if_neg (by simp; omega), if_neg (by omega)]
      rfl

/-- The odd FFT length loses a sample of time resolution: a concrete signal that does not come back. -/
theorem C87_odd_fft_wrong : ∃ X y, strft [0, 1] 2 1 3 none = some X ∧ istrft X 2 1 none = some y ∧
    y.getD 0 0 = 1 / 4 := by
  have hr : root 3 (-1) = ⟨-1 / 2, -(Real.sqrt 3 / 2)⟩ := by
    have : root 3 (-1) = Complex.exp ((-(2 * Real.pi / 3) : ℝ) * Complex.I) := by
      rw [root]
      congr 1
      push_cast
      ring
    rw [this, Complex.exp_mul_I, ← Complex.ofReal_cos, ← Complex.ofReal_sin, Real.cos_neg, Real.sin_neg]
    have h1 : (2 * Real.pi / 3 : ℝ) = Real.pi - Real.pi / 3 := by ring
    rw [h1, Real.cos_pi_sub, Real.sin_pi_sub, Real.cos_pi_div_three, Real.sin_pi_div_three]
    apply Complex.ext <;> simp
    norm_num
  have hs : strft [0, 1] 2 1 3 none = some [[1, root 3 (-1)]] := by
    rw [strft, frameMap_of_le _ _ (by decide) (by simp)]
    simp [bmul, windowOr1, rfft, fft, List.range_succ, root_zero]
  have hi : irfft [1, root 3 (-1)] = some [1 / 4, 3 / 4] := by
    have h2 : root 2 0 = 1 := root_zero 2
    have h3 : root 2 1 = -1 := by
      rw [root]
      have : (2 * Real.pi * Complex.I * ((1 : ℤ) : ℂ) / ((2 : ℕ) : ℂ)) = Real.pi * Complex.I := by
        push_cast; ring
      rw [this, Complex.exp_pi_mul_I]
    rw [irfft]
    simp [List.range_succ, hermitian, h2, h3, hr]
    norm_num
  refine ⟨_, [1 / 4, 3 / 4], hs, ?_, ?_⟩
  · rw [istrft]
    simp [numSamples, hi, overlapLoop, addSlice, windowOrOnes]
  · simp

/-- Non-vacuity of C86/C87: a signal of 7 samples, window of 3, shift 2 and FFT of 4. -/
example : ∃ X y, stft [1, 2, 3, 4, 5, 6, 7] 3 2 4 (some [1, 2, 1]) = some X ∧ istft X 3 2 (some [1, 2, 1]) = some y ∧
    X.length = 3 ∧ y.length = 7 := by
  obtain ⟨X, y, h1, h2, h3, h4, -⟩ := C87_istft [1, 2, 3, 4, 5, 6, 7] 3 2 4 (some [1, 2, 1]) (by decide) (by decide)
    (by decide) (fun v h => by injection h with h; rw [← h]; rfl) (by simp)
  exact ⟨X, y, h1, h2, by simpa using h3, by simpa using h4⟩

end Hyp.Stft
