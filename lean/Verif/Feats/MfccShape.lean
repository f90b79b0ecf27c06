import Verif.Feats.MfccResume
import Mathlib.Algebra.BigOperators.Field

/-!
C94: the value and the shape of the features computed from a wave, the energy, the FFT length, the history. C93: what
happens to the caller's matrix and to the logarithmic spectrum.
-/

namespace Hyp.Mfcc
open Hyp.Stft Hyp.Frontend

/-! ### Specification -/

/-- The discrete Fourier transform of `n` points. -/
noncomputable def dft (n : Nat) (a : Nat → ℝ) (k : Nat) : ℂ :=
  ∑ u ∈ Finset.range n, (a u : ℂ) * root n (-((u : ℤ) * k))

/-- Sample `u` of windowed frame `i` of a signal. -/
def wframe (c : Cfg) (y : List ℝ) (i u : Nat) : ℝ := if u < c.L then y.getD (i * c.S + u) 0 * c.window.getD u 0 else 0

/-- The number of frames of a signal of `len` samples. -/
def frames (c : Cfg) (len : Nat) : Nat := (len - c.L) / c.S + 1

/-- The signal after the offset removal. -/
noncomputable def sig0 (c : Cfg) (noise : Nat → List ℝ) (st : St) (x : List ℝ) : List ℝ :=
  (dcStage c (addDither noise c.dither x) st.dc).1

/-- The signal after preemphasis. -/
noncomputable def sig1 (c : Cfg) (noise : Nat → List ℝ) (st : St) (x : List ℝ) : List ℝ :=
  (preStage c (sig0 c noise st x) st.pre).1

/-- The power (or magnitude) spectrum of frame `i`. -/
noncomputable def pow (c : Cfg) (y : List ℝ) (i k : Nat) : ℝ :=
  if c.useFft2 then ‖dft c.n (wframe c y i) k‖ ^ 2 else ‖dft c.n (wframe c y i) k‖

/-- The output of filter `j` for frame `i`. -/
noncomputable def logfb (c : Cfg) (y : List ℝ) (i j : Nat) : ℝ :=
  Real.log ((∑ k ∈ Finset.range (c.n / 2 + 1), pow c y i k * (c.fb.getD j []).getD k 0) + 1e-10)

/-- Cepstral coefficient `k` of frame `i` (without lifter). -/
noncomputable def ceps (c : Cfg) (y : List ℝ) (i k : Nat) : ℝ :=
  Real.sqrt ((if k = 0 then 1 else 2) / (c.fb.length : ℝ)) *
    ∑ j ∈ Finset.range c.fb.length, logfb c y i j * Real.cos (Real.pi * k * (2 * j + 1) / (2 * (c.fb.length : ℝ)))

/-- The log energy of frame `i`: from the samples after offset removal, or from the spectrum. -/
noncomputable def energy (c : Cfg) (y0 y1 : List ℝ) (i : Nat) : ℝ :=
  if c.rawEnergy then Real.log ((∑ u ∈ Finset.range c.L, y0.getD (i * c.S + u) 0 ^ 2) + 1e-15)
  else Real.log ((∑ k ∈ Finset.range (c.n / 2 + 1), ‖dft c.n (wframe c y1 i) k‖ ^ 2) / ((c.n / 2 + 1 : Nat) : ℝ) + 1e-10)

/-- The usual situation: a frame fits in the wave, the window has the length of a frame, edges are snipped. -/
structure Good (c : Cfg) (noise : Nat → List ℝ) (x : List ℝ) : Prop where
  shift : 0 < c.S
  fits : c.L ≤ x.length
  snip : c.snip = true
  window : c.window.length = c.L
  fft : c.n ≠ 0
  noise : ∀ n, (noise n).length = n

/-! ### The prepared wave -/

theorem rfft_eq (a : List ℝ) {n : Nat} (hn : n ≠ 0) :
    rfft a n = some ((List.range (n / 2 + 1)).map (fun k => dft n (fun u => a.getD u 0) k)) := by
  rw [rfft, fft, if_neg hn, Option.map_some, ← List.map_take, List.take_range, Nat.min_eq_left (by omega)]
  refine congrArg some (List.map_congr_left (fun k _ => ?_))
  rw [sum_range_list, dft]
  refine Finset.sum_congr rfl (fun u _ => ?_)
  congr 1
  simp only [List.getD_eq_getElem?_getD, List.getElem?_map]
  cases a[u]? <;> simp

theorem strft_eq (c : Cfg) (y : List ℝ) (hS : 0 < c.S) (hL : c.L ≤ y.length) (hw : c.window.length = c.L) (hn : c.n ≠ 0) :
    strft y c.L c.S c.n (some c.window) = some ((List.range (frames c y.length)).map (fun i =>
      (List.range (c.n / 2 + 1)).map (fun k => dft c.n (wframe c y i) k))) := by
  rw [strft, frameMap_of_le _ y hS hL, mapM_eq_some_iff, List.map_map]
  refine List.map_congr_left (fun i hi => ?_)
  rw [frame_eq y (frames_fit hL (List.mem_range.1 hi))]
  have hfl : (frame y c.L c.S i).length = c.window.length := by simp [frame, hw]
  simp only [windowOr1, Option.getD_some, bmul, hfl, if_true, Option.bind_eq_bind, Option.bind_some, Function.comp]
  rw [rfft_eq _ hn]
  refine congrArg some (List.map_congr_left (fun k _ => ?_))
  congr 1
  funext u
  simp only [wframe, List.getD_eq_getElem?_getD, List.getElem?_zipWith, frame, List.getElem?_map]
  by_cases hu : u < c.L
  · simp [hu, hw]
  · simp [hu]

theorem addDither_length {noise : Nat → List ℝ} (hn : ∀ n, (noise n).length = n) (d : ℝ) (x : List ℝ) :
    (addDither noise d x).length = x.length := by
  rw [addDither]
  split_ifs <;> simp [hn]

theorem dcStage_length (c : Cfg) (x : List ℝ) (z : ℝ) : (dcStage c x z).1.length = x.length := by
  rw [dcStage]
  split_ifs
  · rw [dcFilter, lfilter_length]
  · rfl

theorem sig0_length {c : Cfg} {noise : Nat → List ℝ} (hn : ∀ n, (noise n).length = n) (st : St) (x : List ℝ) :
    (sig0 c noise st x).length = x.length := by
  rw [sig0, dcStage_length, addDither_length hn]

theorem sig1_length {c : Cfg} {noise : Nat → List ℝ} (hn : ∀ n, (noise n).length = n) (st : St) (x : List ℝ) :
    (sig1 c noise st x).length = x.length := by
  rw [sig1, preStage_length, sig0_length hn]

/-- The complex spectrogram. -/
noncomputable def specM (c : Cfg) (y : List ℝ) : List (List ℂ) :=
  (List.range (frames c y.length)).map (fun i => (List.range (c.n / 2 + 1)).map (fun k => dft c.n (wframe c y i) k))

theorem prepWave_ok {c : Cfg} {noise : Nat → List ℝ} {x : List ℝ} (g : Good c noise x) (st : St) :
    (prepWave c noise st x).1 = some ⟨some (specM c (sig1 c noise st x)), some (absM (specM c (sig1 c noise st x))), none,
      if c.useEnergy then some ((List.range (frames c x.length)).map
        (energy c (sig0 c noise st x) (sig1 c noise st x))) else none⟩ := by
  have hp : padEdges c.snip c.L c.S x = some x := by rw [g.snip]; exact C89_snip _ _ _ g.shift
  have h0 := sig0_length (c := c) g.noise st x
  have h1 := sig1_length (c := c) g.noise st x
  have hX := strft_eq c (sig1 c noise st x) g.shift (by rw [h1]; exact g.fits) g.window g.fft
  have hE := C86_logE (sig0 c noise st x) c.L c.S g.shift (by rw [h0]; exact g.fits)
  rw [prepWave, hp]
  simp only [sig1, sig0] at hX hE h0 h1 ⊢
  rw [hX]
  by_cases hu : c.useEnergy = true
  · by_cases hr : c.rawEnergy = true
    · simp only [hu, hr, Bool.and_self, if_true, hE, Option.map_some, Bool.not_true, Bool.and_false,
        Bool.false_eq_true, if_false, specM]
      rw [h0]
      congr 3
      refine List.map_congr_left (fun i _ => ?_)
      simp only [energy, hr, if_true]
    · have hr' : c.rawEnergy = false := by simpa using hr
      simp only [hu, hr', Bool.and_false, Bool.false_eq_true, if_false, Bool.not_false, Bool.and_true, if_true, specM]
      simp only [absM, List.map_map, h1]
      congr 3
      refine List.map_congr_left (fun i _ => ?_)
      simp only [Function.comp, specEnergy, energy, hr', Bool.false_eq_true, if_false, Frontend.mean, List.map_map,
        List.length_map, List.length_range, sum_range_list]
  · have hu' : c.useEnergy = false := by simpa using hu
    simp only [hu', Bool.false_and, Bool.false_eq_true, if_false, specM]

theorem squared_specM (c : Cfg) (o : Step) (ho : 2 ≤ o.value) (y : List ℝ) :
    squared (c.steps .wave o) (absM (specM c y)) =
      (List.range (frames c y.length)).map (fun i => (List.range (c.n / 2 + 1)).map (fun k => pow c y i k)) := by
  have h2 : Step.fftMag.value ≤ (c.steps .wave o).out.value := ho
  have h1 : (c.steps .wave o).inp.value ≤ Step.fft.value := by show (0 : Nat) ≤ 1; decide
  have hq : (c.steps .wave o).useFft2 = c.useFft2 := rfl
  simp only [squared, h1, h2, hq, true_and]
  by_cases hf : c.useFft2 = true
  · simp only [hf, if_true, absM, specM, List.map_map, pow, Function.comp_def]
  · have hf' : c.useFft2 = false := by simpa using hf
    simp only [hf', Bool.false_eq_true, if_false, absM, specM, List.map_map, pow, Function.comp_def]

theorem zip_sum (n : Nat) (f : Nat → ℝ) (col : List ℝ) (h : col.length = n) :
    (List.zipWith (· * ·) ((List.range n).map f) col).sum = ∑ k ∈ Finset.range n, f k * col.getD k 0 := by
  rw [← sum_range_list]
  congr 1
  apply List.ext_getElem
  · simp [h]
  · intro i h1 h2
    have h3 : i < n := by simpa using h2
    simp [h, h3]

/-- The filter bank matrix has a row for each bin. -/
def FbOk (c : Cfg) : Prop := ∀ col ∈ c.fb, col.length = c.n / 2 + 1

theorem fbRow_eq (c : Cfg) (hfb : FbOk c) (y : List ℝ) (i : Nat) :
    fbRow c ((List.range (c.n / 2 + 1)).map (fun k => pow c y i k)) =
      some ((List.range c.fb.length).map (fun j => logfb c y i j)) := by
  rw [fbRow, if_pos (by simp)]
  congr 1
  apply List.ext_getElem
  · simp
  · intro j h1 h2
    have h3 : j < c.fb.length := by simpa using h2
    simp only [List.getElem_map, List.getElem_range, logfb]
    rw [zip_sum _ _ _ (hfb _ (List.getElem_mem h3))]
    simp [List.getD_eq_getElem?_getD, h3]

theorem mapM_range {α : Type} {f : Nat → Option α} {g : Nat → α} (n : Nat) (h : ∀ i < n, f i = some (g i)) :
    (List.range n).mapM f = some ((List.range n).map g) := by
  rw [mapM_eq_some_iff, List.map_map]
  exact List.map_congr_left (fun i hi => h i (List.mem_range.1 hi))

theorem fbM_eq (c : Cfg) (hfb : FbOk c) (y : List ℝ) (F : Nat) :
    ((List.range F).map (fun i => (List.range (c.n / 2 + 1)).map (fun k => pow c y i k))).mapM (fbRow c) =
      some ((List.range F).map (fun i => (List.range c.fb.length).map (fun j => logfb c y i j))) := by
  rw [mapM_eq_some_iff, List.map_map, List.map_map]
  exact List.map_congr_left (fun i _ => fbRow_eq c hfb y i)

/-! ### C94 -/

/-- **C94** (log filter banks): from a wave with at least one frame, `compute` returns one row per frame; a row has the
log energy, bounded below by the floor, followed by the log filter bank outputs. -/
theorem C94_logfb (c : Cfg) (noise : Nat → List ℝ) (x : List ℝ) (g : Good c noise x) (hfb : FbOk c) (st : St) :
    let y0 := sig0 c noise st x
    let y1 := sig1 c noise st x
    result (c.steps .wave .logFb) noise st (.wave x) = some (.real
      ((List.range (frames c x.length)).map (fun i =>
        (if c.useEnergy then [max (energy c y0 y1 i) (Real.log (c.floor + 1e-15))] else []) ++
          (List.range c.fb.length).map (fun j => logfb c y1 i j)))) := by
  intro y0 y1
  rw [result_wave, prepWave_ok g st]
  simp only [Option.bind_some]
  rw [fin_fb _ (by show (0 : Nat) ≤ 3; decide) rfl]
  simp only [Option.map_some, Option.bind_some]
  rw [squared_specM c .logFb (by decide), sig1_length g.noise]
  have := fbM_eq c hfb (sig1 c noise st x) (frames c x.length)
  have h' : ∀ l : List (List ℝ), l.mapM (fbRow (c.steps .wave .logFb)) = l.mapM (fbRow c) := fun _ => rfl
  rw [h', this]
  simp only [Option.bind_some, stackE]
  show ((if c.useEnergy then _ else _ : Option (List (List ℝ))).map Mat.real) = _
  by_cases hE : c.useEnergy = true
  · simp only [hE, if_true, Option.bind_some, floored_steps]
    rw [hstack_ok (by simp [floored])]
    simp only [Option.map_some, floored, List.map_map]
    congr 2
    apply List.ext_getElem
    · simp
    · intro i h1 h2
      simp [y0, y1]
  · have hE' : c.useEnergy = false := by simpa using hE
    simp only [hE', Bool.false_eq_true, if_false, Option.map_some, List.nil_append, y1]

theorem dct_eq (n : Nat) (hn : n ≠ 0) (f : Nat → ℝ) :
    dct ((List.range n).map f) = some ((List.range n).map (fun k : Nat => Real.sqrt ((if k = 0 then 1 else 2) / (n : ℝ)) *
      ∑ j ∈ Finset.range n, f j * Real.cos (Real.pi * k * (2 * j + 1) / (2 * (n : ℝ))))) := by
  rw [dct, if_neg (by simpa using hn)]
  simp only [List.length_map, List.length_range]
  refine congrArg some (List.map_congr_left (fun k _ => ?_))
  rw [sum_range_list]
  congr 1
  refine Finset.sum_congr rfl (fun j hj => ?_)
  have hj' := Finset.mem_range.1 hj
  simp [List.getD_eq_getElem?_getD, hj']

open Classical in
/-- **C94** (cepstra): from a wave with at least one frame, `compute` returns one row of `num_ceps` coefficients per
frame: the orthonormal DCT of the log filter bank outputs, liftered, with the floored log energy in the place of the
first coefficient if energies are used. -/
theorem C94_cepstra (c : Cfg) (noise : Nat → List ℝ) (x : List ℝ) (g : Good c noise x) (hfb : FbOk c) (st : St)
    (h0 : 0 < c.numCeps) (hn : c.numCeps ≤ c.fb.length) :
    let y0 := sig0 c noise st x
    let y1 := sig1 c noise st x
    result (c.steps .wave .cepstrum) noise st (.wave x) = some (.real
      ((List.range (frames c x.length)).map (fun i => (List.range c.numCeps).map (fun k =>
        if c.useEnergy ∧ k = 0 then max (energy c y0 y1 i) (Real.log (c.floor + 1e-15))
        else ceps c y1 i k * (if c.lifter > 0 then 1 + c.lifter / 2 * Real.sin (Real.pi * k / c.lifter) else 1))))) := by
  intro y0 y1
  have hlift : ∀ k : Nat, 1 + c.lifter / 2 * Real.sin (Real.pi * k / c.lifter) = lifterAt c.lifter k := by
    intro k; unfold lifterAt; ring
  simp only [hlift]
  rw [result_wave, prepWave_ok g st]
  simp only [Option.bind_some]
  rw [fin_cep _ (by show (0 : Nat) ≤ 3; decide) rfl]
  simp only [Option.map_some, Option.bind_some]
  rw [squared_specM c .cepstrum (by decide), sig1_length g.noise]
  have := fbM_eq c hfb (sig1 c noise st x) (frames c x.length)
  have h' : ∀ l : List (List ℝ), l.mapM (fbRow (c.steps .wave .cepstrum)) = l.mapM (fbRow c) := fun _ => rfl
  rw [h', this]
  simp only [Option.bind_some]
  have hc : ((List.range (frames c x.length)).map (fun i => (List.range c.fb.length).map
      (fun j => logfb c (sig1 c noise st x) i j))).mapM (cepsRow (c.steps .wave .cepstrum)) =
      some ((List.range (frames c x.length)).map (fun i => (List.range c.numCeps).map (fun k =>
        ceps c y1 i k * (if c.lifter > 0 then lifterAt c.lifter k else 1)))) := by
    rw [mapM_eq_some_iff, List.map_map, List.map_map]
    refine List.map_congr_left (fun i _ => ?_)
    have hN : (c.steps .wave .cepstrum).numCeps = c.numCeps := rfl
    have hl : (c.steps .wave .cepstrum).lifter = c.lifter := rfl
    simp only [Function.comp, cepsRow, hN, hl]
    rw [dct_eq _ (by omega)]
    simp only [Option.bind_eq_bind, Option.bind_some]
    rw [← List.map_take, List.take_range, Nat.min_eq_left hn]
    by_cases hq : c.lifter > 0
    · simp only [hq, if_true, List.length_map, List.length_range]
      congr 1
      apply List.ext_getElem
      · simp
      · intro k h1 h2
        simp [ceps, y1]
    · simp only [hq, if_false, mul_one]
      rfl
  rw [hc]
  simp only [Option.bind_some, putE]
  show ((if c.useEnergy then _ else _ : Option (List (List ℝ))).map Mat.real) = _
  by_cases hE : c.useEnergy = true
  · simp only [hE, if_true, Option.bind_some, floored_steps]
    rw [setCol0_ok (by simp [floored]) (by
      intro r hr
      obtain ⟨i, -, rfl⟩ := List.mem_map.1 hr
      intro h
      have := congrArg List.length h
      simp at this
      omega)]
    simp only [Option.map_some, floored, List.map_map]
    congr 2
    apply List.ext_getElem
    · simp
    · intro i h1 h2
      simp only [List.getElem_zipWith, List.getElem_map, List.getElem_range, Function.comp]
      apply List.ext_getElem
      · simp
      · intro k h3 h4
        by_cases hk : k = 0
        · subst hk; simp [y0, y1]
        · rw [List.getElem_set_ne (by omega)]
          simp [hk]
  · have hE' : c.useEnergy = false := by simpa using hE
    simp only [hE', Bool.false_eq_true, if_false, Option.map_some, false_and]

/-- **C94** (too many coefficients): asking for more cepstra than filters raises if a lifter is used (and more than one
coefficient is asked for). -/
theorem C94_too_many_ceps (c : Cfg) (noise : Nat → List ℝ) (x : List ℝ) (g : Good c noise x) (hfb : FbOk c) (st : St)
    (hn : c.fb.length < c.numCeps) (h1 : 1 < c.numCeps) (hl : 0 < c.lifter) :
    result (c.steps .wave .cepstrum) noise st (.wave x) = none := by
  rw [result_wave, prepWave_ok g st]
  simp only [Option.bind_some]
  rw [fin_cep _ (by show (0 : Nat) ≤ 3; decide) rfl]
  simp only [Option.map_some, Option.bind_some]
  rw [squared_specM c .cepstrum (by decide), sig1_length g.noise]
  have := fbM_eq c hfb (sig1 c noise st x) (frames c x.length)
  have h' : ∀ l : List (List ℝ), l.mapM (fbRow (c.steps .wave .cepstrum)) = l.mapM (fbRow c) := fun _ => rfl
  rw [h', this]
  simp only [Option.bind_some]
  have hnone : ((List.range (frames c x.length)).map (fun i => (List.range c.fb.length).map
      (fun j => logfb c (sig1 c noise st x) i j))).mapM (cepsRow (c.steps .wave .cepstrum)) = none := by
    rw [frames, List.range_succ_eq_map, List.map_cons, List.mapM_cons]
    have : cepsRow (c.steps .wave .cepstrum) ((List.range c.fb.length).map
        (fun j => logfb c (sig1 c noise st x) 0 j)) = none := by
      have hN : (c.steps .wave .cepstrum).numCeps = c.numCeps := rfl
      have hl' : (c.steps .wave .cepstrum).lifter = c.lifter := rfl
      simp only [cepsRow, hN, hl']
      by_cases h0 : c.fb.length = 0
      · simp [dct, h0]
      · rw [dct_eq _ h0]
        simp only [Option.bind_eq_bind, Option.bind_some, gt_iff_lt, hl, if_true, List.length_take, List.length_map,
          List.length_range]
        rw [if_neg (by omega), if_neg (by omega)]
    rw [this]
    rfl
  rw [hnone]
  rfl

/-- **C94** (FFT length): the FFT length holds a frame; if it had to be raised it is a power of two below twice the
frame length. -/
theorem C94_fft_length (N n : Nat) : N ≤ fftLength N n ∧ (N ≤ n → fftLength N n = n) ∧
    (n < N → 1 < N → (∃ k, fftLength N n = 2 ^ k) ∧ fftLength N n < 2 * N) := by
  refine ⟨?_, ?_, ?_⟩
  · rw [fftLength]
    split_ifs with h
    · exact Nat.le_pow_clog (by decide) N
    · omega
  · intro h
    rw [fftLength, if_neg (by omega)]
  · intro h h1
    rw [fftLength, if_pos h]
    refine ⟨⟨_, rfl⟩, ?_⟩
    have hlt : 2 ^ (Nat.clog 2 N).pred < N := Nat.pow_pred_clog_lt_self (by decide) h1
    have hpos : 0 < Nat.clog 2 N := Nat.clog_pos (by decide) h1
    have : Nat.clog 2 N = (Nat.clog 2 N).pred + 1 := by
      rw [Nat.pred_eq_sub_one]; omega
    rw [this, pow_succ]
    omega

end Hyp.Mfcc
