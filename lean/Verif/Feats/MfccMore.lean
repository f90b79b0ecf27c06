import Verif.Feats.MfccShape

/-!
C94 (continued): the energy from the spectrum, the filter states, spectra; C93 (continued): the logarithmic spectrum,
the caller's matrix.
-/

namespace Hyp.Mfcc
open Hyp.Stft Hyp.Frontend

/-! ### Parseval -/

theorem parseval {n : Nat} (hn : n ≠ 0) (a : Nat → ℝ) :
    ∑ k ∈ Finset.range n, ‖dft n a k‖ ^ 2 = n * ∑ u ∈ Finset.range n, a u ^ 2 := by
  have hc : ∀ k, ((‖dft n a k‖ ^ 2 : ℝ) : ℂ) =
      ∑ u ∈ Finset.range n, ∑ v ∈ Finset.range n, (a u : ℂ) * a v * root n (((v : ℤ) - u) * k) := by
    intro k
    have : ((‖dft n a k‖ ^ 2 : ℝ) : ℂ) = dft n a k * (starRingEnd ℂ) (dft n a k) := by
      rw [Complex.mul_conj, Complex.normSq_eq_norm_sq]
    rw [this, dft, map_sum, Finset.sum_mul_sum]
    refine Finset.sum_congr rfl (fun u _ => Finset.sum_congr rfl (fun v _ => ?_))
    rw [map_mul, Complex.conj_ofReal, root_conj]
    have : ((v : ℤ) - u) * k = -((u : ℤ) * k) + -(-((v : ℤ) * k)) := by ring
    rw [this, root_add]
    ring
  have h : ((∑ k ∈ Finset.range n, ‖dft n a k‖ ^ 2 : ℝ) : ℂ) = ((n * ∑ u ∈ Finset.range n, a u ^ 2 : ℝ) : ℂ) := by
    rw [Complex.ofReal_sum]
    simp only [hc]
    rw [Finset.sum_comm]
    have h1 : ∀ u ∈ Finset.range n, ∑ k ∈ Finset.range n, ∑ v ∈ Finset.range n,
        (a u : ℂ) * a v * root n (((v : ℤ) - u) * k) = n * (a u : ℂ) ^ 2 := by
      intro u hu
      rw [Finset.sum_comm]
      have h2 : ∀ v ∈ Finset.range n, ∑ k ∈ Finset.range n, (a u : ℂ) * a v * root n (((v : ℤ) - u) * k) =
          if v = u then n * (a u : ℂ) ^ 2 else 0 := by
        intro v hv
        rw [← Finset.mul_sum, ← sum_range_list, root_sum hn]
        have hu' := Finset.mem_range.1 hu
        have hv' := Finset.mem_range.1 hv
        by_cases huv : v = u
        · subst huv; simp; ring
        · rw [if_neg, if_neg huv, mul_zero]
          rintro ⟨q, hq⟩
          have hq0 : q = 0 := by
            by_contra h0
            have h4 : (n : ℤ) ≤ |(v : ℤ) - u| := by
              rw [hq, abs_mul, Nat.abs_cast]
              have : (1 : ℤ) ≤ |q| := Int.one_le_abs h0
              nlinarith
            have h5 : |(v : ℤ) - u| < n := by rw [abs_lt]; constructor <;> omega
            omega
          rw [hq0] at hq
          omega
      rw [Finset.sum_congr rfl h2, Finset.sum_ite_eq' (Finset.range n) u]
      rw [if_pos hu]
    rw [Finset.sum_congr rfl h1, ← Finset.mul_sum]
    push_cast
    rfl
  exact_mod_cast h

theorem dft_mirror {n k : Nat} (hn : n ≠ 0) (hk : k ≤ n) (a : Nat → ℝ) : ‖dft n a (n - k)‖ = ‖dft n a k‖ := by
  have : dft n a (n - k) = (starRingEnd ℂ) (dft n a k) := by
    rw [dft, dft, map_sum]
    refine Finset.sum_congr rfl (fun u _ => ?_)
    rw [map_mul, Complex.conj_ofReal, root_conj]
    congr 1
    apply root_period hn
    rw [Nat.cast_sub hk]
    exact ⟨-(u : ℤ), by ring⟩
  rw [this, Complex.norm_conj]

/-- **C94** (energy from the spectrum, for an even FFT length): the mean power over the bins kept is not the mean power
over the spectrum, and so not the energy of the windowed frame that Parseval's theorem gives: the sum over the bins kept
counts the first and the last bin fully and the others half. -/
theorem C94_half_spectrum {n : Nat} (hn : n ≠ 0) (he : n % 2 = 0) (a : Nat → ℝ) :
    ∑ k ∈ Finset.range (n / 2 + 1), ‖dft n a k‖ ^ 2 =
      (n * (∑ u ∈ Finset.range n, a u ^ 2) + ‖dft n a 0‖ ^ 2 + ‖dft n a (n / 2)‖ ^ 2) / 2 := by
  obtain ⟨m, rfl⟩ : ∃ m, n = 2 * m := ⟨n / 2, by omega⟩
  have hm : 2 * m / 2 = m := by omega
  have hm0 : 0 < m := by omega
  rw [hm]
  have hp := parseval hn a
  have h1 : ∑ k ∈ Finset.range (2 * m), ‖dft (2 * m) a k‖ ^ 2 =
      ∑ k ∈ Finset.range (m + 1), ‖dft (2 * m) a k‖ ^ 2 +
        ∑ k ∈ Finset.range (m - 1), ‖dft (2 * m) a (m + 1 + k)‖ ^ 2 := by
    have : 2 * m = (m + 1) + (m - 1) := by omega
    conv_lhs => rw [show Finset.range (2 * m) = Finset.range ((m + 1) + (m - 1)) by rw [← this]]
    rw [Finset.sum_range_add]
  have h2 : ∑ k ∈ Finset.range (m - 1), ‖dft (2 * m) a (m + 1 + k)‖ ^ 2 =
      ∑ k ∈ Finset.range (m - 1), ‖dft (2 * m) a (k + 1)‖ ^ 2 := by
    rw [← Finset.sum_range_reflect]
    refine Finset.sum_congr rfl (fun k hk => ?_)
    have hk' := Finset.mem_range.1 hk
    rw [← dft_mirror hn (show k + 1 ≤ 2 * m by omega)]
    congr 3
    omega
  have h3 : ∑ k ∈ Finset.range (m + 1), ‖dft (2 * m) a k‖ ^ 2 =
      ‖dft (2 * m) a 0‖ ^ 2 + ∑ k ∈ Finset.range (m - 1), ‖dft (2 * m) a (k + 1)‖ ^ 2 + ‖dft (2 * m) a m‖ ^ 2 := by
    rw [Finset.sum_range_succ]
    congr 1
    obtain ⟨q, rfl⟩ : ∃ q, m = q + 1 := ⟨m - 1, by omega⟩
    rw [Finset.sum_range_succ']
    simp only [Nat.add_sub_cancel]
    ring
  rw [hp, h2] at h1
  linarith

/-! ### Spectra -/

/-- **C94** (spectra): the spectrum and the magnitude (or power) spectrum of each frame, without energies. -/
theorem C94_spectrum (c : Cfg) (hE : c.useEnergy = false) (noise : Nat → List ℝ) (x : List ℝ) (g : Good c noise x)
    (st : St) :
    let y1 := sig1 c noise st x
    result (c.steps .wave .fft) noise st (.wave x) = some (.cplx
      ((List.range (frames c x.length)).map (fun i => (List.range (c.n / 2 + 1)).map (fun k => dft c.n (wframe c y1 i) k))))
    ∧ result (c.steps .wave .fftMag) noise st (.wave x) = some (.real
      ((List.range (frames c x.length)).map (fun i => (List.range (c.n / 2 + 1)).map (fun k => pow c y1 i k)))) := by
  intro y1
  have hEo : ∀ o, (c.steps .wave o).useEnergy = false := fun _ => hE
  constructor
  · rw [result_wave, prepWave_ok g st]
    simp only [Option.bind_some]
    rw [fin_fft _ rfl]
    simp only [hEo, Bool.false_eq_true, if_false, specM, sig1_length g.noise, y1]
  · rw [result_wave, prepWave_ok g st]
    simp only [Option.bind_some]
    rw [fin_mag _ rfl]
    simp only [Option.map_some, Option.bind_some]
    rw [squared_specM c .fftMag (by decide), sig1_length g.noise]
    simp only [putE, hEo, Bool.false_eq_true, if_false, Option.map_some, y1]

/-! ### The filter states -/

/-- Uses of an object: calls of `compute` or of `reset`. -/
inductive Ev where
  | call (x : In)
  | reset

/-- A sequence of uses of one object: the results of the calls and the last filter states. -/
noncomputable def uses (c : Cfg) (noise : Nat → List ℝ) (st : St) : List Ev → List (Option Mat) × St
  | [] => ([], st)
  | .call x :: xs =>
    let r := compute c noise st x
    let rs := uses c noise r.2 xs
    (r.1.map Res.R :: rs.1, rs.2)
  | .reset :: xs => uses c noise reset xs

theorem uses_append (c : Cfg) (noise : Nat → List ℝ) (xs ys : List Ev) (st : St) :
    uses c noise st (xs ++ ys) =
      ((uses c noise st xs).1 ++ (uses c noise (uses c noise st xs).2 ys).1, (uses c noise (uses c noise st xs).2 ys).2) := by
  induction xs generalizing st with
  | nil => rfl
  | cons a xs ih =>
    cases a with
    | call x => simp only [List.cons_append, uses]; rw [ih]
    | reset => simp only [List.cons_append, uses]; rw [ih]

/-- **C94** (reset): after `reset` the results do not depend on what the object was used for. -/
theorem C94_reset (c : Cfg) (noise : Nat → List ℝ) (before after : List Ev) (st : St) :
    uses c noise st (before ++ .reset :: after) =
      ((uses c noise st before).1 ++ (uses c noise reset after).1, (uses c noise reset after).2) := by
  rw [uses_append]
  rfl

/-- The signal after the two filters, started in given states. -/
noncomputable def filtered (c : Cfg) (st : St) (x : List ℝ) : List ℝ × St :=
  let d := dcStage c x st.dc
  let p := preStage c d.1 st.pre
  (p.1, ⟨d.2, p.2⟩)

theorem dcStage_append (c : Cfg) (x y : List ℝ) (z : ℝ) :
    dcStage c (x ++ y) z = ((dcStage c x z).1 ++ (dcStage c y (dcStage c x z).2).1, (dcStage c y (dcStage c x z).2).2) := by
  simp only [dcStage]
  split_ifs
  · rw [dcFilter, C88_filter_append]; rfl
  · rfl

theorem preStage_append (c : Cfg) (x y : List ℝ) (z : ℝ) :
    preStage c (x ++ y) z =
      ((preStage c x z).1 ++ (preStage c y (preStage c x z).2).1, (preStage c y (preStage c x z).2).2) := by
  simp only [preStage]
  split_ifs
  · rw [preemph, C88_filter_append]; rfl
  · rfl

theorem filtered_append (c : Cfg) (st : St) (x y : List ℝ) :
    filtered c st (x ++ y) = ((filtered c st x).1 ++ (filtered c (filtered c st x).2 y).1,
      (filtered c (filtered c st x).2 y).2) := by
  simp only [filtered]
  rw [dcStage_append, preStage_append]

theorem frameMap_ok {α : Type} (f : List ℝ → α) (x : List ℝ) {L S : Nat} (hS : 0 < S) (h : L ≤ x.length + S) :
    ∃ r, frameMap (fun fr => some (f fr)) x L S = some r := by
  by_cases hL : L ≤ x.length
  · rw [frameMap_of_le _ x hS hL]
    exact ⟨_, mapM_range _ (g := fun i => f ((x.drop (i * S)).take L)) (fun i _ => rfl)⟩
  · exact ⟨[], frameMap_short _ x hS (by omega) h⟩

theorem stateAfter (c : Cfg) (noise : Nat → List ℝ) (hi : c.inp = .wave) (hd : ¬ c.dither > 0) (hs : c.snip = true)
    (hS : 0 < c.S) (st : St) (x : List ℝ) (hx : c.L ≤ x.length + c.S) :
    (compute c noise st (.wave x)).2 = (filtered c st x).2 := by
  have hp : padEdges c.snip c.L c.S x = some x := by rw [hs]; exact C89_snip _ _ _ hS
  have ha : addDither noise c.dither x = x := by rw [addDither, if_neg hd]
  simp only [compute, prepare, hi, if_true, prepWave, hp, ha, filtered]
  by_cases hE : (c.useEnergy && c.rawEnergy) = true
  · obtain ⟨r, hr⟩ := frameMap_ok (fun fr => (fr.map (fun a => a ^ 2)).sum) (dcStage c x st.dc).1 (L := c.L) hS
      (by rw [dcStage_length]; exact hx)
    have : stLogE (dcStage c x st.dc).1 c.L c.S = some (r.map (fun a => Real.log (a + 1e-15))) := by
      rw [stLogE, hr]; rfl
    simp only [hE, if_true, this, Option.map_some]
  · simp only [hE, Bool.false_eq_true, if_false]

/-- **C94** (streaming, without dither): after a reset and calls with any waves that are not too short, the features of
the next wave are those of the last part of the concatenation of all of them, filtered as one signal: the frames do not
cross wave boundaries but the filters do. `energy` takes the signal after offset removal and the signal after
preemphasis. -/
theorem C94_stream (c : Cfg) (noise : Nat → List ℝ) (hd : ¬ c.dither > 0) (x : List ℝ) (g : Good c noise x)
    (hfb : FbOk c) (before : List Ev) (st : St) (hist : List (List ℝ)) (hh : ∀ h ∈ hist, c.L ≤ h.length + c.S) :
    let s := (uses (c.steps .wave .logFb) noise st (before ++ .reset :: hist.map (fun h => .call (.wave h)))).2
    let y0 := (dcStage c (hist.flatten ++ x) 0).1.drop hist.flatten.length
    let y1 := ((filtered c reset (hist.flatten ++ x)).1).drop hist.flatten.length
    result (c.steps .wave .logFb) noise s (.wave x) = some (.real
      ((List.range (frames c x.length)).map (fun i =>
        (if c.useEnergy then [max (energy c y0 y1 i) (Real.log (c.floor + 1e-15))] else []) ++
          (List.range c.fb.length).map (fun j => logfb c y1 i j)))) := by
  intro s y0 y1
  have hst : ∀ (hist : List (List ℝ)) (st : St), (∀ h ∈ hist, c.L ≤ h.length + c.S) →
      (uses (c.steps .wave .logFb) noise st (hist.map (fun h => .call (.wave h)))).2 = (filtered c st hist.flatten).2 := by
    intro hist
    induction hist with
    | nil =>
      intro st _
      simp only [List.map_nil, uses, List.flatten_nil, filtered, dcStage, preStage]
      split_ifs <;> rfl
    | cons a hist ih =>
      intro st h
      simp only [List.map_cons, uses, List.flatten_cons]
      rw [ih _ (fun b hb => h b (List.mem_cons_of_mem _ hb)), filtered_append]
      rw [stateAfter (c.steps .wave .logFb) noise rfl hd g.snip g.shift st a (h a List.mem_cons_self)]
      rfl
  have hs : s = (filtered c reset hist.flatten).2 := by
    simp only [s]
    rw [uses_append]
    show (uses (c.steps .wave .logFb) noise reset (hist.map (fun h => .call (.wave h)))).2 = _
    exact hst hist reset hh
  have ha : addDither noise c.dither x = x := by rw [addDither, if_neg hd]
  have h0 : sig0 c noise s x = y0 := by
    simp only [sig0, ha, y0, hs]
    rw [dcStage_append, List.drop_left' (dcStage_length _ _ _)]
    rfl
  have h1 : sig1 c noise s x = y1 := by
    have : sig1 c noise s x = (filtered c s x).1 := by simp only [sig1, sig0, ha, filtered]
    rw [this]
    simp only [y1]
    rw [filtered_append, List.drop_left' (by simp only [filtered]; rw [preStage_length, dcStage_length]), hs]
  have := C94_logfb c noise x g hfb s
  simp only [h0, h1] at this
  exact this

/-! ### C93: the logarithmic spectrum -/

theorem fb_shift (c : Cfg) (hfb : FbOk c) (r : List ℝ) (hr : r.length = c.n / 2 + 1) (col : List ℝ) (hc : col ∈ c.fb) :
    (List.zipWith (· * ·) ((r.map (fun a => Real.log (a + 1e-10))).map Real.exp) col).sum =
      (List.zipWith (· * ·) ((r.map (fun a => Real.exp (Real.log (a + 1e-10))))) col).sum := by
  rw [List.map_map]; rfl

/-- **C93** (logarithmic spectrum, without energies): continuing from the logarithmic spectrum does not give the same
filter bank outputs: each filter output gets `1e-10` times the sum of the filter weights more. -/
theorem C93_resume_logspec (c : Cfg) (hE : c.useEnergy = false) (hfb : FbOk c) (hpos : ∀ col ∈ c.fb, ∀ a ∈ col, 0 ≤ a)
    (noise : Nat → List ℝ) (st st2 : St) (x : List ℝ) (g : Good c noise x) (M : List (List ℝ))
    (h : result (c.steps .wave .logSpec) noise st (.wave x) = some (.real M)) :
    ∃ D D', result (c.steps .wave .logFb) noise st (.wave x) = some (.real D) ∧
      result (c.steps .logSpec .logFb) noise st2 (.real M) = some (.real D') ∧
      D.length = frames c x.length ∧ D'.length = D.length ∧
      ∀ i < D.length, ∀ j < c.fb.length,
        Real.exp ((D'.getD i []).getD j 0) =
          Real.exp ((D.getD i []).getD j 0) + 1e-10 * ∑ k ∈ Finset.range (c.n / 2 + 1), (c.fb.getD j []).getD k 0 := by
  have hEo : ∀ i o, (c.steps i o).useEnergy = false := fun _ _ => hE
  have hD := C94_logfb c noise x g hfb st
  simp only [hE, Bool.false_eq_true, if_false, List.nil_append] at hD
  rw [result_wave, prepWave_ok g st] at h
  simp only [Option.bind_some] at h
  rw [fin_spec _ rfl] at h
  simp only [Option.map_some, Option.bind_some] at h
  rw [squared_specM c .logSpec (by decide), sig1_length g.noise] at h
  simp only [putE, hEo, Bool.false_eq_true, if_false, Option.map_some, Option.some.injEq, Mat.real.injEq] at h
  set y1 := sig1 c noise st x
  have hpw : ∀ i k, 0 ≤ pow c y1 i k := by
    intro i k
    rw [pow]
    split_ifs <;> positivity
  have hexp : ∀ i k, Real.exp (Real.log (pow c y1 i k + 1e-10)) = pow c y1 i k + 1e-10 := by
    intro i k
    exact Real.exp_log (by have := hpw i k; positivity)
  have hp : (prepare (c.steps .logSpec .logFb) noise st2 (.real M)).1 =
      some ⟨none, some ((List.range (frames c x.length)).map (fun i => (List.range (c.n / 2 + 1)).map
        (fun k => pow c y1 i k + 1e-10))), none, none⟩ := by
    simp only [prepare]
    show (do let e ← energyCol (c.steps .logSpec .logFb) _; _ : Option Vars) = _
    simp only [energyCol, hEo, Bool.false_eq_true, if_false, Option.bind_eq_bind, Option.bind_some, ← h, List.map_map,
      Function.comp_def, hexp]
  set D' := (List.range (frames c x.length)).map (fun i => (List.range c.fb.length).map (fun j =>
    Real.log ((∑ k ∈ Finset.range (c.n / 2 + 1), (pow c y1 i k + 1e-10) * (c.fb.getD j []).getD k 0) + 1e-10))) with hD'
  refine ⟨_, D', hD, ?_, by simp, by simp [hD'], ?_⟩
  · rw [result_real _ _ _ _ hp, fin_fb _ (by show (3 : Nat) ≤ 3; decide) rfl]
    have hsq : ∀ F, squared (c.steps .logSpec .logFb) F = F := by
      intro F
      simp [squared, Cfg.steps, Step.value]
    simp only [Option.map_some, Option.bind_some, hsq]
    have hrow : ∀ i, fbRow (c.steps .logSpec .logFb) ((List.range (c.n / 2 + 1)).map (fun k => pow c y1 i k + 1e-10)) =
        some ((List.range c.fb.length).map (fun j =>
          Real.log ((∑ k ∈ Finset.range (c.n / 2 + 1), (pow c y1 i k + 1e-10) * (c.fb.getD j []).getD k 0) + 1e-10))) := by
      intro i
      have hn : (c.steps .logSpec .logFb).n = c.n := rfl
      have hf : (c.steps .logSpec .logFb).fb = c.fb := rfl
      rw [fbRow, hn, hf, if_pos (by simp)]
      congr 1
      apply List.ext_getElem
      · simp
      · intro j h1 h2
        have h3 : j < c.fb.length := by simpa using h2
        simp only [List.getElem_map, List.getElem_range]
        rw [zip_sum _ _ _ (hfb _ (List.getElem_mem h3))]
        simp [List.getD_eq_getElem?_getD, h3]
    have : ((List.range (frames c x.length)).map (fun i => (List.range (c.n / 2 + 1)).map
        (fun k => pow c y1 i k + 1e-10))).mapM (fbRow (c.steps .logSpec .logFb)) = some D' := by
      rw [mapM_eq_some_iff, List.map_map, hD', List.map_map]
      exact List.map_congr_left (fun i _ => hrow i)
    rw [this]
    simp only [Option.bind_some, stackE, hEo, Bool.false_eq_true, if_false, Option.map_some]
  · intro i hi j hj
    have hi' : i < frames c x.length := by simpa using hi
    have hw : ∀ k, 0 ≤ (c.fb.getD j []).getD k 0 := by
      intro k
      have hcol : c.fb.getD j [] ∈ c.fb := by
        simp [List.getD_eq_getElem?_getD, hj]
      rcases Nat.lt_or_ge k (c.fb.getD j []).length with hk | hk
      · have : (c.fb.getD j []).getD k 0 ∈ c.fb.getD j [] := by
          generalize c.fb.getD j [] = col at hk ⊢
          rw [List.getD_eq_getElem?_getD, List.getElem?_eq_getElem hk, Option.getD_some]
          exact List.getElem_mem hk
        exact hpos _ hcol _ this
      · generalize c.fb.getD j [] = col at hk ⊢
        rw [List.getD_eq_getElem?_getD, List.getElem?_eq_none hk, Option.getD_none]
    have e1 : (((List.range (frames c x.length)).map (fun i => (List.range c.fb.length).map (fun j => logfb c y1 i j))).getD
        i []).getD j 0 = logfb c y1 i j := by
      simp [List.getD_eq_getElem?_getD, hi', hj]
    have e2 : (D'.getD i []).getD j 0 =
        Real.log ((∑ k ∈ Finset.range (c.n / 2 + 1), (pow c y1 i k + 1e-10) * (c.fb.getD j []).getD k 0) + 1e-10) := by
      simp [hD', List.getD_eq_getElem?_getD, hi', hj]
    rw [e1, e2, logfb]
    have s1 : 0 ≤ ∑ k ∈ Finset.range (c.n / 2 + 1), pow c y1 i k * (c.fb.getD j []).getD k 0 :=
      Finset.sum_nonneg (fun k _ => mul_nonneg (hpw i k) (hw k))
    have s2 : 0 ≤ ∑ k ∈ Finset.range (c.n / 2 + 1), (pow c y1 i k + 1e-10) * (c.fb.getD j []).getD k 0 :=
      Finset.sum_nonneg (fun k _ => mul_nonneg (by have := hpw i k; positivity) (hw k))
    rw [Real.exp_log (by positivity), Real.exp_log (by positivity)]
    simp only [add_mul, Finset.sum_add_distrib, Finset.mul_sum]
    ring

/-! ### C93: the caller's matrix -/

theorem caller_cplx {c : Cfg} (hi : c.inp = .fft) {r : Res} {X' : List (List ℂ)} (h : r.X = some X')
    (X : List (List ℂ)) : callerAfter c (.cplx X) r = .cplx X' := by
  simp only [callerAfter, hi, h]

theorem caller_real {c : Cfg} (hi : c.inp = .fftMag) {r : Res} {M' : List (List ℝ)} (h : r.F = some M')
    (M : List (List ℝ)) : callerAfter c (.real M) r = .real M' := by
  simp only [callerAfter, hi, h]

/-- **C93** (the argument): `compute` leaves the caller's matrix as it was if energies are not used or if the output is
another step than the input. -/
theorem C93_argument_kept (c : Cfg) (noise : Nat → List ℝ) (st : St) (x : In) (r : Res)
    (h : (compute c noise st x).1 = some r) (hk : c.useEnergy = false ∨ c.out ≠ c.inp) : callerAfter c x r = x := by
  obtain ⟨i, o, c, rfl⟩ : ∃ i o, ∃ d : Cfg, c = d.steps i o := ⟨c.inp, c.out, c, rfl⟩
  have hi : (c.steps i o).inp = i := rfl
  have ho : (c.steps i o).out = o := rfl
  have hu : (c.steps i o).useEnergy = c.useEnergy := rfl
  rw [hi, ho, hu] at hk
  rw [compute] at h
  obtain ⟨v, hv, hf⟩ := Option.bind_eq_some_iff.1 h
  have key : (v.X.isSome = true → i = .fft → r.X = v.X) ∧ (i = .fftMag → r.F = v.F) := by
    rw [finish] at hf
    obtain ⟨B, -, hf⟩ := Option.bind_eq_some_iff.1 hf
    obtain ⟨P, -, hf⟩ := Option.bind_eq_some_iff.1 hf
    have hsq : i = .fftMag → v.F.map (squared (c.steps i o)) = v.F := by
      rintro rfl
      cases v.F with
      | none => rfl
      | some F => rw [Option.map_some, squared_mag]
    set F := v.F.map (squared (c.steps i o))
    have hA : (r.X = v.X ∨ (o = .fft ∧ c.useEnergy = true)) ∧ (r.F = F ∨ (o = .fftMag ∧ c.useEnergy = true)) := by
      rw [output, ho, hu] at hf
      rcases Bool.eq_false_or_eq_true c.useEnergy with hE | hE
      · rw [hE] at hf ⊢
        cases o
        all_goals
          simp only [if_true, Option.bind_eq_bind, Option.bind_eq_some_iff, Option.some.injEq] at hf
          first
          | (obtain ⟨_, h0, _, h1, _, h2, rfl⟩ := hf; simp)
          | (obtain ⟨_, h0, _, h1, _, h2, rfl⟩ := hf; simp [h0])
      · rw [hE] at hf ⊢
        cases o
        all_goals
          simp only [Bool.false_eq_true, if_false, Option.bind_eq_bind, Option.bind_eq_some_iff, Option.some.injEq] at hf
          obtain ⟨_, h0, rfl⟩ := hf
          simp
    constructor
    · rintro - rfl
      rcases hA.1 with h | ⟨h, h'⟩
      · exact h
      · rcases hk with hk | hk
        · rw [hk] at h'; simp at h'
        · exact absurd h hk
    · rintro rfl
      rw [← hsq rfl]
      rcases hA.2 with h | ⟨h, h'⟩
      · exact h
      · rcases hk with hk | hk
        · rw [hk] at h'; simp at h'
        · exact absurd h hk
  cases x with
  | wave x => rfl
  | cplx X =>
    simp only [prepare, hi] at hv
    split_ifs at hv with h1
    subst h1
    obtain ⟨e, -, he⟩ := Option.bind_eq_some_iff.1 hv
    injection he with he
    have hX : v.X = some X := by rw [← he]
    have := key.1 (by rw [hX]; rfl) rfl
    rw [caller_cplx hi (by rw [this, hX])]
  | real M =>
    cases i with
    | fftMag =>
      simp only [prepare, hi] at hv
      obtain ⟨e, -, he⟩ := Option.bind_eq_some_iff.1 hv
      injection he with he
      have hF : v.F = some M := by rw [← he]
      have := key.2 rfl
      rw [caller_real hi (by rw [this, hF])]
    | wave | fft | logSpec | logFb | cepstrum => rfl

/-- **C93** (negation): recomputing a magnitude spectrum with energies overwrites the first column of the caller's
matrix: here an energy of -1 becomes the floor. -/
theorem C93_argument_overwritten (c : Cfg) (hi : c.inp = .fftMag) (ho : c.out = .fftMag) (hE : c.useEnergy = true)
    (hf : c.floor = 1) (noise : Nat → List ℝ) (st : St) :
    ∃ r, (compute c noise st (.real [[-1, 5]])).1 = some r ∧ callerAfter c (.real [[-1, 5]]) r ≠ .real [[-1, 5]] := by
  have hsq : squared c [[-1, 5]] = [[-1, 5]] := by
    rw [squared, if_neg]
    rw [hi]; rintro ⟨h, -⟩; exact absurd h (by decide)
  have hB : ∀ F, stageB c F none = some none := by
    intro F
    rw [stageB, if_neg]
    rw [ho]; rintro ⟨-, h⟩; exact absurd h (by decide)
  have hP : ∀ B, stageP c B = some none := by
    intro B
    rw [stageP, if_neg]
    rw [ho]; rintro ⟨-, h⟩; exact absurd h (by decide)
  refine ⟨⟨.real [[max (-1) (Real.log (1 + 1e-15)), 5]], none, some [[max (-1) (Real.log (1 + 1e-15)), 5]], none⟩, ?_, ?_⟩
  · simp only [compute, prepare, hi, energyCol, hE, if_true, column0]
    simp [finish, hsq, hB, hP, output, ho, hE, setCol0, floored, hf]
  · rw [caller_real hi rfl]
    simp only [ne_eq, In.real.injEq, List.cons.injEq, and_true]
    have h1 : (0 : ℝ) < Real.log (1 + 1e-15) := Real.log_pos (by norm_num)
    have := le_max_right (-1 : ℝ) (Real.log (1 + 1e-15))
    intro h
    rw [h] at this
    linarith

theorem mapM_none_mem {α β : Type} {f : α → Option β} {l : List α} {a : α} (ha : a ∈ l) (h : f a = none) : l.mapM f = none := by
  rw [Option.eq_none_iff_forall_not_mem]
  intro b hb
  induction l generalizing b with
  | nil => simp at ha
  | cons x l ih =>
    rw [List.mapM_cons] at hb
    rcases List.mem_cons.1 ha with rfl | ha
    · rw [h] at hb
      simp at hb
    · simp only [Option.bind_eq_bind, Option.pure_def, Option.mem_def, Option.bind_eq_some_iff] at hb
      obtain ⟨_, -, b', hb', -⟩ := hb
      exact ih ha b' hb'

/-- **C93 (wrong width).** Magnitudes or logarithms of a spectrum that do not have `n / 2 + 1` columns are refused when the filter bank is
to be applied. -/
theorem C93_wrong_width (c : Cfg) (noise : Nat → List ℝ) (st : St) (M : List (List ℝ)) (hi : c.inp = .fftMag ∨ c.inp = .logSpec)
    (ho : c.out = .logFb ∨ c.out = .cepstrum) (r : List ℝ) (hr : r ∈ M) (hw : r.length ≠ c.n / 2 + 1) :
    (compute c noise st (.real M)).1 = none := by
  have hB : ∀ F B, (∃ r ∈ F, r.length ≠ c.n / 2 + 1) → stageB c (some (squared c F)) B = none := by
    rintro F B ⟨r, hr, hw⟩
    rw [stageB, if_pos]
    · have hr' : ∃ r' ∈ squared c F, fbRow c r' = none := by
        unfold squared
        split_ifs
        · exact ⟨_, List.mem_map_of_mem hr, by rw [fbRow, if_neg]; rwa [List.length_map]⟩
        · exact ⟨r, hr, by rw [fbRow, if_neg hw]⟩
      obtain ⟨r', h1, h2⟩ := hr'
      simp [mapM_none_mem h1 h2]
    · rcases hi with h | h <;> rcases ho with h' | h' <;> rw [h, h'] <;> decide
  simp only [compute, Option.bind_eq_none_iff]
  intro v hv
  have hF : ∃ F, v.F = some F ∧ ∃ r ∈ F, r.length ≠ c.n / 2 + 1 := by
    rcases hi with h | h <;> simp only [prepare, h, Option.bind_eq_bind, Option.bind_eq_some_iff, Option.some.injEq] at hv <;>
      obtain ⟨_, -, hv⟩ := hv <;> rw [← hv]
    · exact ⟨M, rfl, r, hr, hw⟩
    · exact ⟨_, rfl, _, List.mem_map_of_mem hr, by rwa [List.length_map]⟩
  obtain ⟨F, h1, h2⟩ := hF
  simp [finish, h1, hB F _ h2]

/-! ### A concrete configuration -/

/-- Frames of two samples, one filter on the second bin, energies used. -/
noncomputable def exCfg : Cfg :=
  { L := 2, S := 1, n := 2, removeDc := true, preemph := 0.97, window := [1, 1], useFft2 := true, dither := 0,
    fb := [[0, 1]], numCeps := 1, snip := true, floor := 0, rawEnergy := true, useEnergy := true, lifter := 22,
    inp := .wave, out := .cepstrum }

theorem exGood (x : List ℝ) (hx : 2 ≤ x.length) : Good exCfg (fun n => List.replicate n 0) x :=
  ⟨by decide, hx, rfl, rfl, by decide, by simp⟩

theorem exFb : FbOk exCfg := by
  intro col hcol
  simp [exCfg] at hcol
  subst hcol
  rfl

example : DcFree exCfg := by
  intro col hcol
  simp [exCfg] at hcol
  subst hcol
  rfl

/-- The hypotheses of C94 hold for waves of at least two samples, and a wave of five samples gives four frames. -/
example : ∃ D, result (exCfg.steps .wave .logFb) (fun n => List.replicate n 0) reset (.wave [1, 2, 3, 4, 5]) =
    some (.real D) ∧ D.length = 4 := by
  refine ⟨_, C94_logfb exCfg _ [1, 2, 3, 4, 5] (exGood _ (by simp)) exFb reset, ?_⟩
  simp [frames, exCfg]

/-- The hypothesis of `C93_resume_fft_wrong` holds for silence. -/
example : ∃ D, result (exCfg.steps .wave .logFb) (fun n => List.replicate n 0) reset (.wave [0, 0, 0]) =
    some (.real D) ∧ ∃ r ∈ D, r.getD 0 0 < 0 := by
  refine ⟨_, C94_logfb exCfg _ [0, 0, 0] (exGood _ (by simp)) exFb reset, ?_⟩
  have hlog : Real.log 1e-15 < 0 := Real.log_neg (by norm_num) (by norm_num)
  have hE : exCfg.useEnergy = true := rfl
  have hf : exCfg.floor = 0 := rfl
  simp only [hE, if_true, hf, List.mem_map, List.mem_range]
  refine ⟨_, ⟨0, by simp [frames], rfl⟩, ?_⟩
  have hy : sig0 exCfg (fun n => List.replicate n 0) reset [0, 0, 0] = [0, 0, 0] := by
    simp [sig0, addDither, exCfg, dcStage, dcFilter, lfilter, reset]
  have he : energy exCfg [0, 0, 0] (sig1 exCfg (fun n => List.replicate n 0) reset [0, 0, 0]) 0 = Real.log 1e-15 := by
    simp [energy, exCfg, Finset.sum_range_succ]
  rw [hy, he]
  simp
  norm_num at hlog ⊢
  exact hlog

/-- three columns for transforms of length two -/
example : (compute { exCfg with inp := .fftMag, out := .logFb } (fun _ => []) ⟨0, 0⟩ (.real [[1, 2], [1, 2, 3]])).1 = none :=
  C93_wrong_width _ _ _ _ (Or.inl rfl) (Or.inl rfl) [1, 2, 3] (by simp) (by simp [exCfg])

end Hyp.Mfcc
