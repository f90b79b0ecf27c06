import Verif.Feats.MfccProps

/-! C93, continued: continuing from the magnitude spectrum, the complex spectrum and the log spectrum; what raises. -/

namespace Hyp.Mfcc
open Hyp.Stft Hyp.Frontend

/-- No filter looks at the first (DC) bin; true of the Kaldi mel filter bank with a non-negative low cut-off
(C91_kaldi_dc). -/
def DcFree (c : Cfg) : Prop := ∀ col ∈ c.fb, col.getD 0 0 = 0

theorem zipWith_set_sum {r col : List ℝ} (a : ℝ) (h : col.getD 0 0 = 0) :
    (List.zipWith (· * ·) (r.set 0 a) col).sum = (List.zipWith (· * ·) r col).sum := by
  cases r with
  | nil => rfl
  | cons b r =>
    cases col with
    | nil => simp
    | cons d col =>
      have : d = 0 := by simpa using h
      simp [this]

theorem fbRow_set {c : Cfg} (hdc : DcFree c) (r : List ℝ) (a : ℝ) : fbRow c (r.set 0 a) = fbRow c r := by
  rw [fbRow, fbRow, List.length_set]
  split_ifs
  · congr 1
    refine List.map_congr_left (fun col hcol => ?_)
    rw [zipWith_set_sum a (hdc col hcol)]
  · rfl

theorem mapM_zipWith_set {c : Cfg} (hdc : DcFree c) : ∀ (f : List (List ℝ)) (e : List ℝ), e.length = f.length →
    (List.zipWith (fun r a => r.set 0 a) f e).mapM (fbRow c) = f.mapM (fbRow c)
  | [], _, _ => rfl
  | r :: f, [], h => by simp at h
  | r :: f, a :: e, h => by
    rw [List.zipWith_cons_cons, List.mapM_cons, List.mapM_cons, fbRow_set hdc,
      mapM_zipWith_set hdc f e (by simpa using h)]

theorem zipWith_set_twice {K : Type} : ∀ (f : List (List K)) (e e' : List K), e.length = f.length →
    List.zipWith (fun r a => r.set 0 a) (List.zipWith (fun r a => r.set 0 a) f e) e' =
      List.zipWith (fun r a => r.set 0 a) f e'
  | [], _, _, _ => by simp
  | r :: f, [], _, h => by simp at h
  | r :: f, a :: e, [], _ => by simp
  | r :: f, a :: e, b :: e', h => by
    simp only [List.zipWith_cons_cons, List.set_set, List.cons.injEq, true_and]
    exact zipWith_set_twice f e e' (by simpa using h)

theorem map_zipWith_set_twice {K J : Type} (g : K → J) : ∀ (f : List (List K)) (e : List K) (e' : List J),
    e.length = f.length →
    List.zipWith (fun r a => r.set 0 a) ((List.zipWith (fun r a => r.set 0 a) f e).map (fun row => row.map g)) e' =
      List.zipWith (fun r a => r.set 0 a) (f.map (fun row => row.map g)) e'
  | [], _, _, _ => by simp
  | r :: f, [], _, h => by simp at h
  | r :: f, a :: e, [], _ => by simp
  | r :: f, a :: e, b :: e', h => by
    simp only [List.zipWith_cons_cons, List.map_cons, List.map_set, List.set_set, List.cons.injEq, true_and]
    exact map_zipWith_set_twice g f e e' (by simpa using h)

theorem setCol0_ok {K : Type} {R : List (List K)} {e : List K} (hl : e.length = R.length) (hne : ∀ r ∈ R, r ≠ []) :
    setCol0 R e = some (List.zipWith (fun r a => r.set 0 a) R e) := by
  rw [setCol0, if_neg, if_pos hl]
  rw [List.any_eq_true]
  rintro ⟨r, hr, h⟩
  exact hne r hr (by simpa using h)

theorem zipWith_set_ne {K : Type} : ∀ {f : List (List K)} {e : List K}, (∀ r ∈ f, r ≠ []) →
    ∀ r ∈ List.zipWith (fun r a => r.set 0 a) f e, r ≠ []
  | [], _, _, r, hr => by simp at hr
  | r :: f, [], _, q, hq => by simp at hq
  | r :: f, a :: e, h, q, hq => by
    rw [List.zipWith_cons_cons, List.mem_cons] at hq
    rcases hq with rfl | hq
    · have := h r (by simp)
      intro hc
      apply this
      have := congrArg List.length hc
      simpa using this
    · exact zipWith_set_ne (fun r hr => h r (by simp [hr])) q hq

theorem zipWith_set_length {K : Type} {f : List (List K)} {e : List K} (h : e.length = f.length) :
    (List.zipWith (fun r a => r.set 0 a) f e).length = f.length := by simp [h]

/-- From the spectrum on, the result for each output. -/
theorem spectral_result (c : Cfg) (o : Step) (ho : 2 ≤ o.value) (f f' : List (List ℝ)) (i i' : Step)
    (hi : i.value ≤ 3) (hi' : i'.value ≤ 3) (X X' : Option (List (List ℂ))) (e e' : Option (List ℝ))
    (hf : squared (c.steps i o) f = squared (c.steps i' o) f' ∨
      ∃ (l : List ℝ), l.length = (squared (c.steps i' o) f').length ∧
        squared (c.steps i o) f = List.zipWith (fun r a => r.set 0 a) (squared (c.steps i' o) f') l ∧
        DcFree c ∧ c.useEnergy = true ∧ (∀ r ∈ squared (c.steps i' o) f', r ≠ []) ∧
        ∀ m, e' = some m → m.length = (squared (c.steps i' o) f').length)
    (he : c.useEnergy = true → ∃ m m', e = some m ∧ e' = some m' ∧ floored c m = floored c m') :
    (finish (c.steps i o) ⟨X, some f, none, e⟩).map Res.R = (finish (c.steps i' o) ⟨X', some f', none, e'⟩).map Res.R := by
  have hput : ∀ j j' p, putE (c.steps j o) e p = putE (c.steps j' o) e' p := by
    intro j j' p
    simp only [putE]
    show (if c.useEnergy then _ else _) = (if c.useEnergy then _ else _)
    by_cases hE : c.useEnergy = true
    · obtain ⟨m, m', rfl, rfl, hm⟩ := he hE
      simp only [hE, if_true, Option.bind_some, floored_steps, hm]
    · simp only [hE, Bool.false_eq_true, if_false]
  have hstk : ∀ j j' p, stackE (c.steps j o) e p = stackE (c.steps j' o) e' p := by
    intro j j' p
    simp only [stackE]
    show (if c.useEnergy then _ else _) = (if c.useEnergy then _ else _)
    by_cases hE : c.useEnergy = true
    · obtain ⟨m, m', rfl, rfl, hm⟩ := he hE
      simp only [hE, if_true, Option.bind_some, floored_steps, hm]
    · simp only [hE, Bool.false_eq_true, if_false]
  have hfb : ∀ j j', (squared (c.steps i o) f).mapM (fbRow (c.steps j o)) =
      (squared (c.steps i' o) f').mapM (fbRow (c.steps j' o)) := by
    intro j j'
    rcases hf with hf | ⟨l, hl, hf, hdc, -, -, -⟩
    · rw [hf]; rfl
    · rw [hf]
      exact mapM_zipWith_set hdc _ l hl
  cases o with
  | wave => simp [Step.value] at ho
  | fft => simp [Step.value] at ho
  | fftMag =>
    rw [fin_mag _ rfl, fin_mag _ rfl]
    simp only [Option.map_some, Option.bind_some, hput i i']
    rcases hf with hf | ⟨l, hl, hf, hdc, hE, hne, hm'⟩
    · rw [hf]
    · rw [hf]
      have hE' : (c.steps i' .fftMag).useEnergy = true := hE
      obtain ⟨m, m', rfl, rfl, hm⟩ := he hE
      have hml := hm' m' rfl
      simp only [putE, hE', if_true, Option.bind_some, floored_steps]
      rw [setCol0_ok (by rw [zipWith_set_length hl, floored_length, hml]) (zipWith_set_ne hne),
        setCol0_ok (by rw [floored_length, hml]) hne, zipWith_set_twice _ _ _ hl]
  | logSpec =>
    rw [fin_spec _ rfl, fin_spec _ rfl]
    simp only [Option.map_some, Option.bind_some, hput i i']
    rcases hf with hf | ⟨l, hl, hf, hdc, hE, hne, hm'⟩
    · rw [hf]
    · rw [hf]
      have hE' : (c.steps i' .logSpec).useEnergy = true := hE
      obtain ⟨m, m', rfl, rfl, hm⟩ := he hE
      have hml := hm' m' rfl
      have hmne : ∀ (G : List (List ℝ)), (∀ r ∈ G, r ≠ []) →
          ∀ r ∈ G.map (fun row => row.map (fun a => Real.log (a + 1e-10))), r ≠ [] := by
        intro G hG r hr
        obtain ⟨q, hq, rfl⟩ := List.mem_map.1 hr
        simpa using hG q hq
      simp only [putE, hE', if_true, Option.bind_some, floored_steps]
      rw [setCol0_ok (by rw [List.length_map, zipWith_set_length hl, floored_length, hml])
        (hmne _ (zipWith_set_ne hne)),
        setCol0_ok (by rw [List.length_map, floored_length, hml]) (hmne _ hne), map_zipWith_set_twice _ _ _ _ hl]
  | logFb =>
    rw [fin_fb _ hi rfl, fin_fb _ hi' rfl]
    simp only [Option.map_some, Option.bind_some, hstk i i', hfb i i']
  | cepstrum =>
    rw [fin_cep _ hi rfl, fin_cep _ hi' rfl]
    simp only [Option.map_some, Option.bind_some, hput i i', hfb i i']
    rfl

theorem squared_wave (c : Cfg) (o : Step) (ho : 2 ≤ o.value) (F : List (List ℝ)) :
    squared (c.steps .wave o) F = squared (c.steps .wave .fftMag) F := by
  have : Step.fftMag.value ≤ o.value := ho
  simp [squared, Cfg.steps, Step.value] at this ⊢
  simp [this]

theorem squared_fft (c : Cfg) (o : Step) (ho : 2 ≤ o.value) (F : List (List ℝ)) :
    squared (c.steps .fft o) F = squared (c.steps .wave o) F := by
  simp [squared, Cfg.steps, Step.value]

theorem squared_mag (c : Cfg) (o : Step) (F : List (List ℝ)) : squared (c.steps .fftMag o) F = F := by
  simp [squared, Cfg.steps, Step.value]

/-- **C93** (magnitude spectrum): computing the magnitude spectrum from the wave and continuing from it later to any
output gives exactly what the one-step computation gives; with energies (stored in the place of the DC bin) this holds
for filter banks that do not use the DC bin. -/
theorem C93_resume_mag (c : Cfg) (hdc : c.useEnergy = true → DcFree c) (noise : Nat → List ℝ) (st st2 : St)
    (x : List ℝ) (o : Step) (ho : 2 ≤ o.value) (M : List (List ℝ))
    (h : result (c.steps .wave .fftMag) noise st (.wave x) = some (.real M)) :
    result (c.steps .fftMag o) noise st2 (.real M) = result (c.steps .wave o) noise st (.wave x) := by
  rw [result_wave] at h ⊢
  obtain ⟨v, hv, h⟩ := Option.bind_eq_some_iff.1 h
  obtain ⟨X, e, rfl, h1, h2⟩ := prepWave_spec (show prepWave c noise st x = (some v, (prepWave c noise st x).2) from
    Prod.ext hv rfl)
  rw [hv]
  rw [fin_mag _ rfl] at h
  simp only [Option.map_some, Option.bind_some] at h ⊢
  by_cases hE : c.useEnergy = true
  · have hEo : ∀ i o, (c.steps i o).useEnergy = true := fun _ _ => hE
    obtain ⟨l, rfl, hl⟩ := h1 hE
    have hlen : (floored c l).length = (squared (c.steps .wave .fftMag) (absM X)).length := by
      rw [floored_length, squared_length, absM, List.length_map, hl]
    simp only [putE, hEo, if_true, Option.bind_some, floored_steps] at h
    obtain ⟨M', hM', h⟩ := Option.map_eq_some_iff.1 h
    simp only [Mat.real.injEq] at h
    subst h
    obtain ⟨rfl, hne⟩ := setCol0_eq hlen hM'
    have hp : (prepare (c.steps .fftMag o) noise st2 (.real (List.zipWith (fun r a => r.set 0 a)
        (squared (c.steps .wave .fftMag) (absM X)) (floored c l)))).1 =
        some ⟨none, some (List.zipWith (fun r a => r.set 0 a)
        (squared (c.steps .wave .fftMag) (absM X)) (floored c l)), none, some (floored c l)⟩ := by
      simp only [prepare]
      show (do let e ← energyCol (c.steps .fftMag o) _; _ : Option Vars) = _
      simp only [energyCol, hEo, if_true, column0_setCol0 hlen hne, Option.map_some, Option.bind_eq_bind,
        Option.bind_some]
    rw [result_real _ _ _ _ hp]
    refine spectral_result c o ho _ _ .fftMag .wave (by decide) (by decide) _ _ _ _ (Or.inr ⟨floored c l, ?_, ?_⟩)
      (fun _ => ⟨_, _, rfl, rfl, floored_idem c l⟩)
    · rw [squared_wave c o ho]; exact hlen
    · rw [squared_wave c o ho, squared_mag]
      refine ⟨rfl, hdc hE, hE, hne, fun m hm => ?_⟩
      injection hm with hm
      rw [← hm, ← hlen, floored_length]
  · have hE' : c.useEnergy = false := by simpa using hE
    have hEo : ∀ i o, (c.steps i o).useEnergy = false := fun _ _ => hE'
    have := h2 hE'
    subst this
    simp only [putE, hEo, Bool.false_eq_true, if_false, Option.map_some, Option.some.injEq, Mat.real.injEq] at h
    subst h
    have hp : (prepare (c.steps .fftMag o) noise st2 (.real (squared (c.steps .wave .fftMag) (absM X)))).1 =
        some ⟨none, some (squared (c.steps .wave .fftMag) (absM X)), none, none⟩ := by
      simp only [prepare]
      show (do let e ← energyCol (c.steps .fftMag o) _; _ : Option Vars) = _
      simp only [energyCol, hEo, Bool.false_eq_true, if_false, Option.bind_eq_bind, Option.bind_some]
    rw [result_real _ _ _ _ hp]
    refine spectral_result c o ho _ _ .fftMag .wave (by decide) (by decide) _ _ _ _ (Or.inl ?_)
      (fun h => by rw [hE'] at h; simp at h)
    rw [squared_mag, squared_wave c o ho]

/-- The complex spectrum as output. -/
theorem fin_fft (c : Cfg) (ho : c.out = .fft) (X : List (List ℂ)) (F : Option (List (List ℝ))) (e : Option (List ℝ)) :
    (finish c ⟨some X, F, none, e⟩).map Res.R =
      if c.useEnergy then e.bind (fun e => (setCol0 X ((floored c e).map Complex.ofReal)).map Mat.cplx)
      else some (.cplx X) := by
  simp only [finish, stageB, stageP, ho, Step.value, Nat.reduceLeDiff, and_false, if_false, Option.bind_eq_bind,
    Option.bind_some, reduceCtorEq, output]
  by_cases hE : c.useEnergy = true
  · simp only [hE, if_true]
    cases e with
    | none => rfl
    | some e =>
      simp only [Option.bind_some]
      cases setCol0 X ((floored c e).map Complex.ofReal) <;> rfl
  · simp only [hE, Bool.false_eq_true, if_false]
    rfl

/-- **C93** (complex spectrum, without energy): continuing from the complex spectrum gives exactly what the one-step
computation gives. -/
theorem C93_resume_fft (c : Cfg) (hE : c.useEnergy = false) (noise : Nat → List ℝ) (st st2 : St) (x : List ℝ) (o : Step)
    (ho : 2 ≤ o.value) (X : List (List ℂ)) (h : result (c.steps .wave .fft) noise st (.wave x) = some (.cplx X)) :
    result (c.steps .fft o) noise st2 (.cplx X) = result (c.steps .wave o) noise st (.wave x) := by
  rw [result_wave] at h ⊢
  obtain ⟨v, hv, h⟩ := Option.bind_eq_some_iff.1 h
  obtain ⟨X', e, rfl, -, h2⟩ := prepWave_spec (show prepWave c noise st x = (some v, (prepWave c noise st x).2) from
    Prod.ext hv rfl)
  have := h2 hE
  subst this
  have hEo : ∀ i o, (c.steps i o).useEnergy = false := fun _ _ => hE
  rw [hv]
  rw [fin_fft _ rfl] at h
  simp only [hEo, Bool.false_eq_true, if_false, Option.some.injEq, Mat.cplx.injEq] at h
  subst h
  have hp : (prepare (c.steps .fft o) noise st2 (.cplx X')).1 = some ⟨some X', some (absM X'), none, none⟩ := by
    simp only [prepare]
    show (if Step.fft = Step.fft then _ else _) = _
    simp only [if_true, energyCol, hEo, Bool.false_eq_true, if_false, Option.bind_eq_bind, Option.bind_some]
  rw [result_cplx _ _ _ _ hp]
  refine spectral_result c o ho _ _ .fft .wave (by decide) (by decide) _ _ _ _ (Or.inl (squared_fft c o ho _))
    (fun h => by rw [hE] at h; simp at h)

theorem absM_zipWith_set : ∀ (X : List (List ℂ)) (e : List ℝ),
    absM (List.zipWith (fun r a => r.set 0 a) X (e.map Complex.ofReal)) =
      List.zipWith (fun r a => r.set 0 a) (absM X) (e.map (fun a => |a|))
  | [], e => by simp [absM]
  | r :: X, [] => by simp [absM]
  | r :: X, a :: e => by
    have := absM_zipWith_set X e
    simp only [absM] at this
    simp only [absM, List.map_cons, List.zipWith_cons_cons, this, List.map_set, Complex.norm_real, Real.norm_eq_abs]

theorem squared_zipWith_set (c : Cfg) (o : Step) (ho : 2 ≤ o.value) : ∀ (F : List (List ℝ)) (e : List ℝ),
    ∃ e' : List ℝ, e'.length = e.length ∧ squared (c.steps .fft o) (List.zipWith (fun r a => r.set 0 a) F e) =
      List.zipWith (fun r a => r.set 0 a) (squared (c.steps .fft o) F) e' := by
  intro F e
  have h2 : Step.fftMag.value ≤ (c.steps .fft o).out.value := ho
  have h1 : (c.steps .fft o).inp.value ≤ Step.fft.value := le_refl _
  by_cases hq : c.useFft2 = true
  · have hq' : (c.steps .fft o).useFft2 = true := hq
    refine ⟨e.map (fun a => a ^ 2), by simp, ?_⟩
    simp only [squared, h1, h2, hq', and_self, if_true]
    induction F generalizing e with
    | nil => simp
    | cons r F ih =>
      cases e with
      | nil => simp
      | cons a e => simp only [List.zipWith_cons_cons, List.map_cons, List.map_set, ih e]
  · have hq' : ¬ (c.steps .fft o).useFft2 = true := hq
    refine ⟨e, rfl, ?_⟩
    simp [squared, h1, h2, hq']

/-- The complex spectrum with energies: the resumed computation works with the absolute values of the stored
energies. -/
theorem resume_fft_energy (c : Cfg) (hE : c.useEnergy = true) (hdc : DcFree c) (noise : Nat → List ℝ) (st st2 : St)
    (x : List ℝ) (o : Step) (ho : 2 ≤ o.value) (X : List (List ℂ))
    (h : result (c.steps .wave .fft) noise st (.wave x) = some (.cplx X)) :
    ∃ (X0 : List (List ℂ)) (l : List ℝ), (prepWave c noise st x).1 = some ⟨some X0, some (absM X0), none, some l⟩ ∧
      l.length = X0.length ∧ X = List.zipWith (fun r a => r.set 0 a) X0 ((floored c l).map Complex.ofReal) ∧
      (∀ r ∈ X0, r ≠ []) ∧
      result (c.steps .fft o) noise st2 (.cplx X) =
        (finish (c.steps .wave o) ⟨some X0, some (absM X0), none, some ((floored c l).map (fun a => |a|))⟩).map Res.R := by
  rw [result_wave] at h
  obtain ⟨v, hv, h⟩ := Option.bind_eq_some_iff.1 h
  obtain ⟨X0, e, rfl, h1, -⟩ := prepWave_spec (show prepWave c noise st x = (some v, (prepWave c noise st x).2) from
    Prod.ext hv rfl)
  obtain ⟨l, rfl, hl⟩ := h1 hE
  have hEo : ∀ i o, (c.steps i o).useEnergy = true := fun _ _ => hE
  rw [fin_fft _ rfl] at h
  simp only [hEo, if_true, Option.bind_some, floored_steps] at h
  obtain ⟨X', hX', h⟩ := Option.map_eq_some_iff.1 h
  simp only [Mat.cplx.injEq] at h
  subst h
  have hlen : ((floored c l).map Complex.ofReal).length = X0.length := by rw [List.length_map, floored_length, hl]
  obtain ⟨rfl, hne⟩ := setCol0_eq hlen hX'
  refine ⟨X0, l, hv, hl, rfl, hne, ?_⟩
  have hal : ((floored c l).map (fun a => |a|)).length = (absM X0).length := by
    rw [List.length_map, floored_length, absM, List.length_map, hl]
  have hane : ∀ r ∈ absM X0, r ≠ [] := by
    intro r hr
    obtain ⟨q, hq, rfl⟩ := List.mem_map.1 hr
    simpa using hne q hq
  have hp : (prepare (c.steps .fft o) noise st2 (.cplx (List.zipWith (fun r a => r.set 0 a) X0
      ((floored c l).map Complex.ofReal)))).1 = some ⟨some (List.zipWith (fun r a => r.set 0 a) X0
      ((floored c l).map Complex.ofReal)), some (List.zipWith (fun r a => r.set 0 a) (absM X0)
        ((floored c l).map (fun a => |a|))), none, some ((floored c l).map (fun a => |a|))⟩ := by
    simp only [prepare]
    show (if Step.fft = Step.fft then _ else _) = _
    simp only [if_true, energyCol, hEo, absM_zipWith_set, column0_setCol0 hal hane, Option.map_some,
      Option.bind_eq_bind, Option.bind_some]
  rw [result_cplx _ _ _ _ hp]
  obtain ⟨e', he', hsq⟩ := squared_zipWith_set c o ho (absM X0) ((floored c l).map (fun a => |a|))
  have hsne : ∀ r ∈ squared (c.steps .wave o) (absM X0), r ≠ [] := by
    intro r hr
    rw [squared] at hr
    split_ifs at hr
    · obtain ⟨q, hq, rfl⟩ := List.mem_map.1 hr
      simpa using hane q hq
    · exact hane r hr
  refine spectral_result c o ho _ _ .fft .wave (by decide) (by decide) _ _ _ _ (Or.inr ⟨e', ?_, ?_, hdc, hE, hsne, ?_⟩)
    (fun _ => ⟨_, _, rfl, rfl, rfl⟩)
  · rw [he', hal, squared_length]
  · rw [hsq, squared_fft c o ho]
  · intro m hm
    injection hm with hm
    rw [← hm, hal, squared_length]

/-- **C93** (complex spectrum, with energy): continuing from the complex spectrum is exact if all the stored energies
(the real parts of column 0) are non-negative, which an energy floor of at least 1 guarantees. -/
theorem C93_resume_fft_energy (c : Cfg) (hE : c.useEnergy = true) (hdc : DcFree c) (noise : Nat → List ℝ) (st st2 : St)
    (x : List ℝ) (o : Step) (ho : 2 ≤ o.value) (X : List (List ℂ))
    (h : result (c.steps .wave .fft) noise st (.wave x) = some (.cplx X))
    (hpos : (∀ r ∈ X, 0 ≤ (r.getD 0 0).re) ∨ 1 ≤ c.floor) :
    result (c.steps .fft o) noise st2 (.cplx X) = result (c.steps .wave o) noise st (.wave x) := by
  obtain ⟨X0, l, hv, hl, hX, hne, hr⟩ := resume_fft_energy c hE hdc noise st st2 x o ho X h
  rw [hr, result_wave, hv]
  simp only [Option.bind_some]
  have habs : (floored c l).map (fun a => |a|) = floored c l := by
    conv_rhs => rw [← List.map_id (floored c l)]
    refine List.map_congr_left (fun a ha => ?_)
    rw [id_eq, abs_of_nonneg]
    rcases hpos with hpos | hpos
    · obtain ⟨i, hi, rfl⟩ := List.getElem_of_mem ha
      rw [floored_length] at hi
      have hi0 : i < X0.length := by omega
      have hiX : i < X.length := by rw [hX]; simp [floored_length, hl]; omega
      have h3 := hpos _ (List.getElem_mem hiX)
      have h4 : X[i] = X0[i].set 0 (((floored c l)[i]'(by rw [floored_length]; exact hi) : ℝ) : ℂ) := by
        simp [hX]
      rw [h4] at h3
      have hne0 := hne _ (List.getElem_mem hi0)
      have hp0 : 0 < X0[i].length := List.length_pos_of_ne_nil hne0
      simpa [List.getD_eq_getElem?_getD, hp0] using h3
    · rw [floored] at ha
      obtain ⟨q, -, rfl⟩ := List.mem_map.1 ha
      refine le_trans (Real.log_nonneg ?_) (le_max_right _ _)
      have : (0 : ℝ) ≤ 1e-15 := by norm_num
      linarith
  rw [habs]
  have hff : floored c (floored c l) = floored c l := floored_idem c l
  exact spectral_result c o ho _ _ .wave .wave (by decide) (by decide) _ _ _ _ (Or.inl rfl)
    (fun _ => ⟨_, _, rfl, rfl, hff⟩)

/-- **C93** (complex spectrum, negation): continuing from the complex spectrum never gives a negative energy, although
the log energy of a frame is negative as soon as its energy is below 1: then the result is wrong. -/
theorem C93_resume_fft_wrong (c : Cfg) (hE : c.useEnergy = true) (hdc : DcFree c) (noise : Nat → List ℝ) (st st2 : St)
    (x : List ℝ) (X : List (List ℂ)) (h : result (c.steps .wave .fft) noise st (.wave x) = some (.cplx X))
    (D : List (List ℝ)) (hD : result (c.steps .wave .logFb) noise st (.wave x) = some (.real D))
    (r : List ℝ) (hr : r ∈ D) (hneg : r.getD 0 0 < 0) :
    result (c.steps .fft .logFb) noise st2 (.cplx X) ≠ some (.real D) := by
  obtain ⟨X0, l, hv, hl, hX, hne, hres⟩ := resume_fft_energy c hE hdc noise st st2 x .logFb (by decide) X h
  rw [hres, fin_fb _ (by show (0 : Nat) ≤ 3; decide) rfl]
  have hEo : ∀ i o, (c.steps i o).useEnergy = true := fun _ _ => hE
  simp only [Option.map_some, Option.bind_some, stackE, hEo, if_true, floored_steps]
  intro hc
  obtain ⟨b, hb, hc⟩ := Option.bind_eq_some_iff.1 hc
  obtain ⟨R, hR, hc⟩ := Option.map_eq_some_iff.1 hc
  simp only [Mat.real.injEq] at hc
  subst hc
  rw [hstack] at hR
  split_ifs at hR with hlen
  injection hR with hR
  obtain ⟨i, hi, rfl⟩ := List.getElem_of_mem hr
  have hi' := hi
  rw [← hR] at hi'
  have h5 : i < (floored c ((floored c l).map (fun a => |a|))).length := by
    rw [List.length_zipWith] at hi'; omega
  have h6 : R[i].getD 0 0 = (floored c ((floored c l).map (fun a => |a|)))[i] := by
    simp [← hR]
  rw [h6] at hneg
  simp only [floored, List.getElem_map] at hneg
  have := le_max_left (|max (l[i]'(by simp [floored] at h5; exact h5)) (Real.log (c.floor + 1e-15))|)
    (Real.log (c.floor + 1e-15))
  have := abs_nonneg (max (l[i]'(by simp [floored] at h5; exact h5)) (Real.log (c.floor + 1e-15)))
  linarith

/-- **C93** (what raises): 'cepstrum' as input and 'wave' as output always raise; 'logfb' as input raises without
energies; an output that lies before the input raises. -/
theorem C93_raises (c : Cfg) (noise : Nat → List ℝ) (st : St) (x : In)
    (h : c.inp = .cepstrum ∨ c.out = .wave ∨ (c.inp = .logFb ∧ c.useEnergy = false) ∨
      (c.out = .fft ∧ 2 ≤ c.inp.value) ∨ (c.out.value ≤ 3 ∧ c.inp = .logFb)) :
    result c noise st x = none := by
  obtain ⟨i, o, c, rfl⟩ : ∃ i o, ∃ d : Cfg, c = d.steps i o := ⟨c.inp, c.out, c, rfl⟩
  have hi : (c.steps i o).inp = i := rfl
  have ho : (c.steps i o).out = o := rfl
  have hu : (c.steps i o).useEnergy = c.useEnergy := rfl
  rw [hi, ho, hu] at h
  rw [result, compute]
  rcases Option.eq_none_or_eq_some (prepare (c.steps i o) noise st x).1 with hp | ⟨v, hp⟩
  · rw [hp]; rfl
  · rw [hp]
    simp only [Option.bind_some, Option.map_eq_none_iff]
    -- which variables are bound
    have hX : 2 ≤ i.value → v.X = none := by
      intro h2
      cases x with
      | wave x =>
        simp only [prepare, hi] at hp
        split_ifs at hp with hw
        rw [hw] at h2; simp [Step.value] at h2
      | cplx X =>
        simp only [prepare, hi] at hp
        split_ifs at hp with hw
        rw [hw] at h2; simp [Step.value] at h2
      | real M =>
        simp only [prepare, hi] at hp
        cases i <;> simp [Step.value] at h2 hp
        all_goals
          first
          | (obtain ⟨e, -, he⟩ := Option.bind_eq_some_iff.1 hp
             injection he with he
             rw [← he])
          | (rw [← hp])
    have hF : i = .logFb → v.F = none ∧ (c.useEnergy = false → v.B = none) := by
      rintro rfl
      cases x with
      | wave x => simp only [prepare, hi] at hp; simp at hp
      | cplx X => simp only [prepare, hi] at hp; simp at hp
      | real M =>
        simp only [prepare, hi] at hp
        obtain ⟨e, -, he⟩ := Option.bind_eq_some_iff.1 hp
        injection he with he
        rw [← he]
        exact ⟨rfl, fun h => by simp [hu, h]⟩
    have hC : i = .cepstrum → v = {} := by
      rintro rfl
      cases x with
      | wave x => simp only [prepare, hi] at hp; simp at hp
      | cplx X => simp only [prepare, hi] at hp; simp at hp
      | real M =>
        simp only [prepare, hi] at hp
        simpa using hp.symm
    rcases h with rfl | rfl | ⟨rfl, hE⟩ | ⟨rfl, h2⟩ | ⟨h3, rfl⟩
    · rw [hC rfl]
      cases o <;> simp [finish, stageB, stageP, output, Cfg.steps, Step.value]
    · simp only [finish, stageB, stageP, output, ho]
      simp [Step.value]
    · obtain ⟨h1, h2⟩ := hF rfl
      have h2 := h2 hE
      cases o <;> simp [finish, stageB, stageP, output, Cfg.steps, Step.value, h1, h2, hX (by decide)]
    · simp only [finish, stageB, stageP, output, ho, hX h2]
      simp [Step.value]
    · obtain ⟨h1, -⟩ := hF rfl
      cases o <;> simp [finish, stageB, stageP, output, Cfg.steps, Step.value, h1, hX (by decide)] at h3 ⊢

end Hyp.Mfcc
