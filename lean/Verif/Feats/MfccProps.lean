import Verif.Feats.Mfcc
import Verif.Feats.FrontendProps
import Verif.Feats.FilterBankProps

/-!
C93: the MFCC pipeline can be continued from an intermediate result. C94: shape and energy of the features.
-/

namespace Hyp.Mfcc
open Hyp.Stft Hyp.Frontend

/-! ### Frames of the wave input -/

theorem frameMap_length {α : Type} {f : List ℝ → Option α} {x : List ℝ} {L S : Nat} {r : List α}
    (h : frameMap f x L S = some r) : ∃ F, numFrames x.length L S = some F ∧ r.length = F.toNat := by
  rw [frameMap] at h
  rcases Option.eq_none_or_eq_some (numFrames x.length L S) with hn | ⟨F, hF⟩
  · rw [hn] at h; simp at h
  · rw [hF] at h
    simp only [Option.bind_eq_bind, Option.bind_some] at h
    split_ifs at h
    rw [frameLoop_eq, mapM_eq_some_iff] at h
    refine ⟨F, hF, ?_⟩
    have := congrArg List.length h
    simpa using this.symm

theorem preStage_length (c : Cfg) (x : List ℝ) (z : ℝ) : (preStage c x z).1.length = x.length := by
  rw [preStage]
  split_ifs
  · rw [preemph, lfilter_length]
  · rfl

/-- What a prepared wave looks like: the spectrum, its magnitudes and one energy per frame (if energies are used). -/
theorem prepWave_spec {c : Cfg} {noise : Nat → List ℝ} {st st' : St} {x : List ℝ} {v : Vars}
    (h : prepWave c noise st x = (some v, st')) :
    ∃ X e, v = ⟨some X, some (absM X), none, e⟩ ∧
      (c.useEnergy = true → ∃ l, e = some l ∧ l.length = X.length) ∧ (c.useEnergy = false → e = none) := by
  rw [prepWave] at h
  rcases Option.eq_none_or_eq_some (padEdges c.snip c.L c.S x) with hp | ⟨x1, hp⟩
  · rw [hp] at h; simp at h
  · rw [hp] at h
    dsimp only at h
    set d := dcStage c (addDither noise c.dither x1) st.dc
    clear_value d
    have hlen := preStage_length c d.1 st.pre
    by_cases hE : c.useEnergy = true
    · by_cases hraw : c.rawEnergy = true
      · simp only [hE, hraw, Bool.and_self, if_true, Bool.not_true, Bool.and_false, Bool.false_eq_true, if_false] at h
        rcases Option.eq_none_or_eq_some (stLogE d.1 c.L c.S) with he | ⟨l, he⟩
        · rw [he] at h; simp at h
        · rw [he] at h
          simp only [Option.map_some] at h
          rcases Option.eq_none_or_eq_some (strft (preStage c d.1 st.pre).1 c.L c.S c.n (some c.window)) with
            hX | ⟨X, hX⟩
          · rw [hX] at h; simp at h
          · rw [hX] at h
            simp only [Prod.mk.injEq, Option.some.injEq] at h
            refine ⟨X, some l, h.1.symm, fun _ => ⟨l, rfl, ?_⟩, fun h' => by rw [hE] at h'; simp at h'⟩
            obtain ⟨F, hF, hFl⟩ := frameMap_length hX
            rw [stLogE] at he
            obtain ⟨e0, he0, he1⟩ := Option.bind_eq_some_iff.1 he
            obtain ⟨F', hF', hFl'⟩ := frameMap_length he0
            injection he1 with he1
            rw [hlen, hF'] at hF
            injection hF with hF
            rw [← he1, List.length_map, hFl', hFl, hF]
      · have hraw' : c.rawEnergy = false := by simpa using hraw
        simp only [hE, hraw', Bool.and_false, Bool.false_eq_true, if_false, Bool.not_false, Bool.and_true, if_true] at h
        rcases Option.eq_none_or_eq_some (strft (preStage c d.1 st.pre).1 c.L c.S c.n (some c.window)) with
          hX | ⟨X, hX⟩
        · rw [hX] at h; simp at h
        · rw [hX] at h
          simp only [Prod.mk.injEq, Option.some.injEq] at h
          exact ⟨X, _, h.1.symm, fun _ => ⟨_, rfl, by simp [absM]⟩, fun h' => by rw [hE] at h'; simp at h'⟩
    · have hE' : c.useEnergy = false := by simpa using hE
      simp only [hE', Bool.false_and, Bool.false_eq_true, if_false] at h
      rcases Option.eq_none_or_eq_some (strft (preStage c d.1 st.pre).1 c.L c.S c.n (some c.window)) with
        hX | ⟨X, hX⟩
      · rw [hX] at h; simp at h
      · rw [hX] at h
        simp only [Prod.mk.injEq, Option.some.injEq] at h
        exact ⟨X, none, h.1.symm, fun h' => by rw [hE'] at h'; simp at h', fun _ => rfl⟩

/-- The configuration with other steps. -/
def Cfg.steps (c : Cfg) (i o : Step) : Cfg := { c with inp := i, out := o }

theorem prepWave_steps (c : Cfg) (i o : Step) (noise : Nat → List ℝ) (st : St) (x : List ℝ) :
    prepWave (c.steps i o) noise st x = prepWave c noise st x := rfl

/-- The first stage of a pipeline from a wave: either nothing is computed whatever the output, or the spectrum and the
energies exist. -/
theorem compute_wave (c : Cfg) (o : Step) (noise : Nat → List ℝ) (st : St) (x : List ℝ) :
    (compute (c.steps .wave o) noise st (.wave x)).1 = (prepWave c noise st x).1.bind (finish (c.steps .wave o)) := rfl

theorem floored_idem (c : Cfg) (e : List ℝ) : floored c (floored c e) = floored c e := by
  simp [floored, List.map_map, Function.comp_def]

theorem floored_steps (c : Cfg) (i o : Step) (e : List ℝ) : floored (c.steps i o) e = floored c e := rfl

theorem floored_length (c : Cfg) (e : List ℝ) : (floored c e).length = e.length := by simp [floored]

theorem column0_hstack {e : List ℝ} {R : List (List ℝ)} (h : e.length = R.length) :
    column0 (List.zipWith (fun a r => a :: r) e R) = some e ∧
      (List.zipWith (fun a r => a :: r) e R).map (fun r => r.drop 1) = R := by
  induction e generalizing R with
  | nil =>
    cases R with
    | nil => exact ⟨rfl, rfl⟩
    | cons r R => simp at h
  | cons a e ih =>
    cases R with
    | nil => simp at h
    | cons r R =>
      obtain ⟨h1, h2⟩ := ih (by simpa using h : e.length = R.length)
      constructor
      · rw [column0] at h1 ⊢
        rw [List.zipWith_cons_cons, List.mapM_cons, h1]
        rfl
      · rw [List.zipWith_cons_cons, List.map_cons, h2]
        rfl

theorem hstack_ok {e : List ℝ} {R : List (List ℝ)} (h : e.length = R.length) :
    hstack e R = some (List.zipWith (fun a r => a :: r) e R) := by rw [hstack, if_pos h]

theorem any_empty_false {K : Type} {R : List (List K)} (h : ¬ R.any (fun r => r.length == 0) = true) :
    ∀ r ∈ R, r ≠ [] := by
  intro r hr hnil
  apply h
  rw [List.any_eq_true]
  exact ⟨r, hr, by simp [hnil]⟩

theorem column0_setCol0 {e : List ℝ} {R : List (List ℝ)} (h : e.length = R.length) (hne : ∀ r ∈ R, r ≠ []) :
    column0 (List.zipWith (fun r a => r.set 0 a) R e) = some e := by
  induction e generalizing R with
  | nil =>
    cases R with
    | nil => rfl
    | cons r R => simp at h
  | cons a e ih =>
    cases R with
    | nil => simp at h
    | cons r R =>
      have h1 := ih (by simpa using h : e.length = R.length) (fun r hr => hne r (by simp [hr]))
      rw [column0] at h1 ⊢
      rw [List.zipWith_cons_cons, List.mapM_cons, h1]
      have hr := hne r (by simp)
      match r, hr with
      | b :: r, _ => rfl

theorem setCol0_eq {K : Type} {R R' : List (List K)} {e : List K} (hl : e.length = R.length)
    (h : setCol0 R e = some R') : R' = List.zipWith (fun r a => r.set 0 a) R e ∧ ∀ r ∈ R, r ≠ [] := by
  rw [setCol0, if_pos hl] at h
  by_cases h1 : R.any (fun r => r.length == 0) = true
  · rw [if_pos h1] at h; simp at h
  · rw [if_neg h1] at h
    injection h with h
    exact ⟨h.symm, any_empty_false h1⟩

/-! ### The second half of the pipeline, output by output -/

/-- Storing the energy in column 0, if energies are used. -/
noncomputable def putE (c : Cfg) (e : Option (List ℝ)) (R : List (List ℝ)) : Option (List (List ℝ)) :=
  if c.useEnergy then e.bind (fun e => setCol0 R (floored c e)) else some R

/-- Prepending the energy, if energies are used. -/
noncomputable def stackE (c : Cfg) (e : Option (List ℝ)) (R : List (List ℝ)) : Option (List (List ℝ)) :=
  if c.useEnergy then e.bind (fun e => hstack (floored c e) R) else some R

/-- The value returned by `compute`. -/
noncomputable def result (c : Cfg) (noise : Nat → List ℝ) (st : St) (x : In) : Option Mat :=
  (compute c noise st x).1.map Res.R

theorem fin_mag (c : Cfg) (ho : c.out = .fftMag) (v : Vars) :
    (finish c v).map Res.R = (v.F.map (squared c)).bind (fun f => (putE c v.logE f).map Mat.real) := by
  simp only [finish, stageB, stageP, ho, Step.value, Nat.reduceLeDiff, and_false, if_false, Option.bind_eq_bind,
    Option.bind_some, reduceCtorEq, output]
  cases v.F with
  | none => rfl
  | some F =>
    simp only [Option.map_some, Option.bind_some, putE]
    by_cases hE : c.useEnergy = true
    · simp only [hE, if_true]
      cases v.logE with
      | none => rfl
      | some e =>
        simp only [Option.bind_some]
        cases setCol0 (squared c F) (floored c e) <;> rfl
    · simp only [hE, Bool.false_eq_true, if_false]
      rfl

theorem fin_spec (c : Cfg) (ho : c.out = .logSpec) (v : Vars) :
    (finish c v).map Res.R = (v.F.map (squared c)).bind (fun f =>
      (putE c v.logE (f.map (fun row => row.map (fun a => Real.log (a + 1e-10))))).map Mat.real) := by
  simp only [finish, stageB, stageP, ho, Step.value, Nat.reduceLeDiff, and_false, if_false, Option.bind_eq_bind,
    Option.bind_some, reduceCtorEq, output]
  cases v.F with
  | none => rfl
  | some F =>
    simp only [Option.map_some, Option.bind_some, putE]
    by_cases hE : c.useEnergy = true
    · simp only [hE, if_true]
      cases v.logE with
      | none => rfl
      | some e =>
        simp only [Option.bind_some]
        cases setCol0 ((squared c F).map (fun row => row.map (fun a => Real.log (a + 1e-10)))) (floored c e) <;> rfl
    · simp only [hE, Bool.false_eq_true, if_false]
      rfl

theorem out_fb (c : Cfg) (ho : c.out = .logFb) (X : Option (List (List ℂ))) (F P : Option (List (List ℝ)))
    (b : List (List ℝ)) (e : Option (List ℝ)) :
    (output c X F (some b) P e).map Res.R = (stackE c e b).map Mat.real := by
  simp only [output, ho, Option.bind_eq_bind, Option.bind_some, stackE]
  by_cases hE : c.useEnergy = true
  · simp only [hE, if_true]
    cases e with
    | none => rfl
    | some e =>
      simp only [Option.bind_some]
      cases hstack (floored c e) b <;> rfl
  · simp only [hE, Bool.false_eq_true, if_false]
    rfl

theorem out_cep (c : Cfg) (ho : c.out = .cepstrum) (X : Option (List (List ℂ))) (F B : Option (List (List ℝ)))
    (p : List (List ℝ)) (e : Option (List ℝ)) :
    (output c X F B (some p) e).map Res.R = (putE c e p).map Mat.real := by
  simp only [output, ho, Option.bind_eq_bind, Option.bind_some, putE]
  by_cases hE : c.useEnergy = true
  · simp only [hE, if_true]
    cases e with
    | none => rfl
    | some e =>
      simp only [Option.bind_some]
      cases setCol0 p (floored c e) <;> rfl
  · simp only [hE, Bool.false_eq_true, if_false]
    rfl

theorem fin_fb (c : Cfg) (hi : c.inp.value ≤ 3) (ho : c.out = .logFb) (v : Vars) :
    (finish c v).map Res.R = (v.F.map (squared c)).bind (fun f =>
      (f.mapM (fbRow c)).bind (fun b => (stackE c v.logE b).map Mat.real)) := by
  have hi' : c.inp.value ≤ Step.logSpec.value := hi
  have h4 : Step.logFb.value ≤ c.out.value := by rw [ho]
  have hP : ∀ B, stageP c B = some none := fun B => by
    rw [stageP, if_neg (fun h => by rw [ho] at h; exact absurd h.2 (by decide))]
  simp only [finish, hP, stageB, hi', h4, and_self, if_true, Option.bind_eq_bind]
  cases v.F with
  | none => rfl
  | some F =>
    simp only [Option.map_some, Option.bind_some]
    cases (squared c F).mapM (fbRow c) with
    | none => rfl
    | some b => simp only [Option.bind_some]; exact out_fb c ho _ _ _ b _

theorem fin_cep (c : Cfg) (hi : c.inp.value ≤ 3) (ho : c.out = .cepstrum) (v : Vars) :
    (finish c v).map Res.R = (v.F.map (squared c)).bind (fun f =>
      (f.mapM (fbRow c)).bind (fun b => (b.mapM (cepsRow c)).bind (fun p => (putE c v.logE p).map Mat.real))) := by
  have hi' : c.inp.value ≤ Step.logSpec.value := hi
  have hi4 : c.inp.value ≤ Step.logFb.value := le_trans hi (by decide)
  have h4 : Step.logFb.value ≤ c.out.value := by rw [ho]; decide
  simp only [finish, stageB, stageP, hi', hi4, h4, and_self, if_true, Option.bind_eq_bind]
  cases v.F with
  | none => rfl
  | some F =>
    simp only [Option.map_some, Option.bind_some]
    cases (squared c F).mapM (fbRow c) with
    | none => rfl
    | some b =>
      simp only [Option.bind_some, ho, if_true]
      cases b.mapM (cepsRow c) with
      | none => rfl
      | some p => simp only [Option.bind_some]; exact out_cep c ho _ _ _ p _

theorem fin_fb' (c : Cfg) (hi : c.inp = .logFb) (ho : c.out = .logFb) (v : Vars) :
    (finish c v).map Res.R = v.B.bind (fun b => (stackE c v.logE b).map Mat.real) := by
  have hP : ∀ B, stageP c B = some none := fun B => by
    rw [stageP, if_neg (fun h => by rw [ho] at h; exact absurd h.2 (by decide))]
  simp only [finish, hP, stageB, hi, Step.value, Nat.reduceLeDiff, false_and, if_false, Option.bind_eq_bind,
    Option.bind_some]
  cases v.B with
  | none => simp [output, ho]
  | some b => exact out_fb c ho _ _ _ b _

theorem fin_cep' (c : Cfg) (hi : c.inp = .logFb) (ho : c.out = .cepstrum) (v : Vars) :
    (finish c v).map Res.R = v.B.bind (fun b =>
      (b.mapM (cepsRow c)).bind (fun p => (putE c v.logE p).map Mat.real)) := by
  simp only [finish, stageB, stageP, hi, ho, Step.value, Nat.reduceLeDiff, Nat.le_refl, false_and, if_false,
    Option.bind_eq_bind, Option.bind_some, and_self, if_true]
  cases v.B with
  | none => rfl
  | some b =>
    simp only [Option.bind_some]
    cases b.mapM (cepsRow c) with
    | none => rfl
    | some p => simp only [Option.bind_some]; exact out_cep c ho _ _ _ p _

theorem result_wave (c : Cfg) (o : Step) (noise : Nat → List ℝ) (st : St) (x : List ℝ) :
    result (c.steps .wave o) noise st (.wave x) =
      (prepWave c noise st x).1.bind (fun v => (finish (c.steps .wave o) v).map Res.R) := by
  rw [result, compute_wave, Option.map_bind]
  rfl

theorem result_real (c : Cfg) (noise : Nat → List ℝ) (st : St) (M : List (List ℝ)) {v : Vars}
    (h : (prepare c noise st (.real M)).1 = some v) : result c noise st (.real M) = (finish c v).map Res.R := by
  rw [result, compute]
  simp only [h, Option.bind_some]

theorem result_cplx (c : Cfg) (noise : Nat → List ℝ) (st : St) (M : List (List ℂ)) {v : Vars}
    (h : (prepare c noise st (.cplx M)).1 = some v) : result c noise st (.cplx M) = (finish c v).map Res.R := by
  rw [result, compute]
  simp only [h, Option.bind_some]

theorem squared_length (c : Cfg) (F : List (List ℝ)) : (squared c F).length = F.length := by
  rw [squared]
  split_ifs <;> simp

theorem mapM_length {α β : Type} {f : α → Option β} {l : List α} {r : List β} (h : l.mapM f = some r) :
    r.length = l.length := by
  rw [mapM_eq_some_iff] at h
  have := congrArg List.length h
  simpa using this.symm

/-! ### C93 -/

/-- **C93** (log filter banks): computing the log filter banks from the wave (with energy) and continuing later to the
cepstra, on an object in any filter state, gives exactly what the one-step computation gives, errors included. -/
theorem C93_resume_logfb (c : Cfg) (hE : c.useEnergy = true) (noise : Nat → List ℝ) (st st2 : St) (x : List ℝ)
    (M : List (List ℝ)) (h : result (c.steps .wave .logFb) noise st (.wave x) = some (.real M)) :
    result (c.steps .logFb .cepstrum) noise st2 (.real M) = result (c.steps .wave .cepstrum) noise st (.wave x) ∧
      result (c.steps .logFb .logFb) noise st2 (.real M) = some (.real M) := by
  rw [result_wave] at h ⊢
  obtain ⟨v, hv, h⟩ := Option.bind_eq_some_iff.1 h
  obtain ⟨X, e, rfl, h1, -⟩ := prepWave_spec (show prepWave c noise st x = (some v, (prepWave c noise st x).2) from
    Prod.ext hv rfl)
  obtain ⟨l, rfl, hl⟩ := h1 hE
  rw [hv]
  have hsq : squared (c.steps .wave .cepstrum) = squared (c.steps .wave .logFb) := by
    funext F
    simp [squared, Cfg.steps, Step.value]
  rw [fin_fb _ (by show (0 : Nat) ≤ 3; decide) rfl] at h
  simp only [Option.map_some, Option.bind_some] at h ⊢
  obtain ⟨b, hb, h⟩ := Option.bind_eq_some_iff.1 h
  have hEo : ∀ i o, (c.steps i o).useEnergy = true := fun _ _ => hE
  have hbl : (floored c l).length = b.length := by
    rw [floored_length, mapM_length hb, squared_length, absM, List.length_map, hl]
  simp only [stackE, hEo, if_true, Option.bind_some, floored_steps, hstack_ok hbl] at h
  simp only [Option.map_some, Option.some.injEq, Mat.real.injEq] at h
  subst h
  obtain ⟨hc0, hdrop⟩ := column0_hstack hbl
  have hp : ∀ o, (prepare (c.steps .logFb o) noise st2 (.real (List.zipWith (fun a r => a :: r) (floored c l) b))).1 =
      some ⟨none, none, some b, some (floored c l)⟩ := by
    intro o
    simp only [prepare]
    show (do let e ← energyCol (c.steps .logFb o) _; _ : Option Vars) = _
    simp only [energyCol, hEo, if_true, hc0, Option.map_some, Option.bind_eq_bind, Option.bind_some, hdrop]
  constructor
  · rw [result_real _ _ _ _ (hp .cepstrum), fin_cep' _ rfl rfl, fin_cep _ (by show (0 : Nat) ≤ 3; decide) rfl]
    simp only [Option.map_some, Option.bind_some, hsq]
    have hb' : (squared (c.steps .wave .logFb) (absM X)).mapM (fbRow (c.steps .wave .cepstrum)) = some b := hb
    rw [hb']
    simp only [Option.bind_some]
    have hput : ∀ p, putE (c.steps .logFb .cepstrum) (some (floored c l)) p =
        putE (c.steps .wave .cepstrum) (some l) p := by
      intro p
      simp only [putE, hEo, if_true, Option.bind_some, floored_steps, floored_idem]
    simp only [hput]
    rfl
  · rw [result_real _ _ _ _ (hp .logFb), fin_fb' _ rfl rfl]
    simp only [Option.bind_some, stackE, hEo, if_true, floored_steps, floored_idem, hstack_ok hbl]
    rfl

end Hyp.Mfcc
