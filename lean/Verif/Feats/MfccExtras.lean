import Verif.Feats.MfccMore

/-!
C93 (continued): the extra return values of `compute`. C91: the factory.
-/

namespace Hyp.Mfcc
open Hyp.Stft Hyp.Frontend

theorem finish_cep {c : Cfg} (ho : c.out = .cepstrum) {v : Vars} {r : Res} (h : finish c v = some r) :
    r.X = v.X ∧ r.F = v.F.map (squared c) ∧ stageB c (v.F.map (squared c)) v.B = some r.B := by
  rw [finish] at h
  obtain ⟨B, hB, h⟩ := Option.bind_eq_some_iff.1 h
  obtain ⟨P, -, h⟩ := Option.bind_eq_some_iff.1 h
  rw [output, ho] at h
  simp only [Option.bind_eq_bind] at h
  obtain ⟨p, -, h⟩ := Option.bind_eq_some_iff.1 h
  by_cases hE : c.useEnergy = true
  · simp only [hE, if_true] at h
    obtain ⟨e, -, h⟩ := Option.bind_eq_some_iff.1 h
    obtain ⟨q, -, h⟩ := Option.bind_eq_some_iff.1 h
    injection h with h
    rw [← h]
    exact ⟨rfl, rfl, hB⟩
  · simp only [hE, Bool.false_eq_true, if_false] at h
    injection h with h
    rw [← h]
    exact ⟨rfl, rfl, hB⟩

/-- **C93** (extra return values): computing cepstra with `return_fft`, `return_fft_mag`, `return_logfb` returns the
cepstra followed by the requested ones of the spectrum, the magnitude (or power) spectrum and the log filter banks, in
this order, each as a separate computation without energies would return them. -/
theorem C93_extras (c c0 : Cfg) (h0 : c0 = { c with useEnergy := false }) (noise : Nat → List ℝ) (x : List ℝ)
    (g : Good c noise x) (hfb : FbOk c) (st : St) (hn0 : 0 < c.numCeps) (hn : c.numCeps ≤ c.fb.length)
    (rFft rMag rFb : Bool) :
    ∃ P X F B, result (c.steps .wave .cepstrum) noise st (.wave x) = some P ∧
      result (c0.steps .wave .fft) noise st (.wave x) = some X ∧
      result (c0.steps .wave .fftMag) noise st (.wave x) = some F ∧
      result (c0.steps .wave .logFb) noise st (.wave x) = some B ∧
      (computeAll (c.steps .wave .cepstrum) noise st (.wave x) rFft rMag rFb).1 =
        some ([P] ++ (if rFft then [X] else []) ++ (if rMag then [F] else []) ++ (if rFb then [B] else [])) := by
  have hP := C94_cepstra c noise x g hfb st hn0 hn
  have g0 : Good c0 noise x := by
    subst h0
    exact ⟨g.shift, g.fits, g.snip, g.window, g.fft, g.noise⟩
  have hfb0 : FbOk c0 := by subst h0; exact hfb
  have hE0 : c0.useEnergy = false := by subst h0; rfl
  obtain ⟨hX, hF⟩ := C94_spectrum c0 hE0 noise x g0 st
  have hB := C94_logfb c0 noise x g0 hfb0 st
  simp only [hE0, Bool.false_eq_true, if_false, List.nil_append] at hB
  refine ⟨_, _, _, _, hP, hX, hF, hB, ?_⟩
  have hflags : flagsOk (c.steps .wave .cepstrum) rFft rMag rFb = true := by
    cases rFft <;> cases rMag <;> cases rFb <;> rfl
  rw [computeAll, if_pos hflags]
  -- the computed variables
  rw [result, compute_wave, prepWave_ok g st] at hP
  obtain ⟨r, hr, hR⟩ := Option.map_eq_some_iff.1 hP
  dsimp only
  rw [compute_wave, prepWave_ok g st, hr]
  simp only [Option.bind_some] at hr ⊢
  obtain ⟨h1, h2, h3⟩ := finish_cep (c := c.steps .wave .cepstrum) rfl hr
  have hs : sig1 c noise st x = sig1 c0 noise st x := by subst h0; rfl
  have hfr : frames c = frames c0 := by subst h0; rfl
  have hF1 : r.F = some ((List.range (frames c0 x.length)).map (fun i => (List.range (c0.n / 2 + 1)).map
      (fun k => pow c0 (sig1 c0 noise st x) i k))) := by
    rw [h2]
    simp only [Option.map_some]
    rw [squared_specM c .cepstrum (by decide), sig1_length g.noise, hs, hfr]
    subst h0
    rfl
  have hX1 : r.X = some ((List.range (frames c0 x.length)).map (fun i => (List.range (c0.n / 2 + 1)).map
      (fun k => dft c0.n (wframe c0 (sig1 c0 noise st x) i) k))) := by
    rw [h1]
    simp only [specM, sig1_length g.noise, hs, hfr]
    subst h0
    rfl
  have hB1 : r.B = some ((List.range (frames c0 x.length)).map (fun i => (List.range c0.fb.length).map
      (fun j => logfb c0 (sig1 c0 noise st x) i j))) := by
    rw [stageB, if_pos ⟨by show (0 : Nat) ≤ 3; decide, by show (4 : Nat) ≤ 5; decide⟩, ← h2, hF1] at h3
    have hrow : fbRow (c.steps .wave .cepstrum) = fbRow c0 := by subst h0; rfl
    rw [hrow] at h3
    simp only [Option.bind_eq_bind, Option.bind_some, fbM_eq c0 hfb0] at h3
    injection h3 with h3
    exact h3.symm
  simp only [extras, hX1, hF1, hB1, hR]
  cases rFft <;> cases rMag <;> cases rFb <;> rfl

/-- **C93** (refused extra values): a call that asks for the spectrum, when the input is beyond it; for the magnitudes,
when the input is beyond them or the output before them; or for the log filter banks, when the output is before them;
raises and does not change the filter states. All other combinations are accepted. -/
theorem C93_extras_refused (c : Cfg) (noise : Nat → List ℝ) (st : St) (x : In) (rFft rMag rFb : Bool) :
    ((rFft = true ∧ 1 < c.inp.value) ∨ (rMag = true ∧ (2 < c.inp.value ∨ c.out.value < 2)) ∨
        (rFb = true ∧ c.out.value < 4) → computeAll c noise st x rFft rMag rFb = (none, st)) ∧
    (¬ ((rFft = true ∧ 1 < c.inp.value) ∨ (rMag = true ∧ (2 < c.inp.value ∨ c.out.value < 2)) ∨
        (rFb = true ∧ c.out.value < 4)) → (computeAll c noise st x rFft rMag rFb).2 = (compute c noise st x).2 ∧
      ((computeAll c noise st x rFft rMag rFb).1 = none → (compute c noise st x).1 = none ∨ rFft ∨ rMag ∨ rFb)) := by
  have hk : flagsOk c rFft rMag rFb = true ↔ ¬ ((rFft = true ∧ 1 < c.inp.value) ∨
      (rMag = true ∧ (2 < c.inp.value ∨ c.out.value < 2)) ∨ (rFb = true ∧ c.out.value < 4)) := by
    cases rFft <;> cases rMag <;> cases rFb <;> simp [flagsOk, and_assoc]
  constructor
  · intro h
    rw [computeAll, if_neg (by rw [hk]; exact not_not.2 h)]
  · intro h
    rw [computeAll, if_pos (hk.2 h)]
    refine ⟨rfl, fun h' => ?_⟩
    rcases Option.eq_none_or_eq_some (compute c noise st x).1 with hc | ⟨r, hc⟩
    · exact Or.inl hc
    · right
      simp only [hc, Option.bind_some] at h'
      cases rFft <;> cases rMag <;> cases rFb <;> simp [extras] at h' ⊢

end Hyp.Mfcc

namespace Hyp.FB

/-- **C91** (factory): the type selects the filter bank, another type raises, and only `norm_filters` normalises. -/
theorem C91_create (type : String) (nf n : Nat) (fs low high : ℝ) (norm : Bool) :
    ∃ raw : Option (List (List ℝ)), create type nf n fs low high norm = raw.map (fun B => if norm = true then normCols B else B) ∧
      (type = "mel_kaldi" → raw = some (melKaldi nf n fs low high)) ∧ (type = "mel_etsi" → raw = melEtsi nf n fs low high) ∧
      (type = "linear" → raw = linear nf n fs low high) ∧
      (type ≠ "mel_kaldi" → type ≠ "mel_etsi" → type ≠ "linear" → create type nf n fs low high norm = none) := by
  refine ⟨if type = "mel_kaldi" then some (melKaldi nf n fs low high)
    else if type = "mel_etsi" then melEtsi nf n fs low high
    else if type = "linear" then linear nf n fs low high
    else none, ?_, ?_, ?_, ?_, ?_⟩
  · rw [create]
    split_ifs
    · rfl
    · rfl
    · cases melEtsi nf n fs low high <;> rfl
    · cases melEtsi nf n fs low high <;> rfl
    · cases linear nf n fs low high <;> rfl
    · cases linear nf n fs low high <;> rfl
    · rfl
    · rfl
  · rintro rfl; simp
  · rintro rfl; simp
  · rintro rfl; simp
  · intro h1 h2 h3
    rw [create, if_neg h1, if_neg h2, if_neg h3]
    rfl

end Hyp.FB
