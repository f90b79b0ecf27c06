import Verif.Pdfs.DiagGmmProps
import Mathlib.Analysis.Complex.ExponentialBounds

/-! C70: what goes wrong in `GMMDiagCov.fit`, with concrete witnesses. -/

namespace Hyp.Pdfs
open scoped BigOperators
open Hyp.MathUtils

variable {K d : Nat}

theorem fin1 (k : Fin (0 + 1)) : k = 0 := Subsingleton.elim (α := Fin 1) k 0

theorem epoch_eq (cfg : GmmCfg) (g : Gmm K d) (rows : List (XRow d))
    (hf : mstepFails cfg (stats1 g.mix.pz (xRows rows)) (newMu cfg (stats1 g.mix.pz (xRows rows)) g.mu) = false) :
    ∃ e g', g.epoch cfg rows none = some (e, g') := by
  unfold Gmm.epoch Mix.accumSuffStats Gmm.mstep
  simp only [Option.bind_eq_bind, Option.bind_some]
  rw [if_neg (by simp [hf])]
  exact ⟨_, _, rfl⟩

theorem new_wf (pi : Fin (K + 1) → ℝ) (mu lam : Fin (K + 1) → Fin d → ℝ) (h : ∀ k i, 0 < lam k i) :
    ∃ g, Gmm.new pi mu lam = some g ∧ g.WF ∧ g.mu = mu ∧ g.Lambda = lam ∧ g.mix.pi = pi ∧ g.mix.logPi = none :=
  ⟨_, if_pos h, ⟨h, fun _ => rfl, fun _ => rfl⟩, rfl, rfl, rfl, rfl⟩

/-- with one component every row belongs to it -/
theorem pz_one (m : Mix 0 (Fin d ⊕ Fin d)) (u : Fin d ⊕ Fin d → ℝ) : m.pz u 0 = 1 := by
  have := (C67_posterior m u).2.2
  simpa using this

theorem share_one (g : Gmm 0 d) (hg : g.WF) (r : XRow d) : g.share 0 r = r.2 := by
  rw [← pz_share g hg, pz_one, one_mul]

/-- C70 (negation): with a floor above the variance of the data an epoch decreases the log-likelihood. One component at the
maximum likelihood solution for the data 1, -1, `var_floor = 2`. -/
theorem C70_floor_decreases :
    ∃ (g : Gmm 0 1) (cfg : GmmCfg) (rows : List (XRow 1)) (e : ℝ) (g' : Gmm 0 1),
      Gmm.new (fun _ => 1) (fun _ _ => 0) (fun _ _ => 1) = some g ∧ cfg.updateMu = true ∧ cfg.updateLambda = true ∧
      cfg.minN = 0 ∧ g.epoch cfg rows none = some (e, g') ∧
      logLik g'.usedWeights g'.mu g'.Lambda rows < logLik g.usedWeights g.mu g.Lambda rows := by
  obtain ⟨g, hnew, hg, hmu, hla, hpi, hlp⟩ := new_wf (K := 0) (d := 1) (fun _ => 1) (fun _ _ => 0) (fun _ _ => 1)
    (fun _ _ => one_pos)
  obtain ⟨cfg, hcfg⟩ : ∃ cfg : GmmCfg, cfg = ⟨2, 0, true, true, true⟩ := ⟨_, rfl⟩
  obtain ⟨rows, hrows⟩ : ∃ rows : List (XRow 1), rows = [(fun _ => 1, 1), (fun _ => -1, 1)] := ⟨_, rfl⟩
  obtain ⟨st, hst⟩ : ∃ st, st = stats1 g.mix.pz (xRows rows) := ⟨_, rfl⟩
  obtain ⟨s0, s1, s2⟩ := estep_stats g hg rows none st (by rw [hst]; rfl)
  have h0 : st.1 0 = 2 := by rw [s0, hrows]; simp [share_one g hg]; norm_num
  have h1 : st.2 0 (.inl 0) = 0 := by rw [s1, hrows]; simp [share_one g hg]
  have h2 : st.2 0 (.inr 0) = 2 := by rw [s2, hrows]; simp [share_one g hg]; norm_num
  have hm : newMu cfg st g.mu = fun _ _ => 0 := by
    funext k i
    rw [fin1 k, fin1 i]
    subst hcfg
    simp [newMu, h1]
  have hraw : ∀ k i, rawVar st (fun _ _ => 0) k i = 1 := by
    intro k i
    rw [fin1 k, fin1 i]
    simp [rawVar, h0, h2]
  have hv : ∀ k i, newVar cfg st (fun _ _ => 0) k i = 2 := by
    intro k i
    unfold newVar floorOf
    simp only [hraw]
    subst hcfg
    have : Finset.univ.filter (fun k : Fin (0 + 1) => (0 : ℝ) < st.1 k) = Finset.univ := by
      ext k; rw [fin1 k]; simp [h0]
    rw [this]
    simp
  have hfails : mstepFails cfg st (newMu cfg st g.mu) = false := by
    rw [hm]
    unfold mstepFails
    have a1 : ¬ ∃ k, st.1 k = 0 := by rintro ⟨k, hk⟩; rw [fin1 k, h0] at hk; norm_num at hk
    have a2 : ¬ ∀ k, st.1 k ≤ cfg.minN := by intro hk; have := hk 0; rw [h0, hcfg] at this; norm_num at this
    have a3 : ¬ ∃ k i, newVar cfg st (fun _ _ => 0) k i = 0 := by rintro ⟨k, i, hk⟩; rw [hv] at hk; norm_num at hk
    have a4 : ¬ ∃ k, st.1 k < cfg.minN := by
      rintro ⟨k, hk⟩; rw [fin1 k, h0, hcfg] at hk; norm_num at hk
    simp only [a1, a2, a3, a4, decide_false, Bool.or_self, Bool.and_false, Bool.or_false]
  obtain ⟨e, g', he⟩ := epoch_eq cfg g rows (by rw [← hst]; exact hfails)
  refine ⟨g, cfg, rows, e, g', hnew, by rw [hcfg], by rw [hcfg], by rw [hcfg], he, ?_⟩
  obtain ⟨st', hst', _, _, hmu', hla', _, hlp', _, _⟩ := epoch_some cfg g rows none e g' he
  have hsteq : st' = st := by rw [hst]; exact (Option.some.inj hst').symm
  subst hsteq
  rw [hm] at hmu' hla'
  have hL' : g'.Lambda = fun _ _ => 1 / 2 := by
    rw [hla']; funext k i; unfold newLambda; rw [hcfg]; simp only [if_true]; rw [← hcfg, hv]
  have hu : g'.usedWeights = g.usedWeights := by
    funext k; unfold Gmm.usedWeights; congr 1; simp only [Mix.logPiVal, hlp']
  rw [hu, hmu', hL', hmu, hla, hrows]
  have hpos := usedWeights_pos g 0
  have hmix : ∀ (lam x : ℝ), 0 < lam → Real.log (mixPdf g.usedWeights (fun _ _ => 0) (fun _ _ => lam) (fun _ : Fin 1 => x)) =
      Real.log (g.usedWeights 0) + (1 / 2 * Real.log lam - 1 / 2 * Real.log (2 * Real.pi) - lam * (x - 0) ^ 2 / 2) := by
    intro lam x hl
    have e1 : mixPdf g.usedWeights (fun _ _ => 0) (fun _ _ => lam) (fun _ : Fin 1 => x) = g.usedWeights 0 * gaussPdf 0 lam x := by
      simp [mixPdf, diagPdf]
    rw [e1, Real.log_mul hpos.ne' (gaussPdf_pos _ _ _ hl).ne', log_gaussPdf _ _ _ hl]
  simp only [logLik, List.map_cons, List.map_nil, List.sum_cons, List.sum_nil]
  rw [hmix _ _ (by norm_num), hmix _ _ (by norm_num), hmix _ _ one_pos, hmix _ _ one_pos, Real.log_one, one_div, Real.log_inv]
  have := Real.log_two_gt_d9
  norm_num
  linarith

/-- C70 (negation): updating the precisions but not the means uses `E[x²] - mu²` instead of the second moment around `mu`
and can produce a negative variance, hence a negative precision. One component with mean 1, data 0, default floor. -/
theorem C70_update_lambda_only :
    ∃ (g : Gmm 0 1) (cfg : GmmCfg) (rows : List (XRow 1)) (e : ℝ) (g' : Gmm 0 1),
      Gmm.new (fun _ => 1) (fun _ _ => 1) (fun _ _ => 1) = some g ∧ cfg.updateMu = false ∧ cfg.updateLambda = true ∧
      cfg.varFloor = 1 / 1000 ∧ cfg.minN = 0 ∧ g.epoch cfg rows none = some (e, g') ∧ g'.Lambda 0 0 = -1000 := by
  obtain ⟨g, hnew, hg, hmu, hla, hpi, hlp⟩ := new_wf (K := 0) (d := 1) (fun _ => 1) (fun _ _ => 1) (fun _ _ => 1)
    (fun _ _ => one_pos)
  obtain ⟨cfg, hcfg⟩ : ∃ cfg : GmmCfg, cfg = ⟨1 / 1000, 0, true, false, true⟩ := ⟨_, rfl⟩
  obtain ⟨rows, hrows⟩ : ∃ rows : List (XRow 1), rows = [(fun _ => 0, 1)] := ⟨_, rfl⟩
  obtain ⟨st, hst⟩ : ∃ st, st = stats1 g.mix.pz (xRows rows) := ⟨_, rfl⟩
  obtain ⟨s0, s1, s2⟩ := estep_stats g hg rows none st (by rw [hst]; rfl)
  have h0 : st.1 0 = 1 := by rw [s0, hrows]; simp [share_one g hg]
  have h2 : st.2 0 (.inr 0) = 0 := by rw [s2, hrows]; simp
  have hm : newMu cfg st g.mu = fun _ _ => 1 := by
    rw [hcfg]; unfold newMu; simp only; rw [hmu]; simp
  have hraw : ∀ k i, rawVar st (fun _ _ => 1) k i = -1 := by
    intro k i
    rw [fin1 k, fin1 i]
    simp [rawVar, h0, h2]
  have hv : ∀ k i, newVar cfg st (fun _ _ => 1) k i = -(1 / 1000) := by
    intro k i
    unfold newVar floorOf
    simp only [hraw]
    subst hcfg
    have : Finset.univ.filter (fun k : Fin (0 + 1) => (0 : ℝ) < st.1 k) = Finset.univ := by
      ext k; rw [fin1 k]; simp [h0]
    rw [this]
    norm_num
  have hfails : mstepFails cfg st (newMu cfg st g.mu) = false := by
    rw [hm]
    unfold mstepFails
    have a1 : ¬ ∃ k, st.1 k = 0 := by rintro ⟨k, hk⟩; rw [fin1 k, h0] at hk; norm_num at hk
    have a2 : ¬ ∀ k, st.1 k ≤ cfg.minN := by intro hk; have := hk 0; rw [h0, hcfg] at this; norm_num at this
    have a3 : ¬ ∃ k i, newVar cfg st (fun _ _ => 1) k i = 0 := by rintro ⟨k, i, hk⟩; rw [hv] at hk; norm_num at hk
    have a4 : ¬ ∃ k, st.1 k < cfg.minN := by
      rintro ⟨k, hk⟩; rw [fin1 k, h0, hcfg] at hk; norm_num at hk
    simp only [a1, a2, a3, a4, decide_false, Bool.or_self, Bool.and_false, Bool.or_false]
  obtain ⟨e, g', he⟩ := epoch_eq cfg g rows (by rw [← hst]; exact hfails)
  refine ⟨g, cfg, rows, e, g', hnew, by rw [hcfg], by rw [hcfg], by rw [hcfg], by rw [hcfg], he, ?_⟩
  obtain ⟨st', hst', _, _, hmu', hla', _, hlp', _, _⟩ := epoch_some cfg g rows none e g' he
  have hsteq : st' = st := by rw [hst]; exact (Option.some.inj hst').symm
  subst hsteq
  rw [hm] at hla'
  rw [hla']; unfold newLambda; rw [hcfg]; simp only [if_true]; rw [← hcfg, hv]; norm_num

/-- C70: however many epochs are run, the model keeps computing posteriors and scores with the weights it had when it was
first used: the learned weights are never used. -/
theorem C70_weights_frozen (cfg : GmmCfg) (rows : List (XRow d)) (bs : Option Nat) (n : Nat) (g : Gmm K d)
    (es : List ℝ) (g' : Gmm K d) (h : Gmm.fit cfg rows bs n g = some (es, g')) : g'.usedWeights = g.usedWeights := by
  induction n generalizing g es with
  | zero =>
    simp only [Gmm.fit, Option.some.injEq, Prod.mk.injEq] at h
    rw [h.2]
  | succ n ih =>
    unfold Gmm.fit at h
    cases h1 : g.epoch cfg rows bs with
    | none => rw [h1] at h; exact absurd h (by simp)
    | some r =>
      obtain ⟨e, g1⟩ := r
      rw [h1] at h
      simp only [Option.bind_eq_bind, Option.bind_some] at h
      cases h2 : Gmm.fit cfg rows bs n g1 with
      | none => rw [h2] at h; exact absurd h (by simp)
      | some r2 =>
        obtain ⟨es2, g2⟩ := r2
        rw [h2] at h
        simp only [Option.bind_some, Option.pure_def, Option.some.injEq, Prod.mk.injEq] at h
        obtain ⟨rfl, rfl⟩ := h
        rw [ih g1 es2 h2]
        obtain ⟨_, _, _, _, _, _, _, hlp, _⟩ := epoch_some cfg g rows bs e g1 h1
        funext k; unfold Gmm.usedWeights; congr 1; simp only [Mix.logPiVal, hlp]

/-- C70 (negation): a fitted model and a model created from its parameters give different posteriors. Two components with
means 0 and 1, equal weights, one data point 0, only the weights updated. -/
theorem C70_stale_weights :
    ∃ (g : Gmm 1 1) (cfg : GmmCfg) (rows : List (XRow 1)) (e : ℝ) (g' fresh : Gmm 1 1),
      Gmm.new (fun _ => 1 / 2) (fun k _ => (k.val : ℝ)) (fun _ _ => 1) = some g ∧ cfg.updatePi = true ∧
      g.epoch cfg rows none = some (e, g') ∧ Gmm.new g'.mix.pi g'.mu g'.Lambda = some fresh ∧
      g'.mix.pz (suffStats (fun _ => 0)) 0 ≠ fresh.mix.pz (suffStats (fun _ => 0)) 0 := by
  obtain ⟨g, hnew, hg, hmu, hla, hpi, hlp⟩ := new_wf (K := 1) (d := 1) (fun _ => 1 / 2) (fun k _ => (k.val : ℝ)) (fun _ _ => 1)
    (fun _ _ => one_pos)
  obtain ⟨cfg, hcfg⟩ : ∃ cfg : GmmCfg, cfg = ⟨1 / 1000, 0, true, false, false⟩ := ⟨_, rfl⟩
  obtain ⟨rows, hrows⟩ : ∃ rows : List (XRow 1), rows = [(fun _ => 0, 1)] := ⟨_, rfl⟩
  obtain ⟨st, hst⟩ : ∃ st, st = stats1 g.mix.pz (xRows rows) := ⟨_, rfl⟩
  obtain ⟨z, hz⟩ : ∃ z, z = g.mix.pz (suffStats (fun _ : Fin 1 => (0 : ℝ))) := ⟨_, rfl⟩
  have hN : st.1 = z := by rw [hst, hz, hrows]; funext k; simp [stats1, xRows]
  obtain ⟨_, hzp, hzs⟩ := C67_posterior g.mix (suffStats (fun _ : Fin 1 => (0 : ℝ)))
  rw [← hz] at hzp hzs
  have hfails : mstepFails cfg st (newMu cfg st g.mu) = false := by
    unfold mstepFails
    have a1 : ¬ ∃ k, st.1 k = 0 := by rintro ⟨k, hk⟩; rw [hN] at hk; exact (hzp k).ne' hk
    have a4 : ¬ ∃ k, st.1 k < cfg.minN := by rintro ⟨k, hk⟩; rw [hN, hcfg] at hk; exact absurd hk (not_lt.mpr (hzp k).le)
    have a5 : cfg.updateLambda = false := by rw [hcfg]
    simp only [a5, Bool.false_and, Bool.or_false, a1, a4, decide_false, Bool.and_false]
  obtain ⟨e, g', he⟩ := epoch_eq cfg g rows (by rw [← hst]; exact hfails)
  obtain ⟨st', hst', _, _, hmu', hla', hpi', hlp', heta', hA'⟩ := epoch_some cfg g rows none e g' he
  have hsteq : st' = st := by rw [hst]; exact (Option.some.inj hst').symm
  subst hsteq
  have hmu2 : g'.mu = g.mu := by rw [hmu', hcfg]; rfl
  have hla2 : g'.Lambda = g.Lambda := by rw [hla', hcfg]; rfl
  have hpi2 : g'.mix.pi = z := by
    rw [hpi', hN, hcfg]; funext k; simp only [newPi, if_true]; rw [hzs, div_one]
  obtain ⟨fr, hfr, hfg, fmu, fla, fpi, flp⟩ := new_wf (K := 1) (d := 1) g'.mix.pi g'.mu g'.Lambda
    (by rw [hla2]; exact hg.1)
  refine ⟨g, cfg, rows, e, g', fr, hnew, by rw [hcfg], he, hfr, ?_⟩
  have hg' : g'.WF := ⟨by rw [hla2]; exact hg.1, heta', hA'⟩
  have val : ∀ (q : Gmm 1 1), q.WF → q.mix.pz (suffStats (fun _ : Fin 1 => (0 : ℝ))) 0 =
      q.usedWeights 0 * diagPdf (q.mu 0) (q.Lambda 0) (fun _ => 0) /
      (q.usedWeights 0 * diagPdf (q.mu 0) (q.Lambda 0) (fun _ => 0) +
       q.usedWeights 1 * diagPdf (q.mu 1) (q.Lambda 1) (fun _ => 0)) := by
    intro q hq
    have := pz_share q hq ((fun _ => 0), 1) 0
    rw [mul_one] at this
    rw [this]
    unfold Gmm.share mixPdf
    rw [Fin.sum_univ_two, one_mul]
  rw [val g' hg', val fr hfg, fmu, fla, hmu2, hla2, hmu, hla]
  obtain ⟨p0, hp0⟩ : ∃ p, p = diagPdf (fun _ : Fin 1 => ((0 : Fin 2).val : ℝ)) (fun _ => 1) (fun _ => 0) := ⟨_, rfl⟩
  obtain ⟨p1, hp1⟩ : ∃ p, p = diagPdf (fun _ : Fin 1 => ((1 : Fin 2).val : ℝ)) (fun _ => 1) (fun _ => 0) := ⟨_, rfl⟩
  have q0 : 0 < p0 := by rw [hp0]; exact diagPdf_pos _ _ _ (fun _ => one_pos)
  have q1 : 0 < p1 := by rw [hp1]; exact diagPdf_pos _ _ _ (fun _ => one_pos)
  have hlt : p1 < p0 := by
    rw [hp0, hp1]
    simp only [diagPdf, Finset.univ_unique, Finset.prod_singleton, gaussPdf]
    have hs : 0 < Real.sqrt (1 / (2 * Real.pi)) := Real.sqrt_pos.mpr (by have := Real.pi_pos; positivity)
    apply mul_lt_mul_of_pos_left _ hs
    apply Real.exp_lt_exp.mpr
    norm_num
  have hw : ∀ k, g.usedWeights k = 1 / 2 + 1 / 10 ^ 15 := by
    intro k; unfold Gmm.usedWeights Mix.logPiVal; rw [hlp, hpi]; exact Real.exp_log (by positivity)
  have hw' : ∀ k, g'.usedWeights k = 1 / 2 + 1 / 10 ^ 15 := by
    intro k; rw [← hw k]; unfold Gmm.usedWeights; congr 1; simp only [Mix.logPiVal, hlp']
  have hwf : ∀ k, fr.usedWeights k = z k + 1 / 10 ^ 15 := by
    intro k; unfold Gmm.usedWeights Mix.logPiVal; rw [flp, fpi, hpi2]
    exact Real.exp_log (by have := hzp k; positivity)
  have hz0 := val g hg
  rw [← hz, hw, hw, hmu, hla, ← hp0, ← hp1] at hz0
  rw [hw', hw', hwf, hwf, ← hp0, ← hp1]
  rw [Fin.sum_univ_two] at hzs
  have hzz : z 1 < z 0 := by
    have : 1 / 2 < z 0 := by
      rw [hz0, lt_div_iff₀ (by positivity)]; nlinarith
    linarith
  have hz1 := hzp 1
  have hz2 := hzp 0
  apply ne_of_lt
  rw [div_lt_div_iff₀ (by positivity) (by positivity)]
  have : 0 < (1 / 2 + 1 / 10 ^ 15 : ℝ) * p0 * p1 * (z 0 - z 1) := by
    have : 0 < z 0 - z 1 := by linarith
    positivity
  nlinarith

end Hyp.Pdfs
