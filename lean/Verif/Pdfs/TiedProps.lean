import Verif.Pdfs.Tied
import Verif.Pdfs.DiagGmmNeg

/-! C137: mixtures of Gaussians with one diagonal covariance. -/

namespace Hyp.Pdfs
open scoped BigOperators
open Hyp.MathUtils

variable {K d : Nat}

/-! ### specification -/

/-- the natural parameters belong to the means and the precision, which is positive -/
def TiedGmm.WF (g : TiedGmm K d) : Prop :=
  (∀ i, 0 < g.Lambda i) ∧ (∀ k, g.mix.eta k = computeEta (g.mu k) g.Lambda) ∧ ∀ k, g.mix.A k = computeANat (computeEta (g.mu k) g.Lambda)

/-- the mixture weights with which a model computes posteriors and scores -/
noncomputable def TiedGmm.usedWeights (g : TiedGmm K d) (k : Fin (K + 1)) : ℝ := Real.exp (g.mix.logPiVal k)

/-- the share of row `r` that belongs to component `k`: sample weight times Bayes posterior -/
noncomputable def TiedGmm.share (g : TiedGmm K d) (k : Fin (K + 1)) (r : XRow d) : ℝ :=
  r.2 * (g.usedWeights k * diagPdf (g.mu k) g.Lambda r.1 / mixPdf g.usedWeights g.mu (fun _ => g.Lambda) r.1)

/-- the variance of coordinate `i` around the component means, all components together -/
noncomputable def pooledVar (rows : List (XRow d)) (r : Fin (K + 1) → XRow d → ℝ) (i : Fin d) : ℝ :=
  (∑ k, (rows.map (fun x => r k x * (x.1 i - wMean rows (r k) i) ^ 2)).sum) / ∑ k, (rows.map (r k)).sum

/-! ### proofs -/

theorem tiedEta_eq (mu : Fin (K + 1) → Fin d → ℝ) (lam : Fin d → ℝ) (k : Fin (K + 1)) : tiedEta mu lam k = computeEta (mu k) lam := by
  funext i
  cases i <;> rfl

/-- the same model with one covariance per component -/
def TiedGmm.untie (g : TiedGmm K d) : Gmm K d := ⟨g.mix, g.mu, fun _ => g.Lambda⟩

theorem untie_wf {g : TiedGmm K d} (h : g.WF) : g.untie.WF := ⟨fun _ => h.1, h.2.1, h.2.2⟩

theorem new_tied_wf {pi : Fin (K + 1) → ℝ} {mu : Fin (K + 1) → Fin d → ℝ} {lam : Fin d → ℝ} {g : TiedGmm K d}
    (h : TiedGmm.new pi mu lam = some g) : g.WF ∧ g.mu = mu ∧ g.Lambda = lam ∧ g.mix.pi = pi ∧ g.mix.logPi = none := by
  unfold TiedGmm.new at h
  split at h
  · next hl =>
    injection h with h
    subst h
    exact ⟨⟨hl, fun k => tiedEta_eq _ _ k, fun k => by show computeANat (tiedEta mu lam k) = _; rw [tiedEta_eq]; rfl⟩, rfl, rfl, rfl, rfl⟩
  · cases h

theorem tied_epoch_some (cfg : GmmCfg) (g : TiedGmm K d) (rows : List (XRow d)) (bs : Option Nat) (e : ℝ) (g' : TiedGmm K d)
    (h : g.epoch cfg rows bs = some (e, g')) :
    ∃ st, g.mix.accumSuffStats (xRows rows) bs = some st ∧ tiedFails cfg st (newMu cfg st g.mu) = false ∧
      e = g.mix.touchLogPi.elbo st ∧ g'.mu = newMu cfg st g.mu ∧
      g'.Lambda = tiedLambda cfg st (newMu cfg st g.mu) g.Lambda ∧ g'.mix.pi = newPi cfg st.1 g.mix.pi ∧
      g'.mix.logPi = some g.mix.logPiVal ∧ (∀ k, g'.mix.eta k = computeEta (g'.mu k) g'.Lambda) ∧
      ∀ k, g'.mix.A k = computeANat (computeEta (g'.mu k) g'.Lambda) := by
  unfold TiedGmm.epoch at h
  cases hst : g.mix.accumSuffStats (xRows rows) bs with
  | none => rw [hst] at h; exact absurd h (by simp)
  | some st =>
    rw [hst] at h
    simp only [Option.bind_eq_bind, Option.bind_some] at h
    unfold TiedGmm.mstep at h
    simp only at h
    by_cases hf : tiedFails cfg st (newMu cfg st g.mu) = true
    · rw [if_pos hf] at h; exact absurd h (by simp)
    · rw [if_neg hf] at h
      simp only [Option.bind_some, Option.pure_def, Option.some.injEq, Prod.mk.injEq] at h
      obtain ⟨he, hg⟩ := h
      subst hg
      refine ⟨st, rfl, by simpa using hf, he.symm, rfl, rfl, rfl, rfl, fun k => tiedEta_eq _ _ k, fun k => ?_⟩
      show computeANat (tiedEta _ _ k) = _
      rw [tiedEta_eq]
      rfl

theorem tied_ok (cfg : GmmCfg) (st : Stats K (Fin d ⊕ Fin d)) (mu : Fin (K + 1) → Fin d → ℝ) (h : tiedFails cfg st mu = false) :
    (∀ k, st.1 k ≠ 0) ∧ (cfg.updateLambda = true → ∀ i, pool cfg st mu i ≠ 0) := by
  unfold tiedFails at h
  simp only [Bool.or_eq_false_iff, Bool.and_eq_false_iff, decide_eq_false_iff_not, not_exists] at h
  obtain ⟨⟨h1, h2⟩, -⟩ := h
  refine ⟨h1, fun hu => ?_⟩
  rcases h2 with h2 | h2
  · rw [hu] at h2; cases h2
  · exact h2.2

/-- the statistics of the E-step -/
theorem tied_stats (g : TiedGmm K d) (hg : g.WF) (rows : List (XRow d)) (bs : Option Nat) (st : Stats K (Fin d ⊕ Fin d))
    (h : g.mix.accumSuffStats (xRows rows) bs = some st) :
    (∀ k, st.1 k = (rows.map (g.share k)).sum) ∧ (∀ k i, st.2 k (.inl i) = (rows.map (fun x => g.share k x * x.1 i)).sum) ∧
    ∀ k i, st.2 k (.inr i) = (rows.map (fun x => g.share k x * (x.1 i * x.1 i))).sum :=
  estep_stats g.untie (untie_wf hg) rows bs st h

theorem tied_share_nonneg (g : TiedGmm K d) (hg : g.WF) (r : XRow d) (h : 0 ≤ r.2) (k : Fin (K + 1)) : 0 ≤ g.share k r :=
  share_nonneg g.untie (untie_wf hg) r h k

theorem pooledVar_eq (rows : List (XRow d)) (r : Fin (K + 1) → XRow d → ℝ) (i : Fin d) (h : ∀ k, (rows.map (r k)).sum ≠ 0) :
    pooledVar rows r i = (∑ k, (rows.map (r k)).sum * wVar rows (r k) i) / ∑ k, (rows.map (r k)).sum := by
  unfold pooledVar
  congr 1
  refine Finset.sum_congr rfl (fun k _ => ?_)
  unfold wVar
  rw [mul_div_cancel₀ _ (h k)]

theorem moments (rows : List (XRow d)) (r : XRow d → ℝ) (i : Fin d) (m : ℝ) :
    (rows.map (fun x => r x * (x.1 i - m) ^ 2)).sum = (rows.map (fun x => r x * (x.1 i * x.1 i))).sum
      - 2 * m * (rows.map (fun x => r x * x.1 i)).sum + (rows.map r).sum * m ^ 2 := by
  induction rows with
  | nil => simp
  | cons x xs ih => simp only [List.map_cons, List.sum_cons]; rw [ih]; ring

/-! ## C137 -/

/-- **C137** the score is the log density of the mixture (with the weights that the code uses: `log(pi + 1e-15)`), up to 1e-20. -/
theorem C137_log_prob (pi : Fin (K + 1) → ℝ) (hpi : ∀ k, 0 ≤ pi k) (mu : Fin (K + 1) → Fin d → ℝ) (lam : Fin d → ℝ) (g : TiedGmm K d)
    (h : TiedGmm.new pi mu lam = some g) (x : Fin d → ℝ) :
    Real.log (mixPdf (fun k => pi k + 1 / 10 ^ 15) mu (fun _ => lam) x) ≤ g.logProb x ∧
    g.logProb x ≤ Real.log (mixPdf (fun k => pi k + 1 / 10 ^ 15) mu (fun _ => lam) x) + 1 / 10 ^ 20 := by
  obtain ⟨hg, hmu, hla, hpi', hlp⟩ := new_tied_wf h
  have e := mixPdf_eq g.untie (untie_wf hg) x
  have e2 : mixPdf (fun k => Real.exp (g.untie.mix.logPiVal k)) g.untie.mu g.untie.Lambda x =
      mixPdf (fun k => pi k + 1 / 10 ^ 15) mu (fun _ => lam) x := by
    unfold mixPdf
    refine Finset.sum_congr rfl (fun k _ => ?_)
    have : 0 < pi k + 1 / 10 ^ 15 := by have := hpi k; positivity
    show Real.exp (g.mix.logPiVal k) * diagPdf (g.mu k) g.Lambda x = _
    rw [hmu, hla]
    simp only [Mix.logPiVal, hlp, hpi', Real.exp_log this]
  rw [← e2, ← e]
  exact C66_logsumexp _

/-- **C137** both ways of scoring agree; going to natural parameters and back is the identity. -/
theorem C137_nat_eq_std (pi : Fin (K + 1) → ℝ) (mu : Fin (K + 1) → Fin d → ℝ) (lam : Fin d → ℝ) (g : TiedGmm K d)
    (h : TiedGmm.new pi mu lam = some g) : (∀ x, g.logProb x = g.logProbStd x) ∧ tiedStd g.mix.eta = (mu, lam) := by
  obtain ⟨hg, hmu, hla, -, -⟩ := new_tied_wf h
  constructor
  · intro x
    unfold TiedGmm.logProb Mix.logProb TiedGmm.logProbStd
    congr 1
    funext k
    have := g.untie.logr_eq (untie_wf hg) x k
    rw [show g.mix.logr = g.untie.mix.logr from rfl, this, ← std_log _ _ _ ((untie_wf hg).1 k)]
    show g.mix.logPiVal k + (1 / 2 * (∑ i, Real.log (g.Lambda i)) - _ - 1 / 2 * ∑ i, ((x i - g.mu k i) * Real.sqrt (g.Lambda i)) ^ 2) = _
    ring
  · have hp := hg.1
    rw [hla] at hp
    unfold tiedStd
    have he : ∀ k, g.mix.eta k = computeEta (mu k) lam := by intro k; rw [hg.2.1, hmu, hla]
    simp only [he]
    ext i j
    · have := (hp j).ne'
      simp only [computeEta]
      field_simp
    · simp only [computeEta]; ring

/-- **C137** what an M-step sets: the means are the weighted means of the components; the shared variance is the pooled variance, or
something larger (the floor), and exactly the pooled variance when `var_floor = 0`; the weights are the shares of the total. -/
theorem C137_update (cfg : GmmCfg) (g : TiedGmm K d) (hg : g.WF) (rows : List (XRow d)) (hw : ∀ r ∈ rows, 0 ≤ r.2)
    (bs : Option Nat) (e : ℝ) (g' : TiedGmm K d) (h : g.epoch cfg rows bs = some (e, g')) :
    (cfg.updateMu = true → ∀ k i, g'.mu k i = wMean rows (g.share k) i) ∧
    (cfg.updateMu = true → cfg.updateLambda = true → ∀ i, 0 < g'.Lambda i ∧ pooledVar rows g.share i ≤ 1 / g'.Lambda i ∧
      (cfg.varFloor = 0 → 1 / g'.Lambda i = pooledVar rows g.share i)) ∧
    (cfg.updatePi = true → ∀ k, g'.mix.pi k = (rows.map (g.share k)).sum / (rows.map (fun r => r.2)).sum) ∧
    (cfg.updateMu = false → g'.mu = g.mu) ∧ (cfg.updateLambda = false → g'.Lambda = g.Lambda) ∧ (cfg.updatePi = false → g'.mix.pi = g.mix.pi) := by
  obtain ⟨st, hst, hf, _, hmu, hla, hpi, _, _, _⟩ := tied_epoch_some cfg g rows bs e g' h
  obtain ⟨s0, s1, s2⟩ := tied_stats g hg rows bs st hst
  obtain ⟨f1, f2⟩ := tied_ok cfg st _ hf
  have hmean : cfg.updateMu = true → ∀ k i, g'.mu k i = wMean rows (g.share k) i := by
    intro hu k i
    rw [hmu]; unfold newMu wMean
    rw [if_pos hu, s0, s1]
  have hraw : cfg.updateMu = true → ∀ k i, rawVar st g'.mu k i = wVar rows (g.share k) i := by
    intro hu k i
    rw [wVar_eq _ _ _ (by rw [← s0]; exact f1 k)]
    unfold rawVar
    rw [s0, s2, hmean hu]
  have hn : ∀ k, 0 < st.1 k := by
    intro k
    refine lt_of_le_of_ne ?_ (f1 k).symm
    rw [s0]
    apply List.sum_nonneg
    intro y hy
    obtain ⟨x, hx, rfl⟩ := List.mem_map.mp hy
    exact tied_share_nonneg g hg x (hw x hx) k
  have hs : 0 < ∑ k, st.1 k := Finset.sum_pos (fun k _ => hn k) ⟨0, Finset.mem_univ _⟩
  have hpv : ∀ i, pooledVar rows g.share i = (∑ k, st.1 k * wVar rows (g.share k) i) / ∑ k, st.1 k := by
    intro i
    rw [pooledVar_eq _ _ _ (by intro k; rw [← s0]; exact f1 k)]
    simp only [s0]
  have hv0 : ∀ k i, 0 ≤ wVar rows (g.share k) i := fun k i => wVar_nonneg rows (g.share k) i (fun x hx => tied_share_nonneg g hg x (hw x hx) k)
  refine ⟨hmean, fun hu hl i => ?_, fun hp k => ?_, fun hu => ?_, fun hu => ?_, fun hu => ?_⟩
  · have h1 : g'.Lambda i = 1 / pool cfg st g'.mu i := by rw [hla, ← hmu]; unfold tiedLambda; rw [if_pos hl]
    have hge : ∀ k, wVar rows (g.share k) i ≤ newVar cfg st g'.mu k i := by intro k; rw [← hraw hu]; exact le_max_left _ _
    have h2 : pooledVar rows g.share i ≤ pool cfg st g'.mu i := by
      rw [hpv]
      unfold pool
      apply div_le_div_of_nonneg_right _ hs.le
      exact Finset.sum_le_sum (fun k _ => mul_le_mul_of_nonneg_left (hge k) (hn k).le)
    have h3 : pool cfg st g'.mu i ≠ 0 := by rw [hmu]; exact f2 hl i
    have h4 : 0 ≤ pooledVar rows g.share i := by
      rw [hpv]
      exact div_nonneg (Finset.sum_nonneg (fun k _ => mul_nonneg (hn k).le (hv0 k i))) hs.le
    have h5 : 0 < pool cfg st g'.mu i := lt_of_le_of_ne (le_trans h4 h2) (Ne.symm h3)
    rw [h1, one_div_one_div]
    refine ⟨by positivity, h2, fun hz => ?_⟩
    rw [hpv]
    unfold pool
    congr 1
    refine Finset.sum_congr rfl (fun k _ => ?_)
    unfold newVar floorOf
    rw [hz, zero_mul, hraw hu, max_eq_left (hv0 k i)]
  · rw [hpi]; unfold newPi
    rw [if_pos hp]
    have ht := C67_total_mass g.mix (xRows rows) bs st hst
    have e3 : (xRows rows).map (fun r => r.2) = rows.map (fun r => r.2) := by simp [xRows, Function.comp_def]
    rw [ht, s0, e3]
  · rw [hmu]; unfold newMu; rw [hu]; rfl
  · rw [hla]; unfold tiedLambda; rw [hu]; rfl
  · rw [hpi]; unfold newPi; rw [hu]; rfl

/-- **C137** an epoch does not decrease the log-likelihood that the model itself computes, when the precision is only updated together
with the means and the floor does not raise the shared variance above its old value. -/
theorem C137_em_step (cfg : GmmCfg) (g : TiedGmm K d) (hg : g.WF) (rows : List (XRow d)) (hw : ∀ r ∈ rows, 0 ≤ r.2)
    (bs : Option Nat) (e : ℝ) (g' : TiedGmm K d) (h : g.epoch cfg rows bs = some (e, g'))
    (hopt : cfg.updateLambda = true → cfg.updateMu = true)
    (hfl : cfg.updateLambda = true → ∀ i, 1 / g'.Lambda i = pooledVar rows g.share i ∨ 1 / g'.Lambda i ≤ 1 / g.Lambda i) :
    g'.WF ∧ g'.usedWeights = g.usedWeights ∧
    logLik g.usedWeights g.mu (fun _ => g.Lambda) rows ≤ logLik g'.usedWeights g'.mu (fun _ => g'.Lambda) rows := by
  obtain ⟨u1, u2, -⟩ := C137_update cfg g hg rows hw bs e g' h
  obtain ⟨st, hst, hf, _, hmu, hla, _, hlp, heta, hA⟩ := tied_epoch_some cfg g rows bs e g' h
  obtain ⟨s0, _, _⟩ := tied_stats g hg rows bs st hst
  obtain ⟨f1, _⟩ := tied_ok cfg st _ hf
  have hused : g'.usedWeights = g.usedWeights := by
    funext k; unfold TiedGmm.usedWeights; congr 1
    simp only [Mix.logPiVal, hlp]
  have hnew : ∀ i, 0 < g'.Lambda i := by
    intro i
    by_cases hl : cfg.updateLambda = true
    · exact (u2 (hopt hl) hl i).1
    · rw [hla]; unfold tiedLambda; rw [if_neg hl]; exact hg.1 i
  refine ⟨⟨hnew, heta, hA⟩, hused, ?_⟩
  rw [hused]
  have hwp : ∀ k, 0 < g.usedWeights k := fun k => Real.exp_pos _
  apply em_step_sum g.usedWeights hwp g.mu (fun _ => g.Lambda) g'.mu (fun _ => g'.Lambda) (fun _ => hg.1) (fun _ => hnew) rows hw
  have hN : ∀ k, 0 < (rows.map (g.share k)).sum := by
    intro k
    apply lt_of_le_of_ne
    · apply List.sum_nonneg
      intro y hy
      obtain ⟨x, hx, rfl⟩ := List.mem_map.mp hy
      exact tied_share_nonneg g hg x (hw x hx) k
    · rw [← s0]; exact (f1 k).symm
  have e1 := fun k => sum_log_gauss rows (g.share k) (g.mu k) g.Lambda hg.1
  have e2 := fun k => sum_log_gauss rows (g.share k) (g'.mu k) g'.Lambda hnew
  change ∑ k, (rows.map (fun r => g.share k r * Real.log (diagPdf (g.mu k) g.Lambda r.1))).sum ≤
    ∑ k, (rows.map (fun r => g.share k r * Real.log (diagPdf (g'.mu k) g'.Lambda r.1))).sum
  simp only [e1, e2]
  rw [Finset.sum_comm, Finset.sum_comm (s := Finset.univ (α := Fin (K + 1)))]
  apply Finset.sum_le_sum
  intro i _
  -- the moments of coordinate i
  obtain ⟨N, hNd⟩ : ∃ N : Fin (K + 1) → ℝ, N = fun k => (rows.map (g.share k)).sum := ⟨_, rfl⟩
  obtain ⟨F, hFd⟩ : ∃ F : Fin (K + 1) → ℝ, F = fun k => (rows.map (fun x => g.share k x * x.1 i)).sum := ⟨_, rfl⟩
  obtain ⟨S, hSd⟩ : ∃ S : Fin (K + 1) → ℝ, S = fun k => (rows.map (fun x => g.share k x * (x.1 i * x.1 i))).sum := ⟨_, rfl⟩
  have hNp : ∀ k, 0 < N k := by intro k; rw [hNd]; exact hN k
  have hT : 0 < ∑ k, N k := Finset.sum_pos (fun k _ => hNp k) ⟨0, Finset.mem_univ _⟩
  have hrw : ∀ (mu : Fin (K + 1) → ℝ) (lam : ℝ),
      ∑ k, ((rows.map (g.share k)).sum / 2 * Real.log lam - lam / 2 * ((rows.map (fun x => g.share k x * (x.1 i * x.1 i))).sum
        - 2 * mu k * (rows.map (fun x => g.share k x * x.1 i)).sum + (rows.map (g.share k)).sum * mu k ^ 2)
        - (rows.map (g.share k)).sum / 2 * Real.log (2 * Real.pi)) =
      (∑ k, N k) / 2 * Real.log lam - lam / 2 * (∑ k, (S k - 2 * mu k * F k + N k * mu k ^ 2)) - (∑ k, N k) / 2 * Real.log (2 * Real.pi) := by
    intro mu lam
    rw [Finset.sum_sub_distrib, Finset.sum_sub_distrib, ← Finset.mul_sum, ← Finset.sum_mul, ← Finset.sum_mul, ← Finset.sum_div, hNd, hFd, hSd]
  rw [hrw (fun k => g.mu k i) (g.Lambda i), hrw (fun k => g'.mu k i) (g'.Lambda i)]
  apply sub_le_sub_right
  have hsq : ∀ (k : Fin (K + 1)) (m : ℝ), S k - 2 * (F k / N k) * F k + N k * (F k / N k) ^ 2 ≤ S k - 2 * m * F k + N k * m ^ 2 := by
    intro k m
    have := hNp k
    have e5 : S k - 2 * m * F k + N k * m ^ 2 - (S k - 2 * (F k / N k) * F k + N k * (F k / N k) ^ 2) = N k * (F k / N k - m) ^ 2 := by
      field_simp; ring
    have : 0 ≤ N k * (F k / N k - m) ^ 2 := by positivity
    linarith
  have hmean : ∀ k, wMean rows (g.share k) i = F k / N k := by intro k; rw [hFd, hNd]; rfl
  have hR : ∑ k, (S k - 2 * (F k / N k) * F k + N k * (F k / N k) ^ 2) ≤ ∑ k, (S k - 2 * g.mu k i * F k + N k * g.mu k i ^ 2) :=
    Finset.sum_le_sum (fun k _ => hsq k _)
  by_cases hl : cfg.updateLambda = true
  · obtain ⟨hp, hge, -⟩ := u2 (hopt hl) hl i
    have hm' : ∀ k, g'.mu k i = F k / N k := by intro k; rw [u1 (hopt hl) k i, hmean]
    simp only [hm']
    obtain ⟨R, hRd⟩ : ∃ R, R = ∑ k, (S k - 2 * (F k / N k) * F k + N k * (F k / N k) ^ 2) := ⟨_, rfl⟩
    have hpool : pooledVar rows g.share i = R / ∑ k, N k := by
      unfold pooledVar
      rw [hRd, hNd]
      congr 1
      refine Finset.sum_congr rfl (fun k _ => ?_)
      rw [hmean]
      rw [moments rows (g.share k) i (F k / N k), hSd, hFd, hNd]
    rw [← hRd]
    have key := coord_opt (∑ k, N k) 0 R 0 (g.Lambda i) (1 / g'.Lambda i) hT (hg.1 i) (by positivity) (by
      rcases hfl hl i with h1 | h1
      · left; rw [h1, hpool]; simp
      · right
        refine ⟨?_, h1⟩
        rw [hpool] at hge
        simpa using hge)
    rw [one_div_one_div] at key
    simp only [zero_div, mul_zero, sub_zero, ne_eq, OfNat.ofNat_ne_zero, not_false_eq_true, zero_pow, add_zero] at key
    refine le_trans ?_ key
    have := hg.1 i
    rw [← hRd] at hR
    have : g.Lambda i / 2 * R ≤ g.Lambda i / 2 * ∑ k, (S k - 2 * g.mu k i * F k + N k * g.mu k i ^ 2) :=
      mul_le_mul_of_nonneg_left hR (by positivity)
    linarith
  · have hlam : g'.Lambda i = g.Lambda i := by rw [hla]; unfold tiedLambda; rw [if_neg hl]
    rw [hlam]
    apply sub_le_sub_left
    apply mul_le_mul_of_nonneg_left _ (by have := hg.1 i; positivity)
    by_cases hu : cfg.updateMu = true
    · refine le_trans (le_of_eq ?_) hR
      refine Finset.sum_congr rfl (fun k _ => ?_)
      rw [u1 hu k i, hmean]
    · have : g'.mu = g.mu := by rw [hmu]; unfold newMu; rw [if_neg hu]
      rw [this]

/-- **C137** without a variance floor the log-likelihood does not decrease over any number of epochs, whatever the data, the batch size
and the starting point, as long as `fit` succeeds. -/
theorem C137_fit_no_floor (cfg : GmmCfg) (hf : cfg.varFloor = 0) (hopt : cfg.updateLambda = true → cfg.updateMu = true)
    (rows : List (XRow d)) (hw : ∀ r ∈ rows, 0 ≤ r.2) (bs : Option Nat) (n : Nat) (g : TiedGmm K d) (hg : g.WF)
    (es : List ℝ) (g' : TiedGmm K d) (h : TiedGmm.fit cfg rows bs n g = some (es, g')) :
    es.length = n ∧ g'.WF ∧ logLik g.usedWeights g.mu (fun _ => g.Lambda) rows ≤ logLik g'.usedWeights g'.mu (fun _ => g'.Lambda) rows := by
  induction n generalizing g es with
  | zero =>
    simp only [TiedGmm.fit, Option.some.injEq, Prod.mk.injEq] at h
    obtain ⟨rfl, rfl⟩ := h
    exact ⟨rfl, hg, le_refl _⟩
  | succ n ih =>
    unfold TiedGmm.fit at h
    cases h1 : g.epoch cfg rows bs with
    | none => rw [h1] at h; exact absurd h (by simp)
    | some r =>
      obtain ⟨e, g1⟩ := r
      rw [h1] at h
      simp only [Option.bind_eq_bind, Option.bind_some] at h
      cases h2 : TiedGmm.fit cfg rows bs n g1 with
      | none => rw [h2] at h; exact absurd h (by simp)
      | some r2 =>
        obtain ⟨es2, g2⟩ := r2
        rw [h2] at h
        simp only [Option.bind_some, Option.pure_def, Option.some.injEq, Prod.mk.injEq] at h
        obtain ⟨rfl, rfl⟩ := h
        have hstep := C137_em_step cfg g hg rows hw bs e g1 h1 hopt (by
          intro hl i
          exact Or.inl (((C137_update cfg g hg rows hw bs e g1 h1).2.1 (hopt hl) hl i).2.2 hf))
        obtain ⟨i1, i2, i3⟩ := ih g1 hstep.1 es2 h2
        exact ⟨by simp [i1], i2, le_trans hstep.2.2 i3⟩

/-- **C137** the initialisation from clusters: the weights are the sizes of the clusters over the number of rows and sum to one, and the shared
variance is the mean squared distance of the rows to the centroid of their cluster. -/
theorem C137_kmeans_init (mu : Fin (K + 1) → Fin d → ℝ) (x : List ((Fin d → ℝ) × Fin (K + 1))) (hx : x ≠ []) (g : TiedGmm K d)
    (h : tiedInit mu x = some g) :
    g.mu = mu ∧ ∑ k, g.mix.pi k = 1 ∧ (∀ k, g.mix.pi k = (x.countP (fun r => r.2 = k) : ℝ) / x.length) ∧
    ∀ i, 1 / g.Lambda i = (x.map (fun r => (r.1 i - mu r.2 i) ^ 2)).sum / x.length := by
  unfold tiedInit at h
  obtain ⟨hg, h1, h2, h3, -⟩ := new_tied_wf h
  have hlen : (x.length : ℝ) ≠ 0 := by
    rw [Nat.cast_ne_zero]
    exact fun h => hx (List.length_eq_zero_iff.1 h)
  have hpart : ∀ f : (Fin d → ℝ) × Fin (K + 1) → ℝ, ∑ k, ((x.filter (fun r => r.2 = k)).map f).sum = (x.map f).sum := by
    intro f
    clear h hg h1 h2 h3 hlen hx
    induction x with
    | nil => simp
    | cons a l ih =>
      rw [List.map_cons, List.sum_cons, ← ih]
      have : ∀ k, (((a :: l).filter (fun r => r.2 = k)).map f).sum = (if a.2 = k then f a else 0) + ((l.filter (fun r => r.2 = k)).map f).sum := by
        intro k
        by_cases hk : a.2 = k <;> simp [hk]
      simp only [this]
      rw [Finset.sum_add_distrib]
      simp
  refine ⟨h1, ?_, ?_, ?_⟩
  · rw [h3, ← Finset.sum_div]
    have := hpart (fun _ => 1)
    simp only [List.map_const', List.sum_replicate, nsmul_eq_mul, mul_one] at this
    rw [this, div_self hlen]
  · intro k
    rw [h3, List.countP_eq_length_filter]
  · intro i
    rw [h2, one_div_div]
    congr 1
    rw [← hpart (fun r => (r.1 i - mu r.2 i) ^ 2)]
    refine Finset.sum_congr rfl (fun k _ => ?_)
    congr 1
    apply List.map_congr_left
    intro r hr
    rw [List.mem_filter] at hr
    rw [of_decide_eq_true hr.2]

end Hyp.Pdfs
