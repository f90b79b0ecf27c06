import Verif.Torch.LrSched
import Mathlib.Tactic.FieldSimp
import Mathlib.Tactic.Ring
import Mathlib.Tactic.Linarith
import Mathlib.Tactic.Positivity
import Mathlib.Tactic.NormNum

/-! # C41: learning-rate schedules -/

namespace Hyp.Torch

/-! ## specification -/

/-- The exponential schedule as documented: the base rate during the hold steps, then an exponential decay by
`decay` every `steps` steps, but never below `lo`. -/
noncomputable def expSchedule (base lo decay steps hold : ℝ) (t : ℝ) : ℝ :=
  if t < hold then base else max lo (base * decay ^ ((t - hold) / steps))

/-- The linear warm-up: `lo` before the first batch, `base` at batch number `W`. -/
noncomputable def linearWarmup (base lo : ℝ) (W k : ℝ) : ℝ := lo + (base - lo) * (k / W)

/-- number of calls of a kind. -/
def numBatches (es : List LrEv) : Nat := es.count .batch
def numEpochs (es : List LrEv) : Nat := es.count .epochBegin

/-! ## generic facts about histories -/

section
variable {g : Nat} {σ : Type} (c : LrCfg g) (getLr : GetLr g σ) (ee : LrSt g σ → Option (LrSt g σ))

theorem lrRun_append (s : LrSt g σ) (es es' : List LrEv) :
    lrRun c getLr ee s (es ++ es') = (lrRun c getLr ee s es).bind (fun s' => lrRun c getLr ee s' es') := by
  induction es generalizing s with
  | nil => rfl
  | cons e es ih =>
    rw [List.cons_append, lrRun, lrRun]
    cases lrStep c getLr ee s e with
    | none => rfl
    | some s' => simpa using ih s'

/-- induction over histories, from the end. -/
theorem lrRun_induction (s0 : LrSt g σ) (P : List LrEv → LrSt g σ → Prop) (h0 : P [] s0)
    (hs : ∀ es s e s', lrRun c getLr ee s0 es = some s → P es s → lrStep c getLr ee s e = some s' → P (es ++ [e]) s')
    (es : List LrEv) (st : LrSt g σ) (hr : lrRun c getLr ee s0 es = some st) : P es st := by
  induction es using List.reverseRecOn generalizing st with
  | nil =>
    simp only [lrRun, Option.some.injEq] at hr
    subst hr
    exact h0
  | append_singleton es e ih =>
    rw [lrRun_append, Option.bind_eq_some_iff] at hr
    obtain ⟨s, hs1, hs2⟩ := hr
    have : lrStep c getLr ee s e = some st := by
      rw [lrRun] at hs2
      cases hh : lrStep c getLr ee s e with
      | none => rw [hh] at hs2; simp at hs2
      | some s' => rw [hh] at hs2; simpa [lrRun] using hs2
    exact hs es s e st hs1 (ih s hs1) this

theorem counts (hee : ∀ s s', ee s = some s' → s'.lastEpoch = s.lastEpoch ∧ s'.lastBatch = s.lastBatch) (ext : σ)
    (es : List LrEv) (st : LrSt g σ) (hr : lrRun c getLr ee (LrSt.init c ext) es = some st) :
    st.lastEpoch = (numEpochs es : Int) - 1 ∧ st.lastBatch = (numBatches es : Int) - 1 := by
  refine lrRun_induction c getLr ee _ (fun es st => st.lastEpoch = (numEpochs es : Int) - 1 ∧ st.lastBatch = (numBatches es : Int) - 1)
    ⟨rfl, rfl⟩ ?_ es st hr
  intro es s e s' _ ⟨h1, h2⟩ hstep
  unfold numEpochs numBatches at *
  rw [List.count_append, List.count_append]
  cases e with
  | epochBegin =>
    simp only [lrStep, Option.some.injEq] at hstep
    subst hstep
    unfold epochBeginStep
    simp only
    split <;> simp [h1, h2]
  | batch =>
    simp only [lrStep, batchStep] at hstep
    split at hstep
    · rw [Option.map_eq_some_iff] at hstep
      obtain ⟨_, _, rfl⟩ := hstep
      simp [h1, h2]
    · split at hstep <;> (simp only [Option.some.injEq] at hstep; subst hstep; simp [h1, h2])
  | epochEnd =>
    obtain ⟨e1, e2⟩ := hee _ _ hstep
    simp [e1, e2, h1, h2]

end

/-! ## exponential -/

section
variable {g : Nat} (c : ExpCfg g)

theorem expGetLr_eq (e step : Int) (i : Fin g) :
    (expGetLr c () e step).2 i = expSchedule (c.base i) (c.minLr i) c.decayRate c.decaySteps c.holdSteps step := rfl

theorem exp_counts (es : List LrEv) (st : LrSt g Unit) (hr : expRun c es = some st) :
    st.lastEpoch = (numEpochs es : Int) - 1 ∧ st.lastBatch = (numBatches es : Int) - 1 :=
  counts c.toLrCfg (expGetLr c) some (by intro s s' h; cases h; exact ⟨rfl, rfl⟩) () es st hr

theorem exp_last (es : List LrEv) (e : LrEv) (st : LrSt g Unit) (hr : expRun c (es ++ [e]) = some st) :
    ∃ s, expRun c es = some s ∧ lrStep c.toLrCfg (expGetLr c) some s e = some st := by
  unfold expRun at *
  rw [lrRun_append, Option.bind_eq_some_iff] at hr
  obtain ⟨s, h1, h2⟩ := hr
  refine ⟨s, h1, ?_⟩
  rw [lrRun] at h2
  cases hh : lrStep c.toLrCfg (expGetLr c) some s e with
  | none => rw [hh] at h2; simp at h2
  | some s' => rw [hh] at h2; simpa [lrRun] using h2

/-- C41: with updates per epoch, the rate set at the beginning of epoch `t` (counted from 0) is the schedule at `t`. -/
theorem C41_exp_epoch (h : c.onBatch = false) (es : List LrEv) (st : LrSt g Unit) (hr : expRun c (es ++ [.epochBegin]) = some st) (i : Fin g) :
    st.lr i = expSchedule (c.base i) (c.minLr i) c.decayRate c.decaySteps c.holdSteps (numEpochs es) := by
  obtain ⟨s, h1, h2⟩ := exp_last c es _ st hr
  have := (exp_counts c es s h1).1
  simp only [lrStep, epochBeginStep, h, Option.some.injEq] at h2
  subst h2
  simp only [Bool.false_eq_true, if_false]
  rw [expGetLr_eq, this]
  congr 1
  push_cast
  ring

/-- C41: with updates per batch, the rate for batch `t` (counted from 0) after the warm-up is the schedule at `t`. -/
theorem C41_exp_batch (h : c.onBatch = true) (es : List LrEv) (st : LrSt g Unit) (hr : expRun c (es ++ [.batch]) = some st)
    (hw : c.warmup < numBatches es) (i : Fin g) :
    st.lr i = expSchedule (c.base i) (c.minLr i) c.decayRate c.decaySteps c.holdSteps (numBatches es) := by
  obtain ⟨s, h1, h2⟩ := exp_last c es _ st hr
  have hb := (exp_counts c es s h1).2
  simp only [lrStep, batchStep] at h2
  rw [if_neg (by omega), h] at h2
  simp only [if_true, Option.some.injEq] at h2
  subst h2
  simp only
  rw [expGetLr_eq, hb]
  congr 1
  push_cast
  ring

/-- C41: the rate for batch `t ≤ warmup_steps` rises linearly from `min_lr` to the base rate, whatever the mode and the
epochs that began in between. -/
theorem C41_warmup (es : List LrEv) (st : LrSt g Unit) (hr : expRun c (es ++ [.batch]) = some st)
    (hw : (numBatches es : Int) ≤ c.warmup) (i : Fin g) :
    st.lr i = linearWarmup (c.base i) (c.minLr i) c.warmup (numBatches es) := by
  obtain ⟨s, h1, h2⟩ := exp_last c es _ st hr
  have hb := (exp_counts c es s h1).2
  simp only [lrStep, batchStep] at h2
  rw [if_pos (by omega)] at h2
  rw [Option.map_eq_some_iff] at h2
  obtain ⟨lr, hlr, rfl⟩ := h2
  unfold warmupLr at hlr
  split at hlr
  · exact absurd hlr (by simp)
  · simp only [Option.some.injEq] at hlr
    subst hlr
    simp only
    rw [hb]
    unfold linearWarmup
    push_cast
    ring

/-- The other calls leave the rate alone. -/
theorem C41_unchanged (es : List LrEv) (e : LrEv) (s st : LrSt g Unit) (hs : expRun c es = some s)
    (hr : expRun c (es ++ [e]) = some st)
    (h : e = .epochEnd ∨ (e = .epochBegin ∧ c.onBatch = true) ∨ (e = .batch ∧ c.onBatch = false ∧ c.warmup < numBatches es)) :
    st.lr = s.lr := by
  obtain ⟨s', h1, h2⟩ := exp_last c es _ st hr
  rw [hs] at h1
  cases h1
  have hb := (exp_counts c es s hs).2
  rcases h with rfl | ⟨rfl, hb'⟩ | ⟨rfl, hb', hw⟩
  · simp only [lrStep, Option.some.injEq] at h2
    rw [h2]
  · simp only [lrStep, epochBeginStep, hb', if_true, Option.some.injEq] at h2
    rw [← h2]
  · simp only [lrStep, batchStep] at h2
    rw [if_neg (by omega), hb'] at h2
    simp only [Bool.false_eq_true, if_false, Option.some.injEq] at h2
    rw [← h2]

/-- With no warm-up steps, which is the default, the first batch raises (ZeroDivisionError): batch 0 counts as warm-up. -/
theorem C41_zero_warmup_raises (h : c.warmup = 0) (es : List LrEv) (hb : LrEv.batch ∈ es) : expRun c es = none := by
  obtain ⟨l1, l2, rfl, hl1⟩ : ∃ l1 l2, es = l1 ++ .batch :: l2 ∧ .batch ∉ l1 := by
    obtain ⟨l1, l2, he, hn⟩ := List.eq_append_cons_of_mem hb
    exact ⟨l1, l2, he, hn⟩
  by_contra hne
  obtain ⟨st, hst⟩ := Option.ne_none_iff_exists'.1 hne
  rw [show l1 ++ .batch :: l2 = (l1 ++ [.batch]) ++ l2 by simp] at hst
  unfold expRun at hst
  rw [lrRun_append, Option.bind_eq_some_iff] at hst
  obtain ⟨s, hs, _⟩ := hst
  obtain ⟨s', h1, h2⟩ := exp_last c l1 _ s hs
  have hcount := (exp_counts c l1 s' h1).2
  have : numBatches l1 = 0 := List.count_eq_zero.2 hl1
  simp only [lrStep, batchStep, warmupLr, h] at h2
  rw [if_pos (by omega)] at h2
  simp at h2

/-- Otherwise no history raises. -/
theorem C41_no_raise (h : c.warmup ≠ 0) (es : List LrEv) : ∃ st, expRun c es = some st := by
  unfold expRun
  generalize LrSt.init c.toLrCfg () = s
  induction es generalizing s with
  | nil => exact ⟨s, rfl⟩
  | cons e es ih =>
    rw [lrRun]
    have : ∃ s', lrStep c.toLrCfg (expGetLr c) some s e = some s' := by
      cases e with
      | epochBegin => exact ⟨_, rfl⟩
      | epochEnd => exact ⟨_, rfl⟩
      | batch =>
        simp only [lrStep, batchStep, warmupLr, h, if_false]
        split
        · exact ⟨_, rfl⟩
        · split <;> exact ⟨_, rfl⟩
    obtain ⟨s', hs'⟩ := this
    rw [hs']
    exact ih s'

/-- reasonable parameters: `min_lr ≤ base`, rates positive, a decay rate in (0, 1], positive decay steps. -/
structure ExpOk : Prop where
  pos : ∀ i, 0 ≤ c.minLr i
  le : ∀ i, c.minLr i ≤ c.base i
  d0 : 0 < c.decayRate
  d1 : c.decayRate ≤ 1
  s0 : 0 < c.decaySteps

theorem expSchedule_bounds {base lo decay steps hold t : ℝ} (h0 : 0 ≤ lo) (h : lo ≤ base) (d0 : 0 < decay) (d1 : decay ≤ 1) (s0 : 0 < steps) :
    lo ≤ expSchedule base lo decay steps hold t ∧ expSchedule base lo decay steps hold t ≤ base := by
  unfold expSchedule
  split
  · exact ⟨h, le_refl _⟩
  · rename_i ht
    refine ⟨le_max_left _ _, max_le h ?_⟩
    have hx : 0 ≤ (t - hold) / steps := div_nonneg (by linarith) s0.le
    have := Real.rpow_le_one d0.le d1 hx
    have hb : 0 ≤ base := le_trans h0 h
    calc base * decay ^ ((t - hold) / steps) ≤ base * 1 := mul_le_mul_of_nonneg_left this hb
      _ = base := mul_one _

theorem expSchedule_anti {base lo decay steps hold t t' : ℝ} (h0 : 0 ≤ lo) (h : lo ≤ base) (d0 : 0 < decay) (d1 : decay ≤ 1) (s0 : 0 < steps)
    (htt : t ≤ t') : expSchedule base lo decay steps hold t' ≤ expSchedule base lo decay steps hold t := by
  by_cases ht : t < hold
  · rw [show expSchedule base lo decay steps hold t = base by unfold expSchedule; rw [if_pos ht]]
    exact (expSchedule_bounds h0 h d0 d1 s0).2
  · unfold expSchedule
    rw [if_neg ht, if_neg (by linarith)]
    refine max_le_max (le_refl _) ?_
    apply mul_le_mul_of_nonneg_left _ (le_trans h0 h)
    apply Real.rpow_le_rpow_of_exponent_ge d0 d1
    gcongr

theorem linearWarmup_bounds {base lo W k : ℝ} (h : lo ≤ base) (hk : 0 ≤ k) (hkW : k ≤ W) :
    lo ≤ linearWarmup base lo W k ∧ linearWarmup base lo W k ≤ base := by
  unfold linearWarmup
  have h1 : 0 ≤ k / W := div_nonneg hk (le_trans hk hkW)
  have h2 : k / W ≤ 1 := div_le_one_of_le₀ hkW (le_trans hk hkW)
  constructor
  · nlinarith
  · nlinarith

/-- C41: after any history the rate is between `min_lr` and the base rate. -/
theorem C41_exp_bounds (hok : ExpOk c) (es : List LrEv) (st : LrSt g Unit) (hr : expRun c es = some st) (i : Fin g) :
    c.minLr i ≤ st.lr i ∧ st.lr i ≤ c.base i := by
  induction es using List.reverseRecOn generalizing st with
  | nil =>
    simp only [expRun, lrRun, Option.some.injEq] at hr
    subst hr
    exact ⟨hok.le i, le_refl _⟩
  | append_singleton es e ih =>
    obtain ⟨s, hs, hstep⟩ := exp_last c es e st hr
    have ih := ih s hs
    cases e with
    | epochEnd => rw [C41_unchanged c es _ s st hs hr (Or.inl rfl)]; exact ih
    | epochBegin =>
      cases hb : c.onBatch with
      | true => rw [C41_unchanged c es _ s st hs hr (Or.inr (Or.inl ⟨rfl, hb⟩))]; exact ih
      | false =>
        rw [C41_exp_epoch c hb es st hr]
        exact expSchedule_bounds (hok.pos i) (hok.le i) hok.d0 hok.d1 hok.s0
    | batch =>
      rcases lt_or_ge c.warmup (numBatches es : Int) with hw | hw
      · cases hb : c.onBatch with
        | false => rw [C41_unchanged c es _ s st hs hr (Or.inr (Or.inr ⟨rfl, hb, hw⟩))]; exact ih
        | true =>
          rw [C41_exp_batch c hb es st hr hw]
          exact expSchedule_bounds (hok.pos i) (hok.le i) hok.d0 hok.d1 hok.s0
      · rw [C41_warmup c es st hr hw]
        apply linearWarmup_bounds (hok.le i)
        · positivity
        · exact_mod_cast hw

/-- the counter the schedule follows. -/
noncomputable def stepOf (es : List LrEv) : ℝ := (if c.onBatch then (numBatches es : ℝ) else (numEpochs es : ℝ)) - 1

theorem exp_lower (hok : ExpOk c) (es : List LrEv) (st : LrSt g Unit) (hr : expRun c es = some st) (hw : c.warmup < numBatches es)
    (i : Fin g) : expSchedule (c.base i) (c.minLr i) c.decayRate c.decaySteps c.holdSteps (stepOf c es) ≤ st.lr i := by
  have hB : ∀ t, expSchedule (c.base i) (c.minLr i) c.decayRate c.decaySteps c.holdSteps t ≤ c.base i := fun t =>
    (expSchedule_bounds (hok.pos i) (hok.le i) hok.d0 hok.d1 hok.s0).2
  induction es using List.reverseRecOn generalizing st with
  | nil =>
    simp only [expRun, lrRun, Option.some.injEq] at hr
    subst hr
    exact hB _
  | append_singleton es e ih =>
    obtain ⟨s, hs, hstep⟩ := exp_last c es e st hr
    have hne : numEpochs (es ++ [e]) = numEpochs es + (if e = .epochBegin then 1 else 0) := by
      unfold numEpochs; rw [List.count_append]; cases e <;> simp
    have hnb : numBatches (es ++ [e]) = numBatches es + (if e = .batch then 1 else 0) := by
      unfold numBatches; rw [List.count_append]; cases e <;> simp
    cases e with
    | epochEnd =>
      have := ih s hs (by simpa [hnb] using hw)
      rw [C41_unchanged c es _ s st hs hr (Or.inl rfl)]
      simpa [stepOf, hne, hnb] using this
    | epochBegin =>
      cases hb : c.onBatch with
      | true =>
        have := ih s hs (by simpa [hnb] using hw)
        rw [C41_unchanged c es _ s st hs hr (Or.inr (Or.inl ⟨rfl, hb⟩))]
        simpa [stepOf, hne, hnb, hb] using this
      | false =>
        rw [C41_exp_epoch c hb es st hr]
        apply le_of_eq
        congr 1
        simp [stepOf, hne, hb]
    | batch =>
      rcases lt_or_ge c.warmup (numBatches es : Int) with hw' | hw'
      · cases hb : c.onBatch with
        | false =>
          have := ih s hs hw'
          rw [C41_unchanged c es _ s st hs hr (Or.inr (Or.inr ⟨rfl, hb, hw'⟩))]
          simpa [stepOf, hne, hnb, hb] using this
        | true =>
          rw [C41_exp_batch c hb es st hr hw']
          apply le_of_eq
          congr 1
          simp [stepOf, hnb, hb]
      · rw [C41_warmup c es st hr hw']
        have hlt : c.warmup < (numBatches es : Int) + 1 := by
          have := hw; rw [hnb] at this; simpa using this
        have heq : c.warmup = (numBatches es : Int) := by omega
        have h0 : c.warmup ≠ 0 := by
          intro h0
          have := C41_zero_warmup_raises c h0 (es ++ [.batch]) (by simp)
          rw [this] at hr
          exact absurd hr (by simp)
        have : linearWarmup (c.base i) (c.minLr i) c.warmup (numBatches es) = c.base i := by
          unfold linearWarmup
          have h1 : ((numBatches es : Nat) : ℝ) = (c.warmup : ℝ) := by rw [heq]; simp
          have h2 : (c.warmup : ℝ) ≠ 0 := by exact_mod_cast h0
          rw [h1, div_self h2]
          ring
        rw [this]
        exact hB _

/-- C41: once the warm-up is over the rate never increases, whatever calls follow. -/
theorem C41_exp_nonincreasing (hok : ExpOk c) (es es' : List LrEv) (s st : LrSt g Unit) (hs : expRun c es = some s)
    (hr : expRun c (es ++ es') = some st) (hw : c.warmup < numBatches es) (i : Fin g) : st.lr i ≤ s.lr i := by
  induction es' using List.reverseRecOn generalizing st with
  | nil =>
    rw [List.append_nil, hs] at hr
    cases hr
    exact le_refl _
  | append_singleton es' e ih =>
    rw [← List.append_assoc] at hr
    obtain ⟨s', hs', hstep⟩ := exp_last c (es ++ es') e st hr
    refine le_trans ?_ (ih s' hs')
    have hw' : c.warmup < numBatches (es ++ es') := by
      unfold numBatches at *
      rw [List.count_append]
      push_cast
      omega
    have hlow := exp_lower c hok (es ++ es') s' hs' hw' i
    have hanti : ∀ t t', t ≤ t' → expSchedule (c.base i) (c.minLr i) c.decayRate c.decaySteps c.holdSteps t' ≤
        expSchedule (c.base i) (c.minLr i) c.decayRate c.decaySteps c.holdSteps t := fun t t' htt =>
      expSchedule_anti (hok.pos i) (hok.le i) hok.d0 hok.d1 hok.s0 htt
    cases e with
    | epochEnd => rw [C41_unchanged c _ _ s' st hs' hr (Or.inl rfl)]
    | epochBegin =>
      cases hb : c.onBatch with
      | true => rw [C41_unchanged c _ _ s' st hs' hr (Or.inr (Or.inl ⟨rfl, hb⟩))]
      | false =>
        rw [C41_exp_epoch c hb _ st hr]
        refine le_trans (hanti _ _ ?_) hlow
        simp [stepOf, hb]
    | batch =>
      cases hb : c.onBatch with
      | false => rw [C41_unchanged c _ _ s' st hs' hr (Or.inr (Or.inr ⟨rfl, hb, hw'⟩))]
      | true =>
        rw [C41_exp_batch c hb _ st hr hw']
        refine le_trans (hanti _ _ ?_) hlow
        simp [stepOf, hb]

end

/-- parameters that meet the hypotheses. -/
example : ExpOk (g := 1) ⟨⟨fun _ => 0.1, fun _ => 0.001, 10, true⟩, 0.5, 100, 50⟩ := by
  constructor <;> norm_num

end Hyp.Torch
