import Verif.Torch.LrProps
import Mathlib.Analysis.SpecialFunctions.Trigonometric.Basic

/-! # C41: the cosine schedule -/

namespace Hyp.Torch

/-- Specification: cosine annealing from `base` at `x = 0` to `lo` at `x = T`, and `lo` from then on. -/
noncomputable def cosSchedule (base lo T x : ℝ) : ℝ :=
  if x ≥ T then lo else lo + (base - lo) * (1 + Real.cos (Real.pi * x / T)) / 2

variable {g : Nat} (c : CosCfg g)

theorem cos_ee (s s' : LrSt g CosSt) (h : cosEpochEnd c s = some s') :
    s'.lastEpoch = s.lastEpoch ∧ s'.lastBatch = s.lastBatch ∧ s'.lr = s.lr ∧ s'.ext.numRestarts = s.ext.numRestarts ∧
      s'.ext.lastRestart = s.ext.lastRestart := by
  unfold cosEpochEnd at h
  split at h
  · split at h
    · exact absurd h (by simp)
    · simp only [Option.some.injEq] at h; subst h; exact ⟨rfl, rfl, rfl, rfl, rfl⟩
  · simp only [Option.some.injEq] at h; subst h; exact ⟨rfl, rfl, rfl, rfl, rfl⟩

theorem cos_counts (T : ℝ) (r : Int) (es : List LrEv) (st : LrSt g CosSt) (hr : cosRun c T r es = some st) :
    st.lastEpoch = (numEpochs es : Int) - 1 ∧ st.lastBatch = (numBatches es : Int) - 1 :=
  counts c.toLrCfg (cosGetLr c) (cosEpochEnd c) (fun s s' h => ⟨(cos_ee c s s' h).1, (cos_ee c s s' h).2.1⟩) _ es st hr

theorem cosRate_between (T : ℝ) (n : Nat) (x : ℝ) (i : Fin g) :
    min (c.minLr i) (c.gamma ^ n * c.base i) ≤ cosRate c T n x i ∧ cosRate c T n x i ≤ max (c.minLr i) (c.gamma ^ n * c.base i) := by
  unfold cosRate
  have h1 := Real.neg_one_le_cos (Real.pi / T * x)
  have h2 := Real.cos_le_one (Real.pi / T * x)
  set w := (1 + Real.cos (Real.pi / T * x)) / 2 with hw
  have hw0 : 0 ≤ w := by rw [hw]; linarith
  have hw1 : w ≤ 1 := by rw [hw]; linarith
  have e : c.minLr i + (c.gamma ^ n * c.base i - c.minLr i) * (1 + Real.cos (Real.pi / T * x)) / 2 =
      (1 - w) * c.minLr i + w * (c.gamma ^ n * c.base i) := by rw [hw]; ring
  rw [e]
  have ha := min_le_left (c.minLr i) (c.gamma ^ n * c.base i)
  have hb := min_le_right (c.minLr i) (c.gamma ^ n * c.base i)
  have hc := le_max_left (c.minLr i) (c.gamma ^ n * c.base i)
  have hd := le_max_right (c.minLr i) (c.gamma ^ n * c.base i)
  constructor <;> nlinarith

theorem cosGetLr_between (s : CosSt) (e step : Int) (i : Fin g) :
    s.numRestarts ≤ (cosGetLr c s e step).1.numRestarts ∧
    min (c.minLr i) (c.gamma ^ (cosGetLr c s e step).1.numRestarts * c.base i) ≤ (cosGetLr c s e step).2 i ∧
    (cosGetLr c s e step).2 i ≤ max (c.minLr i) (c.gamma ^ (cosGetLr c s e step).1.numRestarts * c.base i) := by
  unfold cosGetLr
  simp only
  split
  · split
    · exact ⟨by simp, cosRate_between c _ _ _ i⟩
    · exact ⟨le_refl _, min_le_left _ _, le_max_left _ _⟩
  · exact ⟨le_refl _, cosRate_between c _ _ _ i⟩

/-- C41: after any history, with `n` restarts so far, the rate is between `min_lr` and `gamma^k * base` for some `k ≤ n`
(`k` the number of restarts when it was set). -/
theorem C41_cos_between (T : ℝ) (r : Int) (es : List LrEv) (st : LrSt g CosSt) (hr : cosRun c T r es = some st) (i : Fin g) :
    ∃ k ≤ st.ext.numRestarts, min (c.minLr i) (c.gamma ^ k * c.base i) ≤ st.lr i ∧ st.lr i ≤ max (c.minLr i) (c.gamma ^ k * c.base i) := by
  refine (lrRun_induction c.toLrCfg (cosGetLr c) (cosEpochEnd c) _
    (fun es st => (-1 ≤ st.lastBatch) ∧ ∃ k ≤ st.ext.numRestarts, min (c.minLr i) (c.gamma ^ k * c.base i) ≤ st.lr i ∧ st.lr i ≤ max (c.minLr i) (c.gamma ^ k * c.base i))
    ?_ ?_ es st hr).2
  · refine ⟨le_refl _, 0, le_refl _, ?_⟩
    simp [LrSt.init]
  · rintro es s e s' _ ⟨hb, k, hk, h1, h2⟩ hstep
    cases e with
    | epochBegin =>
      simp only [lrStep, Option.some.injEq] at hstep
      subst hstep
      unfold epochBeginStep
      simp only
      split
      · exact ⟨hb, k, hk, h1, h2⟩
      · exact ⟨hb, _, le_refl _, (cosGetLr_between c s.ext _ _ i).2⟩
    | batch =>
      simp only [lrStep, batchStep] at hstep
      split at hstep
      · rename_i hw
        rw [Option.map_eq_some_iff] at hstep
        obtain ⟨lr, hlr, rfl⟩ := hstep
        refine ⟨by simp only; omega, 0, Nat.zero_le _, ?_⟩
        unfold warmupLr at hlr
        split at hlr
        · exact absurd hlr (by simp)
        · simp only [Option.some.injEq] at hlr
          subst hlr
          simp only [pow_zero, one_mul]
          rename_i hne
          have hW : (0 : ℝ) < (c.warmup : ℝ) := by
            have : 0 < c.warmup := by omega
            exact_mod_cast this
          have hx0 : (0 : ℝ) ≤ ((s.lastBatch + 1 : Int) : ℝ) := by
            have : 0 ≤ s.lastBatch + 1 := by omega
            exact_mod_cast this
          have hx1 : ((s.lastBatch + 1 : Int) : ℝ) ≤ (c.warmup : ℝ) := by exact_mod_cast hw
          set w := ((s.lastBatch + 1 : Int) : ℝ) / (c.warmup : ℝ) with hwd
          have hw0 : 0 ≤ w := div_nonneg hx0 hW.le
          have hw1 : w ≤ 1 := div_le_one_of_le₀ hx1 hW.le
          have e : (c.base i - c.minLr i) / (c.warmup : ℝ) * ((s.lastBatch + 1 : Int) : ℝ) + c.minLr i = (1 - w) * c.minLr i + w * c.base i := by
            rw [hwd]; field_simp; ring
          rw [e]
          have ha := min_le_left (c.minLr i) (c.base i)
          have hb := min_le_right (c.minLr i) (c.base i)
          have hc := le_max_left (c.minLr i) (c.base i)
          have hd := le_max_right (c.minLr i) (c.base i)
          constructor <;> nlinarith
      · split at hstep
        · simp only [Option.some.injEq] at hstep
          subst hstep
          exact ⟨by simp only; omega, _, le_refl _, (cosGetLr_between c s.ext _ _ i).2⟩
        · simp only [Option.some.injEq] at hstep
          subst hstep
          exact ⟨by simp only; omega, k, hk, h1, h2⟩
    | epochEnd =>
      obtain ⟨_, e2, e3, e4, _⟩ := cos_ee c s s' hstep
      rw [e2, e3, e4]
      exact ⟨hb, k, hk, h1, h2⟩

/-- C41: the rate stays in `[min_lr, base]` as long as the restarts have not brought the peak `gamma^k * base` below
`min_lr`. -/
theorem C41_cos_bounds (T : ℝ) (r : Int) (es : List LrEv) (st : LrSt g CosSt) (hr : cosRun c T r es = some st) (i : Fin g)
    (h0 : 0 ≤ c.minLr i) (hle : c.minLr i ≤ c.base i) (hg0 : 0 ≤ c.gamma) (hg1 : c.gamma ≤ 1)
    (hpeak : c.minLr i ≤ c.gamma ^ st.ext.numRestarts * c.base i) : c.minLr i ≤ st.lr i ∧ st.lr i ≤ c.base i := by
  obtain ⟨k, hk, h1, h2⟩ := C41_cos_between c T r es st hr i
  have hb : 0 ≤ c.base i := le_trans h0 hle
  have hmono : c.gamma ^ st.ext.numRestarts * c.base i ≤ c.gamma ^ k * c.base i :=
    mul_le_mul_of_nonneg_right (pow_le_pow_of_le_one hg0 hg1 hk) hb
  have hpk : c.minLr i ≤ c.gamma ^ k * c.base i := le_trans hpeak hmono
  have hone : c.gamma ^ k * c.base i ≤ c.base i := by
    calc c.gamma ^ k * c.base i ≤ 1 * c.base i := mul_le_mul_of_nonneg_right (pow_le_one₀ hg0 hg1) hb
      _ = c.base i := one_mul _
  rw [min_eq_left hpk] at h1
  rw [max_eq_right hpk] at h2
  exact ⟨h1, le_trans h2 hone⟩

/-- Otherwise the rate can go below `min_lr`: base 1, min_lr 1/2, gamma 1/2, a restart every epoch: at the third epoch
the rate is 1/4. -/
theorem C41_cos_below_min : ∃ (c : CosCfg 1) (st : LrSt 1 CosSt),
    cosRun c 1 0 [.epochBegin, .epochBegin, .epochBegin] = some st ∧ 0 ≤ c.minLr 0 ∧ c.minLr 0 ≤ c.base 0 ∧ 0 < c.gamma ∧ c.gamma ≤ 1 ∧
      st.lr 0 < c.minLr 0 := by
  refine ⟨⟨⟨fun _ => 1, fun _ => 1 / 2, -1, false⟩, 1, true, 1 / 2⟩, _, rfl, ?_, ?_, ?_, ?_, ?_⟩
  · norm_num
  · norm_num
  · norm_num
  · norm_num
  · norm_num [LrSt.init, epochBeginStep, cosGetLr, cosT, cosRate]

/-- without warm restarts the state of the scheduler never changes. -/
theorem cos_ext (hwr : c.warmRestarts = false) (T : ℝ) (r : Int) (es : List LrEv) (st : LrSt g CosSt) (hr : cosRun c T r es = some st) :
    st.ext = ⟨T, r, 0⟩ := by
  refine lrRun_induction c.toLrCfg (cosGetLr c) (cosEpochEnd c) _ (fun _ st => st.ext = ⟨T, r, 0⟩) rfl ?_ es st hr
  intro es s e s' _ h hstep
  have hget : ∀ s : CosSt, ∀ e step, (cosGetLr c s e step).1 = s := by
    intro s e step
    unfold cosGetLr cosT
    simp only [hwr, Bool.false_eq_true, and_false, false_and, if_false]
    split <;> rfl
  cases e with
  | epochBegin =>
    simp only [lrStep, Option.some.injEq] at hstep
    subst hstep
    unfold epochBeginStep
    simp only
    split
    · exact h
    · simp only [hget]; exact h
  | batch =>
    simp only [lrStep, batchStep] at hstep
    split at hstep
    · rw [Option.map_eq_some_iff] at hstep
      obtain ⟨lr, _, rfl⟩ := hstep
      exact h
    · split at hstep <;> (simp only [Option.some.injEq] at hstep; subst hstep)
      · simp only [hget]; exact h
      · exact h
  | epochEnd =>
    simp only [lrStep, cosEpochEnd, hwr, Bool.false_eq_true, and_false, if_false, Option.some.injEq] at hstep
    subst hstep
    exact h

theorem cosGetLr_norestart (hwr : c.warmRestarts = false) (T : ℝ) (r : Int) (e step : Int) (i : Fin g) :
    (cosGetLr c ⟨T, r, 0⟩ e step).2 i = cosSchedule (c.base i) (c.minLr i) T ((step : ℝ) - (r : ℝ)) := by
  unfold cosGetLr cosT cosSchedule cosRate
  simp only [hwr, Bool.false_eq_true, and_false, false_and, if_false]
  push_cast
  split
  · rfl
  · simp only [pow_zero, one_mul]
    rw [show Real.pi / T * ((step : ℝ) - r) = Real.pi * ((step : ℝ) - r) / T by ring]

theorem cos_last (T : ℝ) (r : Int) (es : List LrEv) (e : LrEv) (st : LrSt g CosSt) (hr : cosRun c T r (es ++ [e]) = some st) :
    ∃ s, cosRun c T r es = some s ∧ lrStep c.toLrCfg (cosGetLr c) (cosEpochEnd c) s e = some st := by
  unfold cosRun at *
  rw [lrRun_append, Option.bind_eq_some_iff] at hr
  obtain ⟨s, h1, h2⟩ := hr
  refine ⟨s, h1, ?_⟩
  rw [lrRun] at h2
  cases hh : lrStep c.toLrCfg (cosGetLr c) (cosEpochEnd c) s e with
  | none => rw [hh] at h2; simp at h2
  | some s' => rw [hh] at h2; simpa [lrRun] using h2

/-- C41: without warm restarts, epoch mode: the rate at epoch `t` is the cosine schedule at `t - last_restart`. -/
theorem C41_cos_epoch (hwr : c.warmRestarts = false) (hb : c.onBatch = false) (T : ℝ) (r : Int) (es : List LrEv) (st : LrSt g CosSt)
    (hr : cosRun c T r (es ++ [.epochBegin]) = some st) (i : Fin g) :
    st.lr i = cosSchedule (c.base i) (c.minLr i) T ((numEpochs es : ℝ) - r) := by
  obtain ⟨s, h1, h2⟩ := cos_last c T r es _ st hr
  have hc := (cos_counts c T r es s h1).1
  have hx := cos_ext c hwr T r es s h1
  simp only [lrStep, epochBeginStep, hb, Bool.false_eq_true, if_false, Option.some.injEq] at h2
  subst h2
  simp only [hx]
  rw [cosGetLr_norestart c hwr, hc]
  push_cast
  congr 1
  ring

/-- C41: without warm restarts, batch mode: the rate at batch `t` after the warm-up. -/
theorem C41_cos_batch (hwr : c.warmRestarts = false) (hb : c.onBatch = true) (T : ℝ) (r : Int) (es : List LrEv) (st : LrSt g CosSt)
    (hr : cosRun c T r (es ++ [.batch]) = some st) (hw : c.warmup < numBatches es) (i : Fin g) :
    st.lr i = cosSchedule (c.base i) (c.minLr i) T ((numBatches es : ℝ) - r) := by
  obtain ⟨s, h1, h2⟩ := cos_last c T r es _ st hr
  have hc := (cos_counts c T r es s h1).2
  have hx := cos_ext c hwr T r es s h1
  simp only [lrStep, batchStep] at h2
  rw [if_neg (by omega), hb] at h2
  simp only [if_true, Option.some.injEq] at h2
  subst h2
  simp only [hx]
  rw [cosGetLr_norestart c hwr, hc]
  push_cast
  congr 1
  ring

/-- The cosine schedule does not increase after its start, begins at `base` and ends at `lo`. -/
theorem C41_cos_schedule_anti {base lo T x y : ℝ} (h : lo ≤ base) (hT : 0 < T) (hx : 0 ≤ x) (hxy : x ≤ y) :
    cosSchedule base lo T y ≤ cosSchedule base lo T x ∧ cosSchedule base lo T 0 = base ∧ cosSchedule base lo T T = lo := by
  refine ⟨?_, ?_, ?_⟩
  · unfold cosSchedule
    by_cases hyT : y ≥ T
    · rw [if_pos hyT]
      split
      · exact le_refl _
      · have := Real.neg_one_le_cos (Real.pi * x / T)
        have : 0 ≤ (base - lo) * (1 + Real.cos (Real.pi * x / T)) := mul_nonneg (by linarith) (by linarith)
        linarith
    · have hyT : y < T := not_le.1 hyT
      rw [if_neg (by linarith), if_neg (by linarith)]
      have hcos : Real.cos (Real.pi * y / T) ≤ Real.cos (Real.pi * x / T) := by
        apply Real.cos_le_cos_of_nonneg_of_le_pi
        · have := Real.pi_pos; positivity
        · rw [div_le_iff₀ hT]
          exact mul_le_mul_of_nonneg_left hyT.le Real.pi_pos.le
        · have := Real.pi_pos
          gcongr
      have : (base - lo) * Real.cos (Real.pi * y / T) ≤ (base - lo) * Real.cos (Real.pi * x / T) :=
        mul_le_mul_of_nonneg_left hcos (by linarith)
      linarith
  · unfold cosSchedule
    rw [if_neg (by linarith)]
    simp
    ring
  · unfold cosSchedule
    rw [if_pos (le_refl _)]

/-- A warm restart brings the rate to `gamma^n * base`, `n` the number of restarts including this one. -/
theorem C41_cos_restart (T : ℝ) (r : Int) (es : List LrEv) (s st : LrSt g CosSt) (hs : cosRun c T r es = some s) (e : LrEv)
    (hr : cosRun c T r (es ++ [e]) = some st) (hn : st.ext.numRestarts ≠ s.ext.numRestarts) (i : Fin g) :
    st.ext.numRestarts = s.ext.numRestarts + 1 ∧ st.lr i = c.gamma ^ st.ext.numRestarts * c.base i := by
  obtain ⟨s', h1, h2⟩ := cos_last c T r es _ st hr
  rw [hs] at h1
  cases h1
  have hget : ∀ (x : CosSt) (e step : Int), (cosGetLr c x e step).1.numRestarts ≠ x.numRestarts →
      (cosGetLr c x e step).1.numRestarts = x.numRestarts + 1 ∧
      (cosGetLr c x e step).2 i = c.gamma ^ (cosGetLr c x e step).1.numRestarts * c.base i := by
    intro x e step hne
    unfold cosGetLr at *
    simp only at *
    split at hne
    · split at hne
      · rename_i ha hb
        rw [if_pos ha, if_pos hb]
        refine ⟨rfl, ?_⟩
        simp [cosRate]
        ring
      · exact absurd rfl hne
    · exact absurd rfl hne
  cases e with
  | epochBegin =>
    simp only [lrStep, epochBeginStep, Option.some.injEq] at h2
    subst h2
    split at hn
    · exact absurd rfl hn
    · rename_i hb
      rw [if_neg hb]
      exact hget _ _ _ hn
  | batch =>
    simp only [lrStep, batchStep] at h2
    split at h2
    · rw [Option.map_eq_some_iff] at h2
      obtain ⟨lr, _, rfl⟩ := h2
      exact absurd rfl hn
    · split at h2 <;> (simp only [Option.some.injEq] at h2; subst h2)
      · exact hget _ _ _ hn
      · exact absurd rfl hn
  | epochEnd => exact absurd (cos_ee c s st h2).2.2.2.1 hn

/-- The default `last_restart = 1` shifts the schedule by one: the first epoch has not the base rate, and with period 1
and no restarts it has `min_lr`, by default 0. -/
theorem C41_cos_first_epoch (hb : c.onBatch = false) (T : ℝ) (hT : 0 ≤ T) (i : Fin g) :
    ∃ st, cosRun c T 1 [.epochBegin] = some st ∧ st.lr i = c.minLr i + (c.base i - c.minLr i) * (1 + Real.cos (Real.pi / T)) / 2 ∧
      (T = 1 → st.lr i = c.minLr i) := by
  refine ⟨_, rfl, ?_⟩
  have e : (epochBeginStep c.toLrCfg (cosGetLr c) (LrSt.init c.toLrCfg ⟨T, 1, 0⟩)).lr i =
      c.minLr i + (c.base i - c.minLr i) * (1 + Real.cos (Real.pi / T)) / 2 := by
    have h1 : ¬ ((-1 : ℝ) ≥ T) := by intro h; linarith
    simp [epochBeginStep, hb, LrSt.init, cosGetLr, cosT, cosRate, h1]
  refine ⟨e, ?_⟩
  rintro rfl
  rw [e]
  simp

/-- Batch mode with warm restarts: if the first epoch has one batch, its end raises (ZeroDivisionError). -/
theorem C41_cos_epoch_end_raises (hb : c.onBatch = true) (hwr : c.warmRestarts = true) (T : ℝ) (r : Int) (es : List LrEv)
    (he : numEpochs es = 1) (hn : numBatches es = 1) : cosRun c T r (es ++ [.epochEnd]) = none := by
  by_contra hne
  obtain ⟨st, hst⟩ := Option.ne_none_iff_exists'.1 hne
  obtain ⟨s, h1, h2⟩ := cos_last c T r es _ st hst
  obtain ⟨c1, c2⟩ := cos_counts c T r es s h1
  simp only [lrStep, cosEpochEnd] at h2
  rw [if_pos ⟨by rw [c1, he]; rfl, hb, hwr⟩, if_pos (by rw [c2, hn]; rfl)] at h2
  exact absurd h2 (by simp)

/-- With `nb ≥ 2` batches in the first epoch, the period is rounded up at its end to a multiple of `nb - 1`, not of the
number of batches of an epoch as the comment in the code says: `T ≤ T' < T + (nb - 1)`. -/
theorem C41_cos_T_adjust (hb : c.onBatch = true) (hwr : c.warmRestarts = true) (T : ℝ) (r : Int) (es : List LrEv) (s : LrSt g CosSt)
    (hs : cosRun c T r es = some s) (nb : Nat) (hnb : 2 ≤ nb) (he : numEpochs es = 1) (hn : numBatches es = nb) :
    ∃ (s' : LrSt g CosSt) (k : Int), cosRun c T r (es ++ [.epochEnd]) = some s' ∧ s'.ext.T = k * ((nb : ℝ) - 1) ∧
      s.ext.T ≤ s'.ext.T ∧ s'.ext.T < s.ext.T + ((nb : ℝ) - 1) := by
  obtain ⟨c1, c2⟩ := cos_counts c T r es s hs
  have h1 : s.lastEpoch = 0 := by rw [c1, he]; rfl
  have h2 : s.lastBatch = (nb : Int) - 1 := by rw [c2, hn]
  have hpos : (0 : ℝ) < (nb : ℝ) - 1 := by
    have : (2 : ℝ) ≤ nb := by exact_mod_cast hnb
    linarith
  have hcast : ((s.lastBatch : Int) : ℝ) = (nb : ℝ) - 1 := by rw [h2]; push_cast; ring
  refine ⟨{ s with ext := { s.ext with T := (⌈s.ext.T / (s.lastBatch : ℝ)⌉ : ℝ) * (s.lastBatch : ℝ) } },
    ⌈s.ext.T / (s.lastBatch : ℝ)⌉, ?_, ?_, ?_, ?_⟩
  · unfold cosRun at *
    rw [lrRun_append, hs]
    simp only [Option.bind_some, lrRun, lrStep, cosEpochEnd]
    rw [if_pos ⟨h1, hb, hwr⟩, if_neg (by omega)]
    rfl
  · simp only [hcast]
  · simp only [hcast]
    have := Int.le_ceil (s.ext.T / ((nb : ℝ) - 1))
    rw [div_le_iff₀ hpos] at this
    exact this
  · simp only [hcast]
    have := Int.ceil_lt_add_one (s.ext.T / ((nb : ℝ) - 1))
    have h3 := mul_lt_mul_of_pos_right this hpos
    rw [add_mul, div_mul_cancel₀ _ hpos.ne', one_mul] at h3
    exact h3

/-- histories of this kind exist. -/
example : numEpochs [.epochBegin, .batch, .batch] = 1 ∧ numBatches [.epochBegin, .batch, .batch] = 2 := by decide

end Hyp.Torch
