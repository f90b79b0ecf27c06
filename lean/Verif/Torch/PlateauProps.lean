import Verif.Torch.Plateau
import Mathlib.Tactic.Linarith
import Mathlib.Tactic.Ring
import Mathlib.Tactic.NormNum

/-! # C42: reduce-on-plateau -/

namespace Hyp.Torch

variable {g : Nat} (c : PlateauCfg g)

/-! ## specification -/

/-- the metrics of the epochs of a history, in order (`none` is NaN). -/
def metricsOf : List PlEv → List (Option ℝ)
  | [] => []
  | .epochEnd m :: es => m :: metricsOf es
  | _ :: es => metricsOf es

open Classical in
/-- the reference value: the last metric that was better than the reference before it. -/
noncomputable def bestOf (ms : List (Option ℝ)) : Option ℝ :=
  ms.foldl (fun b m => if isBetter c m b then m else b) none

/-- epoch `j` brought no improvement. -/
def NoImprovement (ms : List (Option ℝ)) (j : Nat) : Prop := ¬ isBetter c (ms.getD j none) (bestOf c (ms.take j))

/-- number of batches of a history. -/
def plBatches : List PlEv → Nat
  | [] => 0
  | .batch :: es => plBatches es + 1
  | _ :: es => plBatches es

/-! ## the decisions -/

/-- the state after the epochs with metrics `ms`. -/
noncomputable def extAfter (ms : List (Option ℝ)) : PlateauSt :=
  ms.foldl (fun p m =>
    let q := plateauCount c p m
    if q.numBad > c.patience then ⟨q.best, 0, c.cooldown⟩ else q) ⟨none, 0, 0⟩

/-- the scheduler asks for a reduction (`_reduce_lr` is called) at the end of epoch `ms.length` with metric `m`. -/
def Decides (ms : List (Option ℝ)) (m : Option ℝ) : Prop := (plateauCount c (extAfter c ms) m).numBad > c.patience

/-- there was a decision at epoch `j < ms.length`. -/
def DecidedAt (ms : List (Option ℝ)) (j : Nat) : Prop := Decides c (ms.take j) (ms.getD j none)

theorem extAfter_snoc (ms : List (Option ℝ)) (m : Option ℝ) :
    extAfter c (ms ++ [m]) = if (plateauCount c (extAfter c ms) m).numBad > c.patience
      then ⟨(plateauCount c (extAfter c ms) m).best, 0, c.cooldown⟩ else plateauCount c (extAfter c ms) m := by
  unfold extAfter
  rw [List.foldl_append]
  rfl

theorem bestOf_snoc (ms : List (Option ℝ)) (m : Option ℝ) [Decidable (isBetter c m (bestOf c ms))] :
    bestOf c (ms ++ [m]) = if isBetter c m (bestOf c ms) then m else bestOf c ms := by
  unfold bestOf
  rw [List.foldl_append]
  simp only [List.foldl_cons, List.foldl_nil]
  congr

theorem ext_best (ms : List (Option ℝ)) : (extAfter c ms).best = bestOf c ms := by
  induction ms using List.reverseRecOn with
  | nil => rfl
  | append_singleton ms m ih =>
    rw [extAfter_snoc]
    classical
    have hb : (plateauCount c (extAfter c ms) m).best = bestOf c (ms ++ [m]) := by
      rw [bestOf_snoc, ← ih]
      unfold plateauCount
      simp only
      split <;> congr
    split
    · exact hb
    · exact hb

theorem noImp_take {ms : List (Option ℝ)} {m : Option ℝ} {j : Nat} (hj : j < ms.length) :
    NoImprovement c (ms ++ [m]) j ↔ NoImprovement c ms j := by
  unfold NoImprovement
  rw [List.take_append_of_le_length (by omega), List.getD_eq_getElem?_getD, List.getD_eq_getElem?_getD, List.getElem?_append_left hj]

theorem noImp_last {ms : List (Option ℝ)} {m : Option ℝ} : NoImprovement c (ms ++ [m]) ms.length ↔ ¬ isBetter c m (bestOf c ms) := by
  unfold NoImprovement
  rw [List.take_left', List.getD_eq_getElem?_getD]
  · simp
  · rfl

theorem decided_take {ms : List (Option ℝ)} {m : Option ℝ} {j : Nat} (hj : j < ms.length) : DecidedAt c (ms ++ [m]) j ↔ DecidedAt c ms j := by
  unfold DecidedAt
  rw [List.take_append_of_le_length (by omega), List.getD_eq_getElem?_getD, List.getD_eq_getElem?_getD, List.getElem?_append_left hj]

theorem decided_last {ms : List (Option ℝ)} {m : Option ℝ} : DecidedAt c (ms ++ [m]) ms.length ↔ Decides c ms m := by
  unfold DecidedAt
  rw [List.take_left', List.getD_eq_getElem?_getD]
  · simp
  · rfl

/-- the cooldown counter. -/
theorem cool_ge (ms : List (Option ℝ)) : 0 ≤ c.cooldown → 0 ≤ (extAfter c ms).cool ∧ ∀ n : Nat, 1 ≤ n →
    ((n : Int) ≤ (extAfter c ms).cool ↔ ∃ j < ms.length, DecidedAt c ms j ∧ (ms.length : Int) + n ≤ j + c.cooldown + 1) := by
  intro hc
  induction ms using List.reverseRecOn with
  | nil =>
    refine ⟨le_refl _, ?_⟩
    intro n hn
    constructor
    · intro h
      have : (extAfter c []).cool = 0 := rfl
      omega
    · rintro ⟨j, hj, _⟩
      simp at hj
  | append_singleton ms m ih =>
    obtain ⟨ih0, ih⟩ := ih
    rw [extAfter_snoc]
    by_cases hd : Decides c ms m
    · rw [if_pos (show (plateauCount c (extAfter c ms) m).numBad > c.patience from hd)]
      refine ⟨hc, ?_⟩
      intro n hn
      simp only
      constructor
      · intro h
        refine ⟨ms.length, by simp, (decided_last c).2 hd, ?_⟩
        simp only [List.length_append, List.length_cons, List.length_nil]
        push_cast
        omega
      · rintro ⟨j, hj, _, hle⟩
        simp only [List.length_append, List.length_cons, List.length_nil] at hj hle
        push_cast at hle
        omega
    · rw [if_neg (show ¬ (plateauCount c (extAfter c ms) m).numBad > c.patience from hd)]
      have hcool : (plateauCount c (extAfter c ms) m).cool = if (extAfter c ms).cool > 0 then (extAfter c ms).cool - 1 else (extAfter c ms).cool := by
        unfold plateauCount
        simp only
        split <;> rfl
      rw [hcool]
      refine ⟨by split <;> omega, ?_⟩
      intro n hn
      have key : ((n : Int) ≤ (if (extAfter c ms).cool > 0 then (extAfter c ms).cool - 1 else (extAfter c ms).cool)) ↔ ((n + 1 : Nat) : Int) ≤ (extAfter c ms).cool := by
        push_cast
        split <;> omega
      rw [key, ih (n + 1) (by omega)]
      constructor
      · rintro ⟨j, hj, h1, h2⟩
        refine ⟨j, by simp; omega, (decided_take c hj).2 h1, ?_⟩
        simp only [List.length_append, List.length_cons, List.length_nil]
        push_cast at h2 ⊢
        omega
      · rintro ⟨j, hj, h1, h2⟩
        simp only [List.length_append, List.length_cons, List.length_nil] at hj h2
        push_cast at h2
        have hj' : j < ms.length := by
          rcases Nat.lt_or_ge j ms.length with h | h
          · exact h
          · have : j = ms.length := by omega
            subst this
            exact absurd ((decided_last c).1 h1) hd
        refine ⟨j, hj', (decided_take c hj').1 h1, ?_⟩
        push_cast
        omega

theorem count_numBad (ms : List (Option ℝ)) (m : Option ℝ) (n : Nat) (hn : 1 ≤ n) :
    (n : Int) ≤ (plateauCount c (extAfter c ms) m).numBad ↔
      ¬ (extAfter c ms).cool > 0 ∧ ¬ isBetter c m (bestOf c ms) ∧ ((n - 1 : Nat) : Int) ≤ (extAfter c ms).numBad := by
  have hz : ¬ ((n : Int) ≤ 0) := by omega
  unfold plateauCount
  rw [ext_best]
  by_cases h1 : (extAfter c ms).cool > 0
  · simp only [if_pos h1]
    constructor
    · intro h; exact absurd h hz
    · intro h; exact absurd h1 h.1
  · by_cases h2 : isBetter c m (bestOf c ms)
    · simp only [if_neg h1, if_pos h2]
      constructor
      · intro h; exact absurd h hz
      · intro h; exact absurd h2 h.2.1
    · simp only [if_neg h1, if_neg h2]
      constructor
      · intro h; exact ⟨h1, h2, by omega⟩
      · rintro ⟨_, _, h⟩; omega

theorem bad_ge (ms : List (Option ℝ)) (hc : 0 ≤ c.cooldown) (hp : 0 ≤ c.patience) : 0 ≤ (extAfter c ms).numBad ∧ ∀ n : Nat, 1 ≤ n →
    ((n : Int) ≤ (extAfter c ms).numBad ↔ n ≤ ms.length ∧ (∀ j, ms.length ≤ j + n → j < ms.length → NoImprovement c ms j) ∧
      ∀ j < ms.length, (ms.length : Int) ≤ j + n + c.cooldown → ¬ DecidedAt c ms j) := by
  induction ms using List.reverseRecOn with
  | nil =>
    refine ⟨le_refl _, ?_⟩
    intro n hn
    constructor
    · intro h
      have : (extAfter c []).numBad = 0 := rfl
      omega
    · rintro ⟨h, _⟩
      simp at h
      omega
  | append_singleton ms m ih =>
    obtain ⟨ih0, ih⟩ := ih
    rw [extAfter_snoc]
    by_cases hd : Decides c ms m
    · rw [if_pos (show (plateauCount c (extAfter c ms) m).numBad > c.patience from hd)]
      refine ⟨le_refl _, ?_⟩
      intro n hn
      simp only
      constructor
      · intro h; omega
      · rintro ⟨_, _, h⟩
        exact absurd ((decided_last c).2 hd) (h ms.length (by simp) (by simp; omega))
    · rw [if_neg (show ¬ (plateauCount c (extAfter c ms) m).numBad > c.patience from hd)]
      have h0 : 0 ≤ (plateauCount c (extAfter c ms) m).numBad := by
        unfold plateauCount
        simp only
        split
        · exact le_refl _
        · split <;> (simp only; omega)
      refine ⟨h0, ?_⟩
      intro n hn
      rw [count_numBad c ms m n hn]
      have hcool : ¬ (extAfter c ms).cool > 0 ↔ ∀ j < ms.length, (ms.length : Int) ≤ j + c.cooldown → ¬ DecidedAt c ms j := by
        have := (cool_ge c ms hc).2 1 (le_refl _)
        constructor
        · intro h j hj hle hdj
          apply h
          have : ((1 : Nat) : Int) ≤ (extAfter c ms).cool := this.2 ⟨j, hj, hdj, by push_cast; omega⟩
          push_cast at this
          omega
        · intro h hlt
          obtain ⟨j, hj, hdj, hle⟩ := this.1 (by push_cast; omega)
          push_cast at hle
          exact h j hj (by omega) hdj
      rw [hcool]
      have hlen : (ms ++ [m]).length = ms.length + 1 := by simp
      rw [hlen]
      rcases Nat.eq_or_lt_of_le hn with rfl | hn2
      · constructor
        · rintro ⟨h1, h2, _⟩
          refine ⟨by omega, ?_, ?_⟩
          · intro j hj1 hj2
            have : j = ms.length := by omega
            subst this
            exact (noImp_last c).2 h2
          · intro j hj hle hdj
            rcases Nat.lt_or_ge j ms.length with h | h
            · exact h1 j h (by push_cast at hle; omega) ((decided_take c h).1 hdj)
            · have : j = ms.length := by omega
              subst this
              exact hd ((decided_last c).1 hdj)
        · rintro ⟨_, h2, h3⟩
          refine ⟨?_, (noImp_last c).1 (h2 ms.length (by omega) (by omega)), by push_cast; omega⟩
          intro j hj hle hdj
          exact h3 j (by omega) (by push_cast; omega) ((decided_take c hj).2 hdj)
      · rw [ih (n - 1) (by omega)]
        constructor
        · rintro ⟨h1, h2, h3, h4, h5⟩
          refine ⟨by omega, ?_, ?_⟩
          · intro j hj1 hj2
            rcases Nat.lt_or_ge j ms.length with h | h
            · exact (noImp_take c h).2 (h4 j (by omega) h)
            · have : j = ms.length := by omega
              subst this
              exact (noImp_last c).2 h2
          · intro j hj hle hdj
            rcases Nat.lt_or_ge j ms.length with h | h
            · exact h5 j h (by push_cast at hle ⊢; omega) ((decided_take c h).1 hdj)
            · have : j = ms.length := by omega
              subst this
              exact hd ((decided_last c).1 hdj)
        · rintro ⟨h1, h2, h3⟩
          refine ⟨?_, (noImp_last c).1 (h2 ms.length (by omega) (by omega)), by omega, ?_, ?_⟩
          · intro j hj hle hdj
            exact h3 j (by omega) (by push_cast; omega) ((decided_take c hj).2 hdj)
          · intro j hj1 hj2
            exact (noImp_take c hj2).1 (h2 j (by omega) (by omega))
          · intro j hj hle hdj
            exact h3 j (by omega) (by push_cast at hle ⊢; omega) ((decided_take c hj).2 hdj)

/-- C42: a reduction is asked for at the end of an epoch exactly when the last `patience + 1` epochs (this one included)
all brought no improvement, and none of the last `patience + cooldown` epochs before this one asked for a reduction. -/
theorem C42_reduces_iff (hc : 0 ≤ c.cooldown) (hp : 0 ≤ c.patience) (ms : List (Option ℝ)) (m : Option ℝ) :
    Decides c ms m ↔ c.patience ≤ ms.length ∧
      (∀ j ≤ ms.length, (ms.length : Int) ≤ j + c.patience → NoImprovement c (ms ++ [m]) j) ∧
      ∀ j < ms.length, (ms.length : Int) ≤ j + c.patience + c.cooldown → ¬ DecidedAt c ms j := by
  obtain ⟨p, hpp⟩ : ∃ p : Nat, c.patience = p := ⟨c.patience.toNat, by omega⟩
  have h1 : Decides c ms m ↔ ((p + 1 : Nat) : Int) ≤ (plateauCount c (extAfter c ms) m).numBad := by
    unfold Decides
    rw [hpp]
    push_cast
    omega
  rw [h1, count_numBad c ms m (p + 1) (by omega)]
  have hcool : ¬ (extAfter c ms).cool > 0 ↔ ∀ j < ms.length, (ms.length : Int) ≤ j + c.cooldown → ¬ DecidedAt c ms j := by
    have := (cool_ge c ms hc).2 1 (le_refl _)
    constructor
    · intro h j hj hle hdj
      apply h
      have : ((1 : Nat) : Int) ≤ (extAfter c ms).cool := this.2 ⟨j, hj, hdj, by push_cast; omega⟩
      push_cast at this
      omega
    · intro h hlt
      obtain ⟨j, hj, hdj, hle⟩ := this.1 (by push_cast; omega)
      push_cast at hle
      exact h j hj (by omega) hdj
  rw [hcool, hpp, Nat.add_sub_cancel]
  rcases Nat.eq_zero_or_pos p with rfl | hpos
  · have := (bad_ge c ms hc hp).1
    constructor
    · rintro ⟨h1, h2, _⟩
      refine ⟨by omega, ?_, ?_⟩
      · intro j hj1 hj2
        have : j = ms.length := by omega
        subst this
        exact (noImp_last c).2 h2
      · intro j hj hle
        exact h1 j hj (by omega)
    · rintro ⟨_, h2, h3⟩
      refine ⟨fun j hj hle => h3 j hj (by omega), (noImp_last c).1 (h2 ms.length (le_refl _) (by omega)), by omega⟩
  · rw [(bad_ge c ms hc hp).2 p hpos]
    constructor
    · rintro ⟨h1, h2, h3, h4, h5⟩
      refine ⟨by omega, ?_, fun j hj hle => h5 j hj hle⟩
      intro j hj1 hj2
      rcases Nat.lt_or_ge j ms.length with h | h
      · exact (noImp_take c h).2 (h4 j (by omega) h)
      · have : j = ms.length := by omega
        subst this
        exact (noImp_last c).2 h2
    · rintro ⟨h1, h2, h3⟩
      refine ⟨fun j hj hle => h3 j hj (by omega), (noImp_last c).1 (h2 ms.length (le_refl _) (by omega)), by omega, ?_, fun j hj hle => h3 j hj hle⟩
      intro j hj1 hj2
      exact (noImp_take c hj2).1 (h2 j (by omega) (by omega))

/-! ## histories -/

theorem plRun_append (s : LrSt g PlateauSt) (es es' : List PlEv) : plRun c s (es ++ es') = (plRun c s es).bind (fun s' => plRun c s' es') := by
  induction es generalizing s with
  | nil => rfl
  | cons e es ih =>
    rw [List.cons_append, plRun, plRun]
    cases plStep c s e with
    | none => rfl
    | some s' => simpa using ih s'

theorem pl_last (es : List PlEv) (e : PlEv) (st : LrSt g PlateauSt) (hr : plRun c (plInit c) (es ++ [e]) = some st) :
    ∃ s, plRun c (plInit c) es = some s ∧ plStep c s e = some st := by
  rw [plRun_append, Option.bind_eq_some_iff] at hr
  obtain ⟨s, h1, h2⟩ := hr
  refine ⟨s, h1, ?_⟩
  rw [plRun] at h2
  cases hh : plStep c s e with
  | none => rw [hh] at h2; simp at h2
  | some s' => rw [hh] at h2; simpa [plRun] using h2

theorem metricsOf_append (es es' : List PlEv) : metricsOf (es ++ es') = metricsOf es ++ metricsOf es' := by
  induction es with
  | nil => rfl
  | cons e es ih => cases e <;> simp [metricsOf, ih]

theorem plBatches_append (es es' : List PlEv) : plBatches (es ++ es') = plBatches es + plBatches es' := by
  induction es with
  | nil => simp [plBatches]
  | cons e es ih => cases e <;> simp [plBatches, ih] <;> omega

theorem plateauEnd_ext (s : LrSt g PlateauSt) (m : Option ℝ) (ms : List (Option ℝ)) (h : s.ext = extAfter c ms) :
    (plateauEnd c s m).ext = extAfter c (ms ++ [m]) := by
  rw [extAfter_snoc, ← h]
  unfold plateauEnd
  simp only
  split <;> rfl

/-- the state machine only depends on the metrics. -/
theorem pl_state (es : List PlEv) (st : LrSt g PlateauSt) (hr : plRun c (plInit c) es = some st) :
    st.ext = extAfter c (metricsOf es) ∧ st.lastBatch = (plBatches es : Int) - 1 := by
  induction es using List.reverseRecOn generalizing st with
  | nil =>
    simp only [plRun, Option.some.injEq] at hr
    subst hr
    exact ⟨rfl, rfl⟩
  | append_singleton es e ih =>
    obtain ⟨s, h1, h2⟩ := pl_last c es e st hr
    obtain ⟨i1, i2⟩ := ih s h1
    rw [metricsOf_append, plBatches_append]
    cases e with
    | epochBegin =>
      simp only [plStep, Option.some.injEq] at h2
      subst h2
      simp only [metricsOf, plBatches, List.append_nil]
      exact ⟨i1, by simpa using i2⟩
    | batch =>
      simp only [plStep] at h2
      simp only [metricsOf, plBatches, List.append_nil]
      split at h2
      · rw [Option.map_eq_some_iff] at h2
        obtain ⟨lr, _, rfl⟩ := h2
        exact ⟨i1, by simp only [i2]; push_cast; ring⟩
      · simp only [Option.some.injEq] at h2
        subst h2
        exact ⟨i1, by simp only [i2]; push_cast; ring⟩
    | epochEnd m =>
      simp only [plStep, Option.some.injEq] at h2
      subst h2
      refine ⟨plateauEnd_ext c s m _ i1, ?_⟩
      have : (plateauEnd c s m).lastBatch = s.lastBatch := by
        unfold plateauEnd
        simp only
        split <;> rfl
      rw [this, i2]
      simp [plBatches]

/-- C42: an epoch end changes a rate only if the decision of `C42_reduces_iff` is taken; then the new rate is
`max(lr * factor, min_lr)`, if that is lower by more than `eps`. -/
theorem C42_only_on_decision (es : List PlEv) (m : Option ℝ) (s st : LrSt g PlateauSt) (hs : plRun c (plInit c) es = some s)
    (hr : plRun c (plInit c) (es ++ [.epochEnd m]) = some st) (i : Fin g) :
    (¬ Decides c (metricsOf es) m → st.lr i = s.lr i) ∧
    (Decides c (metricsOf es) m → st.lr i = if s.lr i - max (s.lr i * c.factor) (c.minLr i) > c.eps
      then max (s.lr i * c.factor) (c.minLr i) else s.lr i) := by
  obtain ⟨s', h1, h2⟩ := pl_last c es _ st hr
  rw [hs] at h1
  cases h1
  have hext := (pl_state c es s hs).1
  simp only [plStep, Option.some.injEq] at h2
  subst h2
  unfold plateauEnd Decides
  rw [hext]
  simp only
  constructor
  · intro hd; rw [if_neg hd]
  · intro hd; rw [if_pos hd]; rfl

theorem plateauEnd_lr (s : LrSt g PlateauSt) (m : Option ℝ) (he : 0 ≤ c.eps) (i : Fin g) :
    (plateauEnd c s m).lr i ≤ s.lr i ∧ (c.minLr i ≤ s.lr i → c.minLr i ≤ (plateauEnd c s m).lr i) := by
  unfold plateauEnd
  simp only
  split
  · simp only [reduceLr]
    split
    · rename_i h
      exact ⟨by linarith, fun _ => le_max_right _ _⟩
    · exact ⟨le_refl _, fun h => h⟩
  · exact ⟨le_refl _, fun h => h⟩

/-- C42: after any history the rate is between `min_lr` and the base rate. -/
theorem C42_bounds (he : 0 ≤ c.eps) (i : Fin g) (hle : c.minLr i ≤ c.base i) (es : List PlEv) (st : LrSt g PlateauSt)
    (hr : plRun c (plInit c) es = some st) : c.minLr i ≤ st.lr i ∧ st.lr i ≤ c.base i := by
  induction es using List.reverseRecOn generalizing st with
  | nil =>
    simp only [plRun, Option.some.injEq] at hr
    subst hr
    exact ⟨hle, le_refl _⟩
  | append_singleton es e ih =>
    obtain ⟨s, h1, h2⟩ := pl_last c es e st hr
    have ih := ih s h1
    have hb := (pl_state c es s h1).2
    cases e with
    | epochBegin =>
      simp only [plStep, Option.some.injEq] at h2
      subst h2
      exact ih
    | epochEnd m =>
      simp only [plStep, Option.some.injEq] at h2
      subst h2
      have := plateauEnd_lr c s m he i
      exact ⟨this.2 ih.1, le_trans this.1 ih.2⟩
    | batch =>
      simp only [plStep] at h2
      split at h2
      · rename_i hw
        rw [Option.map_eq_some_iff] at h2
        obtain ⟨lr, hlr, rfl⟩ := h2
        unfold warmupLr at hlr
        split at hlr
        · exact absurd hlr (by simp)
        · rename_i hne
          simp only [Option.some.injEq] at hlr
          subst hlr
          simp only
          have hW : (0 : ℝ) < (c.warmup : ℝ) := by
            have : 0 < c.warmup := by omega
            exact_mod_cast this
          have hx0 : (0 : ℝ) ≤ ((s.lastBatch + 1 : Int) : ℝ) := by
            have : 0 ≤ s.lastBatch + 1 := by omega
            exact_mod_cast this
          have hx1 : ((s.lastBatch + 1 : Int) : ℝ) ≤ (c.warmup : ℝ) := by exact_mod_cast hw
          have hw0 : 0 ≤ ((s.lastBatch + 1 : Int) : ℝ) / (c.warmup : ℝ) := div_nonneg hx0 hW.le
          have hw1 : ((s.lastBatch + 1 : Int) : ℝ) / (c.warmup : ℝ) ≤ 1 := div_le_one_of_le₀ hx1 hW.le
          have e : (c.base i - c.minLr i) / (c.warmup : ℝ) * ((s.lastBatch + 1 : Int) : ℝ) =
            (c.base i - c.minLr i) * (((s.lastBatch + 1 : Int) : ℝ) / (c.warmup : ℝ)) := by ring
          rw [e]
          constructor <;> nlinarith
      · simp only [Option.some.injEq] at h2
        subst h2
        exact ih

/-- C42: after the warm-up the rate is never raised, whatever calls follow. -/
theorem C42_never_raised (he : 0 ≤ c.eps) (es es' : List PlEv) (s st : LrSt g PlateauSt) (hs : plRun c (plInit c) es = some s)
    (hw : c.warmup < plBatches es) (hr : plRun c (plInit c) (es ++ es') = some st) (i : Fin g) : st.lr i ≤ s.lr i := by
  induction es' using List.reverseRecOn generalizing st with
  | nil =>
    rw [List.append_nil, hs] at hr
    cases hr
    exact le_refl _
  | append_singleton es' e ih =>
    rw [← List.append_assoc] at hr
    obtain ⟨s', h1, h2⟩ := pl_last c (es ++ es') e st hr
    refine le_trans ?_ (ih s' h1)
    have hb := (pl_state c _ s' h1).2
    rw [plBatches_append] at hb
    cases e with
    | epochBegin =>
      simp only [plStep, Option.some.injEq] at h2
      subst h2
      exact le_refl _
    | epochEnd m =>
      simp only [plStep, Option.some.injEq] at h2
      subst h2
      exact (plateauEnd_lr c s' m he i).1
    | batch =>
      simp only [plStep] at h2
      rw [if_neg (by rw [hb]; push_cast; omega)] at h2
      simp only [Option.some.injEq] at h2
      subst h2
      exact le_refl _

/-! ## the best value -/

/-- the metrics for which the relative threshold makes sense: not negative (and a threshold in [0, 1) in 'min' mode, not
negative in 'max' mode); the absolute threshold only has to be non-negative. -/
def ThresholdOk (ms : List (Option ℝ)) : Prop :=
  0 ≤ c.threshold ∧ (c.rel = true → (∀ m ∈ ms, ∀ x, m = some x → 0 ≤ x) ∧ (c.modeMin = true → c.threshold ≤ 1))

theorem bestOf_mem (ms : List (Option ℝ)) : bestOf c ms = none ∨ bestOf c ms ∈ ms := by
  classical
  induction ms using List.reverseRecOn with
  | nil => exact Or.inl rfl
  | append_singleton ms m ih =>
    rw [bestOf_snoc]
    split
    · exact Or.inr (by simp)
    · rcases ih with h | h
      · exact Or.inl h
      · exact Or.inr (List.mem_append_left _ h)

/-- if `b'` replaces `b`, what is better than `b'` is better than `b`. -/
theorem better_trans {a b b' : ℝ} (h0 : 0 ≤ c.threshold) (hr : c.rel = true → 0 ≤ b ∧ 0 ≤ b' ∧ (c.modeMin = true → c.threshold ≤ 1))
    (h1 : isBetter c (some b') (some b)) (h2 : isBetter c (some a) (some b')) : isBetter c (some a) (some b) := by
  unfold isBetter at *
  simp only at *
  cases hm : c.modeMin <;> cases hre : c.rel <;> simp only [hm, hre, if_true, if_false, Bool.false_eq_true] at *
  · linarith
  · obtain ⟨hb, hb', _⟩ := hr trivial
    nlinarith
  · linarith
  · obtain ⟨hb, hb', ht⟩ := hr trivial
    have := ht trivial
    nlinarith

theorem not_better_self {b : ℝ} (h0 : 0 ≤ c.threshold) (hr : c.rel = true → 0 ≤ b) : ¬ isBetter c (some b) (some b) := by
  unfold isBetter
  simp only
  cases hm : c.modeMin <;> cases hre : c.rel <;> simp only [hre, if_true, if_false, Bool.false_eq_true]
  · linarith
  · have := hr hre; nlinarith
  · linarith
  · have := hr hre; nlinarith

/-- C42: the stored best value is one of the metrics seen, and no metric seen is better than it by more than the
threshold. -/
theorem C42_best (es : List PlEv) (st : LrSt g PlateauSt) (hr : plRun c (plInit c) es = some st)
    (hok : ThresholdOk c (metricsOf es)) (x : ℝ) (hx : some x ∈ metricsOf es) :
    ∃ b, st.ext.best = some b ∧ some b ∈ metricsOf es ∧ ¬ isBetter c (some x) (some b) := by
  rw [(pl_state c es st hr).1, ext_best]
  generalize metricsOf es = ms at hok hx
  clear hr
  classical
  induction ms using List.reverseRecOn generalizing x with
  | nil => simp at hx
  | append_singleton ms m ih =>
    have hok' : ThresholdOk c ms := ⟨hok.1, fun h => ⟨fun m' hm' => (hok.2 h).1 m' (List.mem_append_left _ hm'), (hok.2 h).2⟩⟩
    have hpos : c.rel = true → ∀ y, some y ∈ ms ++ [m] → 0 ≤ y := fun h y hy => (hok.2 h).1 _ hy y rfl
    by_cases hb : isBetter c m (bestOf c ms)
    · rw [bestOf_snoc, if_pos hb]
      obtain ⟨b', rfl⟩ : ∃ b', m = some b' := by
        cases m with
        | none => simp [isBetter] at hb
        | some b' => exact ⟨b', rfl⟩
      refine ⟨b', rfl, by simp, ?_⟩
      rcases List.mem_append.1 hx with hx | hx
      · obtain ⟨b, h1, h2, h3⟩ := ih x hok' hx
        rw [h1] at hb
        intro h
        exact h3 (better_trans c hok.1 (fun hre => ⟨hpos hre b (List.mem_append_left _ h2), hpos hre b' (by simp), (hok.2 hre).2⟩) hb h)
      · simp only [List.mem_singleton, Option.some.injEq] at hx
        subst hx
        exact not_better_self c hok.1 (fun hre => hpos hre x (by simp))
    · rw [bestOf_snoc, if_neg hb]
      rcases List.mem_append.1 hx with hx | hx
      · obtain ⟨b, h1, h2, h3⟩ := ih x hok' hx
        exact ⟨b, h1, List.mem_append_left _ h2, h3⟩
      · simp only [List.mem_singleton] at hx
        subst hx
        cases hbo : bestOf c ms with
        | none => rw [hbo] at hb; simp [isBetter] at hb
        | some b =>
          rw [hbo] at hb
          refine ⟨b, rfl, ?_, hb⟩
          rcases bestOf_mem c ms with h | h
          · rw [hbo] at h; exact absurd h (by simp)
          · rw [hbo] at h; exact List.mem_append_left _ h

/-- With negative metrics (a negative log-likelihood can be) the relative threshold fails: with mode 'min' and threshold
1/10, after -1 the worse value -0.95 counts as an improvement and replaces it. -/
theorem C42_best_negative : ∃ (c : PlateauCfg 1) (st : LrSt 1 PlateauSt), c.modeMin = true ∧ c.rel = true ∧ c.threshold = 1 / 10 ∧
    plRun c (plInit c) [.epochEnd (some (-1)), .epochEnd (some (-0.95))] = some st ∧ st.ext.best = some (-0.95) ∧
    isBetter c (some (-1)) st.ext.best := by
  refine ⟨⟨⟨fun _ => 1, fun _ => 0, 10, false⟩, true, true, 1 / 10, 1 / 2, 2, 0, 0⟩, _, rfl, rfl, rfl, rfl, ?_, ?_⟩
  · rw [plateauEnd_ext _ _ _ [some (-1)] (plateauEnd_ext _ _ _ [] rfl), ext_best]
    unfold bestOf
    norm_num [isBetter]
  · rw [plateauEnd_ext _ _ _ [some (-1)] (plateauEnd_ext _ _ _ [] rfl), ext_best]
    unfold bestOf
    norm_num [isBetter]

/-- As for the other schedulers, the default of zero warm-up steps raises at the first batch. -/
theorem C42_zero_warmup_raises (h : c.warmup = 0) : plRun c (plInit c) [.batch] = none := by
  simp [plRun, plStep, plInit, LrSt.init, warmupLr, h]

/-- a reduction happens: patience 1, cooldown 0, three epochs with the same metric. -/
example (c : PlateauCfg 1) (hp : c.patience = 1) (hc : c.cooldown = 0) (hm : c.modeMin = true) (hr : c.rel = false)
    (ht : c.threshold = 0) : Decides c [some 5, some 5] (some 5) := by
  rw [C42_reduces_iff c (by omega) (by omega)]
  refine ⟨by simp [hp], ?_, ?_⟩
  · intro j hj hle
    have : j = 1 ∨ j = 2 := by simp [hp] at hj hle; omega
    rcases this with rfl | rfl <;> simp [NoImprovement, bestOf, isBetter, hm, hr, ht]
  · intro j hj hle
    have : j = 1 := by simp [hp, hc] at hj hle; omega
    subst this
    unfold DecidedAt
    rw [C42_reduces_iff c (by omega) (by omega)]
    rintro ⟨_, h, _⟩
    have := h 0 (by omega) (by simp [hp])
    simp [NoImprovement, bestOf, isBetter] at this

end Hyp.Torch
