import Verif.Torch.CosProps

/-! The whole schedule of the cosine scheduler with warm restarts, one update per epoch. -/

namespace Hyp.Torch

variable {g : Nat} (c : CosCfg g)

/-- the epochs, counted from the first period, at which periods begin: the first has `T` epochs, every other `m` times as
many as the one before -/
def periodStart (T m : Nat) : Nat → Nat
  | 0 => 0
  | n + 1 => periodStart T m n + T * m ^ n

theorem cosT_epoch (hb : c.onBatch = false) (s : CosSt) (e x : Int) : cosT c s e x = s.T := by
  unfold cosT
  rw [if_neg]
  rintro ⟨⟨-, h, -⟩, -⟩
  rw [hb] at h
  cases h

/-- one update with the state of period `n` -/
theorem cos_warm_get (hb : c.onBatch = false) (hw : c.warmRestarts = true) (T m : Nat) (hm : c.tMul = m) (r : Int) (n : Nat) (e t : Int)
    (ht : t - 1 - r < periodStart T m (n + 1)) (hn : n = 0 ∨ (periodStart T m n : Int) ≤ t - r) :
    ∃ n', cosGetLr c ⟨(T * m ^ n : Nat), r + periodStart T m n, n⟩ e t =
        (⟨(T * m ^ n' : Nat), r + periodStart T m n', n'⟩, cosRate c (T * m ^ n' : Nat) n' ((t - r - periodStart T m n' : Int) : ℝ)) ∧
      t - r ≤ periodStart T m n' + T * m ^ n' ∧ (T * m ^ n' = 0 ∨ t - r < periodStart T m (n' + 1)) ∧ (n' = 0 ∨ (periodStart T m n' : Int) ≤ t - r) := by
  unfold cosGetLr
  rw [cosT_epoch c hb]
  have e0 : (periodStart T m (n + 1) : Int) = periodStart T m n + T * m ^ n := by
    show ((periodStart T m n + T * m ^ n : Nat) : Int) = _
    push_cast; ring
  simp only [hw, if_true]
  have hcast : ((t - (r + periodStart T m n) : Int) : ℝ) ≥ ((T * m ^ n : Nat) : ℝ) ↔ (T * m ^ n : Nat) ≤ t - (r + periodStart T m n) := by
    rw [ge_iff_le]
    have : ((T * m ^ n : Nat) : ℝ) = (((T * m ^ n : Nat) : Int) : ℝ) := by push_cast; rfl
    rw [this, Int.cast_le]
  by_cases hx : (T * m ^ n : Nat) ≤ t - (r + periodStart T m n)
  · rw [if_pos (hcast.2 hx)]
    have het : t - r = periodStart T m (n + 1) := by
      push_cast at hx
      omega
    refine ⟨n + 1, ?_, ?_, ?_, Or.inr (le_of_eq het.symm)⟩
    · have h1 : ((T * m ^ n : Nat) : ℝ) * c.tMul = (T * m ^ (n + 1) : Nat) := by
        rw [hm]; push_cast; ring
      have h2 : t = r + periodStart T m (n + 1) := by omega
      have h3 : ((t - r - periodStart T m (n + 1) : Int) : ℝ) = 0 := by
        rw [het]; simp
      rw [h1, h3]
      congr 2
    · rw [het]
      have : (0 : Int) ≤ T * m ^ (n + 1) := by positivity
      omega
    · have e1 : (periodStart T m (n + 1 + 1) : Int) = periodStart T m (n + 1) + (T * m ^ (n + 1) : Nat) := by
        show ((periodStart T m (n + 1) + T * m ^ (n + 1) : Nat) : Int) = _
        push_cast; ring
      rw [het, e1]
      rcases Nat.eq_zero_or_pos (T * m ^ (n + 1)) with h | h
      · exact Or.inl h
      · right; omega
  · rw [if_neg (fun h => hx (hcast.1 h))]
    push_cast at hx
    refine ⟨n, ?_, by omega, Or.inr (by omega), hn⟩
    rw [show t - (r + ↑(periodStart T m n)) = t - r - ↑(periodStart T m n) by ring]

/-- C41: with warm restarts and one update per epoch, period `T ≥ 1`, period factor `m ≥ 1` and `last_restart = r ≥ 0`: the
rate set at the beginning of epoch `t` is that of the cosine of the period that contains epoch `t - r`, with the peak
multiplied by `gamma` at every restart -/
theorem C41_cos_warm (hb : c.onBatch = false) (hw : c.warmRestarts = true) (T m : Nat) (hT : 0 < T) (hm0 : 0 < m) (hm : c.tMul = m) (r : Int) (hr0 : 0 ≤ r)
    (es : List LrEv) (st : LrSt g CosSt) (hr : cosRun c T r (es ++ [.epochBegin]) = some st) (t : Int) (ht : t = numEpochs es) :
    ∃ n, t - r < periodStart T m (n + 1) ∧ (n = 0 ∨ (periodStart T m n : Int) ≤ t - r) ∧
      ∀ i, st.lr i = c.minLr i + (c.gamma ^ n * c.base i - c.minLr i) *
        (1 + Real.cos (Real.pi / ((T * m ^ n : Nat) : ℝ) * ((t - r - periodStart T m n : Int) : ℝ))) / 2 := by
  have inv : ∀ es s, cosRun c T r es = some s → ∃ n, s.ext = ⟨(T * m ^ n : Nat), r + periodStart T m n, n⟩ ∧
      (numEpochs es : Int) - 1 - r < periodStart T m (n + 1) ∧ (n = 0 ∨ (periodStart T m n : Int) ≤ (numEpochs es : Int) - r) := by
    intro es s hs
    refine lrRun_induction c.toLrCfg (cosGetLr c) (cosEpochEnd c) _ (fun es s => ∃ n, s.ext = ⟨(T * m ^ n : Nat), r + periodStart T m n, n⟩ ∧
      (numEpochs es : Int) - 1 - r < periodStart T m (n + 1) ∧ (n = 0 ∨ (periodStart T m n : Int) ≤ (numEpochs es : Int) - r)) ?_ ?_ es s hs
    · refine ⟨0, ?_, ?_, Or.inl rfl⟩
      · simp [LrSt.init, periodStart]
      · simp [numEpochs, periodStart]
        omega
    · rintro es s e s' hrun ⟨n, h1, h2, h3⟩ hstep
      cases e with
      | epochBegin =>
        have hl := (cos_counts c T r es s hrun).1
        have hne : numEpochs (es ++ [.epochBegin]) = numEpochs es + 1 := by simp [numEpochs]
        simp only [lrStep, epochBeginStep, hb, Bool.false_eq_true, if_false, Option.some.injEq] at hstep
        subst hstep
        simp only [h1]
        rw [show s.lastEpoch + 1 = (numEpochs es : Int) by omega]
        obtain ⟨n', k1, k2, k3, k4⟩ := cos_warm_get c hb hw T m hm r n (numEpochs es : Int) (numEpochs es) h2 h3
        refine ⟨n', by rw [k1], ?_, ?_⟩
        · rw [hne]
          have hp : 0 < T * m ^ n' := Nat.mul_pos hT (Nat.pow_pos hm0)
          rcases k3 with k3 | k3
          · omega
          · push_cast; omega
        · rw [hne]
          rcases k4 with k4 | k4
          · exact Or.inl k4
          · right; push_cast; omega
      | batch =>
        have hne : numEpochs (es ++ [.batch]) = numEpochs es := by simp [numEpochs]
        have hx : s'.ext = s.ext := by
          simp only [lrStep, batchStep, hb] at hstep
          split at hstep
          · rw [Option.map_eq_some_iff] at hstep
            obtain ⟨lr, -, rfl⟩ := hstep
            rfl
          · simp only [Bool.false_eq_true, if_false, Option.some.injEq] at hstep
            rw [← hstep]
        rw [hne, hx]
        exact ⟨n, h1, h2, h3⟩
      | epochEnd =>
        have hne : numEpochs (es ++ [.epochEnd]) = numEpochs es := by simp [numEpochs]
        have hx : s' = s := by
          simp only [lrStep, cosEpochEnd, hb, Bool.false_eq_true, false_and, and_false, if_false, Option.some.injEq] at hstep
          exact hstep.symm
        rw [hne, hx]
        exact ⟨n, h1, h2, h3⟩
  obtain ⟨s, h1, h2⟩ := cos_last c T r es _ st hr
  obtain ⟨n, k1, k2, k3⟩ := inv es s h1
  have hl := (cos_counts c T r es s h1).1
  simp only [lrStep, epochBeginStep, hb, Bool.false_eq_true, if_false, Option.some.injEq] at h2
  subst h2
  obtain ⟨n', q1, q2, q3, q4⟩ := cos_warm_get c hb hw T m hm r n t t (by rw [ht]; exact k2) (by rw [ht]; exact k3)
  refine ⟨n', ?_, q4, ?_⟩
  · have hp : 0 < T * m ^ n' := Nat.mul_pos hT (Nat.pow_pos hm0)
    rcases q3 with q3 | q3
    · omega
    · exact q3
  · intro i
    simp only [k1]
    rw [show s.lastEpoch + 1 = t by omega, q1]
    rfl

/-- non-vacuity: ten epochs with a period of two epochs that doubles -/
example : ∃ (c : CosCfg 1) (st : LrSt 1 CosSt), c.onBatch = false ∧ c.warmRestarts = true ∧ c.tMul = (2 : Nat) ∧
    cosRun c (2 : Nat) 0 (List.replicate 9 .epochBegin ++ [.epochBegin]) = some st :=
  ⟨⟨⟨fun _ => 1, fun _ => 0, 0, false⟩, (2 : Nat), true, 1⟩, _, rfl, rfl, rfl, rfl⟩

end Hyp.Torch
