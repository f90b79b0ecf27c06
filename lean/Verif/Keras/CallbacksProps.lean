import Verif.Keras.Callbacks
import Verif.Torch.TrainerProps
import Mathlib.Tactic.NormNum
import Mathlib.Data.List.Infix

/-!
C152: callbacks of the Keras trainer.
-/

namespace Hyp.Keras

open Hyp.Text Hyp

/-- Specification: for these names the greater value is better. -/
def GreaterBetter (monitor : Str) : Prop := "acc".toList <:+: monitor ∨ "fmeasure".toList <+: monitor

/-- Specification: `a` is better than `b`. -/
def Better (monitor : Str) (a b : Rat) : Prop := (GreaterBetter monitor ∧ b < a) ∨ (¬ GreaterBetter monitor ∧ a < b)

theorem hasSub_iff (sub s : Str) : hasSub sub s = true ↔ sub <:+: s := by
  unfold hasSub
  rw [List.any_eq_true, List.infix_iff_prefix_suffix]
  constructor
  · rintro ⟨t, ht, hp⟩
    exact ⟨t, List.isPrefixOf_iff_prefix.1 hp, (List.mem_tails _ _).1 ht⟩
  · rintro ⟨t, hp, hs⟩
    exact ⟨t, (List.mem_tails _ _).2 hs, List.isPrefixOf_iff_prefix.2 hp⟩

theorem ckOp_greater (c : CkCfg) : (ckOp c).greater = true ↔ GreaterBetter c.monitor := by
  unfold ckOp kerasOp GreaterBetter
  rw [if_neg (by decide), if_neg (by decide), Bool.or_eq_true, hasSub_iff, List.isPrefixOf_iff_prefix]

theorem improves_iff (c : CkCfg) (v b : Rat) : improves (ckOp c).greater v (some b) = true ↔ Better c.monitor v b := by
  have h := ckOp_greater c
  unfold improves Better
  dsimp only
  cases hg : (ckOp c).greater with
  | true =>
    have := h.1 hg
    simp [this]
  | false =>
    have : ¬ GreaterBetter c.monitor := fun hh => by rw [h.2 hh] at hg; cases hg
    simp [this]

theorem ckRun_snoc (c : CkCfg) (first : Nat) (logs : List (Option Rat)) (x : Option Rat) (disk : List (Str × Nat)) :
    ckRun c first (logs ++ [x]) disk = ckEpoch c (ckRun c first logs disk) (first + logs.length) x := by
  unfold ckRun
  rw [List.length_append, List.length_singleton, List.range_succ, List.zip_append (by simp), List.foldl_append]
  rfl

theorem better_irrefl (m : Str) (a : Rat) : ¬ Better m a a := by
  rintro (⟨-, h⟩ | ⟨-, h⟩) <;> exact lt_irrefl _ h

theorem better_trans {m : Str} {a b c : Rat} (h1 : Better m a b) (h2 : Better m b c) : Better m a c := by
  rcases h1 with ⟨g, h1⟩ | ⟨g, h1⟩ <;> rcases h2 with ⟨g', h2⟩ | ⟨g', h2⟩
  · exact Or.inl ⟨g, lt_trans h2 h1⟩
  · exact absurd g g'
  · exact absurd g' g
  · exact Or.inr ⟨g, lt_trans h1 h2⟩

theorem better_of_not {m : Str} {a b c : Rat} (h1 : Better m a b) (h2 : ¬ Better m c b) : Better m a c := by
  rcases h1 with ⟨g, h1⟩ | ⟨g, h1⟩
  · exact Or.inl ⟨g, lt_of_le_of_lt (not_lt.1 (fun h => h2 (Or.inl ⟨g, h⟩))) h1⟩
  · exact Or.inr ⟨g, lt_of_lt_of_le h1 (not_lt.1 (fun h => h2 (Or.inr ⟨g, h⟩)))⟩

/-- **C152 (best model).** With `save_best_only` and a fixed path, after every history of epochs the file holds the model of the first
epoch with the best value of the metric so far (the smallest, for accuracies and F-measures the greatest); epochs without the metric
do not count; with no value at all the file is as before. -/
theorem C152_best (c : CkCfg) (p : Str) (hb : c.saveBestOnly = true) (hp : ∀ e, c.path e = p) (first : Nat) (logs : List (Option Rat)) (disk : List (Str × Nat)) :
    let s := ckRun c first logs disk
    ((∀ v : Rat, some v ∉ logs) → s.disk = disk) ∧
    ((∃ v : Rat, some v ∈ logs) → ∃ (i : Nat) (v : Rat), logs[i]? = some (some v) ∧ dictGet s.disk p = some (first + i) ∧
      ∀ (j : Nat) (u : Rat), logs[j]? = some (some u) → (j < i → Better c.monitor v u) ∧ ¬ Better c.monitor u v) ∧
    ∀ q, q ≠ p → dictGet s.disk q = dictGet disk q := by
  have inv : ∀ logs : List (Option Rat), (ckRun c first logs disk).since = 0 ∧
      (∀ q, q ≠ p → dictGet (ckRun c first logs disk).disk q = dictGet disk q) ∧
      (((ckRun c first logs disk).best = none ∧ (∀ v : Rat, some v ∉ logs) ∧ (ckRun c first logs disk).disk = disk) ∨
       ∃ (i : Nat) (v : Rat), (ckRun c first logs disk).best = some v ∧ logs[i]? = some (some v) ∧ dictGet (ckRun c first logs disk).disk p = some (first + i) ∧
        ∀ (j : Nat) (u : Rat), logs[j]? = some (some u) → (j < i → Better c.monitor v u) ∧ ¬ Better c.monitor u v) := by
    intro logs
    induction logs using List.reverseRecOn with
    | nil => exact ⟨rfl, fun _ _ => rfl, Or.inl ⟨rfl, fun v hv => absurd hv List.not_mem_nil, rfl⟩⟩
    | append_singleton logs x ih =>
      rw [ckRun_snoc]
      generalize hs : ckRun c first logs disk = s at ih ⊢
      obtain ⟨h0, hq, ih⟩ := ih
      have hper : (ckOp c).period ≤ s.since + 1 := by rw [h0]; exact le_refl _
      cases x with
      | none =>
        have e : ckEpoch c s (first + logs.length) none = { s with since := 0 } := by
          unfold ckEpoch; dsimp only; rw [if_pos hper, if_pos hb]
        rw [e]
        refine ⟨rfl, hq, ?_⟩
        rcases ih with ⟨i1, i2, i3⟩ | ⟨i, v, i1, i2, i3, i4⟩
        · refine Or.inl ⟨i1, ?_, i3⟩
          intro v hv
          rcases List.mem_append.1 hv with h | h
          · exact i2 v h
          · simp at h
        · have hil : i < logs.length := by
            by_contra hc; rw [List.getElem?_eq_none (by omega)] at i2; cases i2
          refine Or.inr ⟨i, v, i1, by rw [List.getElem?_append_left hil]; exact i2, i3, ?_⟩
          intro j u hj
          rcases Nat.lt_or_ge j logs.length with h | h
          · rw [List.getElem?_append_left h] at hj; exact i4 j u hj
          · rw [List.getElem?_append_right h] at hj
            cases hk : j - logs.length with
            | zero => rw [hk] at hj; simp at hj
            | succ k => rw [hk] at hj; simp at hj
      | some v =>
        by_cases himp : improves (ckOp c).greater v s.best = true
        · have e : ckEpoch c s (first + logs.length) (some v) = { best := some v, since := 0, disk := dictSet s.disk p (first + logs.length) } := by
            unfold ckEpoch; dsimp only; rw [if_pos hper, if_pos hb, if_pos himp, hp]
          rw [e]
          refine ⟨rfl, ?_, Or.inr ⟨logs.length, v, rfl, by simp, by rw [dictGet_set]; simp, ?_⟩⟩
          · intro q hqp
            show dictGet (dictSet s.disk p (first + logs.length)) q = _
            rw [dictGet_set, if_neg (Ne.symm hqp)]; exact hq q hqp
          intro j u hj
          rcases Nat.lt_or_ge j logs.length with h | h
          · rw [List.getElem?_append_left h] at hj
            rcases ih with ⟨i1, i2, i3⟩ | ⟨i, w, i1, i2, i3, i4⟩
            · exact absurd (List.mem_of_getElem? hj) (i2 u)
            · rw [i1] at himp
              have hvw := (improves_iff c v w).1 himp
              have huw := (i4 j u hj).2
              have := better_of_not hvw huw
              exact ⟨fun _ => this, fun h' => better_irrefl _ _ (better_trans this h')⟩
          · rw [List.getElem?_append_right h] at hj
            cases hk : j - logs.length with
            | zero =>
              rw [hk] at hj
              simp at hj
              subst hj
              exact ⟨fun hlt => absurd hlt (by omega), better_irrefl _ _⟩
            | succ k => rw [hk] at hj; simp at hj
        · have e : ckEpoch c s (first + logs.length) (some v) = { s with since := 0 } := by
            unfold ckEpoch; dsimp only; rw [if_pos hper, if_pos hb, if_neg himp]
          rw [e]
          refine ⟨rfl, hq, ?_⟩
          rcases ih with ⟨i1, i2, i3⟩ | ⟨i, w, i1, i2, i3, i4⟩
          · rw [i1] at himp; exact absurd rfl himp
          · have hil : i < logs.length := by
              by_contra hc; rw [List.getElem?_eq_none (by omega)] at i2; cases i2
            refine Or.inr ⟨i, w, i1, by rw [List.getElem?_append_left hil]; exact i2, i3, ?_⟩
            intro j u hj
            rcases Nat.lt_or_ge j logs.length with h | h
            · rw [List.getElem?_append_left h] at hj; exact i4 j u hj
            · rw [List.getElem?_append_right h] at hj
              cases hk : j - logs.length with
              | zero =>
                rw [hk] at hj
                simp at hj
                subst hj
                rw [i1, improves_iff] at himp
                exact ⟨fun hlt => absurd hlt (by omega), himp⟩
              | succ k => rw [hk] at hj; simp at hj
  intro s
  obtain ⟨-, hq, h⟩ := inv logs
  refine ⟨?_, ?_, hq⟩
  · intro hn
    rcases h with ⟨-, -, h⟩ | ⟨i, v, -, h, -⟩
    · exact h
    · exact absurd (List.mem_of_getElem? h) (hn v)
  · rintro ⟨v, hv⟩
    rcases h with ⟨-, h, -⟩ | ⟨i, w, -, h1, h2, h3⟩
    · exact absurd hv (h v)
    · exact ⟨i, w, h1, h2, h3⟩

/-- **C152 (every epoch).** Without `save_best_only` and with different paths for different epochs, every epoch is stored under
its path, whatever the metric; other files stay. -/
theorem C152_every (c : CkCfg) (hb : c.saveBestOnly = false) (hinj : Function.Injective c.path) (first : Nat) (logs : List (Option Rat)) (disk : List (Str × Nat)) :
    (∀ i < logs.length, dictGet (ckRun c first logs disk).disk (c.path (first + i)) = some (first + i)) ∧
    ∀ q, (∀ i < logs.length, q ≠ c.path (first + i)) → dictGet (ckRun c first logs disk).disk q = dictGet disk q := by
  have inv : (ckRun c first logs disk).since = 0 ∧ (∀ i < logs.length, dictGet (ckRun c first logs disk).disk (c.path (first + i)) = some (first + i)) ∧
      ∀ q, (∀ i < logs.length, q ≠ c.path (first + i)) → dictGet (ckRun c first logs disk).disk q = dictGet disk q := by
    induction logs using List.reverseRecOn with
    | nil => exact ⟨rfl, fun i hi => absurd hi (Nat.not_lt_zero _), fun _ _ => rfl⟩
    | append_singleton logs x ih =>
      rw [ckRun_snoc]
      generalize hs : ckRun c first logs disk = s at ih ⊢
      obtain ⟨h0, h1, h2⟩ := ih
      have e : ckEpoch c s (first + logs.length) x = { s with since := 0, disk := dictSet s.disk (c.path (first + logs.length)) (first + logs.length) } := by
        unfold ckEpoch; dsimp only
        rw [if_pos (by rw [h0]; exact le_refl _), if_neg (by rw [hb]; simp)]
      rw [e]
      refine ⟨rfl, ?_, ?_⟩
      · intro i hi
        rw [List.length_append, List.length_singleton] at hi
        show dictGet (dictSet s.disk _ _) _ = _
        rw [dictGet_set]
        rcases Nat.lt_or_ge i logs.length with h | h
        · rw [if_neg (fun hh => by have := hinj hh; omega)]; exact h1 i h
        · have : i = logs.length := by omega
          subst this; rw [if_pos rfl]
      · intro q hq
        show dictGet (dictSet s.disk _ _) _ = _
        rw [dictGet_set, if_neg (fun hh => hq logs.length (by simp) hh.symm)]
        exact h2 q (fun i hi => hq i (by simp; omega))
  exact ⟨inv.2.1, inv.2.2⟩

/-- **C152 (defect).** The arguments `mode` and `period` have no effect. -/
theorem C152_arguments_ignored (c : CkCfg) (mode : Str) (period : Nat) (first : Nat) (logs : List (Option Rat)) (disk : List (Str × Nat)) :
    ckRun { c with mode := mode, period := period } first logs disk = ckRun c first logs disk := rfl

/-- **C152 (defect).** Asked for the maximum of `val_auc`, the checkpoint keeps the minimum. -/
theorem C152_mode_max_keeps_min : ∃ c : CkCfg, c.mode = "max".toList ∧ c.saveBestOnly = true ∧ c.monitor = "val_auc".toList ∧
    (ckRun c 0 [some (1 / 2), some (9 / 10)] []).disk = [("best".toList, 0)] := by
  refine ⟨⟨"val_auc".toList, "max".toList, 1, true, fun _ => "best".toList⟩, rfl, rfl, rfl, ?_⟩
  decide +kernel

/-- **C152 (learning rate steps).** In each epoch the learning rate is that of the latest step since training began, or the initial one
when no step was met; steps before the first epoch (a training that is continued) are not made. -/
theorem C152_steps (d : List (Nat × Rat)) (lr0 : Rat) (first n : Nat) :
    (∀ k v, dictGet d k = some v → first ≤ k → k < first + n → (∀ k', k < k' → k' < first + n → dictGet d k' = none) → lrAfter (.dict d) lr0 first n = v) ∧
    ((∀ k, first ≤ k → k < first + n → dictGet d k = none) → lrAfter (.dict d) lr0 first n = lr0) := by
  have snoc : ∀ n, lrAfter (.dict d) lr0 first (n + 1) = (dictGet d (first + n)).getD (lrAfter (.dict d) lr0 first n) := by
    intro n
    unfold lrAfter
    rw [List.range_succ, List.map_append, List.foldl_append]
    rfl
  induction n with
  | zero => exact ⟨fun k v _ h1 h2 => absurd h2 (by omega), fun _ => rfl⟩
  | succ n ih =>
    rw [snoc]
    constructor
    · intro k v hk h1 h2 h3
      by_cases hkn : k = first + n
      · subst hkn; rw [hk]; rfl
      · rw [h3 (first + n) (by omega) (by omega)]
        exact ih.1 k v hk h1 (by omega) (fun k' a b => h3 k' a (by omega))
    · intro h
      rw [h (first + n) (by omega) (by omega)]
      exact ih.2 (fun k a b => h k a (by omega))

/-- **C152 (defect).** Steps from the command line never change the learning rate. -/
theorem C152_steps_option (l : List Str) (lr0 : Rat) (first n : Nat) : lrAfter (.strs l) lr0 first n = lr0 := by
  unfold lrAfter
  generalize (List.range n).map (first + ·) = es
  induction es with
  | nil => rfl
  | cons e es ih => exact ih

/-- **C152 (callbacks).** Creating the callbacks raises exactly when a factor for increasing the learning rate is given together with
`lr_patience`. Otherwise the first callback stores every epoch under a path of its own, or the best one under `model.best`; the
others are the log and those asked for. -/
theorem C152_create (a : CbArgs) :
    (createCallbacks a = none ↔ a.lrPatience.isSome ∧ a.lrIncFactor.isSome) ∧
    ∀ cbs, createCallbacks a = some cbs → ∃ c rest, cbs = .checkpoint c :: .csv (a.dir ++ "/train.log".toList) a.append :: rest ∧
      c.monitor = a.monitor ∧ (a.saveAll = true → c.saveBestOnly = false ∧ Function.Injective c.path) ∧
      (a.saveAll = false → c.saveBestOnly = true ∧ ∀ e, c.path e = a.dir ++ "/model.best".toList) ∧
      (∀ m mo p, .early m mo p ∈ rest ↔ a.patience = some p ∧ m = a.monitor ∧ mo = a.mode) ∧
      (∀ s, .steps s ∈ rest ↔ a.lrSteps = some s) ∧
      ∀ m mo f p, .plateau m mo f p ∈ rest ↔ a.lrPatience = some p ∧ m = a.lrMonitor.getD a.monitor ∧ mo = a.lrMode ∧ f = a.lrRedFactor.getD a.lrFactor := by
  have hnone : createCallbacks a = none ↔ plateauCb a = none := by
    have e : createCallbacks a = (plateauCb a).bind (fun pl => some (_ ++ pl)) := rfl
    rw [e]
    cases plateauCb a
    · exact ⟨fun _ => rfl, fun _ => rfl⟩
    · exact ⟨fun h => (by cases h), fun h => (by cases h)⟩
  have hpln : plateauCb a = none ↔ a.lrPatience.isSome ∧ a.lrIncFactor.isSome := by
    unfold plateauCb
    cases a.lrPatience <;> cases a.lrIncFactor <;> simp
  refine ⟨hnone.trans hpln, ?_⟩
  intro cbs h
  obtain ⟨pl, hpl⟩ : ∃ pl, plateauCb a = some pl := by
    cases hpl : plateauCb a with
    | none => rw [hnone.2 hpl] at h; cases h
    | some pl => exact ⟨pl, rfl⟩
  have hmem : (∀ m mo f p, Cb.plateau m mo f p ∈ pl ↔ a.lrPatience = some p ∧ m = a.lrMonitor.getD a.monitor ∧ mo = a.lrMode ∧ f = a.lrRedFactor.getD a.lrFactor) ∧
      (∀ m mo p, Cb.early m mo p ∉ pl) ∧ ∀ s, Cb.steps s ∉ pl := by
    unfold plateauCb at hpl
    cases hlp : a.lrPatience with
    | none =>
      rw [hlp] at hpl
      obtain rfl := Option.some.inj hpl
      simp
    | some q =>
      cases hli : a.lrIncFactor with
      | some r => rw [hlp, hli] at hpl; cases hpl
      | none =>
        rw [hlp, hli] at hpl
        obtain rfl := Option.some.inj hpl
        refine ⟨?_, by simp, by simp⟩
        intro m mo f p
        rw [List.mem_singleton, Cb.plateau.injEq, Option.some.injEq]
        constructor
        · rintro ⟨h1, h2, h3, h4⟩; exact ⟨h4.symm, h1, h2, h3⟩
        · rintro ⟨h1, h2, h3, h4⟩; exact ⟨h2, h3, h4, h1.symm⟩
  obtain ⟨early, hearly⟩ : ∃ early : List Cb, early = (match a.patience with | none => [] | some p => [.early a.monitor a.mode p]) := ⟨_, rfl⟩
  obtain ⟨steps, hsteps⟩ : ∃ steps : List Cb, steps = (match a.lrSteps with | none => [] | some s => [.steps s]) := ⟨_, rfl⟩
  have hE : (∀ m mo p, Cb.early m mo p ∈ early ↔ a.patience = some p ∧ m = a.monitor ∧ mo = a.mode) ∧ (∀ s, Cb.steps s ∉ early) ∧ ∀ m mo f p, Cb.plateau m mo f p ∉ early := by
    cases hp : a.patience with
    | none => rw [hp] at hearly; subst hearly; simp
    | some q =>
      rw [hp] at hearly; subst hearly
      refine ⟨?_, by simp, by simp⟩
      intro m mo p
      rw [List.mem_singleton, Cb.early.injEq, Option.some.injEq]
      constructor
      · rintro ⟨h1, h2, h3⟩; exact ⟨h3.symm, h1, h2⟩
      · rintro ⟨h1, h2, h3⟩; exact ⟨h2, h3, h1.symm⟩
  have hS : (∀ s, Cb.steps s ∈ steps ↔ a.lrSteps = some s) ∧ (∀ m mo p, Cb.early m mo p ∉ steps) ∧ ∀ m mo f p, Cb.plateau m mo f p ∉ steps := by
    cases hp : a.lrSteps with
    | none => rw [hp] at hsteps; subst hsteps; simp
    | some q =>
      rw [hp] at hsteps; subst hsteps
      refine ⟨?_, by simp, by simp⟩
      intro s
      rw [List.mem_singleton, Cb.steps.injEq, Option.some.injEq]
      exact eq_comm
  have hc : createCallbacks a = some ([.checkpoint { monitor := a.monitor, mode := a.mode, period := 1, saveBestOnly := !a.saveAll, path := fun e => if a.saveAll then a.dir ++ ("/model.".toList ++ Torch.Trainer.pad4 e) else a.dir ++ "/model.best".toList }, .csv (a.dir ++ "/train.log".toList) a.append] ++ early ++ steps ++ pl) := by
    unfold createCallbacks
    rw [hpl, hearly, hsteps]
    rfl
  rw [hc] at h
  obtain rfl := Option.some.inj h
  clear h hc hpl hearly hsteps hnone hpln
  refine ⟨_, early ++ (steps ++ pl), by simp only [List.append_assoc]; rfl, rfl, ?_, ?_, ?_, ?_, ?_⟩
  · intro hs
    refine ⟨by show (!a.saveAll) = false; rw [hs]; rfl, ?_⟩
    intro x y hxy
    dsimp only at hxy
    rw [if_pos hs, if_pos hs] at hxy
    have := List.append_cancel_left (List.append_cancel_left hxy)
    have h1 := Torch.Trainer.parseNat_pad4 x
    rw [this, Torch.Trainer.parseNat_pad4] at h1
    exact (Option.some.inj h1).symm
  · intro hs
    refine ⟨by show (!a.saveAll) = true; rw [hs]; rfl, fun e => ?_⟩
    dsimp only
    rw [if_neg (by rw [hs]; simp)]
  · intro m mo p
    rw [List.mem_append, List.mem_append, hE.1]
    simp [hS.2.1, hmem.2.1]
  · intro s
    rw [List.mem_append, List.mem_append, hS.1]
    simp [hE.2.1, hmem.2.2]
  · intro m mo f p
    rw [List.mem_append, List.mem_append, hmem.1]
    simp [hE.2.2, hS.2.2]

/-- three epochs: the value of the second is best, that of the third is equal -/
example : (ckRun ⟨"val_loss".toList, "auto".toList, 1, true, fun _ => "best".toList⟩ 5 [none, some 2, some 1, some 1, some 3] []).disk = [("best".toList, 7)] := by
  decide +kernel

example : ("acc".toList : Str) <:+: "val_acc".toList := (hasSub_iff _ _).1 (by decide)

/-- steps at epochs 2 and 4; a training that continues at epoch 3 has missed the first -/
example : lrAfter (.dict [(2, 1 / 10), (4, 1 / 100)]) 1 0 4 = 1 / 10 ∧ lrAfter (.dict [(2, 1 / 10), (4, 1 / 100)]) 1 3 1 = 1 := by
  decide +kernel

end Hyp.Keras
