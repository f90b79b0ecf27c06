import Verif.Torch.Trainer
import Verif.TextLemmas
import Mathlib.Tactic.Ring

/-! # Properties C63-C65: checkpoints, crashes and the training log -/

namespace Hyp.Torch.Trainer
open Hyp.Text
variable {σ l ρ : Type}

/-! ### specification -/

/-- `s 0, s 1, ..., s n` with metrics `lg 1 .. lg n` is a training without interruption: it starts at an initial
state and every epoch is one epoch of training (with some unsaved random state) from the state before. -/
def IsTraining (init : σ → Prop) (train : ρ → Nat → σ → σ × l) (n : Nat) (s : Nat → σ) (lg : Nat → l) : Prop :=
  init (s 0) ∧ ∀ k < n, ∃ r, train r k (s k) = (s (k + 1), lg (k + 1))

/-- complete checkpoint of an epoch on the disk. -/
def Disk.has (d : Disk σ l) (exp : Str) (e : Nat) (c : Ckpt σ l) : Prop := d.files (ckptPath exp e) = some (.ok c)

/-! ### file names -/

theorem parseNat_pad4 (n : Nat) : parseNat (pad4 n) = some n := by
  have h0 : ∀ k : Nat, (List.replicate k '0').foldl (fun acc c => acc.bind (fun n => (digitVal c).map (fun d => 10 * n + d))) (some 0) = some 0 := by
    intro k
    induction k with
    | zero => rfl
    | succ k ih => rw [List.replicate_succ, List.foldl_cons]; exact ih
  have h := parseNat_printNat n
  unfold parseNat pad4 at *
  have hp := printNat_ne_nil n
  rw [if_neg (by simpa using hp)] at h
  rw [if_neg (by simp [hp]), List.foldl_append, h0]
  exact h

theorem ckptPath_inj {exp : Str} {a b : Nat} (h : ckptPath exp a = ckptPath exp b) : a = b := by
  unfold ckptPath at h
  have h := List.append_cancel_right (List.append_cancel_left (List.append_cancel_left h))
  have := parseNat_pad4 a
  rw [h, parseNat_pad4] at this
  exact (Option.some.inj this).symm

/-! ### invariant -/

/-- the checkpoints of epochs `1..n` are complete and form an uninterrupted training; there is nothing else but
possibly a broken file of epoch `n + 1`. -/
structure Good (init : σ → Prop) (train : ρ → Nat → σ → σ × l) (exp : Str) (files : Str → Option (File σ l)) (n : Nat)
    (s : Nat → σ) (lg : Nat → l) : Prop where
  training : IsTraining init train n s lg
  ok : ∀ e, 1 ≤ e → e ≤ n → files (ckptPath exp e) = some (.ok ⟨e, s e, lg e⟩)
  rest : ∀ e, n + 2 ≤ e → files (ckptPath exp e) = none
  next : files (ckptPath exp (n + 1)) = none ∨ files (ckptPath exp (n + 1)) = some .broken

theorem loadLast_none {files : Str → Option (File σ l)} {exp : Str} {a b : Nat} (hab : b ≤ a)
    (h : ∀ e, b < e → e ≤ a → files (ckptPath exp e) = none) : loadLast files exp a = loadLast files exp b := by
  induction a with
  | zero => have : b = 0 := by omega
            subst this; rfl
  | succ a ih =>
    by_cases hb : b = a + 1
    · subst hb; rfl
    · rw [loadLast, h (a + 1) (by omega) (by omega)]
      exact ih (by omega) (fun e h1 h2 => h e h1 (by omega))

theorem Good.load {init : σ → Prop} {train : ρ → Nat → σ → σ × l} {exp : Str} {files : Str → Option (File σ l)} {n : Nat} {s : Nat → σ}
    {lg : Nat → l} (g : Good init train exp files n s lg) (epochs : Nat) :
    (n < epochs ∧ files (ckptPath exp (n + 1)) = some .broken → loadLast files exp epochs = .raised) ∧
    (¬ (n < epochs ∧ files (ckptPath exp (n + 1)) = some .broken) → loadLast files exp epochs =
      if min n epochs = 0 then .nothing else .got ⟨min n epochs, s (min n epochs), lg (min n epochs)⟩) := by
  have low : ∀ m, m ≤ n → loadLast files exp m = if m = 0 then .nothing else .got ⟨m, s m, lg m⟩ := by
    intro m hm
    cases m with
    | zero => rfl
    | succ m => rw [loadLast, g.ok (m + 1) (by omega) hm, if_neg (by omega)]
  constructor
  · rintro ⟨hn, h⟩
    rw [loadLast_none (b := n + 1) (by omega) (fun e h1 h2 => g.rest e (by omega)), loadLast, h]
  intro hnb
  by_cases hn : n < epochs
  · rw [loadLast_none (b := n + 1) (by omega) (fun e h1 h2 => g.rest e (by omega))]
    rw [loadLast, Nat.min_eq_left (by omega)]
    rcases g.next with h | h
    · rw [h]
      exact low n (le_refl _)
    · exact absurd ⟨hn, h⟩ hnb
  · rw [Nat.min_eq_right (by omega)]
    exact low epochs (by omega)

theorem upd_ne {files : Str → Option (File σ l)} {exp : Str} {a e : Nat} {v : Option (File σ l)} (h : e ≠ a) :
    (if ckptPath exp e = ckptPath exp a then v else files (ckptPath exp e)) = files (ckptPath exp e) := by
  rw [if_neg (fun he => h (ckptPath_inj he))]

/-- the invariant along the actions of `fitLoop`, at every crash point. -/
theorem fitLoop_good {init : σ → Prop} {train : ρ → Nat → σ → σ × l} {exp : Str} (r : ρ) : ∀ (m n k : Nat) (d : Disk σ l) (s : Nat → σ) (lg : Nat → l),
    Good init train exp d.files n s lg → d.files (ckptPath exp (n + 1)) = none →
    ∃ n' s' lg', Good init train exp (((fitLoop (train r) exp m n (s n)).take k).foldl Action.apply d).files n' s' lg' ∧
      n ≤ n' ∧ (∀ e ≤ n, s' e = s e) ∧ (∀ e, 1 ≤ e → e ≤ n → lg' e = lg e) ∧
      (3 * m ≤ k → n' = n + m ∧ (((fitLoop (train r) exp m n (s n)).take k).foldl Action.apply d).files (ckptPath exp (n' + 1)) = none) := by
  intro m
  induction m with
  | zero => intro n k d s lg g hn; exact ⟨n, s, lg, by simpa [fitLoop] using g, le_refl _, fun _ _ => rfl, fun _ _ _ => rfl,
      fun _ => ⟨rfl, by simpa [fitLoop] using hn⟩⟩
  | succ m ih =>
    intro n k d s lg g hn
    rw [fitLoop]
    match k with
    | 0 => exact ⟨n, s, lg, by simpa using g, le_refl _, fun _ _ => rfl, fun _ _ _ => rfl, fun h => by omega⟩
    | 1 => exact ⟨n, s, lg, by simpa [Action.apply] using g, le_refl _, fun _ _ => rfl, fun _ _ _ => rfl, fun h => by omega⟩
    | 2 =>
      refine ⟨n, s, lg, ?_, le_refl _, fun _ _ => rfl, fun _ _ _ => rfl, fun h => by omega⟩
      simp only [List.take_succ_cons, List.take_zero, List.foldl_cons, List.foldl_nil, Action.apply]
      refine ⟨g.training, ?_, ?_, ?_⟩
      · intro e h1 h2; rw [upd_ne (show e ≠ n + 1 by omega)]; exact g.ok e h1 h2
      · intro e h1; rw [upd_ne (show e ≠ n + 1 by omega)]; exact g.rest e h1
      · right; simp
    | k + 3 =>
      simp only [List.take_succ_cons, List.foldl_cons, Action.apply]
      set s2 : Nat → σ := fun e => if e = n + 1 then (train r n (s n)).1 else s e with hs2
      set lg2 : Nat → l := fun e => if e = n + 1 then (train r n (s n)).2 else lg e with hlg2
      have e1 : (train r n (s n)).1 = s2 (n + 1) := by simp [hs2]
      have e2 : (train r n (s n)).2 = lg2 (n + 1) := by simp [hlg2]
      rw [e1]
      set d2 : Disk σ l := ⟨fun q => if q = ckptPath exp (n + 1) then some (.ok ⟨n + 1, s2 (n + 1), (train r n (s n)).2⟩)
          else (fun q => if q = ckptPath exp (n + 1) then some .broken else d.files q) q, d.log ++ [n + 1]⟩ with hd2
      have hfiles : ∀ e, e ≠ n + 1 → d2.files (ckptPath exp e) = d.files (ckptPath exp e) := by
        intro e he
        rw [hd2]
        dsimp only
        rw [if_neg (fun h => he (ckptPath_inj h)), if_neg (fun h => he (ckptPath_inj h))]
      have hnext : d2.files (ckptPath exp (n + 1 + 1)) = none := by rw [hfiles _ (by omega)]; exact g.rest _ (by omega)
      have g2 : Good init train exp d2.files (n + 1) s2 lg2 := by
        refine ⟨⟨?_, ?_⟩, ?_, ?_, Or.inl hnext⟩
        · simpa [hs2] using g.training.1
        · intro k hk
          by_cases hkn : k = n
          · subst hkn
            refine ⟨r, ?_⟩
            have : s2 k = s k := by simp [hs2]
            rw [this, ← e1, ← e2]
          · obtain ⟨r', hr'⟩ := g.training.2 k (by omega)
            refine ⟨r', ?_⟩
            have h1 : s2 k = s k := by simp [hs2]; omega
            have h2 : s2 (k + 1) = s (k + 1) := by simp [hs2]; omega
            have h3 : lg2 (k + 1) = lg (k + 1) := by simp [hlg2]; omega
            rw [h1, h2, h3]; exact hr'
        · intro e h1 h2
          by_cases he : e = n + 1
          · subst he
            rw [hd2, e2]
            simp
          · rw [hfiles e he, g.ok e h1 (by omega)]
            have h1 : s2 e = s e := by simp [hs2, he]
            have h3 : lg2 e = lg e := by simp [hlg2, he]
            rw [h1, h3]
        · intro e h1; rw [hfiles e (by omega)]; exact g.rest e (by omega)
      obtain ⟨n', s', lg', a1, a2, a3, a4, a5⟩ := ih (n + 1) k d2 s2 lg2 g2 hnext
      refine ⟨n', s', lg', a1, by omega, ?_, ?_, fun h => ?_⟩
      · intro e he; rw [a3 e (by omega)]; simp [hs2]; omega
      · intro e h1 he; rw [a4 e h1 (by omega)]; simp [hlg2]; omega
      · obtain ⟨b1, b2⟩ := a5 (by omega)
        exact ⟨by omega, b2⟩

/-- the initial states used by a history. -/
def InitOk (init : σ → Prop) : Event σ ρ → Prop
  | .run _ s0 _ _ => init s0
  | .rm _ => True

theorem exec_good {init : σ → Prop} {train : ρ → Nat → σ → σ × l} {exp : Str} {d : Disk σ l} {n : Nat} {s : Nat → σ} {lg : Nat → l}
    (g : Good init train exp d.files n s lg) (ev : Event σ ρ) (hev : InitOk init ev) :
    ∃ n' s' lg', Good init train exp (ev.exec train exp d).files n' s' lg' ∧ n ≤ n' ∧
      (∀ e, 1 ≤ e → e ≤ n → s' e = s e) ∧ (∀ e, 1 ≤ e → e ≤ n → lg' e = lg e) ∧
      (∀ r s0 epochs k, ev = .run r s0 epochs k → process (train r) exp epochs s0 d ≠ none → 3 * epochs + 1 ≤ k → epochs ≤ n') := by
  cases ev with
  | rm e0 =>
    simp only [Event.exec]
    by_cases hb : d.files (ckptPath exp e0) = some .broken
    · rw [hb]
      have he0 : e0 = 0 ∨ e0 = n + 1 := by
        by_contra hc
        rcases Nat.lt_or_ge e0 (n + 1) with h | h
        · have := g.ok e0 (by omega) (by omega)
          rw [hb] at this; simp at this
        · have := g.rest e0 (by omega)
          rw [hb] at this; simp at this
      have keep : ∀ e, e ≠ e0 → (if ckptPath exp e = ckptPath exp e0 then none else d.files (ckptPath exp e)) = d.files (ckptPath exp e) :=
        fun e he => upd_ne he
      dsimp only
      refine ⟨n, s, lg, ⟨g.training, ?_, ?_, ?_⟩, le_refl _, fun _ _ _ => rfl, fun _ _ _ => rfl, fun _ _ _ _ h => by cases h⟩
      · intro e h1 h2; rw [keep e (by omega)]; exact g.ok e h1 h2
      · intro e h1; rw [keep e (by omega)]; exact g.rest e h1
      · rcases he0 with h | h
        · rw [keep (n + 1) (by omega)]; exact g.next
        · left; rw [h]; simp
    · refine ⟨n, s, lg, ?_, le_refl _, fun _ _ _ => rfl, fun _ _ _ => rfl, fun _ _ _ _ h => by cases h⟩
      split
      · contradiction
      · exact g
  | run r s0 epochs k =>
    have hl := g.load epochs
    simp only [Event.exec, process]
    by_cases hr : n < epochs ∧ d.files (ckptPath exp (n + 1)) = some .broken
    · have hl := hl.1 hr
      rw [hl]
      exact ⟨n, s, lg, g, le_refl _, fun _ _ _ => rfl, fun _ _ _ => rfl, fun r' s' e' k' h hp => by
        simp only [Event.run.injEq] at h
        obtain ⟨h1, h2, h3, h4⟩ := h
        subst h1; subst h2; subst h3; subst h4
        rw [hl] at hp; exact absurd rfl hp⟩
    · have hl := hl.2 hr
      -- the process trains from `min n epochs`
      have key : ∀ (s2 : Nat → σ) (lg2 : Nat → l), (∀ e, 1 ≤ e → e ≤ n → s2 e = s e) → (∀ e, 1 ≤ e → e ≤ n → lg2 e = lg e) →
          Good init train exp d.files n s2 lg2 →
          ∃ n' s' lg', Good init train exp (((fit (train r) exp epochs (min n epochs) (s2 (min n epochs))).take k).foldl Action.apply d).files n' s' lg' ∧ n ≤ n' ∧
            (∀ e, 1 ≤ e → e ≤ n → s' e = s e) ∧ (∀ e, 1 ≤ e → e ≤ n → lg' e = lg e) ∧ (3 * epochs + 1 ≤ k → epochs ≤ n') := by
        intro s2 lg2 hs hl2 g2
        unfold fit
        cases k with
        | zero => exact ⟨n, s2, lg2, by simpa using g2, le_refl _, hs, hl2, fun h => by omega⟩
        | succ k =>
          rw [List.take_succ_cons, List.foldl_cons]
          have gd : Good init train exp (Action.apply d .logOpen).files n s2 lg2 := g2
          by_cases hne : n < epochs
          · rw [Nat.min_eq_left (by omega)]
            have hnone : (Action.apply d .logOpen).files (ckptPath exp (n + 1)) = none := by
              rcases g2.next with h | h
              · exact h
              · exact absurd ⟨hne, h⟩ hr
            obtain ⟨n', s', lg', a1, a2, a3, a4, a5⟩ := fitLoop_good r (epochs - n) n k (Action.apply d .logOpen) s2 lg2 gd hnone
            refine ⟨n', s', lg', a1, a2, fun e h1 h2 => by rw [a3 e h2, hs e h1 h2], fun e h1 h2 => by rw [a4 e h1 h2, hl2 e h1 h2], fun h => ?_⟩
            have := (a5 (by omega)).1
            omega
          · rw [Nat.min_eq_right (by omega), Nat.sub_self]
            exact ⟨n, s2, lg2, by simpa [fitLoop] using gd, le_refl _, hs, hl2, fun h => by omega⟩
      have fin : ∀ {X : Disk σ l}, (∃ n' s' lg', Good init train exp X.files n' s' lg' ∧ n ≤ n' ∧
            (∀ e, 1 ≤ e → e ≤ n → s' e = s e) ∧ (∀ e, 1 ≤ e → e ≤ n → lg' e = lg e) ∧ (3 * epochs + 1 ≤ k → epochs ≤ n')) →
          ∃ n' s' lg', Good init train exp X.files n' s' lg' ∧ n ≤ n' ∧
            (∀ e, 1 ≤ e → e ≤ n → s' e = s e) ∧ (∀ e, 1 ≤ e → e ≤ n → lg' e = lg e) ∧
            (∀ r' s0' epochs' k', Event.run r s0 epochs k = Event.run r' s0' epochs' k' → process (train r') exp epochs' s0' d ≠ none →
              3 * epochs' + 1 ≤ k' → epochs' ≤ n') := by
        rintro X ⟨n', s', lg', b1, b2, b3, b4, b5⟩
        refine ⟨n', s', lg', b1, b2, b3, b4, ?_⟩
        intro r' s0' e' k' h _ hk
        simp only [Event.run.injEq] at h
        obtain ⟨_, _, h3, h4⟩ := h
        subst h3; subst h4
        exact b5 hk
      by_cases h0 : min n epochs = 0
      · rw [if_pos h0] at hl
        rw [hl]
        dsimp only
        rcases Nat.eq_zero_or_pos n with hn0 | hn0
        · subst hn0
          have := key (fun e => if e = 0 then s0 else s e) lg (fun e h1 h2 => by omega) (fun e h1 h2 => by omega)
            ⟨⟨by simpa [InitOk] using hev, fun k hk => by omega⟩, fun e h1 h2 => by omega, g.rest, g.next⟩
          rw [h0] at this
          simp only [if_true] at this
          exact fin this
        · have he : epochs = 0 := by omega
          subst he
          have := key s lg (fun _ _ _ => rfl) (fun _ _ _ => rfl) g
          rw [h0] at this
          have e : fit (train r) exp 0 0 s0 = fit (train r) exp 0 0 (s 0) := rfl
          rw [e]
          exact fin this
      · rw [if_neg h0] at hl
        rw [hl]
        exact fin (key s lg (fun _ _ _ => rfl) (fun _ _ _ => rfl) g)

theorem empty_good {init : σ → Prop} {train : ρ → Nat → σ → σ × l} {exp : Str} (s0 : σ) (lg0 : l) (h : init s0) :
    Good init train exp (Disk.empty : Disk σ l).files 0 (fun _ => s0) (fun _ => lg0) :=
  ⟨⟨h, fun k hk => by omega⟩, fun e h1 h2 => by omega, fun _ _ => rfl, Or.inl rfl⟩

theorem execAll_good [Nonempty l] {init : σ → Prop} (hne : ∃ s0, init s0) (train : ρ → Nat → σ → σ × l) (exp : Str) (h : List (Event σ ρ))
    (hi : ∀ ev ∈ h, InitOk init ev) : ∃ n s lg, Good init train exp (execAll train exp h).files n s lg := by
  obtain ⟨s0, hs0⟩ := hne
  obtain ⟨lg0⟩ := ‹Nonempty l›
  induction h using List.reverseRecOn with
  | nil => exact ⟨0, _, _, empty_good s0 lg0 hs0⟩
  | append_singleton h ev ih =>
    obtain ⟨n, s, lg, g⟩ := ih (fun e he => hi e (by simp [he]))
    obtain ⟨n', s', lg', g', _⟩ := exec_good g ev (hi ev (by simp))
    refine ⟨n', s', lg', ?_⟩
    unfold execAll at *
    rw [List.foldl_append]
    exact g'

/-! ### the properties -/

/-- **C63.** Whatever the history of starts, kills at any point (also inside `torch.save`) and removals of broken files, the complete
checkpoints on the disk are those of the epochs `1..n` for some `n`, and they are the states of one training without interruption. -/
theorem C63_crash_consistency [Nonempty l] {init : σ → Prop} (hne : ∃ s0, init s0) (train : ρ → Nat → σ → σ × l) (exp : Str) (h : List (Event σ ρ))
    (hi : ∀ ev ∈ h, InitOk init ev) :
    ∃ n s lg, IsTraining init train n s lg ∧
      ∀ e, 1 ≤ e → ∀ c, (execAll train exp h).has exp e c ↔ (e ≤ n ∧ c = ⟨e, s e, lg e⟩) := by
  obtain ⟨n, s, lg, g⟩ := execAll_good hne train exp h hi
  refine ⟨n, s, lg, g.training, ?_⟩
  intro e he c
  unfold Disk.has
  constructor
  · intro hc
    rcases Nat.lt_or_ge e (n + 1) with h1 | h1
    · rw [g.ok e he (by omega)] at hc
      simp only [Option.some.injEq, File.ok.injEq] at hc
      exact ⟨by omega, hc.symm⟩
    · exfalso
      rcases Nat.eq_or_lt_of_le h1 with h2 | h2
      · rw [← h2] at hc
        rcases g.next with h | h <;> rw [h] at hc <;> simp at hc
      · rw [g.rest e (by omega)] at hc; simp at hc
  · rintro ⟨h1, rfl⟩
    exact g.ok e he h1

/-- **C63 (deterministic training).** When an epoch depends only on what the checkpoint stores (and the start is fixed), every checkpoint
found after any history of crashes is the one of the training without interruption: `k` applications of the epoch. -/
theorem C63_resume_deterministic [Nonempty l] (s0 : σ) (train : Nat → σ → σ × l) (exp : Str) (h : List (Event σ Unit))
    (hi : ∀ ev ∈ h, InitOk (fun x => x = s0) ev) (e : Nat) (he : 1 ≤ e) (c : Ckpt σ l) (hc : (execAll (fun _ => train) exp h).has exp e c) :
    c.epoch = e ∧ c.state = Nat.rec s0 (fun k s => (train k s).1) e := by
  obtain ⟨n, s, lg, ht, hd⟩ := C63_crash_consistency (init := fun x => x = s0) ⟨s0, rfl⟩ (fun _ : Unit => train) exp h hi
  obtain ⟨h1, rfl⟩ := (hd e he c).1 hc
  refine ⟨rfl, ?_⟩
  have : ∀ k, k ≤ n → s k = Nat.rec s0 (fun k s => (train k s).1) k := by
    intro k
    induction k with
    | zero => intro _; exact ht.1
    | succ k ih =>
      intro hk
      obtain ⟨_, hr⟩ := ht.2 k (by omega)
      show s (k + 1) = (train k _).1
      have hr' : train k (s k) = (s (k + 1), lg (k + 1)) := hr
      rw [← ih (by omega), hr']
  exact this e h1

/-- **C63 (nothing is lost).** A complete checkpoint is never changed or removed by what happens later. -/
theorem C63_never_lost [Nonempty l] {init : σ → Prop} (hne : ∃ s0, init s0) (train : ρ → Nat → σ → σ × l) (exp : Str) (h h2 : List (Event σ ρ))
    (hi : ∀ ev ∈ h ++ h2, InitOk init ev) (e : Nat) (he : 1 ≤ e) (c : Ckpt σ l) (hc : (execAll train exp h).has exp e c) :
    (execAll train exp (h ++ h2)).has exp e c := by
  induction h2 using List.reverseRecOn with
  | nil => simpa using hc
  | append_singleton t ev ih =>
    have hd := ih (fun x hx => hi x (by simp only [List.mem_append] at hx ⊢; tauto))
    obtain ⟨n, s, lg, g⟩ := execAll_good hne train exp (h ++ t) (fun x hx => hi x (by simp only [List.mem_append] at hx ⊢; tauto))
    obtain ⟨n', s', lg', g', hn, hs, hl, _⟩ := exec_good g ev (hi ev (by simp))
    have hen : e ≤ n := by
      by_contra hcon
      unfold Disk.has at hd
      rcases Nat.lt_or_ge e (n + 2) with h1 | h1
      · have : e = n + 1 := by omega
        subst this
        rcases g.next with h | h <;> rw [h] at hd <;> simp at hd
      · rw [g.rest e h1] at hd; simp at hd
    have e1 : execAll train exp (h ++ (t ++ [ev])) = ev.exec train exp (execAll train exp (h ++ t)) := by
      unfold execAll
      rw [← List.append_assoc, List.foldl_append (l' := [ev])]
      rfl
    unfold Disk.has at *
    rw [e1, g'.ok e he (by omega), hs e he hen, hl e he hen, ← g.ok e he hen]
    exact hd

/-- **C64 (partial).** After any history, if no broken file is left at or below the requested number of epochs, a new process does not raise when it
loads the last checkpoint, and when it is not killed all checkpoints `1..epochs` are complete at its end. Missing: with a broken file, see
`C64_broken_file_blocks`. -/
theorem C64_resume_partial [Nonempty l] {init : σ → Prop} (train : ρ → Nat → σ → σ × l) (exp : Str) (h : List (Event σ ρ))
    (hi : ∀ ev ∈ h, InitOk init ev) (r : ρ) (s0 : σ) (hs0 : init s0) (epochs k : Nat) (hk : 3 * epochs + 1 ≤ k)
    (hb : ∀ e, 1 ≤ e → e ≤ epochs → (execAll train exp h).files (ckptPath exp e) ≠ some .broken) :
    process (train r) exp epochs s0 (execAll train exp h) ≠ none ∧
    ∀ e, 1 ≤ e → e ≤ epochs → ∃ c, (execAll train exp (h ++ [.run r s0 epochs k])).has exp e c ∧ c.epoch = e := by
  obtain ⟨n, s, lg, g⟩ := execAll_good ⟨s0, hs0⟩ train exp h hi
  have hp : process (train r) exp epochs s0 (execAll train exp h) ≠ none := by
    unfold process
    rw [(g.load epochs).2 (fun hc : n < epochs ∧ (execAll train exp h).files (ckptPath exp (n + 1)) = some .broken => hb (n + 1) (by omega) (by omega) hc.2)]
    by_cases h0 : min n epochs = 0
    · rw [if_pos h0]; simp
    · rw [if_neg h0]; simp
  refine ⟨hp, ?_⟩
  obtain ⟨n', s', lg', g', _, _, _, hfin⟩ := exec_good g (.run r s0 epochs k) hs0
  intro e h1 h2
  refine ⟨⟨e, s' e, lg' e⟩, ?_, rfl⟩
  unfold Disk.has execAll
  rw [List.foldl_append]
  exact g'.ok e h1 (le_trans h2 (hfin r s0 epochs k rfl hp hk))

/-- **C64 (negation).** A kill inside `torch.save` makes every later start raise, although complete checkpoints may be on the disk: the process of
every later attempt with at least this number of epochs fails in `load_last_checkpoint` and leaves the disk as it is. -/
theorem C64_broken_file_blocks [Nonempty l] {init : σ → Prop} (hne : ∃ s0, init s0) (train : ρ → Nat → σ → σ × l) (exp : Str) (h : List (Event σ ρ))
    (hi : ∀ ev ∈ h, InitOk init ev) (e : Nat) (he : 1 ≤ e) (hb : (execAll train exp h).files (ckptPath exp e) = some .broken)
    (r : ρ) (s0 : σ) (epochs k : Nat) (hep : e ≤ epochs) :
    process (train r) exp epochs s0 (execAll train exp h) = none ∧ execAll train exp (h ++ [.run r s0 epochs k]) = execAll train exp h := by
  obtain ⟨n, s, lg, g⟩ := execAll_good hne train exp h hi
  have hen : e = n + 1 := by
    by_contra hcon
    rcases Nat.lt_or_ge e (n + 1) with h1 | h1
    · rw [g.ok e he (by omega)] at hb; simp at hb
    · rw [g.rest e (by omega)] at hb; simp at hb
  subst hen
  have hp : process (train r) exp epochs s0 (execAll train exp h) = none := by
    unfold process
    rw [(g.load epochs).1 ⟨by omega, hb⟩]
  refine ⟨hp, ?_⟩
  unfold execAll at *
  rw [List.foldl_append, List.foldl_cons, List.foldl_nil, Event.exec, hp]

/-- non-vacuity of the negation: a first process killed in the middle of the second save. -/
example : (execAll (fun _ : Unit => fun k (s : Nat) => (s + k + 1, k)) "x".toList [.run () 10 3 6]).files (ckptPath "x".toList 2) = some .broken ∧
    (execAll (fun _ : Unit => fun k (s : Nat) => (s + k + 1, k)) "x".toList [.run () 10 3 6]).has "x".toList 1 ⟨1, 11, 0⟩ := by
  have h : ckptPath ['x'] 1 ≠ ckptPath ['x'] 2 := fun h => absurd (ckptPath_inj h) (by decide)
  constructor
  · simp [execAll, Event.exec, process, loadLast, Disk.empty, fit, fitLoop, Action.apply]
  · simp [Disk.has, execAll, Event.exec, process, loadLast, Disk.empty, fit, fitLoop, Action.apply, h]

/-- non-vacuity of C64_resume_partial and C63: killed while training epoch 2, restarted, complete. -/
example : (execAll (fun _ : Unit => fun k (s : Nat) => (s + k + 1, k)) "x".toList [.run () 10 2 5, .run () 10 2 7]).has "x".toList 2 ⟨2, 13, 1⟩ := by
  have h : ckptPath ['x'] 1 ≠ ckptPath ['x'] 2 := fun h => absurd (ckptPath_inj h) (by decide)
  have h' : ckptPath ['x'] 2 ≠ ckptPath ['x'] 1 := fun h => absurd (ckptPath_inj h) (by decide)
  simp [Disk.has, execAll, Event.exec, process, loadLast, Disk.empty, fit, fitLoop, Action.apply, h, h']

/-! ### the log -/

theorem log_fitLoop (train : Nat → σ → σ × l) (exp : Str) : ∀ (m n : Nat) (s : σ) (d : Disk σ l),
    ((fitLoop train exp m n s).foldl Action.apply d).log = d.log ++ List.range' (n + 1) m := by
  intro m
  induction m with
  | zero => intro n s d; simp [fitLoop]
  | succ m ih =>
    intro n s d
    rw [fitLoop, List.foldl_cons, List.foldl_cons, List.foldl_cons, ih]
    simp [Action.apply, List.range'_succ]

/-- **C65 (partial).** A training that is not interrupted leaves one row per epoch in `train.log`, in order. Missing: after a restart the rows of
the epochs before it are lost, see `C65_log_lost`. -/
theorem C65_log_partial (train : Nat → σ → σ × l) (exp : Str) (epochs : Nat) (s0 : σ) :
    ((fit train exp epochs 0 s0).foldl Action.apply Disk.empty).log = List.range' 1 epochs := by
  unfold fit
  rw [List.foldl_cons, log_fitLoop]
  simp [Action.apply]

/-- **C65 (negation).** A process that resumes from epoch `cur` leaves only the rows of the epochs after `cur`, whatever the log was before; starting a
finished training again empties the log. -/
theorem C65_log_lost (train : Nat → σ → σ × l) (exp : Str) (epochs cur : Nat) (s : σ) (d : Disk σ l) :
    ((fit train exp epochs cur s).foldl Action.apply d).log = List.range' (cur + 1) (epochs - cur) ∧
    (epochs ≤ cur → ((fit train exp epochs cur s).foldl Action.apply d).log = []) := by
  have h : ((fit train exp epochs cur s).foldl Action.apply d).log = List.range' (cur + 1) (epochs - cur) := by
    unfold fit
    rw [List.foldl_cons, log_fitLoop]
    simp [Action.apply]
  refine ⟨h, fun hc => ?_⟩
  rw [h, Nat.sub_eq_zero_of_le hc]; rfl

/-- **C65 (negation).** Asking the logger to append always raises. -/
theorem C65_append_raises : (onTrainBegin true : Option (Action σ l)) = none := rfl

example : (execAll (fun _ : Unit => fun k (s : Nat) => (s + k + 1, k)) "x".toList [.run () 10 2 7, .run () 10 2 7]).log = [] := by
  have h : ckptPath ['x'] 1 ≠ ckptPath ['x'] 2 := fun h => absurd (ckptPath_inj h) (by decide)
  simp [execAll, Event.exec, process, loadLast, Disk.empty, fit, fitLoop, Action.apply]

end Hyp.Torch.Trainer
