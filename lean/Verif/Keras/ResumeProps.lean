import Verif.Keras.Resume
import Verif.Keras.CallbacksProps
import Verif.Torch.TrainerProps

/-! # Property C165: training with Keras after a crash -/

namespace Hyp.Keras.Resume
open Hyp.Text Hyp
open Hyp.Torch.Trainer (pad4 parseNat_pad4)

variable {α β ω ρ : Type}

/-! ### specification -/

/-- the three files of the model `m` are complete under the name `p` -/
def Holds (d : Disk α β) (p : Str) (m : α × β) : Prop :=
  d (p ++ ".json".toList) = some .json ∧ d (p ++ ".enc.h5".toList) = some (.enc m.1) ∧ d (p ++ ".pt.h5".toList) = some (.pt m.2)

/-- the models `s 0, …, s n` are a training: each is one epoch after the one before. The optimizer `o k` at the begin of epoch `k` is
the one of the epoch before or a new one. -/
def IsTraining (train : ρ → Epoch α β ω) (o0 : ω) (init : α × β → Prop) (n : Nat) (s : Nat → α × β) (o : Nat → ω) : Prop :=
  init (s 0) ∧ o 0 = o0 ∧ ∀ k < n, ∃ r, (train r k (o k, s k)).1.2 = s (k + 1) ∧ (o (k + 1) = (train r k (o k, s k)).1.1 ∨ o (k + 1) = o0)

/-- the script gen-v2 with all epochs saved in the directory `dir`, without initial model -/
structure V2 (a : Args) (dir : Str) : Prop where
  dir : a.cb.dir = dir
  all : a.cb.saveAll = true
  path : a.initPath = none
  epoch : a.initEpoch = 0
  bump : a.bump = 1

/-- the starts of a history -/
def Starts (init : α × β → Prop) (dir : Str) : Event α β ρ → Prop
  | .run a _ fresh _ _ => V2 a dir ∧ init fresh
  | .rm _ => True

/-! ### names -/

theorem ext_inj {p q : Str} : ∀ x ∈ [".json".toList, ".enc.h5".toList, ".pt.h5".toList], ∀ y ∈ [".json".toList, ".enc.h5".toList, ".pt.h5".toList],
    p ++ x = q ++ y → p = q ∧ x = y := by
  intro x hx y hy h
  simp only [List.mem_cons, List.not_mem_nil, or_false] at hx hy
  have h' := congrArg List.reverse h
  rw [List.reverse_append, List.reverse_append] at h'
  rcases hx with rfl | rfl | rfl <;> rcases hy with rfl | rfl | rfl
  all_goals first
    | exact ⟨List.append_cancel_right h, rfl⟩
    | (exfalso; simp at h')

theorem epochPath_inj {dir : Str} {a b : Nat} (h : epochPath dir a = epochPath dir b) : a = b := by
  unfold epochPath at h
  have h := List.append_cancel_left (List.append_cancel_left h)
  have := parseNat_pad4 a
  rw [h, parseNat_pad4] at this
  exact (Option.some.inj this).symm

theorem epochPath_ne_model (dir : Str) (e : Nat) : epochPath dir e ≠ dir ++ "/model".toList := by
  intro h
  have := congrArg List.length h
  simp [epochPath] at this

theorem best_ne_epoch (dir : Str) (e : Nat) : dir ++ "/model.best".toList ≠ epochPath dir e := by
  intro h
  unfold epochPath at h
  have h := List.append_cancel_left h
  have h : "best".toList = pad4 e := List.append_cancel_left (as := "/model.".toList) h
  have := parseNat_pad4 e
  rw [← h, show parseNat "best".toList = none by decide] at this
  cases this

theorem best_ne_model (dir : Str) : dir ++ "/model.best".toList ≠ dir ++ "/model".toList := by
  intro h
  exact absurd (List.append_cancel_left h) (by decide)

theorem bestFile (dir : Str) : dir ++ "/model.best.json".toList = (dir ++ "/model.best".toList) ++ ".json".toList := by
  rw [List.append_assoc]; rfl

/-! ### loading -/

theorem readJson_iff (d : Disk α β) (q : Str) (u : Unit) : readJson d q = some u ↔ d q = some .json := by
  unfold readJson
  split <;> rename_i h
  · rw [h]; simp
  · constructor
    · intro hh; cases hh
    · intro hh; exact absurd hh h

theorem readEnc_iff (d : Disk α β) (q : Str) (a : α) : readEnc d q = some a ↔ d q = some (.enc a) := by
  unfold readEnc
  split
  · rename_i b h; rw [h]; simp
  · rename_i h
    constructor
    · intro hh; cases hh
    · intro hh; exact absurd hh (h a)

theorem readPt_iff (d : Disk α β) (q : Str) (a : β) : readPt d q = some a ↔ d q = some (.pt a) := by
  unfold readPt
  split
  · rename_i b h; rw [h]; simp
  · rename_i h
    constructor
    · intro hh; cases hh
    · intro hh; exact absurd hh (h a)

theorem load_iff (d : Disk α β) (p : Str) (m : α × β) : load d p = some m ↔ Holds d p m := by
  unfold load Holds
  simp only [Option.bind_eq_bind, Option.bind_eq_some_iff, readJson_iff, readEnc_iff, readPt_iff]
  constructor
  · rintro ⟨_, h1, a, h2, b, h3, h4⟩
    obtain rfl := Option.some.inj h4
    exact ⟨h1, h2, h3⟩
  · rintro ⟨h1, h2, h3⟩
    exact ⟨(), h1, m.1, h2, m.2, h3, rfl⟩

theorem stripJson_digit (p : Str) (c : Char) (hc : ".json".toList.contains c = false) : stripJson (p ++ ([c] ++ ".json".toList)) = p ++ [c] := by
  unfold stripJson
  rw [show (p ++ ([c] ++ ".json".toList)).reverse = 'n' :: 'o' :: 's' :: 'j' :: '.' :: c :: p.reverse by simp]
  rw [List.dropWhile_cons_of_pos (by decide), List.dropWhile_cons_of_pos (by decide), List.dropWhile_cons_of_pos (by decide),
    List.dropWhile_cons_of_pos (by decide), List.dropWhile_cons_of_pos (by decide), List.dropWhile_cons_of_neg (by rw [hc]; simp)]
  simp

theorem pad4_last (e : Nat) : ∃ l c, pad4 e = l ++ [c] ∧ ".json".toList.contains c = false := by
  have hne : pad4 e ≠ [] := by
    unfold Hyp.Torch.Trainer.pad4
    simp [printNat_ne_nil]
  refine ⟨(pad4 e).dropLast, (pad4 e).getLast hne, (List.dropLast_append_getLast hne).symm, ?_⟩
  have hm := List.getLast_mem hne
  generalize (pad4 e).getLast hne = c at hm
  unfold Hyp.Torch.Trainer.pad4 at hm
  rcases List.mem_append.1 hm with h | h
  · rw [(List.mem_replicate.1 h).2]; decide
  · obtain ⟨x, hx, rfl⟩ := mem_printNat h
    interval_cases x <;> decide

theorem strip_epoch (dir : Str) (e : Nat) : stripJson (dir ++ ("/model.".toList ++ (pad4 e ++ ".json".toList))) = epochPath dir e := by
  obtain ⟨l, c, h1, h2⟩ := pad4_last e
  have : dir ++ ("/model.".toList ++ (pad4 e ++ ".json".toList)) = (dir ++ ("/model.".toList ++ l)) ++ ([c] ++ ".json".toList) := by
    rw [h1]; simp only [List.append_assoc]
  rw [this, stripJson_digit _ _ h2]
  unfold epochPath
  rw [h1]; simp only [List.append_assoc]

theorem strip_best (dir : Str) : stripJson (dir ++ "/model.best.json".toList) = dir ++ "/model.best".toList := by
  have : dir ++ "/model.best.json".toList = (dir ++ "/model.bes".toList) ++ (['t'] ++ ".json".toList) := by
    rw [List.append_assoc]; rfl
  rw [this, stripJson_digit _ _ (by decide), List.append_assoc]; rfl

theorem epochFile (dir : Str) (e : Nat) : dir ++ ("/model.".toList ++ (pad4 e ++ ".json".toList)) = epochPath dir e ++ ".json".toList := by
  unfold epochPath; simp only [List.append_assoc]

theorem findEpoch_none (d : Disk α β) (dir : Str) (epochs : Nat) :
    findEpoch d dir epochs = none ↔ ∀ e ≤ epochs, d (epochPath dir e ++ ".json".toList) = none := by
  induction epochs with
  | zero =>
    rw [findEpoch, epochFile]
    cases h : d (epochPath dir 0 ++ ".json".toList) with
    | none =>
      rw [if_neg (by simp)]
      refine ⟨fun _ e he => ?_, fun _ => rfl⟩
      have : e = 0 := by omega
      subst this; exact h
    | some x =>
      rw [if_pos (by simp)]
      refine ⟨fun hh => (by cases hh), fun hh => ?_⟩
      rw [hh 0 (le_refl _)] at h; cases h
  | succ n ih =>
    rw [findEpoch, epochFile]
    cases h : d (epochPath dir (n + 1) ++ ".json".toList) with
    | none =>
      rw [if_neg (by simp), ih]
      constructor
      · intro hh e he
        rcases Nat.lt_or_ge e (n + 1) with h1 | h1
        · exact hh e (by omega)
        · have : e = n + 1 := by omega
          subst this; exact h
      · intro hh e he; exact hh e (by omega)
    | some x =>
      rw [if_pos (by simp)]
      constructor
      · intro hh; cases hh
      · intro hh; rw [hh (n + 1) (le_refl _)] at h; cases h

theorem findEpoch_some (d : Disk α β) (dir : Str) (epochs e : Nat) (he : e ≤ epochs) (h : d (epochPath dir e ++ ".json".toList) ≠ none)
    (hno : ∀ k, e < k → k ≤ epochs → d (epochPath dir k ++ ".json".toList) = none) :
    findEpoch d dir epochs = some (dir ++ ("/model.".toList ++ (pad4 e ++ ".json".toList)), e) := by
  induction epochs with
  | zero =>
    have : e = 0 := by omega
    subst this
    rw [findEpoch]
    rw [if_pos (by rw [epochFile]; exact Option.ne_none_iff_isSome.1 h)]
  | succ n ih =>
    rw [findEpoch]
    by_cases hen : e = n + 1
    · subst hen
      rw [if_pos (by rw [epochFile]; exact Option.ne_none_iff_isSome.1 h)]
    · rw [if_neg (by rw [epochFile, hno (n + 1) (by omega) (le_refl _)]; simp)]
      exact ih (by omega) (fun k h1 h2 => hno k h1 (by omega))

/-- **C165 (which checkpoint).** `load_checkpoint(dir, epochs)` takes the largest epoch `e ≤ epochs` whose `model.%04d.json` exists, else
`model.best` with epoch 0, else there is no model; it raises exactly when one of the three files of the chosen model is missing or incomplete,
and otherwise gives the model of these files. -/
theorem C165_which (d : Disk α β) (dir : Str) (epochs : Nat) :
    (∀ e ≤ epochs, d (dir ++ ("/model.".toList ++ (pad4 e ++ ".json".toList))) ≠ none →
      (∀ k, e < k → k ≤ epochs → d (dir ++ ("/model.".toList ++ (pad4 k ++ ".json".toList))) = none) →
      (∀ m, loadCheckpoint d dir epochs = some (some m, e) ↔ Holds d (dir ++ ("/model.".toList ++ pad4 e)) m) ∧
      (loadCheckpoint d dir epochs = none ↔ ∀ m, ¬ Holds d (dir ++ ("/model.".toList ++ pad4 e)) m)) ∧
    ((∀ e ≤ epochs, d (dir ++ ("/model.".toList ++ (pad4 e ++ ".json".toList))) = none) →
      (d (dir ++ "/model.best.json".toList) ≠ none →
        (∀ m, loadCheckpoint d dir epochs = some (some m, 0) ↔ Holds d (dir ++ "/model.best".toList) m) ∧
        (loadCheckpoint d dir epochs = none ↔ ∀ m, ¬ Holds d (dir ++ "/model.best".toList) m)) ∧
      (d (dir ++ "/model.best.json".toList) = none → loadCheckpoint d dir epochs = some (none, 0))) := by
  have key : ∀ (q : Str) (e : Nat), (∀ m, (load d q).map (fun m => (some m, e)) = some (some m, e) ↔ Holds d q m) ∧
      ((load d q).map (fun m => (some m, e)) = none ↔ ∀ m, ¬ Holds d q m) := by
    intro q e
    constructor
    · intro m
      rw [← load_iff]
      cases load d q <;> simp
    · cases h : load d q with
      | none =>
        simp only [Option.map_none, true_iff]
        intro m hm
        rw [(load_iff d q m).2 hm] at h; cases h
      | some m =>
        simp only [Option.map_some, reduceCtorEq, false_iff]
        intro hh; exact hh m ((load_iff d q m).1 h)
  refine ⟨?_, ?_⟩
  · intro e he h1 h2
    have hf := findEpoch_some d dir epochs e he (by rw [← epochFile]; exact h1) (fun k a b => by rw [← epochFile]; exact h2 k a b)
    have hl : loadCheckpoint d dir epochs = (load d (epochPath dir e)).map (fun m => (some m, e)) := by
      unfold loadCheckpoint; rw [hf]
      show (load d (stripJson _)).map _ = _
      rw [strip_epoch]
    rw [hl]
    exact key _ e
  · intro h
    have hf := (findEpoch_none d dir epochs).2 (fun e he => by rw [← epochFile]; exact h e he)
    refine ⟨?_, ?_⟩
    · intro hb
      have hl : loadCheckpoint d dir epochs = (load d (dir ++ "/model.best".toList)).map (fun m => (some m, 0)) := by
        unfold loadCheckpoint; rw [hf]
        have e : findBest d dir = some (dir ++ "/model.best.json".toList, 0) := by
          unfold findBest; dsimp only; rw [if_pos (Option.ne_none_iff_isSome.1 hb)]
        rw [e]
        show (load d (stripJson _)).map _ = _
        rw [strip_best]
      rw [hl]
      exact key _ 0
    · intro hb
      unfold loadCheckpoint; rw [hf]
      have e : findBest d dir = none := by
        unfold findBest; dsimp only; rw [if_neg (by rw [hb]; simp)]
      rw [e]
      rfl

/-! ### writes -/

/-- none of the files of a checkpoint exist -/
def Absent (d : Disk α β) (p : Str) : Prop := ∀ x ∈ [".json".toList, ".enc.h5".toList, ".pt.h5".toList], d (p ++ x) = none

/-- a checkpoint cut by a crash -/
def Pending (d : Disk α β) (p : Str) : Prop := d (p ++ ".json".toList) ≠ none ∧ ∀ b, d (p ++ ".pt.h5".toList) ≠ some (.pt b)

theorem apply_ne (d : Disk α β) (q p : Str) (hq : q ≠ p) (x : Str) (hx : x ∈ [".json".toList, ".enc.h5".toList, ".pt.h5".toList]) (m : α × β) :
    ∀ a ∈ saveActs p m, a.apply d (q ++ x) = d (q ++ x) := by
  intro a ha
  have hne : ∀ y ∈ [".json".toList, ".enc.h5".toList, ".pt.h5".toList], q ++ x ≠ p ++ y := fun y hy h => hq (ext_inj x hx y hy h).1
  simp only [saveActs, List.mem_cons, List.not_mem_nil, or_false] at ha
  rcases ha with rfl | rfl | rfl | rfl | rfl | rfl <;> exact if_neg (hne _ (by simp))

theorem foldl_ne (q p : Str) (hq : q ≠ p) (x : Str) (hx : x ∈ [".json".toList, ".enc.h5".toList, ".pt.h5".toList]) (m : α × β) (l : List (Action α β))
    (hl : ∀ a ∈ l, a ∈ saveActs p m) (d : Disk α β) : l.foldl Action.apply d (q ++ x) = d (q ++ x) := by
  induction l generalizing d with
  | nil => rfl
  | cons a l ih =>
    rw [List.foldl_cons, ih (fun b hb => hl b (by simp [hb])), apply_ne d q p hq x hx m a (hl a (by simp))]

theorem save_ne (q p : Str) (hq : q ≠ p) (x : Str) (hx : x ∈ [".json".toList, ".enc.h5".toList, ".pt.h5".toList]) (m : α × β) (k : Nat) (d : Disk α β) :
    ((saveActs p m).take k).foldl Action.apply d (q ++ x) = d (q ++ x) :=
  foldl_ne q p hq x hx m _ (fun _ ha => List.mem_of_mem_take ha) d

theorem ext_ne (p : Str) : p ++ ".json".toList ≠ p ++ ".enc.h5".toList ∧ p ++ ".json".toList ≠ p ++ ".pt.h5".toList ∧ p ++ ".enc.h5".toList ≠ p ++ ".pt.h5".toList := by
  refine ⟨fun h => ?_, fun h => ?_, fun h => ?_⟩ <;> exact absurd (List.append_cancel_left h) (by decide)

/-- what the disk holds after `k` of the six writes of a save -/
theorem save_take (p : Str) (m : α × β) (k : Nat) (d : Disk α β) :
    (((saveActs p m).take k).foldl Action.apply d (p ++ ".json".toList) = if k = 0 then d (p ++ ".json".toList) else if k = 1 then some .broken else some .json) ∧
    (((saveActs p m).take k).foldl Action.apply d (p ++ ".enc.h5".toList) = if k < 3 then d (p ++ ".enc.h5".toList) else if k = 3 then some .broken else some (.enc m.1)) ∧
    (((saveActs p m).take k).foldl Action.apply d (p ++ ".pt.h5".toList) = if k < 5 then d (p ++ ".pt.h5".toList) else if k = 5 then some .broken else some (.pt m.2)) := by
  obtain ⟨h1, h2, h3⟩ := ext_ne p
  have h1' := h1.symm; have h2' := h2.symm; have h3' := h3.symm
  match k with
  | 0 => exact ⟨rfl, rfl, rfl⟩
  | 1 => refine ⟨?_, ?_, ?_⟩ <;> simp only [saveActs, List.take_succ_cons, List.take_zero, List.foldl_cons, List.foldl_nil, Action.apply, *, if_true, if_false] <;> simp
  | 2 => refine ⟨?_, ?_, ?_⟩ <;> simp only [saveActs, List.take_succ_cons, List.take_zero, List.foldl_cons, List.foldl_nil, Action.apply, *, if_true, if_false] <;> simp
  | 3 => refine ⟨?_, ?_, ?_⟩ <;> simp only [saveActs, List.take_succ_cons, List.take_zero, List.foldl_cons, List.foldl_nil, Action.apply, *, if_true, if_false] <;> simp
  | 4 => refine ⟨?_, ?_, ?_⟩ <;> simp only [saveActs, List.take_succ_cons, List.take_zero, List.foldl_cons, List.foldl_nil, Action.apply, *, if_true, if_false] <;> simp
  | 5 => refine ⟨?_, ?_, ?_⟩ <;> simp only [saveActs, List.take_succ_cons, List.take_zero, List.foldl_cons, List.foldl_nil, Action.apply, *, if_true, if_false] <;> simp
  | k + 6 =>
    refine ⟨?_, ?_, ?_⟩ <;> simp only [saveActs, List.take_succ_cons, List.take_nil, List.foldl_cons, List.foldl_nil, Action.apply, *, if_true, if_false]
    · rw [if_neg (by omega), if_neg (by omega)]
    · rw [if_neg (by omega), if_neg (by omega)]
    · rw [if_neg (by omega), if_neg (by omega)]

/-! ### the loop -/

/-- the checkpoint callback that the script gets -/
theorem ckOf_create (a : CbArgs) (cbs : List Cb) (h : createCallbacks a = some cbs) :
    ∃ c, ckOf cbs = some c ∧ c.monitor = a.monitor ∧ c.saveBestOnly = !a.saveAll ∧ (a.saveAll = true → ∀ e, c.path e = epochPath a.dir e) ∧
      (a.saveAll = false → ∀ e, c.path e = a.dir ++ "/model.best".toList) := by
  have e : createCallbacks a = (plateauCb a).bind (fun pl => some (_ ++ pl)) := rfl
  rw [e] at h
  cases hp : plateauCb a with
  | none => rw [hp] at h; cases h
  | some pl =>
    rw [hp] at h
    obtain rfl := Option.some.inj h
    refine ⟨_, rfl, rfl, rfl, ?_, ?_⟩
    · intro hs e
      show (if a.saveAll = true then _ else _) = _
      rw [if_pos hs]; rfl
    · intro hs e
      show (if a.saveAll = true then _ else _) = _
      rw [if_neg (by rw [hs]; simp)]

theorem ckEpoch_all (c : CkCfg) (hb : c.saveBestOnly = false) (k : CkSt) (e : Nat) (m : Option Rat) :
    (ckEpoch c { k with disk := [] } e m).disk = [(c.path e, e)] := by
  unfold ckEpoch
  dsimp only
  rw [if_pos (show (ckOp c).period ≤ k.since + 1 from (show 1 ≤ k.since + 1 by omega)), if_neg (by rw [hb]; simp)]
  rfl

theorem fitLoop_succ (train : Epoch α β ω) (c : CkCfg) (hb : c.saveBestOnly = false) (n e : Nat) (k : CkSt) (s : ω × (α × β)) :
    ∃ k', fitLoop train c (n + 1) e k s = (saveActs (c.path e) (train e s).1.2 ++ (fitLoop train c n (e + 1) k' (train e s).1).1,
      (fitLoop train c n (e + 1) k' (train e s).1).2) := by
  refine ⟨ckEpoch c { k with disk := [] } e (train e s).2, ?_⟩
  rw [fitLoop, ckEpoch_all c hb]
  simp

/-- the checkpoints of epochs `0..n-1` are complete and form a training; there is nothing else but possibly an incomplete one of epoch `n` -/
structure Good (train : ρ → Epoch α β ω) (o0 : ω) (init : α × β → Prop) (dir : Str) (d : Disk α β) (n : Nat) (s : Nat → α × β) (o : Nat → ω) : Prop where
  training : IsTraining train o0 init n s o
  ok : ∀ e < n, Holds d (epochPath dir e) (s (e + 1))
  rest : ∀ e, n < e → Absent d (epochPath dir e)
  next : Absent d (epochPath dir n) ∨ Pending d (epochPath dir n)
  best : d (dir ++ "/model.best.json".toList) = none

theorem Good.congr {train : ρ → Epoch α β ω} {o0 : ω} {init : α × β → Prop} {dir : Str} {d d' : Disk α β} {n : Nat} {s : Nat → α × β} {o : Nat → ω}
    (g : Good train o0 init dir d n s o) (h : ∀ e, ∀ x ∈ [".json".toList, ".enc.h5".toList, ".pt.h5".toList], d' (epochPath dir e ++ x) = d (epochPath dir e ++ x))
    (hbest : d' (dir ++ "/model.best.json".toList) = d (dir ++ "/model.best.json".toList)) :
    Good train o0 init dir d' n s o := by
  refine ⟨g.training, fun e he => ?_, fun e he x hx => ?_, ?_, hbest.trans g.best⟩
  · obtain ⟨h1, h2, h3⟩ := g.ok e he
    exact ⟨(h e _ (by simp)).trans h1, (h e _ (by simp)).trans h2, (h e _ (by simp)).trans h3⟩
  · exact (h e x hx).trans (g.rest e he x hx)
  · rcases g.next with hn | ⟨h1, h2⟩
    · exact Or.inl (fun x hx => (h n x hx).trans (hn x hx))
    · refine Or.inr ⟨?_, ?_⟩
      · rw [h n _ (by simp)]; exact h1
      · intro b; rw [h n _ (by simp)]; exact h2 b

theorem length_saveActs (p : Str) (m : α × β) : (saveActs p m).length = 6 := rfl

/-- the invariant along the writes of the loop, at every crash point -/
theorem fitLoop_good {train : ρ → Epoch α β ω} {o0 : ω} {init : α × β → Prop} {dir : Str} (r : ρ) (c : CkCfg) (hb : c.saveBestOnly = false)
    (hc : ∀ e, c.path e = epochPath dir e) : ∀ (m n k : Nat) (ck : CkSt) (d : Disk α β) (s : Nat → α × β) (o : Nat → ω),
    Good train o0 init dir d n s o → Absent d (epochPath dir n) →
    ∃ n' s' o', Good train o0 init dir (((fitLoop (train r) c m n ck (o n, s n)).1.take k).foldl Action.apply d) n' s' o' ∧ n ≤ n' ∧ (∀ e ≤ n, s' e = s e) ∧
      ((fitLoop (train r) c m n ck (o n, s n)).1.length ≤ k → n' = n + m ∧ Absent (((fitLoop (train r) c m n ck (o n, s n)).1.take k).foldl Action.apply d) (epochPath dir n')
        ∧ (fitLoop (train r) c m n ck (o n, s n)).2 = s' n') := by
  intro m
  induction m with
  | zero => intro n k ck d s o g hn; exact ⟨n, s, o, by simpa [fitLoop] using g, le_refl _, fun _ _ => rfl, fun _ => ⟨rfl, by simpa [fitLoop] using hn, rfl⟩⟩
  | succ m ih =>
    intro n k ck d s o g hn
    obtain ⟨ck', hl⟩ := fitLoop_succ (train r) c hb m n ck (o n, s n)
    rw [hl, hc]
    dsimp only
    set t := train r n (o n, s n) with ht
    rw [List.take_append, List.foldl_append, length_saveActs, List.length_append, length_saveActs]
    obtain ⟨j1, j2, j3⟩ := save_take (epochPath dir n) t.1.2 k d
    have hne := fun (e : Nat) (he : e ≠ n) x hx => save_ne (epochPath dir e) (epochPath dir n) (fun h => he (epochPath_inj h)) x hx t.1.2 k d
    have hbst : ((saveActs (epochPath dir n) t.1.2).take k).foldl Action.apply d (dir ++ "/model.best.json".toList) = none := by
      rw [bestFile, save_ne _ _ (best_ne_epoch dir n) _ (by simp), ← bestFile]; exact g.best
    generalize hd1 : ((saveActs (epochPath dir n) t.1.2).take k).foldl Action.apply d = d1 at j1 j2 j3 hne hbst
    by_cases hk : k < 6
    · rw [show k - 6 = 0 by omega, List.take_zero, List.foldl_nil]
      refine ⟨n, s, o, ⟨g.training, ?_, ?_, ?_, hbst⟩, le_refl _, fun _ _ => rfl, fun h => by omega⟩
      · intro e he
        obtain ⟨h1, h2, h3⟩ := g.ok e he
        exact ⟨(hne e (by omega) _ (by simp)).trans h1, (hne e (by omega) _ (by simp)).trans h2, (hne e (by omega) _ (by simp)).trans h3⟩
      · intro e he x hx
        exact (hne e (by omega) x hx).trans (g.rest e he x hx)
      · by_cases h0 : k = 0
        · left
          subst h0
          rw [← hd1]
          exact hn
        · right
          refine ⟨?_, ?_⟩
          · rw [j1, if_neg h0]; split <;> simp
          · intro b
            rw [j3]
            by_cases h5 : k < 5
            · rw [if_pos h5, hn _ (by simp)]; simp
            · rw [if_neg h5, if_pos (by omega)]; simp
    · have hholds : Holds d1 (epochPath dir n) t.1.2 :=
        ⟨by rw [j1, if_neg (by omega), if_neg (by omega)], by rw [j2, if_neg (by omega), if_neg (by omega)], by rw [j3, if_neg (by omega), if_neg (by omega)]⟩
      set s2 : Nat → α × β := fun e => if e = n + 1 then t.1.2 else s e with hs2
      set o2 : Nat → ω := fun e => if e = n + 1 then t.1.1 else o e with ho2
      have e1 : t.1 = (o2 (n + 1), s2 (n + 1)) := by simp [hs2, ho2]
      have hsn : ∀ e ≤ n, s2 e = s e := fun e he => by simp [hs2]; omega
      have hon : ∀ e ≤ n, o2 e = o e := fun e he => by simp [ho2]; omega
      have g2 : Good train o0 init dir d1 (n + 1) s2 o2 := by
        refine ⟨⟨?_, ?_, ?_⟩, ?_, ?_, Or.inl ?_, hbst⟩
        · rw [hsn 0 (by omega)]; exact g.training.1
        · rw [hon 0 (by omega)]; exact g.training.2.1
        · intro j hj
          by_cases hjn : j = n
          · subst hjn
            refine ⟨r, ?_⟩
            rw [hsn j (le_refl _), hon j (le_refl _), ← ht]
            exact ⟨by simp [hs2], Or.inl (by simp [ho2])⟩
          · obtain ⟨r', h1, h2⟩ := g.training.2.2 j (by omega)
            refine ⟨r', ?_⟩
            rw [hsn j (by omega), hsn (j + 1) (by omega), hon j (by omega), hon (j + 1) (by omega)]
            exact ⟨h1, h2⟩
        · intro e he
          by_cases hen : e = n
          · subst hen
            have : s2 (e + 1) = t.1.2 := by simp [hs2]
            rw [this]; exact hholds
          · rw [hsn (e + 1) (by omega)]
            obtain ⟨h1, h2, h3⟩ := g.ok e (by omega)
            exact ⟨(hne e (by omega) _ (by simp)).trans h1, (hne e (by omega) _ (by simp)).trans h2, (hne e (by omega) _ (by simp)).trans h3⟩
        · intro e he x hx
          exact (hne e (by omega) x hx).trans (g.rest e (by omega) x hx)
        · intro x hx
          exact (hne (n + 1) (by omega) x hx).trans (g.rest (n + 1) (by omega) x hx)
      have hab : Absent d1 (epochPath dir (n + 1)) := fun x hx => (hne (n + 1) (by omega) x hx).trans (g.rest (n + 1) (by omega) x hx)
      obtain ⟨n', s', o', a1, a2, a3, a4⟩ := ih (n + 1) (k - 6) ck' d1 s2 o2 g2 hab
      rw [← e1] at a1 a4
      refine ⟨n', s', o', a1, by omega, fun e he => by rw [a3 e (by omega), hsn e he], fun h => ?_⟩
      obtain ⟨b1, b2, b3⟩ := a4 (by omega)
      exact ⟨by omega, b2, b3⟩

/-! ### one process -/

theorem pending_not_holds {d : Disk α β} {p : Str} (h : Pending d p) (m : α × β) : ¬ Holds d p m := fun hh => h.2 m.2 hh.2.2

theorem Good.begins {train : ρ → Epoch α β ω} {o0 : ω} {init : α × β → Prop} {dir : Str} {d : Disk α β} {n : Nat} {s : Nat → α × β} {o : Nat → ω}
    (g : Good train o0 init dir d n s o) (a : Args) (ha : V2 a dir) (fresh : α × β) :
    (n ≤ a.epochs ∧ Pending d (epochPath dir n) → Resume.begins a fresh d = none) ∧
    (¬ (n ≤ a.epochs ∧ Pending d (epochPath dir n)) → Resume.begins a fresh d =
      some (if n = 0 then fresh else s (min n (a.epochs + 1)), min n (a.epochs + 1))) := by
  have hb : Resume.begins a fresh d = (loadCheckpoint d dir a.epochs).map (chosen a fresh) := by
    unfold Resume.begins
    rw [ha.path, ha.dir]
  have w := C165_which d dir a.epochs
  constructor
  · rintro ⟨h1, h2⟩
    have := (w.1 n h1 (by rw [epochFile]; exact h2.1) (fun k hk _ => by rw [epochFile]; exact g.rest k hk _ (by simp))).2.2 (fun m => pending_not_holds h2 m)
    rw [hb, this]; rfl
  · intro hno
    have hj : n ≤ a.epochs → d (epochPath dir n ++ ".json".toList) = none := by
      intro hn
      rcases g.next with h | h
      · exact h _ (by simp)
      · exact absurd ⟨hn, h⟩ hno
    by_cases h0 : n = 0
    · subst h0
      have hall : ∀ e ≤ a.epochs, d (dir ++ ("/model.".toList ++ (pad4 e ++ ".json".toList))) = none := by
        intro e he
        rw [epochFile]
        rcases Nat.eq_zero_or_pos e with h | h
        · subst h; exact hj (by omega)
        · exact g.rest e h _ (by simp)
      rw [hb, (w.2 hall).2 g.best, if_pos rfl]
      show some (fresh, a.initEpoch) = _
      rw [ha.epoch]; simp
    · have hholds := g.ok (min n (a.epochs + 1) - 1) (by omega)
      have := ((w.1 (min n (a.epochs + 1) - 1) (by omega) (by rw [epochFile, hholds.1]; simp) (fun k hk1 hk2 => by
        rw [epochFile]
        have : n ≤ k := by omega
        rcases Nat.eq_or_lt_of_le this with h | h
        · subst h; exact hj hk2
        · exact g.rest k h _ (by simp))).1 _).2 hholds
      rw [hb, this, if_neg h0, show min n (a.epochs + 1) - 1 + 1 = min n (a.epochs + 1) by omega]
      show some (s (min n (a.epochs + 1)), min n (a.epochs + 1) - 1 + a.bump) = _
      rw [ha.bump, show min n (a.epochs + 1) - 1 + 1 = min n (a.epochs + 1) by omega]

theorem fitLoop_length (train : Epoch α β ω) (c : CkCfg) (hb : c.saveBestOnly = false) (m : Nat) : ∀ (e : Nat) (k : CkSt) (s : ω × (α × β)),
    (fitLoop train c m e k s).1.length = 6 * m := by
  induction m with
  | zero => intro e k s; rfl
  | succ m ih =>
    intro e k s
    obtain ⟨k', h⟩ := fitLoop_succ train c hb m e k s
    rw [h, List.length_append, ih, length_saveActs]; omega

/-- what a process that does not raise writes -/
theorem process_some {train : Epoch α β ω} {o0 : ω} {a : Args} {fresh : α × β} {stop : Nat} {d : Disk α β} {as : List (Action α β)}
    (h : process train o0 a fresh stop d = some as) : ∃ st c, begins a fresh d = some st ∧ c.monitor = a.cb.monitor ∧ c.saveBestOnly = !a.cb.saveAll ∧
      (a.cb.saveAll = true → ∀ e, c.path e = epochPath a.cb.dir e) ∧ (a.cb.saveAll = false → ∀ e, c.path e = a.cb.dir ++ "/model.best".toList) ∧ a.hasVal = true ∧
      as = (fitLoop train c (min (a.epochs - st.2) stop) st.2 { best := none, since := 0, disk := [] } (o0, st.1)).1 ++
        saveActs (a.cb.dir ++ "/model".toList) (fitLoop train c (min (a.epochs - st.2) stop) st.2 { best := none, since := 0, disk := [] } (o0, st.1)).2 := by
  unfold process at h
  cases hst : begins a fresh d with
  | none => rw [hst] at h; cases h
  | some st =>
    cases hcb : createCallbacks a.cb with
    | none => rw [hst, hcb] at h; cases h
    | some cbs =>
      obtain ⟨c, h1, h2, h3, h4, h5⟩ := ckOf_create a.cb cbs hcb
      rw [hst, hcb] at h
      simp only [Option.bind_eq_bind, Option.bind_some, h1] at h
      by_cases hv : a.hasVal = true
      · rw [if_pos hv] at h
        exact ⟨st, c, rfl, h2, h3, h4, h5, hv, (Option.some.inj h).symm⟩
      · rw [if_neg hv] at h; cases h

theorem process_ne_none {train : Epoch α β ω} {o0 : ω} {a : Args} {fresh : α × β} {stop : Nat} {d : Disk α β} :
    process train o0 a fresh stop d ≠ none ↔ begins a fresh d ≠ none ∧ a.hasVal = true ∧ ¬ (a.cb.lrPatience.isSome ∧ a.cb.lrIncFactor.isSome) := by
  unfold process
  cases hst : begins a fresh d with
  | none => simp
  | some st =>
    cases hcb : createCallbacks a.cb with
    | none =>
      have := (C152_create a.cb).1.1 hcb
      simp [this.1, this.2]
    | some cbs =>
      obtain ⟨c, h1, -⟩ := ckOf_create a.cb cbs hcb
      have hn : ¬ (a.cb.lrPatience.isSome ∧ a.cb.lrIncFactor.isSome) := fun hh => by rw [(C152_create a.cb).1.2 hh] at hcb; cases hcb
      simp only [Option.bind_eq_bind, Option.bind_some, h1]
      by_cases hv : a.hasVal = true
      · rw [if_pos hv]; exact ⟨fun _ => ⟨by simp, hv, hn⟩, fun _ => by simp⟩
      · rw [if_neg hv]; exact ⟨fun h => absurd rfl h, fun h => absurd h.2.1 hv⟩

theorem exec_good {train : ρ → Epoch α β ω} {o0 : ω} {init : α × β → Prop} {dir : Str} {d : Disk α β} {n : Nat} {s : Nat → α × β} {o : Nat → ω}
    (g : Good train o0 init dir d n s o) (ev : Event α β ρ) (hev : Starts init dir ev) :
    ∃ n' s' o', Good train o0 init dir (ev.exec train o0 dir d) n' s' o' ∧ n ≤ n' ∧ (∀ e, 1 ≤ e → e ≤ n → s' e = s e) ∧
      ∀ a r fresh stop k, ev = .run a r fresh stop k → process (train r) o0 a fresh stop d ≠ none → a.epochs ≤ stop → 6 * a.epochs + 6 ≤ k →
        a.epochs ≤ n' ∧ Holds (ev.exec train o0 dir d) (dir ++ "/model".toList) (s' (min n' (a.epochs + 1))) := by
  cases ev with
  | rm e =>
    refine ⟨n, s, o, ?_, le_refl _, fun _ _ _ => rfl, fun a r fresh stop k h => by cases h⟩
    show Good train o0 init dir (remove d (epochPath dir e)) n s o
    have hold : ∀ m, Holds d (epochPath dir e) m → remove d (epochPath dir e) = d := by
      intro m hm
      funext q
      unfold remove
      rw [(load_iff d _ m).2 hm, if_neg (by simp)]
    by_cases hen : e < n
    · rw [hold _ (g.ok e hen)]; exact g
    have hne : ∀ k, k ≠ e → ∀ x ∈ [".json".toList, ".enc.h5".toList, ".pt.h5".toList], remove d (epochPath dir e) (epochPath dir k ++ x) = d (epochPath dir k ++ x) := by
      intro k hk x hx
      unfold remove
      rw [if_neg]
      rintro ⟨-, h | h | h⟩
      all_goals exact hk (epochPath_inj (ext_inj x hx _ (by simp) h).1)
    have hsub : ∀ q, remove d (epochPath dir e) q = none ∨ remove d (epochPath dir e) q = d q := by
      intro q; unfold remove
      split
      · exact Or.inl rfl
      · exact Or.inr rfl
    have habs : ∀ k, Absent d (epochPath dir k) → Absent (remove d (epochPath dir e)) (epochPath dir k) := by
      intro k hk x hx
      rcases hsub (epochPath dir k ++ x) with h | h
      · exact h
      · rw [h]; exact hk x hx
    refine ⟨g.training, ?_, fun k hk => habs k (g.rest k hk), ?_, ?_⟩
    · intro k hk
      obtain ⟨h1, h2, h3⟩ := g.ok k hk
      exact ⟨(hne k (by omega) _ (by simp)).trans h1, (hne k (by omega) _ (by simp)).trans h2, (hne k (by omega) _ (by simp)).trans h3⟩
    · rcases g.next with h | h
      · exact Or.inl (habs n h)
      · by_cases hn : e = n
        · subst hn
          left
          have hl : (load d (epochPath dir e)).isNone = true := by
            cases hl : load d (epochPath dir e) with
            | none => rfl
            | some m => exact absurd ((load_iff _ _ _).1 hl) (pending_not_holds h m)
          intro x hx
          unfold remove
          rw [if_pos]
          refine ⟨hl, ?_⟩
          simp only [List.mem_cons, List.not_mem_nil, or_false] at hx
          rcases hx with rfl | rfl | rfl
          · exact Or.inl rfl
          · exact Or.inr (Or.inl rfl)
          · exact Or.inr (Or.inr rfl)
        · right
          refine ⟨?_, ?_⟩
          · rw [hne n (fun h => hn h.symm) _ (by simp)]; exact h.1
          · intro b; rw [hne n (fun h => hn h.symm) _ (by simp)]; exact h.2 b
    · rcases hsub (dir ++ "/model.best.json".toList) with h | h
      · exact h
      · rw [h]; exact g.best
  | run a r fresh stop k =>
    obtain ⟨ha, hf⟩ := hev
    show ∃ n' s' o', Good train o0 init dir (runKill (train r) o0 a fresh stop k d) n' s' o' ∧ _
    cases hp : process (train r) o0 a fresh stop d with
    | none =>
      have e : runKill (train r) o0 a fresh stop k d = d := by unfold runKill; rw [hp]
      rw [e]
      refine ⟨n, s, o, g, le_refl _, fun _ _ _ => rfl, ?_⟩
      intro a2 r2 f2 st2 k2 h hne
      injection h with h1 h2 h3 h4 h5
      subst h1; subst h2; subst h3; subst h4
      exact absurd hp hne
    | some as =>
      have e : runKill (train r) o0 a fresh stop k d = (as.take k).foldl Action.apply d := by unfold runKill; rw [hp]
      rw [show Event.exec train o0 dir d (.run a r fresh stop k) = (as.take k).foldl Action.apply d from e, e]
      obtain ⟨st, c, hst, -, h2, h3, -, hv, has⟩ := process_some hp
      rw [ha.all] at h2
      have hpath := h3 ha.all
      rw [ha.dir] at hpath has
      have hlen := fitLoop_length (train r) c h2 (min (a.epochs - st.2) stop) st.2 { best := none, since := 0, disk := [] } (o0, st.1)
      obtain ⟨hb1, hb2⟩ := g.begins a ha fresh
      have hno : ¬ (n ≤ a.epochs ∧ Pending d (epochPath dir n)) := fun h => by rw [hb1 h] at hst; cases hst
      have hst' := Option.some.inj (hst.symm.trans (hb2 hno))
      -- the state before the loop
      obtain ⟨s1, o1, g1, hs1, hloop⟩ : ∃ s1 o1, Good train o0 init dir d n s1 o1 ∧ (∀ e, 1 ≤ e → e ≤ n → s1 e = s e) ∧
          st = (s1 (min n (a.epochs + 1)), min n (a.epochs + 1)) ∧ (n ≤ a.epochs → o1 n = o0) := by
        by_cases h0 : n = 0
        · subst h0
          refine ⟨fun _ => fresh, fun _ => o0, ⟨⟨hf, rfl, fun k hk => absurd hk (by omega)⟩, fun e he => absurd he (by omega), g.rest, g.next, g.best⟩, fun e h1 h2 => by omega, ?_, fun _ => rfl⟩
          rw [hst', if_pos rfl]
        · refine ⟨s, fun e => if e = n then o0 else o e, ⟨⟨g.training.1, ?_, ?_⟩, g.ok, g.rest, g.next, g.best⟩, fun _ _ _ => rfl, ?_, fun _ => by simp⟩
          · show (if 0 = n then o0 else o 0) = o0
            rw [if_neg (fun h => h0 h.symm)]; exact g.training.2.1
          · intro j hj
            obtain ⟨r', q1, q2⟩ := g.training.2.2 j hj
            refine ⟨r', ?_⟩
            dsimp only
            rw [show (if j = n then o0 else o j) = o j from if_neg (by omega)]
            refine ⟨q1, ?_⟩
            by_cases hjn : j + 1 = n
            · right; rw [if_pos hjn]
            · rw [if_neg hjn]; exact q2
          · rw [hst', if_neg h0]
      obtain ⟨hst1, ho1⟩ := hloop
      clear hst' hb1 hb2
      -- the loop
      obtain ⟨n', s', o', g', hnn, hss, hfin⟩ : ∃ n' s' o', Good train o0 init dir (((fitLoop (train r) c (min (a.epochs - st.2) stop) st.2 { best := none, since := 0, disk := [] } (o0, st.1)).1.take k).foldl Action.apply d) n' s' o' ∧
          n ≤ n' ∧ (∀ e ≤ n, s' e = s1 e) ∧ (6 * (min (a.epochs - st.2) stop) ≤ k → a.epochs ≤ stop → a.epochs ≤ n' ∧
            (fitLoop (train r) c (min (a.epochs - st.2) stop) st.2 { best := none, since := 0, disk := [] } (o0, st.1)).2 = s' (min n' (a.epochs + 1))) := by
        by_cases hn : n ≤ a.epochs
        · have hmin : min n (a.epochs + 1) = n := by omega
          rw [hmin] at hst1
          have hab : Absent d (epochPath dir n) := by
            rcases g.next with h | h
            · exact h
            · exact absurd ⟨hn, h⟩ hno
          obtain ⟨n', s', o', q1, q2, q3, q4⟩ := fitLoop_good (train := train) (o0 := o0) (init := init) (dir := dir) r c h2 hpath (min (a.epochs - n) stop) n k { best := none, since := 0, disk := [] } d s1 o1 g1 hab
          rw [hst1]
          dsimp only
          rw [ho1 hn] at q1 q4
          refine ⟨n', s', o', q1, q2, q3, ?_⟩
          intro hk hs
          obtain ⟨z1, z2, z3⟩ := q4 (by rw [fitLoop_length _ _ h2]; exact hk)
          have : n' = a.epochs := by omega
          rw [z3]
          exact ⟨by omega, by rw [show min n' (a.epochs + 1) = n' by omega]⟩
        · have hm : min n (a.epochs + 1) = a.epochs + 1 := by omega
          rw [hm] at hst1
          have hz : min (a.epochs - st.2) stop = 0 := by rw [hst1]; show min (a.epochs - (a.epochs + 1)) stop = 0; omega
          rw [hz, fitLoop]
          refine ⟨n, s1, o1, by simpa using g1, le_refl _, fun _ _ => rfl, fun _ _ => ⟨by omega, ?_⟩⟩
          rw [hm, hst1]
      rw [has, List.take_append, List.foldl_append, hlen]
      generalize ((fitLoop (train r) c (min (a.epochs - st.2) stop) st.2 { best := none, since := 0, disk := [] } (o0, st.1)).1.take k).foldl Action.apply d = d1 at g'
      refine ⟨n', s', o', g'.congr ?_ ?_, hnn, fun e h1 h2 => (hss e h2).trans (hs1 e h1 h2), ?_⟩
      · intro e x hx
        exact save_ne _ _ (epochPath_ne_model dir e) x hx _ _ _
      · rw [bestFile, save_ne _ _ (best_ne_model dir) _ (by simp)]
      · intro a2 r2 f2 st2 k2 h hne hs2 hk2
        injection h with e1 e2 e3 e4 e5
        subst e1; subst e2; subst e3; subst e4; subst e5
        obtain ⟨z1, z2⟩ := hfin (by omega) hs2
        refine ⟨z1, ?_⟩
        rw [← z2]
        have hk6 : ¬ k - 6 * min (a.epochs - st.2) stop < 6 := by omega
        obtain ⟨j1, j2, j3⟩ := save_take (dir ++ "/model".toList) (fitLoop (train r) c (min (a.epochs - st.2) stop) st.2 { best := none, since := 0, disk := [] } (o0, st.1)).2 (k - 6 * min (a.epochs - st.2) stop) d1
        exact ⟨by rw [j1, if_neg (by omega), if_neg (by omega)], by rw [j2, if_neg (by omega), if_neg (by omega)], by rw [j3, if_neg (by omega), if_neg (by omega)]⟩

theorem execAll_good {train : ρ → Epoch α β ω} {o0 : ω} {init : α × β → Prop} (hne : ∃ m, init m) {dir : Str} (h : List (Event α β ρ)) (hi : ∀ ev ∈ h, Starts init dir ev) :
    ∃ n s o, Good train o0 init dir (execAll train o0 dir h) n s o := by
  induction h using List.reverseRecOn with
  | nil =>
    obtain ⟨m, hm⟩ := hne
    exact ⟨0, fun _ => m, fun _ => o0, ⟨hm, rfl, fun k hk => absurd hk (by omega)⟩, fun e he => absurd he (by omega), fun _ _ _ _ => rfl, Or.inl (fun _ _ => rfl), rfl⟩
  | append_singleton t ev ih =>
    obtain ⟨n, s, o, g⟩ := ih (fun x hx => hi x (by simp [hx]))
    obtain ⟨n', s', o', g', -⟩ := exec_good g ev (hi ev (by simp))
    refine ⟨n', s', o', ?_⟩
    unfold execAll at *
    rw [List.foldl_append]
    exact g'

/-! ### the properties -/

/-- **C165 (crash consistency, gen-v2).** With all epochs saved, whatever the history of starts, kills at any point (also inside a write) and
removals of incomplete checkpoints: the checkpoints that can be loaded are those of the epochs `0..n-1`, and they are the models of one training, in
which only the optimizer begins anew at some epochs. -/
theorem C165_crash_consistency {init : α × β → Prop} (hne : ∃ m, init m) (train : ρ → Epoch α β ω) (o0 : ω) (dir : Str) (h : List (Event α β ρ))
    (hi : ∀ ev ∈ h, Starts init dir ev) :
    ∃ n s o, IsTraining train o0 init n s o ∧
      ∀ e m, Holds (execAll train o0 dir h) (dir ++ ("/model.".toList ++ pad4 e)) m ↔ (e < n ∧ m = s (e + 1)) := by
  obtain ⟨n, s, o, g⟩ := execAll_good (train := train) (o0 := o0) hne h hi
  refine ⟨n, s, o, g.training, ?_⟩
  intro e m
  constructor
  · intro hm
    rcases Nat.lt_or_ge e n with h1 | h1
    · refine ⟨h1, ?_⟩
      exact Option.some.inj (((load_iff _ _ _).2 hm).symm.trans ((load_iff _ _ _).2 (g.ok e h1)))
    · exfalso
      have habs : ¬ Absent (execAll train o0 dir h) (epochPath dir e) := fun ha => by
        have := ha ".json".toList (by simp)
        rw [show execAll train o0 dir h (epochPath dir e ++ ".json".toList) = some .json from hm.1] at this
        cases this
      rcases Nat.eq_or_lt_of_le h1 with h2 | h2
      · subst h2
        rcases g.next with h | h
        · exact habs h
        · exact pending_not_holds h m hm
      · exact habs (g.rest e h2)
  · rintro ⟨h1, rfl⟩
    exact g.ok e h1

/-- **C165 (nothing is lost, gen-v2).** A complete checkpoint is never changed or removed by what happens later. -/
theorem C165_never_lost {init : α × β → Prop} (hne : ∃ m, init m) (train : ρ → Epoch α β ω) (o0 : ω) (dir : Str) (h h2 : List (Event α β ρ))
    (hi : ∀ ev ∈ h ++ h2, Starts init dir ev) (e : Nat) (m : α × β) (hm : Holds (execAll train o0 dir h) (dir ++ ("/model.".toList ++ pad4 e)) m) :
    Holds (execAll train o0 dir (h ++ h2)) (dir ++ ("/model.".toList ++ pad4 e)) m := by
  induction h2 using List.reverseRecOn with
  | nil => simpa using hm
  | append_singleton t ev ih =>
    have hd := ih (fun x hx => hi x (by simp only [List.mem_append] at hx ⊢; tauto))
    obtain ⟨n, s, o, g⟩ := execAll_good (train := train) (o0 := o0) hne (h ++ t) (fun x hx => hi x (by simp only [List.mem_append] at hx ⊢; tauto))
    obtain ⟨n', s', o', g', hn, hs, -⟩ := exec_good g ev (hi ev (by simp))
    have hen : e < n := by
      by_contra hcon
      have habs : ¬ Absent (execAll train o0 dir (h ++ t)) (epochPath dir e) := fun ha => by
        have := ha ".json".toList (by simp)
        rw [show execAll train o0 dir (h ++ t) (epochPath dir e ++ ".json".toList) = some .json from hd.1] at this
        cases this
      rcases Nat.eq_or_lt_of_le (Nat.le_of_not_lt hcon) with h2 | h2
      · subst h2
        rcases g.next with h | h
        · exact habs h
        · exact pending_not_holds h m hd
      · exact habs (g.rest e h2)
    have e1 : execAll train o0 dir (h ++ (t ++ [ev])) = ev.exec train o0 dir (execAll train o0 dir (h ++ t)) := by
      unfold execAll
      rw [← List.append_assoc, List.foldl_append (l' := [ev])]
      rfl
    have em : m = s (e + 1) := Option.some.inj (((load_iff _ _ _).2 hd).symm.trans ((load_iff _ _ _).2 (g.ok e hen)))
    rw [e1, em, ← hs (e + 1) (by omega) (by omega)]
    exact g'.ok e (by omega)

/-- **C165 (resuming, gen-v2, partial).** After any history, if no incomplete checkpoint at or below `epochs` is left, a start with a validation list does not
raise, and when it is not killed all epochs `0..epochs-1` are complete at its end, in one training, of which `model` is the last one (when no
earlier start trained more epochs). Missing: an incomplete checkpoint, see `C165_cut_blocks`; a start without validation list,
see `C165_needs_validation`; the optimizer, see `C165_optimizer_lost`. -/
theorem C165_resume_partial {init : α × β → Prop} (train : ρ → Epoch α β ω) (o0 : ω) (dir : Str) (h : List (Event α β ρ)) (hi : ∀ ev ∈ h, Starts init dir ev)
    (a : Args) (ha : V2 a dir) (hv : a.hasVal = true) (hcb : ¬ (a.cb.lrPatience.isSome ∧ a.cb.lrIncFactor.isSome)) (r : ρ) (fresh : α × β) (hf : init fresh)
    (stop k : Nat) (hstop : a.epochs ≤ stop) (hk : 6 * a.epochs + 6 ≤ k)
    (hcut : ∀ e ≤ a.epochs, execAll train o0 dir h (dir ++ ("/model.".toList ++ (pad4 e ++ ".json".toList))) ≠ none → ∃ m, Holds (execAll train o0 dir h) (dir ++ ("/model.".toList ++ pad4 e)) m) :
    process (train r) o0 a fresh stop (execAll train o0 dir h) ≠ none ∧
    ∃ n s o, IsTraining train o0 init n s o ∧ a.epochs ≤ n ∧
      (∀ e < a.epochs, Holds (execAll train o0 dir (h ++ [.run a r fresh stop k])) (dir ++ ("/model.".toList ++ pad4 e)) (s (e + 1))) ∧
      Holds (execAll train o0 dir (h ++ [.run a r fresh stop k])) (dir ++ "/model".toList) (s (min n (a.epochs + 1))) ∧
      ((∀ e, a.epochs ≤ e → ∀ m, ¬ Holds (execAll train o0 dir h) (dir ++ ("/model.".toList ++ pad4 e)) m) → n = a.epochs) := by
  obtain ⟨n, s, o, g⟩ := execAll_good (train := train) (o0 := o0) ⟨fresh, hf⟩ h hi
  have hno : ¬ (n ≤ a.epochs ∧ Pending (execAll train o0 dir h) (epochPath dir n)) := by
    rintro ⟨h1, h2⟩
    obtain ⟨m, hm⟩ := hcut n h1 (by rw [epochFile]; exact h2.1)
    exact pending_not_holds h2 m hm
  have hp : process (train r) o0 a fresh stop (execAll train o0 dir h) ≠ none := by
    rw [process_ne_none]
    refine ⟨?_, hv, hcb⟩
    rw [(g.begins a ha fresh).2 hno]; simp
  refine ⟨hp, ?_⟩
  obtain ⟨n', s', o', g', hnn, -, hfin⟩ := exec_good g (.run a r fresh stop k) ⟨ha, hf⟩
  have e1 : execAll train o0 dir (h ++ [.run a r fresh stop k]) = Event.exec train o0 dir (execAll train o0 dir h) (.run a r fresh stop k) := by
    unfold execAll
    rw [List.foldl_append]; rfl
  obtain ⟨z1, z2⟩ := hfin a r fresh stop k rfl hp hstop hk
  rw [e1]
  refine ⟨n', s', o', g'.training, z1, fun e he => g'.ok e (by omega), z2, ?_⟩
  intro hlow
  have hle : n ≤ a.epochs := by
    by_contra hc
    exact hlow a.epochs (le_refl _) _ (g.ok a.epochs (by omega))
  by_contra hne
  have hlt : a.epochs < n' := by omega
  have hold := g'.ok a.epochs hlt
  obtain ⟨as, has⟩ := Option.ne_none_iff_exists'.1 hp
  obtain ⟨st, c, hst, -, h2, h3, -, -, hw⟩ := process_some has
  rw [ha.all] at h2
  have hpath := h3 ha.all
  rw [ha.dir] at hpath hw
  -- the run does not touch the epochs from `a.epochs` on
  have hfresh : ∀ (m : Nat) (e : Nat) (ck : CkSt) (x : ω × (α × β)) (d : Disk α β) (j : Nat), e + m ≤ a.epochs →
      (((fitLoop (train r) c m e ck x).1.take j).foldl Action.apply d) (epochPath dir a.epochs ++ ".json".toList) = d (epochPath dir a.epochs ++ ".json".toList) := by
    intro m
    induction m with
    | zero => intro e ck x d j _; simp [fitLoop]
    | succ m ih =>
      intro e ck x d j hem
      obtain ⟨ck', hl⟩ := fitLoop_succ (train r) c h2 m e ck x
      rw [hl, hpath]
      dsimp only
      rw [List.take_append, List.foldl_append, ih _ _ _ _ _ (by omega), save_ne _ _ (fun hh => by have := epochPath_inj hh; omega) _ (by simp)]
  have hjson : Event.exec train o0 dir (execAll train o0 dir h) (.run a r fresh stop k) (epochPath dir a.epochs ++ ".json".toList) = execAll train o0 dir h (epochPath dir a.epochs ++ ".json".toList) := by
    show runKill (train r) o0 a fresh stop k (execAll train o0 dir h) _ = _
    unfold runKill
    rw [has]
    dsimp only
    rw [hw, List.take_append, List.foldl_append, save_ne _ _ (epochPath_ne_model dir _) _ (by simp)]
    by_cases hz : st.2 ≤ a.epochs
    · exact hfresh _ _ _ _ _ _ (by omega)
    · rw [show min (a.epochs - st.2) stop = 0 by omega, fitLoop]; simp
  have : execAll train o0 dir h (dir ++ ("/model.".toList ++ (pad4 a.epochs ++ ".json".toList))) ≠ none := by
    rw [epochFile, ← hjson, hold.1]; simp
  obtain ⟨m, hm⟩ := hcut a.epochs (le_refl _) this
  exact hlow a.epochs (le_refl _) m hm

/-- **C165 (negation: a cut save blocks).** When the newest checkpoint at or below `epochs` was cut (its configuration exists, but not all of its three files are
complete), every start raises before it trains, and the disk stays as it is, although older checkpoints may be complete. -/
theorem C165_cut_blocks (train : Epoch α β ω) (o0 : ω) (a : Args) (ha : a.initPath = none) (d : Disk α β) (e : Nat) (he : e ≤ a.epochs)
    (hj : d (a.cb.dir ++ ("/model.".toList ++ (pad4 e ++ ".json".toList))) ≠ none)
    (hlast : ∀ k, e < k → k ≤ a.epochs → d (a.cb.dir ++ ("/model.".toList ++ (pad4 k ++ ".json".toList))) = none)
    (hcut : ∀ m, ¬ Holds d (a.cb.dir ++ ("/model.".toList ++ pad4 e)) m) (fresh : α × β) (stop k : Nat) :
    process train o0 a fresh stop d = none ∧ runKill train o0 a fresh stop k d = d := by
  have hl := (((C165_which d a.cb.dir a.epochs).1 e he hj hlast).2).2 hcut
  have hp : process train o0 a fresh stop d = none := by
    by_contra hc
    refine (process_ne_none.1 hc).1 ?_
    unfold begins
    rw [ha, hl]; rfl
  refine ⟨hp, ?_⟩
  unfold runKill
  rw [hp]

/-- **C165 (negation: no validation list).** Without validation list the script always raises before the first epoch. -/
theorem C165_needs_validation (train : Epoch α β ω) (o0 : ω) (a : Args) (ha : a.hasVal = false) (fresh : α × β) (stop : Nat) (d : Disk α β) :
    process train o0 a fresh stop d = none := by
  by_contra hc
  have := (process_ne_none.1 hc).2.1
  rw [ha] at this; cases this

/-- the first epoch of a process is saved when all epochs are saved or the metric exists -/
theorem process_first {train : Epoch α β ω} {o0 : ω} {a : Args} {fresh : α × β} {stop : Nat} {d : Disk α β} {m : α × β} {e : Nat}
    (hb : begins a fresh d = some (m, e)) (he : e < a.epochs) (hs : 0 < stop) (hv : a.hasVal = true) (hcb : ¬ (a.cb.lrPatience.isSome ∧ a.cb.lrIncFactor.isSome))
    (hm : a.cb.saveAll = true ∨ (train e (o0, m)).2 ≠ none) :
    ∃ rest, process train o0 a fresh stop d =
      some (saveActs (if a.cb.saveAll then epochPath a.cb.dir e else a.cb.dir ++ "/model.best".toList) (train e (o0, m)).1.2 ++ rest) := by
  obtain ⟨as, has⟩ := Option.ne_none_iff_exists'.1 (process_ne_none.2 ⟨by rw [hb]; simp, hv, hcb⟩ : process train o0 a fresh stop d ≠ none)
  obtain ⟨st, c, hst, -, h2, h3, h4, -, hw⟩ := process_some has
  obtain rfl := Option.some.inj (hb.symm.trans hst)
  dsimp only at hw
  obtain ⟨q, hq⟩ : ∃ q, min (a.epochs - e) stop = q + 1 := ⟨min (a.epochs - e) stop - 1, by omega⟩
  rw [hq, fitLoop] at hw
  dsimp only at hw
  have hd : (ckEpoch c { best := none, since := 0, disk := [] } e (train e (o0, m)).2).disk = [(c.path e, e)] := by
    cases hsa : a.cb.saveAll with
    | true => exact ckEpoch_all c (by rw [h2, hsa]; rfl) { best := none, since := 0, disk := [] } e _
    | false =>
      rcases hm with hm | hm
      · rw [hsa] at hm; cases hm
      obtain ⟨v, hv⟩ := Option.ne_none_iff_exists'.1 hm
      rw [hv]
      unfold ckEpoch
      dsimp only
      rw [if_pos (show (ckOp c).period ≤ 0 + 1 from (show 1 ≤ 0 + 1 by omega)), if_pos (by rw [h2, hsa]; rfl), if_pos (by rfl)]
      rfl
  rw [hd] at hw
  have hpath : c.path e = if a.cb.saveAll then epochPath a.cb.dir e else a.cb.dir ++ "/model.best".toList := by
    cases hsa : a.cb.saveAll with
    | true => exact h3 hsa e
    | false => exact h4 hsa e
  rw [hpath, List.flatMap_cons, List.flatMap_nil, List.append_nil, List.append_assoc] at hw
  exact ⟨_, has.trans (congrArg some hw)⟩

theorem kill_at {train : Epoch α β ω} {o0 : ω} {a : Args} {fresh : α × β} {stop : Nat} {d : Disk α β} {p : Str} {new old : α × β} {rest : List (Action α β)}
    (h : process train o0 a fresh stop d = some (saveActs p new ++ rest)) (hold : Holds d p old) :
    Holds (runKill train o0 a fresh stop 4 d) p (new.1, old.2) ∧ Holds (runKill train o0 a fresh stop 6 d) p new := by
  unfold runKill
  rw [h]
  dsimp only
  obtain ⟨j1, j2, j3⟩ := save_take p new 4 d
  obtain ⟨i1, i2, i3⟩ := save_take p new 6 d
  have e4 : (saveActs p new ++ rest).take 4 = (saveActs p new).take 4 := rfl
  have e6 : (saveActs p new ++ rest).take 6 = (saveActs p new).take 6 := rfl
  rw [e4, e6]
  exact ⟨⟨j1, j2, by rw [j3]; exact hold.2.2⟩, ⟨i1, i2, i3⟩⟩

/-- **C165 (negation: gen-v1 trains an epoch twice).** gen-v1, with all epochs saved, whose newest checkpoint at or below `epochs` is that of epoch `e`: the process
trains epoch `e` once more, on the model that has finished it, and replaces the checkpoint; when it is killed between the two networks, the checkpoint
`e` that the next start loads has the new encoder and the old classifier. -/
theorem C165_v1_twice (train : Epoch α β ω) (o0 : ω) (a : Args) (ha : a.initPath = none) (hb : a.bump = 0) (hall : a.cb.saveAll = true) (hv : a.hasVal = true)
    (hcb : ¬ (a.cb.lrPatience.isSome ∧ a.cb.lrIncFactor.isSome)) (d : Disk α β) (e : Nat) (he : e < a.epochs) (m : α × β)
    (hm : Holds d (a.cb.dir ++ ("/model.".toList ++ pad4 e)) m)
    (hlast : ∀ k, e < k → k ≤ a.epochs → d (a.cb.dir ++ ("/model.".toList ++ (pad4 k ++ ".json".toList))) = none) (fresh : α × β) (stop : Nat) (hs : 0 < stop) :
    Holds (runKill train o0 a fresh stop 6 d) (a.cb.dir ++ ("/model.".toList ++ pad4 e)) (train e (o0, m)).1.2 ∧
    Holds (runKill train o0 a fresh stop 4 d) (a.cb.dir ++ ("/model.".toList ++ pad4 e)) ((train e (o0, m)).1.2.1, m.2) ∧
    loadCheckpoint (runKill train o0 a fresh stop 4 d) a.cb.dir a.epochs = some (some ((train e (o0, m)).1.2.1, m.2), e) := by
  have hl := (((C165_which d a.cb.dir a.epochs).1 e (by omega) (by rw [epochFile]; exact fun hh => by rw [show d (epochPath a.cb.dir e ++ ".json".toList) = some .json from hm.1] at hh; cases hh) hlast).1 m).2 hm
  have hbg : begins a fresh d = some (m, e) := by
    unfold begins
    rw [ha, hl]
    show some (m, e + a.bump) = _
    rw [hb]; rfl
  obtain ⟨rest, hp⟩ := process_first (train := train) (o0 := o0) hbg he hs hv hcb (Or.inl hall)
  rw [if_pos hall] at hp
  obtain ⟨h4, h6⟩ := kill_at hp hm
  refine ⟨h6, h4, ?_⟩
  have hk : ∀ k, e < k → k ≤ a.epochs → runKill train o0 a fresh stop 4 d (a.cb.dir ++ ("/model.".toList ++ (pad4 k ++ ".json".toList))) = none := by
    intro k h1 h2
    unfold runKill
    rw [hp, epochFile]
    dsimp only
    rw [show (saveActs (epochPath a.cb.dir e) (train e (o0, m)).1.2 ++ rest).take 4 = (saveActs (epochPath a.cb.dir e) (train e (o0, m)).1.2).take 4 from rfl,
      save_ne _ _ (fun hh => by have := epochPath_inj hh; omega) _ (by simp), ← epochFile]
    exact hlast k h1 h2
  exact (((C165_which _ a.cb.dir a.epochs).1 e (by omega) (by rw [epochFile]; exact fun hh => by rw [show runKill train o0 a fresh stop 4 d (epochPath a.cb.dir e ++ ".json".toList) = some .json from h4.1] at hh; cases hh) hk).1 _).2 h4

/-- **C165 (negation: the best model is lost).** With only the best model saved (the default), a start that finds `model.best` begins at epoch 0 (gen-v1) or 1 (gen-v2), however
many epochs were done, and the first epoch replaces `model.best` whatever its metric; when it is killed between the two networks, `model.best` has the new encoder and the
old classifier. -/
theorem C165_best_lost (train : Epoch α β ω) (o0 : ω) (a : Args) (ha : a.initPath = none) (hall : a.cb.saveAll = false) (hv : a.hasVal = true)
    (hcb : ¬ (a.cb.lrPatience.isSome ∧ a.cb.lrIncFactor.isSome)) (d : Disk α β) (he : a.bump < a.epochs) (m : α × β)
    (hm : Holds d (a.cb.dir ++ "/model.best".toList) m)
    (hnone : ∀ k ≤ a.epochs, d (a.cb.dir ++ ("/model.".toList ++ (pad4 k ++ ".json".toList))) = none) (fresh : α × β) (stop : Nat) (hs : 0 < stop)
    (hmet : (train a.bump (o0, m)).2 ≠ none) :
    Holds (runKill train o0 a fresh stop 6 d) (a.cb.dir ++ "/model.best".toList) (train a.bump (o0, m)).1.2 ∧
    Holds (runKill train o0 a fresh stop 4 d) (a.cb.dir ++ "/model.best".toList) ((train a.bump (o0, m)).1.2.1, m.2) := by
  have hl := ((((C165_which d a.cb.dir a.epochs).2 hnone).1 (by rw [bestFile, hm.1]; simp)).1 m).2 hm
  have hbg : begins a fresh d = some (m, a.bump) := by
    unfold begins
    rw [ha, hl]
    show some (m, 0 + a.bump) = _
    rw [Nat.zero_add]
  obtain ⟨rest, hp⟩ := process_first (train := train) (o0 := o0) hbg he hs hv hcb (Or.inr hmet)
  rw [if_neg (by rw [hall]; simp)] at hp
  obtain ⟨h4, h6⟩ := kill_at hp hm
  exact ⟨h6, h4⟩

/-- the loop refines the history of the checkpoint callback: what that history says about which epoch is stored where is true of the files -/
theorem fitLoop_ckRun (train : Epoch α β ω) (c : CkCfg) (first : Nat) (x : Nat → ω × (α × β)) (n : Nat) (hx : ∀ i < n, x (i + 1) = (train (first + i) (x i)).1) : ∀ (m i : Nat) (ck : CkSt) (d : Disk α β), i + m = n →
    ck.best = (ckRun c first ((List.range i).map (fun j => (train (first + j) (x j)).2)) []).best →
    (∀ p e, dictGet (ckRun c first ((List.range i).map (fun j => (train (first + j) (x j)).2)) []).disk p = some e → ∃ j < i, e = first + j ∧ Holds d p (x (j + 1)).2) →
    (∀ p e, dictGet (ckRun c first ((List.range n).map (fun j => (train (first + j) (x j)).2)) []).disk p = some e →
      ∃ j < n, e = first + j ∧ Holds ((fitLoop train c m (first + i) ck (x i)).1.foldl Action.apply d) p (x (j + 1)).2) ∧
    (fitLoop train c m (first + i) ck (x i)).2 = (x n).2 := by
  intro m
  induction m with
  | zero =>
    intro i ck d him _ h
    have : i = n := by omega
    subst this
    exact ⟨by simpa [fitLoop] using h, rfl⟩
  | succ m ih =>
    intro i ck d him hbest h
    have e1 := hx i (by omega)
    have hsn : ckRun c first ((List.range (i + 1)).map (fun j => (train (first + j) (x j)).2)) [] =
        ckEpoch c (ckRun c first ((List.range i).map (fun j => (train (first + j) (x j)).2)) []) (first + i) (train (first + i) (x i)).2 := by
      rw [List.range_succ, List.map_append, List.map_singleton, ckRun_snoc]; simp
    generalize hR : ckRun c first ((List.range i).map (fun j => (train (first + j) (x j)).2)) [] = R at hbest h hsn
    generalize hv : (train (first + i) (x i)).2 = v at hsn
    -- one epoch of the callback: saves or not, in the same way
    have hstep : ((ckEpoch c { ck with disk := [] } (first + i) v).disk = [] ∧ (ckEpoch c R (first + i) v).disk = R.disk ∨
        (ckEpoch c { ck with disk := [] } (first + i) v).disk = [(c.path (first + i), first + i)] ∧ (ckEpoch c R (first + i) v).disk = dictSet R.disk (c.path (first + i)) (first + i)) ∧
        (ckEpoch c { ck with disk := [] } (first + i) v).best = (ckEpoch c R (first + i) v).best := by
      unfold ckEpoch
      dsimp only
      rw [if_pos (show (ckOp c).period ≤ ck.since + 1 from (show 1 ≤ ck.since + 1 by omega)), if_pos (show (ckOp c).period ≤ R.since + 1 from (show 1 ≤ R.since + 1 by omega))]
      by_cases hb : c.saveBestOnly = true
      · rw [if_pos hb, if_pos hb]
        cases v with
        | none => exact ⟨Or.inl ⟨rfl, rfl⟩, hbest⟩
        | some w =>
          dsimp only
          rw [hbest]
          by_cases hi : improves (ckOp c).greater w R.best = true
          · rw [if_pos hi, if_pos hi]; exact ⟨Or.inr ⟨rfl, rfl⟩, rfl⟩
          · rw [if_neg hi, if_neg hi]; exact ⟨Or.inl ⟨rfl, rfl⟩, rfl⟩
      · rw [if_neg hb, if_neg hb]; exact ⟨Or.inr ⟨rfl, rfl⟩, hbest⟩
    rw [fitLoop, hv, ← e1, show first + i + 1 = first + (i + 1) by omega]
    obtain ⟨hdisk, hbst⟩ := hstep
    generalize hK : ckEpoch c { ck with disk := [] } (first + i) v = K at hdisk hbst
    dsimp only
    rw [List.foldl_append]
    refine ih (i + 1) K _ (by omega) ?_ ?_
    · rw [hsn]; exact hbst
    · intro p e hpe
      rw [hsn] at hpe
      rcases hdisk with ⟨h1, h2⟩ | ⟨h1, h2⟩
      · rw [h2] at hpe
        rw [h1]
        obtain ⟨j, hj, h3, h4⟩ := h p e hpe
        exact ⟨j, by omega, h3, by simpa using h4⟩
      · rw [h2, dictGet_set] at hpe
        rw [h1, List.flatMap_cons, List.flatMap_nil, List.append_nil]
        have hfull : (saveActs (c.path (first + i)) (x (i + 1)).2) = (saveActs (c.path (first + i)) (x (i + 1)).2).take 6 := rfl
        by_cases hp : c.path (first + i) = p
        · rw [if_pos hp] at hpe
          refine ⟨i, by omega, (Option.some.inj hpe).symm, ?_⟩
          obtain ⟨j1, j2, j3⟩ := save_take (c.path (first + i)) (x (i + 1)).2 6 d
          rw [hfull, ← hp]
          exact ⟨j1, j2, j3⟩
        · rw [if_neg hp] at hpe
          obtain ⟨j, hj, h3, q1, q2, q3⟩ := h p e hpe
          refine ⟨j, by omega, h3, ?_⟩
          rw [hfull]
          exact ⟨(save_ne p _ (fun hh => hp hh.symm) _ (by simp) _ _ _).trans q1, (save_ne p _ (fun hh => hp hh.symm) _ (by simp) _ _ _).trans q2,
            (save_ne p _ (fun hh => hp hh.symm) _ (by simp) _ _ _).trans q3⟩

/-- **C165 (one process).** A process that is not killed and trains the epochs `first, …, first + n - 1`, where `x i` is the optimizer and the model before the `i`-th of them: at its end
`model` is the last model; with all epochs saved each epoch is under its name; with only the best one saved `model.best` is the model of the first epoch with the best
metric of this process, when some epoch had the metric. -/
theorem C165_one_process (train : Epoch α β ω) (o0 : ω) (a : Args) (hv : a.hasVal = true) (hcb : ¬ (a.cb.lrPatience.isSome ∧ a.cb.lrIncFactor.isSome))
    (fresh : α × β) (d : Disk α β) (first : Nat) (m : α × β) (hb : begins a fresh d = some (m, first)) (stop n : Nat) (hn : n = min (a.epochs - first) stop)
    (x : Nat → ω × (α × β)) (hx0 : x 0 = (o0, m)) (hx : ∀ i < n, x (i + 1) = (train (first + i) (x i)).1) (k : Nat) (hk : 6 * n + 6 ≤ k) :
    Holds (runKill train o0 a fresh stop k d) (a.cb.dir ++ "/model".toList) (x n).2 ∧
    (a.cb.saveAll = true → ∀ i < n, Holds (runKill train o0 a fresh stop k d) (a.cb.dir ++ ("/model.".toList ++ pad4 (first + i))) (x (i + 1)).2) ∧
    (a.cb.saveAll = false → (∃ i < n, (train (first + i) (x i)).2 ≠ none) → ∃ i < n, ∃ v, (train (first + i) (x i)).2 = some v ∧
      Holds (runKill train o0 a fresh stop k d) (a.cb.dir ++ "/model.best".toList) (x (i + 1)).2 ∧
      ∀ j < n, ∀ u, (train (first + j) (x j)).2 = some u → (j < i → Better a.cb.monitor v u) ∧ ¬ Better a.cb.monitor u v) := by
  obtain ⟨as, has⟩ := Option.ne_none_iff_exists'.1 (process_ne_none.2 ⟨by rw [hb]; simp, hv, hcb⟩ : process train o0 a fresh stop d ≠ none)
  obtain ⟨st, c, hst, hmon, h2, h3, h4, -, hw⟩ := process_some has
  obtain rfl := Option.some.inj (hb.symm.trans hst)
  dsimp only at hw
  rw [← hn, ← hx0] at hw
  obtain ⟨hall, hlast⟩ := fitLoop_ckRun train c first x n hx n 0 { best := none, since := 0, disk := [] } d (by omega) rfl
    (fun p e h => by cases h)
  rw [Nat.add_zero] at hall hlast
  have hlen : as.length ≤ 6 * n + 6 := by
    have : ∀ (q e : Nat) (ck : CkSt) (s : ω × (α × β)), (fitLoop train c q e ck s).1.length ≤ 6 * q := by
      intro q
      induction q with
      | zero => intro e ck s; exact le_refl _
      | succ q ih =>
        intro e ck s
        rw [fitLoop]
        dsimp only
        rw [List.length_append]
        have h6 : ((ckEpoch c { ck with disk := [] } e (train e s).2).disk.flatMap (fun f => saveActs f.1 (train e s).1.2)).length ≤ 6 := by
          have : (ckEpoch c { ck with disk := [] } e (train e s).2).disk.length ≤ 1 := by
            unfold ckEpoch
            dsimp only
            split
            · split
              · split
                · simp
                · split
                  · simp [dictSet]
                  · simp
              · simp [dictSet]
            · simp
          generalize (ckEpoch c { ck with disk := [] } e (train e s).2).disk = l at this
          match l with
          | [] => simp
          | [f] => simp [length_saveActs]
          | _ :: _ :: _ => simp at this
        have := ih (e + 1) (ckEpoch c { ck with disk := [] } e (train e s).2) (train e s).1
        omega
    have h6 := this n first { best := none, since := 0, disk := [] } (x 0)
    rw [hw, List.length_append, length_saveActs]; omega
  have hrun : runKill train o0 a fresh stop k d = (saveActs (a.cb.dir ++ "/model".toList) (x n).2).foldl Action.apply
      ((fitLoop train c n first { best := none, since := 0, disk := [] } (x 0)).1.foldl Action.apply d) := by
    unfold runKill
    rw [has]
    dsimp only
    rw [List.take_of_length_le (by omega), hw, List.foldl_append, hlast]
  rw [hrun]
  generalize (fitLoop train c n first { best := none, since := 0, disk := [] } (x 0)).1.foldl Action.apply d = d1 at hall
  have hfull : saveActs (a.cb.dir ++ "/model".toList) (x n).2 = (saveActs (a.cb.dir ++ "/model".toList) (x n).2).take 6 := rfl
  rw [hfull]
  have keep : ∀ p q, p ≠ a.cb.dir ++ "/model".toList → Holds d1 p q → Holds (((saveActs (a.cb.dir ++ "/model".toList) (x n).2).take 6).foldl Action.apply d1) p q := by
    rintro p q hp ⟨q1, q2, q3⟩
    exact ⟨(save_ne p _ hp _ (by simp) _ _ _).trans q1, (save_ne p _ hp _ (by simp) _ _ _).trans q2, (save_ne p _ hp _ (by simp) _ _ _).trans q3⟩
  have hll : ((List.range n).map (fun j => (train (first + j) (x j)).2)).length = n := by simp
  refine ⟨?_, ?_, ?_⟩
  · obtain ⟨j1, j2, j3⟩ := save_take (a.cb.dir ++ "/model".toList) (x n).2 6 d1
    exact ⟨j1, j2, j3⟩
  · intro hsa i hi
    have hinj : Function.Injective c.path := by
      intro e1 e2 h
      rw [h3 hsa, h3 hsa] at h
      exact epochPath_inj h
    have := (C152_every c (by rw [h2, hsa]; rfl) hinj first ((List.range n).map (fun j => (train (first + j) (x j)).2)) []).1 i (by rw [hll]; exact hi)
    obtain ⟨j, -, h5, h6⟩ := hall _ _ this
    have : j = i := by omega
    subst this
    rw [h3 hsa] at h6
    exact keep _ _ (epochPath_ne_model _ _) h6
  · rintro hsa ⟨i, hi, hm⟩
    obtain ⟨v, hvv⟩ := Option.ne_none_iff_exists'.1 hm
    have hC := (C152_best c (a.cb.dir ++ "/model.best".toList) (by rw [h2, hsa]; rfl) (h4 hsa) first ((List.range n).map (fun j => (train (first + j) (x j)).2)) []).2.1
      ⟨v, List.mem_map.2 ⟨i, List.mem_range.2 hi, hvv⟩⟩
    obtain ⟨i', v', g1, g2, g3⟩ := hC
    have hget : ∀ (j : Nat) (w : Option Rat), ((List.range n).map (fun j => (train (first + j) (x j)).2))[j]? = some w ↔ j < n ∧ (train (first + j) (x j)).2 = w := by
      intro j w
      rw [List.getElem?_map]
      rcases Nat.lt_or_ge j n with h | h
      · rw [List.getElem?_range h]; simp [h]
      · rw [List.getElem?_eq_none (by simp; omega)]; simp; omega
    obtain ⟨hi', hv'⟩ := (hget i' (some v')).1 g1
    obtain ⟨j, -, h5, h6⟩ := hall _ _ g2
    have : j = i' := by omega
    subst this
    refine ⟨j, hi', v', hv', keep _ _ (best_ne_model _) h6, ?_⟩
    intro j2 hj2 u hu
    rw [← hmon]
    exact g3 j2 u ((hget j2 (some u)).2 ⟨hj2, hu⟩)

/-- **C165 (an initial model).** With `--init-path` the checkpoints in the output directory are never looked at: every start loads that model and begins at `--init-epoch`. -/
theorem C165_init_path (a : Args) (p : Str) (ha : a.initPath = some p) (fresh : α × β) (d : Disk α β) :
    (∀ st, begins a fresh d = some st ↔ Holds d p st.1 ∧ st.2 = a.initEpoch) ∧ (begins a fresh d = none ↔ ∀ m, ¬ Holds d p m) := by
  have e : begins a fresh d = (load d p).map (fun m => (m, a.initEpoch)) := by unfold begins; rw [ha]
  rw [e]
  constructor
  · intro st
    rw [← load_iff]
    cases load d p with
    | none => simp
    | some m =>
      simp only [Option.map_some, Option.some.injEq]
      constructor
      · rintro rfl; exact ⟨rfl, rfl⟩
      · rintro ⟨rfl, h⟩; rw [← h]
  · cases h : load d p with
    | none =>
      simp only [Option.map_none, true_iff]
      intro m hm
      rw [(load_iff d p m).2 hm] at h; cases h
    | some m =>
      simp only [Option.map_some, reduceCtorEq, false_iff]
      intro hh; exact hh m ((load_iff d p m).1 h)

/-- arguments for the examples -/
def exArgs (bump : Nat) (saveAll : Bool) : Args :=
  { cb := { dir := "d".toList, saveAll := saveAll, monitor := "val_loss".toList, mode := "auto".toList, patience := none, lrSteps := none, lrMonitor := none, lrMode := "auto".toList,
            lrPatience := none, lrFactor := 0, lrRedFactor := none, lrIncFactor := none, append := false },
    epochs := 3, initPath := none, initEpoch := 0, hasVal := true, bump := bump }

/-- **C165 (negation: the optimizer is lost).** A deterministic training (the optimizer counts the epochs and adds its count to the encoder): interrupted between two epochs it does
not give the model that the training without interruption gives. -/
theorem C165_optimizer_lost : ∃ (train : Epoch Nat Unit Nat) (o0 : Nat) (a : Args) (fresh : Nat × Unit), V2 a "d".toList ∧ a.hasVal = true ∧ ∃ m m', m ≠ m' ∧
    load (execAll (fun _ : Unit => train) o0 "d".toList [.run a () fresh 3 100]) "d/model.0002".toList = some m ∧
    load (execAll (fun _ : Unit => train) o0 "d".toList [.run a () fresh 3 12, .run a () fresh 3 100]) "d/model.0002".toList = some m' := by
  refine ⟨fun _ s => ((s.1 + 1, (s.2.1 + s.1, s.2.2)), none), 0, exArgs 1 true, (0, ()), ⟨rfl, rfl, rfl, rfl, rfl⟩, rfl, (3, ()), (1, ()), by decide, ?_, ?_⟩ <;> decide +kernel

/-- the hypotheses of the theorems above can be met: three epochs in a clean directory, killed inside the third save, then the cut checkpoint removed and the script started again -/
example : (∀ ev ∈ [Event.run (exArgs 1 true) () ((0, 0) : Nat × Nat) 3 15, .rm 2, .run (exArgs 1 true) () (0, 0) 3 100], Starts (fun m => m = (0, 0)) "d".toList ev) ∧
    (load (execAll (fun _ : Unit => fun e (s : Nat × (Nat × Nat)) => ((s.1, (s.2.1 + 1, s.2.2 + 10)), some (e : Rat))) 0 "d".toList
      [.run (exArgs 1 true) () (0, 0) 3 15, .rm 2, .run (exArgs 1 true) () (0, 0) 3 100]) "d/model".toList = some (3, 30)) ∧
    (loadCheckpoint (execAll (fun _ : Unit => fun e (s : Nat × (Nat × Nat)) => ((s.1, (s.2.1 + 1, s.2.2 + 10)), some (e : Rat))) 0 "d".toList
      [.run (exArgs 1 true) () (0, 0) 3 15]) "d".toList 3 = none) ∧
    (loadCheckpoint (execAll (fun _ : Unit => fun e (s : Nat × (Nat × Nat)) => ((s.1, (s.2.1 + 1, s.2.2 + 10)), some (e : Rat))) 0 "d".toList
      [.run (exArgs 0 true) () (0, 0) 3 100, .run (exArgs 0 true) () (0, 0) 3 4]) "d".toList 3 = some (some (4, 30), 2)) ∧
    load (execAll (fun _ : Unit => fun e (s : Nat × (Nat × Nat)) => ((s.1, (s.2.1 + 1, s.2.2 + 10)), some (e : Rat))) 0 "d".toList
      [.run (exArgs 1 false) () (0, 0) 3 100, .run (exArgs 1 false) () (0, 0) 3 100]) "d/model.best".toList = some (2, 20) := by
  refine ⟨?_, by decide +kernel, by decide +kernel, by decide +kernel, by decide +kernel⟩
  intro ev hev
  simp only [List.mem_cons, List.not_mem_nil, or_false] at hev
  rcases hev with rfl | rfl | rfl
  · exact ⟨⟨rfl, rfl, rfl, rfl, rfl⟩, rfl⟩
  · trivial
  · exact ⟨⟨rfl, rfl, rfl, rfl, rfl⟩, rfl⟩

end Hyp.Keras.Resume
