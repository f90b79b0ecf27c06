import Verif.Trials.KeyProps
import Mathlib.Algebra.Group.Defs

/-! # Properties C13-C17: TrialScores -/

namespace Hyp.Trials
open Hyp.ListUtils
variable {ν : Type} [LinearOrder ν] {α : Type}

/-! ### helper: rows found by `ismember` -/

theorem nonzero_flags {M : List ν} (hM : M.Nodup) (p : ν → Bool) :
    nonzero (M.map p) = (M.filter p).map M.idxOf := by
  apply sorted_ext (nonzero_sorted _)
  · have h1 : (M.map M.idxOf) = List.range M.length := by
      have := map_idxOf_of_gather hM (gather_range M)
      exact this
    have h2 : ((M.filter p).map M.idxOf).Sublist (M.map M.idxOf) := List.filter_sublist.map _
    rw [h1] at h2
    exact List.pairwise_lt_range.sublist h2
  · intro i
    rw [mem_nonzero, List.getElem?_map, List.mem_map]
    constructor
    · intro h
      cases hi : M[i]? with
      | none => rw [hi] at h; simp at h
      | some m =>
        rw [hi] at h
        exact ⟨m, List.mem_filter.2 ⟨List.mem_of_getElem? hi, by simpa using h⟩, idxOf_of_getElem? hM hi⟩
    · rintro ⟨m, hm, rfl⟩
      rw [List.mem_filter] at hm
      rw [getElem?_idxOf hm.1]
      simp [hm.2]

theorem ismember_reduce_filter (M own : List ν) :
    (ismember M own).2.reduceOption = (M.filter (fun x => decide (x ∈ own))).map own.idxOf := by
  rw [ismember_loc]
  induction M with
  | nil => rfl
  | cons x xs ih =>
    by_cases h : x ∈ own
    · simp [h, ih]
    · simp [h, ih]

theorem setIx_found_entry {M S : List ν} (hM : M.Nodup) (hS : S.Nodup) (ownM ownS : List ν) (z : α) (A : Mat α)
    {m s : ν} (hm : m ∈ M) (hs : s ∈ S) :
    ((Mat.full M.length S.length z).setIx (nonzero (ismember M ownM).1) (nonzero (ismember S ownS).1)
      (A.ix (ismember M ownM).2.reduceOption (ismember S ownS).2.reduceOption)).entry (M.idxOf m) (S.idxOf s) =
    if m ∈ ownM ∧ s ∈ ownS then A.entry (ownM.idxOf m) (ownS.idxOf s) else z := by
  rw [ismember_flag, ismember_flag, nonzero_flags hM, nonzero_flags hS, ismember_reduce_filter, ismember_reduce_filter]
  have e1 : ∀ x ∈ M.filter (fun x => decide (x ∈ ownM)), x ∈ M := fun x hx => (List.mem_filter.1 hx).1
  have e3 : ∀ x ∈ S.filter (fun x => decide (x ∈ ownS)), x ∈ S := fun x hx => (List.mem_filter.1 hx).1
  simp only [Mat.setIx, Mat.ix, Mat.full]
  simp only [mem_map_idxOf e1 hm, mem_map_idxOf e3 hs]
  rw [idxOf_map_idxOf e1 hm, idxOf_map_idxOf e3 hs]
  simp only [List.mem_filter, hm, hs, true_and, decide_eq_true_iff]
  by_cases h : m ∈ ownM ∧ s ∈ ownS
  · rw [if_pos h, if_pos h, getD_map_idxOf (List.mem_filter.2 ⟨hm, by simpa using h.1⟩),
      getD_map_idxOf (List.mem_filter.2 ⟨hs, by simpa using h.2⟩)]
  · rw [if_neg h, if_neg h]

section
variable [Zero α] [Add α]

theorem Scores.filter_keep_spec (x : Scores ν α) (hx : x.WF) (M S : List ν) (hM : M.Nodup) (hS : S.Nodup)
    (raise : Bool) (hok : raise = false ∨ ((∀ m ∈ M, m ∈ x.models) ∧ (∀ s ∈ S, s ∈ x.segs))) :
    ∃ r, x.filter M S true raise = some r ∧ r.WF ∧ r.models = M ∧ r.segs = S ∧
      ∀ m s v, r.HasScore m s v ↔ m ∈ M ∧ s ∈ S ∧ x.HasScore m s v := by
  by_cases h : (∀ m ∈ M, m ∈ x.models) ∧ (∀ s ∈ S, s ∈ x.segs)
  · obtain ⟨h1, h2⟩ := h
    have hc := Scores.create_some (S := x.scores.ix (M.map x.models.idxOf) (S.map x.segs.idxOf))
      (M := x.mask.ix (M.map x.models.idxOf) (S.map x.segs.idxOf)) hM hS (by simp [Mat.ix]) (by simp [Mat.ix]) (by simp [Mat.ix]) (by simp [Mat.ix])
    refine ⟨_, ?_, (Scores.create_eq_some hc).2, rfl, rfl, ?_⟩
    · simp only [Scores.filter, if_true]
      rw [if_pos, ismember_reduce h1, ismember_reduce h2, gather_idxOf h1]
      · exact hc
      · simp only [ismember_flag, List.all_map, Bool.and_eq_true, List.all_eq_true, Function.comp, id, decide_eq_true_iff]
        exact ⟨h1, h2⟩
    · intro m s v
      exact hasScore_ix hx.models hx.segs h1 h2 x.scores x.mask m s v
  · have hr : raise = false := by rcases hok with h' | h'; exacts [h', absurd h' h]
    subst hr
    have hc := Scores.create_some
      (S := (Mat.full M.length S.length 0).setIx (nonzero (ismember M x.models).1) (nonzero (ismember S x.segs).1)
        (x.scores.ix (ismember M x.models).2.reduceOption (ismember S x.segs).2.reduceOption))
      (M := (Mat.full M.length S.length false).setIx (nonzero (ismember M x.models).1) (nonzero (ismember S x.segs).1)
        (x.mask.ix (ismember M x.models).2.reduceOption (ismember S x.segs).2.reduceOption)) hM hS rfl rfl rfl rfl
    refine ⟨_, ?_, (Scores.create_eq_some hc).2, rfl, rfl, ?_⟩
    · simp only [Scores.filter, if_true]
      rw [if_neg]
      · simpa using hc
      · simp only [ismember_flag, List.all_map, Bool.and_eq_true, List.all_eq_true, Function.comp, id, decide_eq_true_iff]
        exact h
    · intro m s v
      rw [hasScore_iff (Scores.create_eq_some hc).2, hasScore_iff hx]
      dsimp only
      by_cases hm : m ∈ M
      · by_cases hs : s ∈ S
        · rw [setIx_found_entry hM hS x.models x.segs false x.mask hm hs,
            setIx_found_entry hM hS x.models x.segs 0 x.scores hm hs]
          by_cases hc : m ∈ x.models ∧ s ∈ x.segs
          · simp [hc, hm, hs]
          · simp only [if_neg hc]; simp; tauto
        · simp [hs]
      · simp [hm]

theorem Scores.filter_raise_none (x : Scores ν α) (M S : List ν)
    (h : ¬ ((∀ m ∈ M, m ∈ x.models) ∧ (∀ s ∈ S, s ∈ x.segs))) : x.filter M S true true = none := by
  simp only [Scores.filter, if_true]
  rw [if_neg]
  simp only [ismember_flag, List.all_map, Bool.and_eq_true, List.all_eq_true, Function.comp, id, decide_eq_true_iff]
  exact h

theorem any_iff {M : Mat Bool} : M.any = true ↔ ∃ i j, i < M.rows ∧ j < M.cols ∧ M.entry i j = true := by
  simp only [Mat.any, List.any_eq_true, List.mem_range]
  constructor
  · rintro ⟨i, hi, j, hj, h⟩; exact ⟨i, j, hi, hj, h⟩
  · rintro ⟨i, j, hi, hj, h⟩; exact ⟨i, hi, j, hj, h⟩

/-! ## C14 align -/

/-- the pair has some score -/
def Scores.Scored (x : Scores ν α) (m s : ν) : Prop := ∃ v, x.HasScore m s v

omit [LinearOrder ν] [Zero α] [Add α] in
theorem Scores.scored_iff (x : Scores ν α) (m s : ν) : x.Scored m s ↔ TrueAt x.models x.segs x.mask m s := by
  constructor
  · rintro ⟨v, i, j, h1, h2, h3, _⟩; exact ⟨i, j, h1, h2, h3⟩
  · rintro ⟨i, j, h1, h2, h3⟩; exact ⟨_, i, j, h1, h2, h3, rfl⟩

theorem Scores.align_core (x : Scores ν α) (hx : x.WF) (ndx : Ndx ν) (hn : ndx.WF) (raise : Bool)
    (hok : raise = false ∨ ((∀ m ∈ ndx.models, m ∈ x.models) ∧ (∀ s ∈ ndx.segs, s ∈ x.segs))) :
    ∃ r, r.WF ∧ r.models = ndx.models ∧ r.segs = ndx.segs ∧
      (∀ m s v, r.HasScore m s v ↔ ndx.IsTrial m s ∧ x.HasScore m s v) ∧
      ((x.align ndx raise = some r ∧ (raise = true → ∀ m s, ndx.IsTrial m s → x.Scored m s)) ∨
       (x.align ndx raise = none ∧ raise = true ∧ ∃ m s, ndx.IsTrial m s ∧ ¬ x.Scored m s)) := by
  obtain ⟨f, hf, hw, hm, hs, hsc⟩ := Scores.filter_keep_spec x hx ndx.models ndx.segs hn.models hn.segs raise hok
  let r : Scores ν α := { f with mask := Mat.zip (· && ·) ndx.mask f.mask }
  have hrw : r.WF := ⟨hw.models, hw.segs, hw.srows, hw.scols,
    by show ndx.mask.rows = f.models.length; rw [hm]; exact hn.rows,
    by show ndx.mask.cols = f.segs.length; rw [hs]; exact hn.cols⟩
  have hscore : ∀ m s v, r.HasScore m s v ↔ ndx.IsTrial m s ∧ x.HasScore m s v := by
    intro m s v
    rw [hasScore_iff hrw]
    unfold Ndx.IsTrial
    rw [trueAt_iff hn.models hn.segs]
    have h1 := hsc m s v
    rw [hasScore_iff hw] at h1
    simp only [r, Mat.zip, Bool.and_eq_true] at *
    rw [hm, hs] at *
    constructor
    · rintro ⟨a, b, ⟨c, d⟩, e⟩
      exact ⟨⟨a, b, c⟩, (h1.1 ⟨a, b, d, e⟩).2.2⟩
    · rintro ⟨⟨a, b, c⟩, d⟩
      have := h1.2 ⟨a, b, d⟩
      exact ⟨a, b, ⟨c, this.2.2.1⟩, this.2.2.2⟩
  have hmiss : (Mat.zip (fun a b => a && !b) ndx.mask (Mat.zip (· && ·) ndx.mask f.mask)).any = true ↔
      ∃ m s, ndx.IsTrial m s ∧ ¬ x.Scored m s := by
    rw [any_iff]
    constructor
    · rintro ⟨i, j, hi, hj, h⟩
      have hi' : i < ndx.models.length := by rw [← hn.rows]; exact hi
      have hj' : j < ndx.segs.length := by rw [← hn.cols]; exact hj
      simp only [Mat.zip, Bool.and_eq_true, Bool.not_eq_true', Bool.and_eq_false_iff] at h
      refine ⟨ndx.models[i], ndx.segs[j], ⟨i, j, by simp, by simp, h.1⟩, ?_⟩
      rintro ⟨v, hv⟩
      have h2 := (hscore ndx.models[i] ndx.segs[j] v).2 ⟨⟨i, j, by simp, by simp, h.1⟩, hv⟩
      rw [hasScore_iff hrw] at h2
      have h3 := h2.2.2.1
      simp only [r, Mat.zip, Bool.and_eq_true, hm, hs] at h3
      rw [hn.models.idxOf_getElem i hi', hn.segs.idxOf_getElem j hj'] at h3
      rcases h.2 with h4 | h4
      · rw [h.1] at h4; cases h4
      · rw [h3.2] at h4; cases h4
    · rintro ⟨m, s, ⟨i, j, hi, hj, h⟩, hns⟩
      have hi' := (List.getElem?_eq_some_iff.1 hi).1
      have hj' := (List.getElem?_eq_some_iff.1 hj).1
      refine ⟨i, j, by show i < ndx.mask.rows; rw [hn.rows]; exact hi', by show j < ndx.mask.cols; rw [hn.cols]; exact hj', ?_⟩
      simp only [Mat.zip, h, Bool.true_and, Bool.not_eq_true']
      by_contra hc
      have hc : f.mask.entry i j = true := by simpa using hc
      apply hns
      have : f.HasScore m s (f.scores.entry i j) := ⟨i, j, by rw [hm]; exact hi, by rw [hs]; exact hj, hc, rfl⟩
      exact ⟨_, ((hsc m s _).1 this).2.2⟩
  refine ⟨r, hrw, hm, hs, hscore, ?_⟩
  by_cases hmi : ∃ m s, ndx.IsTrial m s ∧ ¬ x.Scored m s
  · cases raise with
    | true =>
      right
      refine ⟨?_, rfl, hmi⟩
      simp [Scores.align, hf, hmiss.2 hmi]
    | false =>
      left
      refine ⟨?_, by simp⟩
      simp [Scores.align, hf, r]
  · left
    constructor
    · have : (Mat.zip (fun a b => a && !b) ndx.mask (Mat.zip (· && ·) ndx.mask f.mask)).any = false := by
        rw [← Bool.not_eq_true, hmiss]; exact hmi
      simp only [Scores.align, hf, this]
      simp only [Option.bind_eq_bind, Option.bind_some, this]
      simp [r]
    · intro _ m s ht
      by_contra hc
      exact hmi ⟨m, s, ht, hc⟩

/-- **C14 (raise_missing=True).** Alignment succeeds exactly when the scores know all names of the index and
every trial has a score; it then returns the names of the index, in order, and scores for exactly its
trials, equal to the input's. -/
theorem C14_align_raise (x : Scores ν α) (hx : x.WF) (ndx : Ndx ν) (hn : ndx.WF) :
    ((∃ r, x.align ndx true = some r) ↔
      (∀ m ∈ ndx.models, m ∈ x.models) ∧ (∀ s ∈ ndx.segs, s ∈ x.segs) ∧
      ∀ m s, ndx.IsTrial m s → x.Scored m s) ∧
    (∀ r, x.align ndx true = some r → r.WF ∧ r.models = ndx.models ∧ r.segs = ndx.segs ∧
      ∀ m s v, r.HasScore m s v ↔ ndx.IsTrial m s ∧ x.HasScore m s v) := by
  by_cases h : (∀ m ∈ ndx.models, m ∈ x.models) ∧ (∀ s ∈ ndx.segs, s ∈ x.segs)
  · obtain ⟨r, h1, h2, h3, h4, h5⟩ := Scores.align_core x hx ndx hn true (Or.inr h)
    rcases h5 with ⟨h5, h6⟩ | ⟨h5, _, m, s, h6, h7⟩
    · rw [h5]
      refine ⟨⟨fun _ => ⟨h.1, h.2, h6 rfl⟩, fun _ => ⟨r, rfl⟩⟩, ?_⟩
      intro r' hr'
      rw [← Option.some.inj hr']
      exact ⟨h1, h2, h3, h4⟩
    · rw [h5]
      refine ⟨⟨fun ⟨r, hr⟩ => (by cases hr), fun hh => absurd (hh.2.2 m s h6) h7⟩, fun r hr => by cases hr⟩
  · have : x.align ndx true = none := by
      simp [Scores.align, Scores.filter_raise_none x ndx.models ndx.segs h]
    rw [this]
    refine ⟨⟨fun ⟨r, hr⟩ => (by cases hr), fun hh => absurd ⟨hh.1, hh.2.1⟩ h⟩, fun r hr => by cases hr⟩

/-- **C14 (raise_missing=False).** Alignment always succeeds; trials without a score are simply absent. -/
theorem C14_align_no_raise (x : Scores ν α) (hx : x.WF) (ndx : Ndx ν) (hn : ndx.WF) :
    ∃ r, x.align ndx false = some r ∧ r.WF ∧ r.models = ndx.models ∧ r.segs = ndx.segs ∧
      ∀ m s v, r.HasScore m s v ↔ ndx.IsTrial m s ∧ x.HasScore m s v := by
  obtain ⟨r, h1, h2, h3, h4, h5⟩ := Scores.align_core x hx ndx hn false (Or.inl rfl)
  rcases h5 with ⟨h5, _⟩ | ⟨_, h6, _⟩
  · exact ⟨r, h5, h1, h2, h3, h4⟩
  · cases h6

/-- **C14 (set_missing_to_value).** Every trial of the index gets a score: its own if it has one, the given
value otherwise; nothing else is scored. -/
theorem C14_set_missing (x : Scores ν α) (hx : x.WF) (ndx : Ndx ν) (hn : ndx.WF) (val : α) :
    ∃ r, x.setMissing ndx val = some r ∧ r.WF ∧ r.models = ndx.models ∧ r.segs = ndx.segs ∧
      ∀ m s v, r.HasScore m s v ↔
        ndx.IsTrial m s ∧ (x.HasScore m s v ∨ (¬ x.Scored m s ∧ v = val)) := by
  obtain ⟨a, h1, h2, h3, h4, h5⟩ := C14_align_no_raise x hx ndx hn
  let mk : Mat Bool := Mat.zip (fun b a => !b && a) a.mask ndx.mask
  let r : Scores ν α := { a with
    scores := ⟨a.scores.rows, a.scores.cols, fun i j => if mk.entry i j then val else a.scores.entry i j⟩
    mask := ⟨a.mask.rows, a.mask.cols, fun i j => mk.entry i j || a.mask.entry i j⟩ }
  have hrw : r.WF := ⟨h2.models, h2.segs, h2.srows, h2.scols, h2.mrows, h2.mcols⟩
  refine ⟨r, by simp [Scores.setMissing, h1, r, mk], hrw, h3, h4, ?_⟩
  intro m s v
  have e1 := trueAt_iff hn.models hn.segs (A := ndx.mask) (m := m) (s := s)
  have e2 := h5 m s v
  have e3 : a.Scored m s ↔ ndx.IsTrial m s ∧ x.Scored m s := by
    simp only [Scores.Scored, h5]; tauto
  rw [Scores.scored_iff, trueAt_iff h2.models h2.segs, h3, h4] at e3
  rw [hasScore_iff h2, h3, h4] at e2
  rw [hasScore_iff hrw]
  simp only [r, mk, Mat.zip, h3, h4]
  unfold Ndx.IsTrial at *
  rw [e1] at *
  by_cases hm : m ∈ ndx.models
  · by_cases hs : s ∈ ndx.segs
    · have hsc : x.HasScore m s v → x.Scored m s := fun h => ⟨v, h⟩
      cases hA : a.mask.entry (ndx.models.idxOf m) (ndx.segs.idxOf s) with
      | true =>
        simp [hA, hm, hs] at e2 e3 ⊢
        tauto
      | false =>
        cases hN : ndx.mask.entry (ndx.models.idxOf m) (ndx.segs.idxOf s) with
        | true =>
          simp [hA, hN, hm, hs] at e2 e3 ⊢
          constructor
          · intro hv; exact Or.inr ⟨e3, hv.symm⟩
          · rintro (hv | ⟨_, hv⟩)
            · exact absurd (hsc hv) e3
            · exact hv.symm
        | false => simp
    · simp [hs]
  · simp [hm]

/-! ## C13 get_tar_non -/

theorem select_forall2 (scr : Scores ν α) (hw : scr.WF) (T : Mat Bool) (hsub : ∀ i j, i < scr.models.length →
    j < scr.segs.length → T.entry i j = true → scr.mask.entry i j = true) :
    ∃ ps : List (ν × ν), ps.Sublist (pairs scr.models scr.segs) ∧
      (∀ m s, (m, s) ∈ ps ↔ TrueAt scr.models scr.segs T m s) ∧
      List.Forall₂ (fun p v => scr.HasScore p.1 p.2 v) ps
        (scr.scores.select (Mat.zip (· && ·) scr.mask T)) := by
  let p : Nat → Nat → Bool := fun i j => scr.mask.entry i j && T.entry i j
  -- generic statement over a sub-list of rows / columns given with their indices
  have rowlem : ∀ (i : Nat) (m : ν), scr.models[i]? = some m → ∀ (n : Nat), n ≤ scr.segs.length →
      ∃ ps : List (ν × ν), ps.Sublist ((scr.segs.take n).map (fun s => (m, s))) ∧
        (∀ m' s, (m', s) ∈ ps ↔ m' = m ∧ ∃ j < n, scr.segs[j]? = some s ∧ p i j = true) ∧
        List.Forall₂ (fun p v => scr.HasScore p.1 p.2 v) ps
          (((List.range n).filter (fun j => p i j)).map (fun j => scr.scores.entry i j)) := by
    intro i m hi n
    induction n with
    | zero => intro _; exact ⟨[], by simp, by simp, by simp⟩
    | succ n ih =>
      intro hn
      obtain ⟨ps, h1, h2, h3⟩ := ih (by omega)
      have hlt : n < scr.segs.length := by omega
      rw [List.take_succ_eq_append_getElem hlt, List.map_append, List.range_succ, List.filter_append, List.map_append]
      by_cases hp : p i n = true
      · refine ⟨ps ++ [(m, scr.segs[n])], h1.append (by simp), ?_, ?_⟩
        · intro m' s
          rw [List.mem_append, h2]
          simp only [List.mem_singleton, Prod.mk.injEq]
          constructor
          · rintro (⟨h, j, hj, hj2⟩ | ⟨rfl, rfl⟩)
            · exact ⟨h, j, by omega, hj2⟩
            · exact ⟨rfl, n, by omega, by simp [hlt], hp⟩
          · rintro ⟨h, j, hj, hj2, hj3⟩
            by_cases hjn : j = n
            · subst hjn; right; refine ⟨h, ?_⟩; rw [List.getElem?_eq_getElem hlt] at hj2; exact (Option.some.inj hj2).symm
            · left; exact ⟨h, j, by omega, hj2, hj3⟩
        · refine List.rel_append h3 ?_
          simp only [hp, List.filter_cons_of_pos, List.filter_nil, List.map_cons, List.map_nil]
          refine List.Forall₂.cons ⟨i, n, hi, by simp [hlt], ?_, rfl⟩ List.Forall₂.nil
          simp [p] at hp; exact hp.1
      · refine ⟨ps, h1.trans (List.sublist_append_left _ _), ?_, ?_⟩
        · intro m' s
          rw [h2]
          constructor
          · rintro ⟨h, j, hj, hj2⟩; exact ⟨h, j, by omega, hj2⟩
          · rintro ⟨h, j, hj, hj2, hj3⟩
            have : j ≠ n := by rintro rfl; exact hp hj3
            exact ⟨h, j, by omega, hj2, hj3⟩
        · simpa [hp] using h3
  have tot : ∀ (n : Nat), n ≤ scr.models.length →
      ∃ ps : List (ν × ν), ps.Sublist (pairs (scr.models.take n) scr.segs) ∧
        (∀ m s, (m, s) ∈ ps ↔ ∃ i < n, ∃ j < scr.segs.length, scr.models[i]? = some m ∧ scr.segs[j]? = some s ∧ p i j = true) ∧
        List.Forall₂ (fun p v => scr.HasScore p.1 p.2 v) ps
          ((List.range n).flatMap (fun i => ((List.range scr.segs.length).filter (fun j => p i j)).map (fun j => scr.scores.entry i j))) := by
    intro n
    induction n with
    | zero => intro _; exact ⟨[], by simp [pairs], by simp, by simp⟩
    | succ n ih =>
      intro hn
      obtain ⟨ps, h1, h2, h3⟩ := ih (by omega)
      have hlt : n < scr.models.length := by omega
      obtain ⟨qs, k1, k2, k3⟩ := rowlem n scr.models[n] (by simp [hlt]) scr.segs.length le_rfl
      rw [List.take_length] at k1
      refine ⟨ps ++ qs, ?_, ?_, ?_⟩
      · rw [List.take_succ_eq_append_getElem hlt]
        unfold pairs at *
        rw [List.flatMap_append]
        exact h1.append (by simpa using k1)
      · intro m s
        rw [List.mem_append, h2, k2]
        constructor
        · rintro (⟨i, hi, hh⟩ | ⟨rfl, j, hj, hj2⟩)
          · exact ⟨i, by omega, hh⟩
          · exact ⟨n, by omega, j, hj, by simp [hlt], hj2⟩
        · rintro ⟨i, hi, j, hj, hh1, hh2⟩
          by_cases hin : i = n
          · subst hin; right
            rw [List.getElem?_eq_getElem hlt] at hh1
            exact ⟨(Option.some.inj hh1).symm, j, hj, hh2⟩
          · left; exact ⟨i, by omega, j, hj, hh1, hh2⟩
      · rw [List.range_succ, List.flatMap_append]
        exact List.rel_append h3 (by simpa using k3)
  obtain ⟨ps, h1, h2, h3⟩ := tot scr.models.length le_rfl
  rw [List.take_length] at h1
  refine ⟨ps, h1, ?_, ?_⟩
  · intro m s
    rw [h2]
    constructor
    · rintro ⟨i, _, j, _, hi, hj, hp⟩
      simp only [p, Bool.and_eq_true] at hp
      exact ⟨i, j, hi, hj, hp.2⟩
    · rintro ⟨i, j, hi, hj, hT⟩
      have hi' := (List.getElem?_eq_some_iff.1 hi).1
      have hj' := (List.getElem?_eq_some_iff.1 hj).1
      refine ⟨i, hi', j, hj', hi, hj, ?_⟩
      simp [p, hT, hsub i j hi' hj' hT]
  · unfold Mat.select
    rw [hw.srows, hw.scols]
    exact h3

/-- **C13.** `get_tar_non` succeeds exactly when the scores know the names of the key and score all its
labelled trials. The target list then is, in the key's order, the score (in the input object) of each
target trial, each once; likewise the nontarget list. -/
theorem C13_get_tar_non (x : Scores ν α) (hx : x.WF) (key : Key ν) (hk : key.WF) :
    ((∃ r, x.getTarNon key = some r) ↔
      (∀ m ∈ key.models, m ∈ x.models) ∧ (∀ s ∈ key.segs, s ∈ x.segs) ∧
      ∀ m s, key.IsTar m s ∨ key.IsNon m s → x.Scored m s) ∧
    (∀ tar non, x.getTarNon key = some (tar, non) →
      (∃ ps : List (ν × ν), ps.Sublist (pairs key.models key.segs) ∧
        (∀ m s, (m, s) ∈ ps ↔ key.IsTar m s) ∧ List.Forall₂ (fun p v => x.HasScore p.1 p.2 v) ps tar) ∧
      (∃ ps : List (ν × ν), ps.Sublist (pairs key.models key.segs) ∧
        (∀ m s, (m, s) ∈ ps ↔ key.IsNon m s) ∧ List.Forall₂ (fun p v => x.HasScore p.1 p.2 v) ps non)) := by
  have hn : key.asNdx.WF := ⟨hk.models, hk.segs, hk.trows, hk.tcols⟩
  have htr : ∀ m s, key.asNdx.IsTrial m s ↔ key.IsTar m s ∨ key.IsNon m s := by
    intro m s
    unfold Key.IsTar Key.IsNon Ndx.IsTrial Key.asNdx
    rw [trueAt_iff hk.models hk.segs, trueAt_iff hk.models hk.segs, trueAt_iff hk.models hk.segs]
    simp only [Mat.zip, Bool.or_eq_true]
    tauto
  obtain ⟨h1, h2⟩ := C14_align_raise x hx key.asNdx hn
  constructor
  · have : (∃ r, x.getTarNon key = some r) ↔ ∃ r, x.align key.asNdx true = some r := by
      unfold Scores.getTarNon
      cases x.align key.asNdx true <;> simp
    rw [this, h1]
    simp only [htr]
    exact Iff.rfl
  · intro tar non h
    cases ha : x.align key.asNdx true with
    | none => simp [Scores.getTarNon, ha] at h
    | some scr =>
      obtain ⟨hw, hm, hs, hsc⟩ := h2 scr ha
      have hall := (h1.1 ⟨scr, ha⟩).2.2
      simp [Scores.getTarNon, ha] at h
      have hm' : scr.models = key.models := hm
      have hs' : scr.segs = key.segs := hs
      have hsub : ∀ T : Mat Bool, (∀ i j, T.entry i j = true → key.asNdx.mask.entry i j = true) →
          ∀ i j, i < scr.models.length → j < scr.segs.length → T.entry i j = true → scr.mask.entry i j = true := by
        intro T hT i j hi hj ht
        have hit : key.asNdx.IsTrial scr.models[i] scr.segs[j] :=
          ⟨i, j, by rw [← hm]; simp, by rw [← hs]; simp, hT i j ht⟩
        obtain ⟨v, hv⟩ := hall _ _ hit
        have := (hsc _ _ v).2 ⟨hit, hv⟩
        rw [hasScore_iff hw, hw.models.idxOf_getElem i hi, hw.segs.idxOf_getElem j hj] at this
        exact this.2.2.1
      constructor
      · obtain ⟨ps, a, b, c⟩ := select_forall2 scr hw key.tar (hsub key.tar (by intro i j h; simp [Key.asNdx, Mat.zip, h]))
        refine ⟨ps, by rw [← hm', ← hs']; exact a, ?_, ?_⟩
        · intro m s; rw [b, hm', hs']; exact Iff.rfl
        · rw [← h.1]
          exact c.imp (fun p v hv => ((hsc p.1 p.2 v).1 hv).2)
      · obtain ⟨ps, a, b, c⟩ := select_forall2 scr hw key.non (hsub key.non (by intro i j h; simp [Key.asNdx, Mat.zip, h]))
        refine ⟨ps, by rw [← hm', ← hs']; exact a, ?_, ?_⟩
        · intro m s; rw [b, hm', hs']; exact Iff.rfl
        · rw [← h.2]
          exact c.imp (fun p v hv => ((hsc p.1 p.2 v).1 hv).2)

omit [Zero α] [Add α] in
/-- the listed pairs of C13 are distinct -/
theorem pairs_nodup {M S : List ν} (hM : M.Nodup) (hS : S.Nodup) : (pairs M S).Nodup := by
  unfold pairs
  rw [List.nodup_flatMap]
  refine ⟨fun m _ => hS.map (fun a b h => (Prod.mk.inj h).2), ?_⟩
  apply List.Pairwise.imp _ hM
  intro a b hab
  show List.Disjoint _ _
  intro p hp hq
  obtain ⟨_, _, rfl⟩ := List.mem_map.1 hp
  obtain ⟨_, _, h⟩ := List.mem_map.1 hq
  exact hab (Prod.mk.inj h).1.symm

end

def exS : Scores Nat Int := ⟨[5, 6], [21, 20], ⟨2, 2, fun i j => 10 * i + j⟩, ⟨2, 2, fun i j => !(i = 0 && j = 1)⟩⟩
def exKey : Key Nat := ⟨[6, 5], [20, 21], ⟨2, 2, fun i j => i = 0 && j = 0⟩, ⟨2, 2, fun i j => i = 1 && j = 1⟩⟩
theorem exS_wf : exS.WF := ⟨by decide, by decide, rfl, rfl, rfl, rfl⟩
theorem exKey_wf : exKey.WF := ⟨by decide, by decide, rfl, rfl, rfl, rfl⟩
example : exS.WF ∧ exKey.WF ∧ exS.getTarNon exKey = some ([11], [0]) := ⟨exS_wf, exKey_wf, by decide⟩

end Hyp.Trials
