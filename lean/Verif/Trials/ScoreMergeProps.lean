import Verif.Trials.ScoreProps
import Mathlib.Algebra.Group.Int.Defs

/-! # Properties C15, C16, C17: merging, dropping and transforming scores -/

namespace Hyp.Trials
open Hyp.ListUtils
variable {ν : Type} [LinearOrder ν] {α : Type}

/-! ## C15 merge -/

/-- two score objects score a common trial -/
def Overlap (a b : Scores ν α) : Prop := ∃ m s, a.Scored m s ∧ b.Scored m s

/-- cells without a valid score hold zero -/
def Scores.Clean [Zero α] (x : Scores ν α) : Prop :=
  ∀ i j, i < x.models.length → j < x.segs.length → x.mask.entry i j = false → x.scores.entry i j = 0

theorem scatter_mask_iff {M S M1 S1 : List ν} (hM : M.Nodup) (hS : S.Nodup) (h1 : M1.Nodup) (h2 : S1.Nodup)
    (hsubM : ∀ m ∈ M1, m ∈ M) (hsubS : ∀ s ∈ S1, s ∈ S) (A : Mat Bool) (m s : ν) :
    TrueAt M S (scatter false M S M1 S1 A) m s ↔ TrueAt M1 S1 A m s := by
  rw [trueAt_iff hM hS, trueAt_iff h1 h2]
  constructor
  · rintro ⟨a, b, c⟩
    rw [scatter_entry false A a b] at c
    split at c
    · next h => exact ⟨h.1, h.2, c⟩
    · cases c
  · rintro ⟨a, b, c⟩
    refine ⟨hsubM m a, hsubS s b, ?_⟩
    rw [scatter_entry false A (hsubM m a) (hsubS s b), if_pos ⟨a, b⟩]; exact c

section
variable [AddMonoid α]

theorem Scores.mergeStep_spec (a b : Scores ν α) (ha : a.WF) (hb : b.WF) :
    (Scores.mergeStep a b = none ↔ Overlap a b) ∧
    ∀ r, Scores.mergeStep a b = some r → r.WF ∧
      (∀ m s, r.Scored m s ↔ a.Scored m s ∨ b.Scored m s) ∧
      (a.Clean → b.Clean → r.Clean ∧ ∀ m s v, r.HasScore m s v ↔ a.HasScore m s v ∨ b.HasScore m s v) := by
  set M := npUnion a.models b.models with hMdef
  set S := npUnion a.segs b.segs with hSdef
  have hMn : M.Nodup := npUnion_nodup _ _
  have hSn : S.Nodup := npUnion_nodup _ _
  have sMa : ∀ m ∈ a.models, m ∈ M := fun m h => mem_npUnion.2 (Or.inl h)
  have sMb : ∀ m ∈ b.models, m ∈ M := fun m h => mem_npUnion.2 (Or.inr h)
  have sSa : ∀ m ∈ a.segs, m ∈ S := fun m h => mem_npUnion.2 (Or.inl h)
  have sSb : ∀ m ∈ b.segs, m ∈ S := fun m h => mem_npUnion.2 (Or.inr h)
  let mk1 := scatter false M S a.models a.segs a.mask
  let mk2 := scatter false M S b.models b.segs b.mask
  let sc1 := scatter 0 M S a.models a.segs a.scores
  let sc2 := scatter 0 M S b.models b.segs b.scores
  have hany : (Mat.zip (· && ·) mk1 mk2).any = true ↔ Overlap a b := by
    rw [any_iff]
    constructor
    · rintro ⟨i, j, hi, hj, h⟩
      have hi : i < M.length := hi
      have hj : j < S.length := hj
      simp only [Mat.zip, Bool.and_eq_true] at h
      refine ⟨M[i], S[j], ?_, ?_⟩
      · rw [Scores.scored_iff, ← scatter_mask_iff hMn hSn ha.models ha.segs sMa sSa]
        exact ⟨i, j, by simp, by simp, h.1⟩
      · rw [Scores.scored_iff, ← scatter_mask_iff hMn hSn hb.models hb.segs sMb sSb]
        exact ⟨i, j, by simp, by simp, h.2⟩
    · rintro ⟨m, s, h1, h2⟩
      rw [Scores.scored_iff, ← scatter_mask_iff hMn hSn ha.models ha.segs sMa sSa, trueAt_iff hMn hSn] at h1
      rw [Scores.scored_iff, ← scatter_mask_iff hMn hSn hb.models hb.segs sMb sSb, trueAt_iff hMn hSn] at h2
      refine ⟨M.idxOf m, S.idxOf s, List.idxOf_lt_length_of_mem h1.1, List.idxOf_lt_length_of_mem h1.2.1, ?_⟩
      simp only [Mat.zip, Bool.and_eq_true]
      exact ⟨h1.2.2, h2.2.2⟩
  have hstep : Scores.mergeStep a b = if (Mat.zip (· && ·) mk1 mk2).any then none else
      some ⟨M, S, Mat.zip (· + ·) sc1 sc2, Mat.zip (· || ·) mk1 mk2⟩ := rfl
  constructor
  · rw [hstep, ← hany]
    by_cases h : (Mat.zip (· && ·) mk1 mk2).any = true <;> simp [h]
  · intro r hr
    rw [hstep] at hr
    by_cases h : (Mat.zip (· && ·) mk1 mk2).any = true
    · rw [if_pos h] at hr; cases hr
    · rw [if_neg h] at hr
      have hr := (Option.some.inj hr).symm
      subst hr
      have hw : Scores.WF (⟨M, S, Mat.zip (· + ·) sc1 sc2, Mat.zip (· || ·) mk1 mk2⟩ : Scores ν α) :=
        ⟨hMn, hSn, rfl, rfl, rfl, rfl⟩
      have hsc : ∀ m s, Scores.Scored (⟨M, S, Mat.zip (· + ·) sc1 sc2, Mat.zip (· || ·) mk1 mk2⟩ : Scores ν α) m s ↔
          a.Scored m s ∨ b.Scored m s := by
        intro m s
        rw [Scores.scored_iff, Scores.scored_iff, Scores.scored_iff]
        exact trueAt_merge ha.models ha.segs hb.models hb.segs a.mask b.mask m s
      refine ⟨hw, hsc, ?_⟩
      intro hca hcb
      -- value of a scattered clean object where it is not scored
      have z : ∀ (x : Scores ν α), x.WF → x.Clean → ∀ m s, m ∈ M → s ∈ S → ¬ x.Scored m s →
          (scatter 0 M S x.models x.segs x.scores).entry (M.idxOf m) (S.idxOf s) = 0 := by
        intro x hxw hxc m s hm hs hns
        rw [scatter_entry 0 x.scores hm hs]
        split
        · next hh =>
          apply hxc _ _ (List.idxOf_lt_length_of_mem hh.1) (List.idxOf_lt_length_of_mem hh.2)
          rw [← Bool.not_eq_true]
          intro hc
          exact hns ((Scores.scored_iff _ _ _).2 ((trueAt_iff hxw.models hxw.segs).2 ⟨hh.1, hh.2, hc⟩))
        · rfl
      have y : ∀ (x : Scores ν α), x.WF → (∀ m ∈ x.models, m ∈ M) → (∀ s ∈ x.segs, s ∈ S) → ∀ m s v, x.HasScore m s v →
          m ∈ M ∧ s ∈ S ∧ (scatter 0 M S x.models x.segs x.scores).entry (M.idxOf m) (S.idxOf s) = v := by
        intro x hxw h1 h2 m s v hv
        rw [hasScore_iff hxw] at hv
        refine ⟨h1 m hv.1, h2 s hv.2.1, ?_⟩
        rw [scatter_entry 0 x.scores (h1 m hv.1) (h2 s hv.2.1), if_pos ⟨hv.1, hv.2.1⟩]
        exact hv.2.2.2
      constructor
      · intro i j hi hj hm0
        dsimp only at hi hj hm0 ⊢
        have hns : ¬ (a.Scored M[i] S[j] ∨ b.Scored M[i] S[j]) := by
          rw [← hsc, Scores.scored_iff, trueAt_iff hMn hSn]
          rintro ⟨_, _, hc⟩
          rw [hMn.idxOf_getElem i hi, hSn.idxOf_getElem j hj] at hc
          dsimp only at hc
          rw [hm0] at hc; cases hc
        have e1 := z a ha hca M[i] S[j] (List.getElem_mem _) (List.getElem_mem _) (fun h => hns (Or.inl h))
        have e2 := z b hb hcb M[i] S[j] (List.getElem_mem _) (List.getElem_mem _) (fun h => hns (Or.inr h))
        rw [hMn.idxOf_getElem i hi, hSn.idxOf_getElem j hj] at e1 e2
        show sc1.entry i j + sc2.entry i j = 0
        rw [e1, e2, add_zero]
      · intro m s v
        have hno : ¬ Overlap a b := fun hh => h (hany.2 hh)
        have valA : ∀ v, a.HasScore m s v → Scores.HasScore (⟨M, S, Mat.zip (· + ·) sc1 sc2, Mat.zip (· || ·) mk1 mk2⟩ : Scores ν α) m s v := by
          intro v hv
          obtain ⟨hm, hs, he⟩ := y a ha sMa sSa m s v hv
          rw [hasScore_iff hw]
          have h2 := (Scores.scored_iff _ _ _).1 ((hsc m s).2 (Or.inl ⟨v, hv⟩))
          rw [trueAt_iff hMn hSn] at h2
          refine ⟨hm, hs, h2.2.2, ?_⟩
          have e2 := z b hb hcb m s hm hs (fun hh => hno ⟨m, s, ⟨v, hv⟩, hh⟩)
          show sc1.entry _ _ + sc2.entry _ _ = v
          rw [he, e2, add_zero]
        have valB : ∀ v, b.HasScore m s v → Scores.HasScore (⟨M, S, Mat.zip (· + ·) sc1 sc2, Mat.zip (· || ·) mk1 mk2⟩ : Scores ν α) m s v := by
          intro v hv
          obtain ⟨hm, hs, he⟩ := y b hb sMb sSb m s v hv
          rw [hasScore_iff hw]
          have h2 := (Scores.scored_iff _ _ _).1 ((hsc m s).2 (Or.inr ⟨v, hv⟩))
          rw [trueAt_iff hMn hSn] at h2
          refine ⟨hm, hs, h2.2.2, ?_⟩
          have e2 := z a ha hca m s hm hs (fun hh => hno ⟨m, s, hh, ⟨v, hv⟩⟩)
          show sc1.entry _ _ + sc2.entry _ _ = v
          rw [he, e2, zero_add]
        constructor
        · intro hv
          rcases (hsc m s).1 ⟨v, hv⟩ with ⟨w, hw'⟩ | ⟨w, hw'⟩
          · have h3 := valA w hw'
            rw [hasScore_iff hw] at hv h3
            left; rw [← hv.2.2.2, h3.2.2.2]; exact hw'
          · have h3 := valB w hw'
            rw [hasScore_iff hw] at hv h3
            right; rw [← hv.2.2.2, h3.2.2.2]; exact hw'
        · rintro (hv | hv)
          · exact valA v hv
          · exact valB v hv

theorem Scores.foldlM_merge (xs : List (Scores ν α)) (a : Scores ν α) (ha : a.WF) (hx : ∀ x ∈ xs, x.WF) :
    (xs.foldlM Scores.mergeStep a = none ↔ ¬ (a :: xs).Pairwise (fun p q => ¬ Overlap p q)) ∧
    ∀ r, xs.foldlM Scores.mergeStep a = some r → r.WF ∧
      (∀ m s, r.Scored m s ↔ ∃ x ∈ a :: xs, x.Scored m s) ∧
      ((∀ x ∈ a :: xs, x.Clean) → r.Clean ∧ ∀ m s v, r.HasScore m s v ↔ ∃ x ∈ a :: xs, x.HasScore m s v) := by
  induction xs generalizing a with
  | nil =>
    constructor
    · simp
    · intro r hr
      simp at hr; subst hr
      exact ⟨ha, by simp, fun h => ⟨h a (by simp), by simp⟩⟩
  | cons y ys ih =>
    have hy := hx y (by simp)
    obtain ⟨h1, h2⟩ := Scores.mergeStep_spec a y ha hy
    rw [List.foldlM_cons]
    cases hs : Scores.mergeStep a y with
    | none =>
      have hov := h1.1 hs
      simp [hov]
    | some b =>
      obtain ⟨bw, bs, bc⟩ := h2 b hs
      obtain ⟨k1, k2⟩ := ih b bw (fun x hh => hx x (by simp [hh]))
      have hno : ¬ Overlap a y := fun hh => by rw [h1.2 hh] at hs; cases hs
      have hob : ∀ z, Overlap b z ↔ Overlap a z ∨ Overlap y z := by
        intro z
        constructor
        · rintro ⟨m, s, h, h'⟩
          rcases (bs m s).1 h with h | h
          · exact Or.inl ⟨m, s, h, h'⟩
          · exact Or.inr ⟨m, s, h, h'⟩
        · rintro (⟨m, s, h, h'⟩ | ⟨m, s, h, h'⟩)
          · exact ⟨m, s, (bs m s).2 (Or.inl h), h'⟩
          · exact ⟨m, s, (bs m s).2 (Or.inr h), h'⟩
      simp only [Option.bind_eq_bind, Option.bind_some]
      constructor
      · rw [k1, not_iff_not]
        simp only [List.pairwise_cons, List.mem_cons, hob]
        constructor
        · rintro ⟨p, q⟩
          refine ⟨?_, ?_, q⟩
          · rintro z (rfl | hz)
            · exact hno
            · exact fun h => p z hz (Or.inl h)
          · exact fun z hz h => p z hz (Or.inr h)
        · rintro ⟨p, q, r⟩
          refine ⟨?_, r⟩
          rintro z hz (h | h)
          · exact p z (Or.inr hz) h
          · exact q z hz h
      · intro r hr
        obtain ⟨rw', rs, rc⟩ := k2 r hr
        refine ⟨rw', ?_, ?_⟩
        · intro m s; rw [rs]; simp [bs, or_assoc]
        · intro hcl
          obtain ⟨b1, b2⟩ := bc (hcl a (by simp)) (hcl y (by simp))
          obtain ⟨r1, r2⟩ := rc (by
            intro z hz
            rcases List.mem_cons.1 hz with rfl | hz
            · exact b1
            · exact hcl z (by simp [hz]))
          refine ⟨r1, ?_⟩
          intro m s v
          rw [r2]; simp [b2, or_assoc]

/-- **C15 (collisions raise; which trials are scored).** `merge` raises exactly when two of the inputs score
the same trial; otherwise the scored trials are exactly those of the inputs. -/
theorem C15_merge_detects_overlap (xs : List (Scores ν α)) (hne : xs ≠ []) (hx : ∀ x ∈ xs, x.WF) :
    (Scores.merge xs = none ↔ ¬ xs.Pairwise (fun p q => ¬ Overlap p q)) ∧
    ∀ r, Scores.merge xs = some r → r.WF ∧ ∀ m s, r.Scored m s ↔ ∃ x ∈ xs, x.Scored m s := by
  cases xs with
  | nil => exact absurd rfl hne
  | cons a as =>
    obtain ⟨h1, h2⟩ := Scores.foldlM_merge as a (hx a (by simp)) (fun x hh => hx x (by simp [hh]))
    have e : Scores.merge (a :: as) = (as.foldlM Scores.mergeStep a).bind
        (fun r => Scores.create r.models r.segs r.scores (some r.mask)) := rfl
    rw [e]
    cases hf : as.foldlM Scores.mergeStep a with
    | none => exact ⟨by simp only [Option.bind_none, true_iff]; exact h1.1 hf, by simp⟩
    | some b =>
      obtain ⟨bw, bs, _⟩ := h2 b hf
      have hc := Scores.create_some bw.models bw.segs bw.srows bw.scols bw.mrows bw.mcols
      simp only [Option.bind_some]
      rw [hc]
      constructor
      · rw [← h1, hf]
      · intro r hr; rw [← Option.some.inj hr]; exact ⟨bw, bs⟩

/-- **C15 (values; partial).** If the cells without a valid score hold zero in every input, each trial keeps
the score it had. Missing from the full property: inputs with arbitrary values in masked-out cells, for
which the claim is false (`C15_merge_leaks_masked_scores`). -/
theorem C15_merge_values_partial (xs : List (Scores ν α)) (hne : xs ≠ []) (hx : ∀ x ∈ xs, x.WF)
    (hclean : ∀ x ∈ xs, x.Clean) (r : Scores ν α) (hr : Scores.merge xs = some r) :
    ∀ m s v, r.HasScore m s v ↔ ∃ x ∈ xs, x.HasScore m s v := by
  cases xs with
  | nil => exact absurd rfl hne
  | cons a as =>
    obtain ⟨h1, h2⟩ := Scores.foldlM_merge as a (hx a (by simp)) (fun x hh => hx x (by simp [hh]))
    have e : Scores.merge (a :: as) = (as.foldlM Scores.mergeStep a).bind
        (fun r => Scores.create r.models r.segs r.scores (some r.mask)) := rfl
    rw [e] at hr
    cases hf : as.foldlM Scores.mergeStep a with
    | none => rw [hf] at hr; simp at hr
    | some b =>
      obtain ⟨bw, _, bc⟩ := h2 b hf
      have hc := Scores.create_some bw.models bw.segs bw.srows bw.scols bw.mrows bw.mcols
      rw [hf] at hr
      simp only [Option.bind_some] at hr
      rw [hc] at hr
      rw [← Option.some.inj hr]
      exact (bc hclean).2

end

/-- a score file with one trial scored 5 ... -/
def exT1 : Scores Nat Int := ⟨[1], [10, 11], ⟨1, 2, fun _ _ => 5⟩, Mat.full 1 2 true⟩
/-- ... a trial index that only asks for segment 10 ... -/
def exT1n : Ndx Nat := ⟨[1], [10, 11], ⟨1, 2, fun _ j => j = 0⟩⟩
/-- ... and the score 3 of the remaining trial from another file. -/
def exT2 : Scores Nat Int := ⟨[1], [11], ⟨1, 1, fun _ _ => 3⟩, Mat.full 1 1 true⟩

/-- **C15 is false of the code as stated**: scores left in masked-out cells (as `align_with_ndx` leaves
them) are added to the other input's score: the merged score of trial (1, 11) is 8, though the only input
that scores it says 3. -/
theorem C15_merge_leaks_masked_scores :
    ∃ a r, exT1.align exT1n true = some a ∧ a.WF ∧ exT2.WF ∧ Scores.merge [a, exT2] = some r ∧
      ¬ a.Scored 1 11 ∧ exT2.HasScore 1 11 3 ∧ r.HasScore 1 11 8 ∧ ¬ r.HasScore 1 11 3 := by
  have w1 : exT1.WF := ⟨by decide, by decide, rfl, rfl, rfl, rfl⟩
  have w2 : exT2.WF := ⟨by decide, by decide, rfl, rfl, rfl, rfl⟩
  have wn : exT1n.WF := ⟨by decide, by decide, rfl, rfl⟩
  obtain ⟨r1, r2⟩ := C14_align_raise exT1 w1 exT1n wn
  let a : Scores Nat Int := ⟨[1], [10, 11], exT1.scores.ix [0] [0, 1], Mat.zip (· && ·) exT1n.mask (exT1.mask.ix [0] [0, 1])⟩
  have ha : exT1.align exT1n true = some a := rfl
  obtain ⟨aw, am, as, asc⟩ := r2 a ha
  let r : Scores Nat Int := ⟨[1], [10, 11],
    Mat.zip (· + ·) (scatter 0 [1] [10, 11] [1] [10, 11] a.scores) (scatter 0 [1] [10, 11] [1] [11] exT2.scores),
    Mat.zip (· || ·) (scatter false [1] [10, 11] [1] [10, 11] a.mask) (scatter false [1] [10, 11] [1] [11] exT2.mask)⟩
  have hr : Scores.merge [a, exT2] = some r := rfl
  have rw' : r.WF := ⟨by decide, by decide, rfl, rfl, rfl, rfl⟩
  refine ⟨a, r, ha, aw, w2, hr, ?_, ?_, ?_, ?_⟩
  · rw [Scores.scored_iff, trueAt_iff aw.models aw.segs]; decide
  · rw [hasScore_iff w2]; decide
  · rw [hasScore_iff rw']; decide
  · rw [hasScore_iff rw']; decide

/-- premises of the partial theorem are satisfiable -/
example : exT2.WF ∧ exT2.Clean := by
  refine ⟨⟨by decide, by decide, rfl, rfl, rfl, rfl⟩, ?_⟩
  intro i j _ _ h; cases h

/-! ## C16 filter keep=False -/

/-- **C16 (partial).** If segments and models carry the same names, dropping works as documented. Missing:
every other case, where the code is wrong (`C16_filter_drop_wrong`). -/
theorem C16_filter_drop_partial [Zero α] [Add α] (x : Scores ν α) (hx : x.WF) (hsame : ∀ n, n ∈ x.models ↔ n ∈ x.segs)
    (M S : List ν) :
    ∃ r, x.filter M S false true = some r ∧ r.WF ∧
      ∀ m s v, r.HasScore m s v ↔ x.HasScore m s v ∧ m ∉ M ∧ s ∉ S := by
  have e : x.filter M S false true = x.filter (npSetdiff x.models M) (npSetdiff x.models S) true true := by
    simp [Scores.filter]
  obtain ⟨r, h1, h2, h3, h4, h5⟩ := Scores.filter_keep_spec x hx (npSetdiff x.models M) (npSetdiff x.models S)
    (npUnique_nodup _) (npUnique_nodup _) true (Or.inr ⟨by simp +contextual, by simp +contextual [hsame]⟩)
  refine ⟨r, by rw [e]; exact h1, h2, ?_⟩
  intro m s v
  rw [h5]
  have := hasScore_iff hx (m := m) (s := s) (v := v)
  have h' := hsame s
  simp only [mem_npSetdiff, this]
  tauto

def exU : Scores Nat Int := ⟨[1, 2], [10, 11], ⟨2, 2, fun i j => 10 * i + j⟩, Mat.full 2 2 true⟩
/-- model and segment names overlap partially -/
def exV : Scores Nat Int := ⟨[1, 2], [1, 2, 3], ⟨2, 3, fun i j => 10 * i + j⟩, Mat.full 2 3 true⟩

/-- **C16 is false of the code**: asked to drop model 1 and segment 10, a score object with models {1,2} and
segments {10,11} raises; and when names overlap, it silently loses segment 3, which was not listed. -/
theorem C16_filter_drop_wrong :
    (exU.WF ∧ exU.filter [1] [10] false true = none) ∧
    (exV.WF ∧ exV.HasScore 2 3 12 ∧ ∃ r, exV.filter [1] [1] false true = some r ∧ ¬ r.Scored 2 3) := by
  refine ⟨⟨⟨by decide, by decide, rfl, rfl, rfl, rfl⟩, rfl⟩, ?_⟩
  have hw : exV.WF := ⟨by decide, by decide, rfl, rfl, rfl, rfl⟩
  refine ⟨hw, ?_, ⟨[2], [2], exV.scores.ix [1] [1], exV.mask.ix [1] [1]⟩, rfl, ?_⟩
  · rw [hasScore_iff hw]; decide
  · rw [Scores.scored_iff, trueAt_iff (by decide) (by decide)]; decide

/-! ## C17 transform and text round trip -/

/-- **C17 (transform).** Exactly the existing scores are replaced by `f` of themselves. -/
theorem C17_transform (x : Scores ν α) (f : α → α) :
    (x.transform f).models = x.models ∧ (x.transform f).segs = x.segs ∧
    (∀ m s, (x.transform f).Scored m s ↔ x.Scored m s) ∧
    (∀ m s w, (x.transform f).HasScore m s w ↔ ∃ v, x.HasScore m s v ∧ f v = w) ∧
    (∀ i j, x.mask.entry i j = false → (x.transform f).scores.entry i j = x.scores.entry i j) := by
  have h : ∀ m s w, (x.transform f).HasScore m s w ↔ ∃ v, x.HasScore m s v ∧ f v = w := by
    intro m s w
    constructor
    · rintro ⟨i, j, hi, hj, hm, hv⟩
      have hm' : x.mask.entry i j = true := hm
      refine ⟨x.scores.entry i j, ⟨i, j, hi, hj, hm', rfl⟩, ?_⟩
      rw [← hv]; simp [Scores.transform, hm']
    · rintro ⟨v, ⟨i, j, hi, hj, hm, hv⟩, rfl⟩
      exact ⟨i, j, hi, hj, hm, by simp [Scores.transform, hm, hv]⟩
  refine ⟨rfl, rfl, ?_, h, ?_⟩
  · intro m s
    constructor
    · rintro ⟨w, hw⟩; obtain ⟨v, hv, _⟩ := (h m s w).1 hw; exact ⟨v, hv⟩
    · rintro ⟨v, hv⟩; exact ⟨f v, (h m s _).2 ⟨v, hv, rfl⟩⟩
  · intro i j hm; simp [Scores.transform, hm]

theorem Scores.saveRecords_spec (x : Scores ν α) (hx : x.WF) :
    ∃ recs, x.saveRecords = some recs ∧ ∀ m s v, (m, s, v) ∈ recs ↔ x.HasScore m s v := by
  have hok : ∀ p ∈ x.mask.nonzeroT, p.1 < x.segs.length ∧ p.2 < x.models.length ∧ x.mask.entry p.2 p.1 = true := by
    rintro ⟨j, i⟩ hp
    have := mem_nonzeroT.1 hp
    rw [hx.mcols, hx.mrows] at this
    exact this
  cases h : x.saveRecords with
  | none =>
    obtain ⟨p, hp, hn⟩ := mapM_eq_none_iff.1 h
    obtain ⟨h1, h2, _⟩ := hok p hp
    simp [h1, h2] at hn
  | some recs =>
    refine ⟨recs, rfl, ?_⟩
    intro m s v
    have hmap := mapM_eq_some_iff.1 h
    have : (m, s, v) ∈ recs ↔ some (m, s, v) ∈ recs.map some := by simp
    rw [this, ← hmap, List.mem_map]
    constructor
    · rintro ⟨⟨j, i⟩, hp, he⟩
      obtain ⟨h1, h2, h3⟩ := hok _ hp
      dsimp only at h1 h2 h3
      simp [h1, h2] at he
      refine ⟨i, j, ?_, ?_, h3, he.2.2⟩
      · rw [List.getElem?_eq_getElem h2, he.1]
      · rw [List.getElem?_eq_getElem h1, he.2.1]
    · rintro ⟨i, j, hi, hj, h3, h4⟩
      obtain ⟨h1, _⟩ := List.getElem?_eq_some_iff.1 hi
      obtain ⟨h2, _⟩ := List.getElem?_eq_some_iff.1 hj
      refine ⟨(j, i), mem_nonzeroT.2 ⟨by rw [hx.mcols]; exact h2, by rw [hx.mrows]; exact h1, h3⟩, ?_⟩
      simp [hi, hj, h4]

theorem lastVal_spec [Zero α] [Add α] (cells : List ((Nat × Nat) × α)) (i j : Nat) (v : α)
    (hv : ((i, j), v) ∈ cells) (huniq : ∀ w, ((i, j), w) ∈ cells → w = v) : lastVal cells i j = v := by
  unfold lastVal
  have key : ∀ (cs : List ((Nat × Nat) × α)) (acc : α), (∀ w, ((i, j), w) ∈ cs → w = v) →
      (((i, j), v) ∈ cs ∨ acc = v) → cs.foldl (fun acc c => if c.1 = (i, j) then c.2 else acc) acc = v := by
    intro cs
    induction cs with
    | nil => intro acc _ h; simpa using h
    | cons c cs ih =>
      intro acc hu h
      rw [List.foldl_cons]
      apply ih
      · intro w hw; exact hu w (by simp [hw])
      · by_cases hc : c.1 = (i, j)
        · right
          rw [if_pos hc]
          exact hu c.2 (by rw [← hc]; simp)
        · rw [if_neg hc]
          rcases h with h | h
          · rcases List.mem_cons.1 h with h | h
            · exfalso; apply hc; rw [← h]
            · exact Or.inl h
          · exact Or.inr h
  exact key cells 0 huniq (Or.inl hv)

/-- **C17 (text round trip, up to the decimal rendering of scores).** Loading what was saved gives exactly the
same trials with the same scores, with sorted name lists. -/
theorem C17_txt_round_trip [Zero α] [Add α] (x : Scores ν α) (hx : x.WF) :
    ∃ recs r, x.saveRecords = some recs ∧ Scores.loadRecords recs = some r ∧ r.WF ∧
      r.models.Pairwise (· < ·) ∧ r.segs.Pairwise (· < ·) ∧
      ∀ m s v, r.HasScore m s v ↔ x.HasScore m s v := by
  obtain ⟨recs, h1, h2⟩ := Scores.saveRecords_spec x hx
  have hfun : ∀ m s v w, (m, s, v) ∈ recs → (m, s, w) ∈ recs → v = w := by
    intro m s v w hv hw
    rw [h2, hasScore_iff hx] at hv hw
    rw [← hv.2.2.2, hw.2.2.2]
  set ms := recs.map (fun r => r.1) with hms
  set ss := recs.map (fun r => r.2.1) with hss
  set idx := (npInverse ms).zip (npInverse ss) with hidx
  set cells := idx.zip (recs.map (fun r => r.2.2)) with hcells
  have hc := Scores.create_some (models := npUnique ms) (segs := npUnique ss)
    (S := ⟨(npUnique ms).length, (npUnique ss).length, fun i j => lastVal cells i j⟩)
    (M := ⟨(npUnique ms).length, (npUnique ss).length, fun i j => decide ((i, j) ∈ idx)⟩)
    (npUnique_nodup _) (npUnique_nodup _) rfl rfl rfl rfl
  refine ⟨recs, _, h1, hc, (Scores.create_eq_some hc).2, npUnique_sorted _, npUnique_sorted _, ?_⟩
  have hcm : ∀ m s v, m ∈ ms → s ∈ ss →
      ((((npUnique ms).idxOf m, (npUnique ss).idxOf s), v) ∈ cells ↔ (m, s, v) ∈ recs) := by
    intro m s v hm hs
    rw [hcells, hidx]
    unfold npInverse
    rw [hms, hss, List.map_map, List.map_map, List.zip_map', List.zip_map', List.mem_map]
    constructor
    · rintro ⟨r, hr, he⟩
      simp only [Prod.mk.injEq, Function.comp] at he
      have m1 : r.1 ∈ recs.map (fun r => r.1) := List.mem_map.2 ⟨r, hr, rfl⟩
      have m2 : r.2.1 ∈ recs.map (fun r => r.2.1) := List.mem_map.2 ⟨r, hr, rfl⟩
      have e1 := idxOf_inj (mem_npUnique.2 m1) he.1.1
      have e2 := idxOf_inj (mem_npUnique.2 m2) he.1.2
      have : r = (m, s, v) := by rw [← e1, ← e2, ← he.2]
      rw [← this]; exact hr
    · intro h; exact ⟨_, h, rfl⟩
  intro m s v
  rw [hasScore_iff (Scores.create_eq_some hc).2]
  simp only [mem_npUnique, decide_eq_true_iff]
  constructor
  · rintro ⟨hm, hs, hmem, hval⟩
    rw [hidx, hms, hss, mem_zip_inverse recs _ _ hm hs] at hmem
    obtain ⟨r, hr, rfl, rfl⟩ := hmem
    have : lastVal cells _ _ = r.2.2 := lastVal_spec cells _ _ r.2.2 ((hcm _ _ _ hm hs).2 hr) (by
      intro w hw
      exact hfun _ _ _ _ ((hcm _ _ _ hm hs).1 hw) hr)
    rw [this] at hval
    subst hval
    exact (h2 _ _ _).1 hr
  · intro hv
    have hr := (h2 m s v).2 hv
    have hm : m ∈ ms := List.mem_map.2 ⟨_, hr, rfl⟩
    have hs : s ∈ ss := List.mem_map.2 ⟨_, hr, rfl⟩
    refine ⟨hm, hs, ?_, ?_⟩
    · rw [hidx, hms, hss, mem_zip_inverse recs _ _ hm hs]
      exact ⟨_, hr, rfl, rfl⟩
    · exact lastVal_spec cells _ _ v ((hcm _ _ _ hm hs).2 hr) (fun w hw => hfun _ _ _ _ ((hcm _ _ _ hm hs).1 hw) hr)

example : exS.saveRecords = some [(5, 21, 0), (6, 21, 10), (6, 20, 11)] := by decide

end Hyp.Trials
