import Verif.Trials.NdxProps

/-! # Property C12: TrialKey -/

namespace Hyp.Trials
open Hyp.ListUtils
variable {ν : Type} [LinearOrder ν]

/-- no pair is both target and nontarget -/
def Key.Consistent (x : Key ν) : Prop := ∀ m s, ¬ (x.IsTar m s ∧ x.IsNon m s)

theorem Key.mergeStep_wf {a b : Key ν} : (Key.mergeStep a b).WF :=
  ⟨npUnion_nodup _ _, npUnion_nodup _ _, rfl, rfl, rfl, rfl⟩

theorem Key.foldl_merge (xs : List (Key ν)) (a : Key ν) (ha : a.WF) (hx : ∀ x ∈ xs, x.WF) :
    (xs.foldl Key.mergeStep a).WF ∧
    (∀ m s, (xs.foldl Key.mergeStep a).IsTar m s ↔ ∃ x ∈ a :: xs, x.IsTar m s) ∧
    (∀ m s, (xs.foldl Key.mergeStep a).IsNon m s ↔ ∃ x ∈ a :: xs, x.IsNon m s) := by
  induction xs generalizing a with
  | nil => exact ⟨ha, by simp, by simp⟩
  | cons y ys ih =>
    have hy := hx y (by simp)
    obtain ⟨h1, h2, h3⟩ := ih (Key.mergeStep a y) Key.mergeStep_wf (fun x hh => hx x (by simp [hh]))
    rw [List.foldl_cons]
    refine ⟨h1, ?_, ?_⟩
    · intro m s
      rw [h2]
      have : (Key.mergeStep a y).IsTar m s ↔ a.IsTar m s ∨ y.IsTar m s :=
        trueAt_merge ha.models ha.segs hy.models hy.segs a.tar y.tar m s
      simp [this, or_assoc]
    · intro m s
      rw [h3]
      have : (Key.mergeStep a y).IsNon m s ↔ a.IsNon m s ∨ y.IsNon m s :=
        trueAt_merge ha.models ha.segs hy.models hy.segs a.non y.non m s
      simp [this, or_assoc]

/-- **C12 (merge).** Merging valid keys always succeeds; a pair is target (nontarget) in the result iff it
is in some input. -/
theorem C12_merge_union (xs : List (Key ν)) (hne : xs ≠ []) (hx : ∀ x ∈ xs, x.WF) :
    ∃ r, Key.merge xs = some r ∧ r.WF ∧
      (∀ m s, r.IsTar m s ↔ ∃ x ∈ xs, x.IsTar m s) ∧
      (∀ m s, r.IsNon m s ↔ ∃ x ∈ xs, x.IsNon m s) := by
  cases xs with
  | nil => exact absurd rfl hne
  | cons a as =>
    obtain ⟨h1, h2, h3⟩ := Key.foldl_merge as a (hx a (by simp)) (fun x hh => hx x (by simp [hh]))
    refine ⟨as.foldl Key.mergeStep a, ?_, h1, h2, h3⟩
    unfold Key.merge
    exact Key.create_some h1.models h1.segs h1.trows h1.tcols h1.nrows h1.ncols

/-- **C12 (merge, disjointness; partial).** The merged key is consistent exactly when no pair is target in
one input and nontarget in another. The property asks for more: that conflicting inputs raise; see
`C12_merge_conflict_not_detected`. -/
theorem C12_merge_consistent_partial (xs : List (Key ν)) (hne : xs ≠ []) (hx : ∀ x ∈ xs, x.WF) :
    ∃ r, Key.merge xs = some r ∧
      (r.Consistent ↔ ∀ x ∈ xs, ∀ y ∈ xs, ∀ m s, ¬ (x.IsTar m s ∧ y.IsNon m s)) := by
  obtain ⟨r, h1, _, h3, h4⟩ := C12_merge_union xs hne hx
  refine ⟨r, h1, ?_⟩
  unfold Key.Consistent
  constructor
  · intro h x hxx y hy m s hh
    exact h m s ⟨(h3 m s).2 ⟨x, hxx, hh.1⟩, (h4 m s).2 ⟨y, hy, hh.2⟩⟩
  · rintro h m s ⟨ht, hn⟩
    obtain ⟨x, hx1, hx2⟩ := (h3 m s).1 ht
    obtain ⟨y, hy1, hy2⟩ := (h4 m s).1 hn
    exact h x hx1 y hy1 m s ⟨hx2, hy2⟩

def exK1 : Key Nat := ⟨[1], [10], Mat.full 1 1 true, Mat.full 1 1 false⟩
def exK2 : Key Nat := ⟨[1], [10], Mat.full 1 1 false, Mat.full 1 1 true⟩
theorem exK1_wf : exK1.WF := ⟨by decide, by decide, rfl, rfl, rfl, rfl⟩
theorem exK2_wf : exK2.WF := ⟨by decide, by decide, rfl, rfl, rfl, rfl⟩

/-- **C12 is false of the code as stated for merge**: two consistent valid keys that label the same trial
differently merge, without error, to a key where the trial is both target and nontarget. -/
theorem C12_merge_conflict_not_detected :
    ∃ (a b : Key Nat) (r : Key Nat), a.WF ∧ b.WF ∧ a.Consistent ∧ b.Consistent ∧
      Key.merge [a, b] = some r ∧ ¬ r.Consistent := by
  obtain ⟨r, h1, h2, h3, h4⟩ := C12_merge_union [exK1, exK2] (by simp) (by simp [exK1_wf, exK2_wf])
  refine ⟨exK1, exK2, r, exK1_wf, exK2_wf, ?_, ?_, h1, ?_⟩
  · rintro m s ⟨_, i, j, _, _, hh⟩; cases hh
  · rintro m s ⟨⟨i, j, _, _, hh⟩, _⟩; cases hh
  · intro h
    exact h 1 10 ⟨(h3 1 10).2 ⟨exK1, by simp, 0, 0, rfl, rfl, rfl⟩,
      (h4 1 10).2 ⟨exK2, by simp, 0, 0, rfl, rfl, rfl⟩⟩

/-- **C12 (filter).** The kept key has exactly the labels of the input among the requested names; so it is
consistent if the input is. -/
theorem C12_filter_keep (x : Key ν) (hx : x.WF) (M S : List ν) :
    ((∃ r, x.filter M S true = some r) ↔
      (∀ m ∈ M, m ∈ x.models) ∧ (∀ s ∈ S, s ∈ x.segs) ∧ M.Nodup ∧ S.Nodup) ∧
    (∀ r, x.filter M S true = some r → r.WF ∧ r.models = M ∧ r.segs = S ∧
      (∀ m s, r.IsTar m s ↔ m ∈ M ∧ s ∈ S ∧ x.IsTar m s) ∧
      (∀ m s, r.IsNon m s ↔ m ∈ M ∧ s ∈ S ∧ x.IsNon m s) ∧ (x.Consistent → r.Consistent)) := by
  by_cases h1 : ∀ m ∈ M, m ∈ x.models
  · by_cases h2 : ∀ s ∈ S, s ∈ x.segs
    · have e : x.filter M S true = Key.create M S (some
          (x.tar.ix (M.map x.models.idxOf) (S.map x.segs.idxOf),
           x.non.ix (M.map x.models.idxOf) (S.map x.segs.idxOf))) := by
        simp only [Key.filter, requireAll_eq, if_pos h1, if_pos h2, if_true]
        simp [gather_idxOf h1]
      rw [e]
      constructor
      · constructor
        · rintro ⟨r, hr⟩
          obtain ⟨he, hw⟩ := Key.create_eq_some hr
          have hm := hw.models
          have hs := hw.segs
          rw [he] at hm hs
          exact ⟨h1, h2, hm, hs⟩
        · rintro ⟨_, _, hm, hs⟩
          exact ⟨_, Key.create_some hm hs (by simp [Mat.ix]) (by simp [Mat.ix]) (by simp [Mat.ix]) (by simp [Mat.ix])⟩
      · intro r hr
        obtain ⟨he, hw⟩ := Key.create_eq_some hr
        have ht : ∀ m s, r.IsTar m s ↔ m ∈ M ∧ s ∈ S ∧ x.IsTar m s := by
          intro m s; rw [he]
          exact trueAt_ix hx.models hx.segs h1 h2 x.tar m s
        have hn : ∀ m s, r.IsNon m s ↔ m ∈ M ∧ s ∈ S ∧ x.IsNon m s := by
          intro m s; rw [he]
          exact trueAt_ix hx.models hx.segs h1 h2 x.non m s
        refine ⟨hw, by rw [he], by rw [he], ht, hn, ?_⟩
        rintro hc m s ⟨a, b⟩
        exact hc m s ⟨((ht m s).1 a).2.2, ((hn m s).1 b).2.2⟩
    · have e : x.filter M S true = none := by
        simp [Key.filter, requireAll_eq, h2]
      rw [e]; simp [h2]
  · have e : x.filter M S true = none := by
      simp [Key.filter, requireAll_eq, h1]
    rw [e]; simp [h1]

/-- **C12 (filter, keep=False).** -/
theorem C12_filter_drop (x : Key ν) (hx : x.WF) (M S : List ν) :
    ∃ r, x.filter M S false = some r ∧ r.WF ∧
      (∀ m s, r.IsTar m s ↔ x.IsTar m s ∧ m ∉ M ∧ s ∉ S) ∧
      (∀ m s, r.IsNon m s ↔ x.IsNon m s ∧ m ∉ M ∧ s ∉ S) := by
  have e : x.filter M S false = x.filter (npSetdiff x.models M) (npSetdiff x.segs S) true := by
    simp [Key.filter]
  obtain ⟨h1, h2⟩ := C12_filter_keep x hx (npSetdiff x.models M) (npSetdiff x.segs S)
  obtain ⟨r, hr⟩ := h1.2 ⟨by simp +contextual, by simp +contextual, npUnique_nodup _, npUnique_nodup _⟩
  obtain ⟨hw, hm, hs, ht, hn, _⟩ := h2 r hr
  refine ⟨r, by rw [e]; exact hr, hw, ?_, ?_⟩
  · intro m s
    rw [ht]
    have := trueAt_iff hx.models hx.segs (A := x.tar) (m := m) (s := s)
    unfold Key.IsTar
    simp only [mem_npSetdiff, this]
    tauto
  · intro m s
    rw [hn]
    have := trueAt_iff hx.models hx.segs (A := x.non) (m := m) (s := s)
    unfold Key.IsNon
    simp only [mem_npSetdiff, this]
    tauto

/-- **C12 (split).** Each part carries exactly the labels of the whole among its names. -/
theorem C12_split (x : Key ν) (hx : x.WF) (i P j Q : Nat) (hi : 1 ≤ i) (hiP : i ≤ P) (hj : 1 ≤ j) (hjQ : j ≤ Q) :
    ∃ M mi S si r, splitList x.models i P = some (M, mi) ∧ splitList x.segs j Q = some (S, si) ∧
      x.split i P j Q = some r ∧ r.WF ∧ r.models = M ∧ r.segs = S ∧
      (∀ m s, r.IsTar m s ↔ m ∈ M ∧ s ∈ S ∧ x.IsTar m s) ∧
      (∀ m s, r.IsNon m s ↔ m ∈ M ∧ s ∈ S ∧ x.IsNon m s) := by
  obtain ⟨M, mi, S, si, r, hM, hS, hr, hw, hm, hs, ht⟩ :=
    Ndx.split_eq ⟨x.models, x.segs, x.tar⟩ ⟨hx.models, hx.segs, hx.trows, hx.tcols⟩ hi hiP hj hjQ
  obtain ⟨M', mi', S', si', r', hM', hS', hr', hw', hm', hs', hn⟩ :=
    Ndx.split_eq ⟨x.models, x.segs, x.non⟩ ⟨hx.models, hx.segs, hx.nrows, hx.ncols⟩ hi hiP hj hjQ
  dsimp only at *
  rw [hM] at hM'; rw [hS] at hS'
  obtain ⟨rfl, rfl⟩ := Prod.mk.inj (Option.some.inj hM')
  obtain ⟨rfl, rfl⟩ := Prod.mk.inj (Option.some.inj hS')
  simp only [Ndx.split, hM, hS] at hr hr'
  obtain ⟨he, hw2⟩ := Ndx.create_eq_some (by simpa using hr)
  obtain ⟨he', hw2'⟩ := Ndx.create_eq_some (by simpa using hr')
  have hc : Key.create M S (some (x.tar.ix mi si, x.non.ix mi si)) = some ⟨M, S, x.tar.ix mi si, x.non.ix mi si⟩ := by
    have a := hw.models; have b := hw.segs; have c := hw.rows; have d := hw.cols
    have c' := hw'.rows; have d' := hw'.cols
    rw [he] at a b c d
    rw [he'] at c' d'
    exact Key.create_some a b c d c' d'
  refine ⟨M, mi, S, si, ⟨M, S, x.tar.ix mi si, x.non.ix mi si⟩, hM, hS, by simp [Key.split, hM, hS, hc],
    (Key.create_eq_some hc).2, rfl, rfl, ?_, ?_⟩
  · intro m s; rw [he] at ht; exact ht m s
  · intro m s; rw [he'] at hn; exact hn m s

/-- **C12 (HDF5 round trip).** The stored int8 array restores both masks exactly, for every consistent
key; names are restored as given. -/
theorem C12_h5_round_trip (x : Key ν) (hx : x.WF) (hc : x.Consistent) :
    ∃ r, Key.loadH5 x.models x.segs x.h5Mask = some r ∧ r.models = x.models ∧ r.segs = x.segs ∧
      (∀ m s, r.IsTar m s ↔ x.IsTar m s) ∧ (∀ m s, r.IsNon m s ↔ x.IsNon m s) := by
  have hk := Key.create_some (T := x.h5Mask.map (fun v => decide (v > 0)))
    (N := x.h5Mask.map (fun v => decide (v < 0))) hx.models hx.segs hx.trows hx.tcols hx.trows hx.tcols
  refine ⟨_, hk, rfl, rfl, ?_, ?_⟩
  · intro m s
    unfold Key.IsTar
    rw [trueAt_iff hx.models hx.segs, trueAt_iff hx.models hx.segs]
    refine and_congr_right (fun h1 => and_congr_right (fun h2 => ?_))
    have := hc m s
    unfold Key.IsTar Key.IsNon at this
    rw [trueAt_iff hx.models hx.segs, trueAt_iff hx.models hx.segs] at this
    simp only [Key.h5Mask, Mat.zip, Mat.map]
    by_cases ht : x.tar.entry (x.models.idxOf m) (x.segs.idxOf s) = true <;>
      by_cases hn : x.non.entry (x.models.idxOf m) (x.segs.idxOf s) = true <;> simp [h1, h2, ht, hn] at this ⊢
  · intro m s
    unfold Key.IsNon
    rw [trueAt_iff hx.models hx.segs, trueAt_iff hx.models hx.segs]
    refine and_congr_right (fun h1 => and_congr_right (fun h2 => ?_))
    have := hc m s
    unfold Key.IsTar Key.IsNon at this
    rw [trueAt_iff hx.models hx.segs, trueAt_iff hx.models hx.segs] at this
    simp only [Key.h5Mask, Mat.zip, Mat.map]
    by_cases ht : x.tar.entry (x.models.idxOf m) (x.segs.idxOf s) = true <;>
      by_cases hn : x.non.entry (x.models.idxOf m) (x.segs.idxOf s) = true <;> simp [h1, h2, ht, hn] at this ⊢

/-- **C12 (HDF5 content).** The stored number of a trial is 1 for a target, -1 for a non-target and 0 otherwise. -/
theorem C12_h5_content (x : Key ν) (hx : x.WF) (hc : x.Consistent) :
    x.h5Mask.rows = x.models.length ∧ x.h5Mask.cols = x.segs.length ∧
    ∀ (i j : Nat) (m s : ν), x.models[i]? = some m → x.segs[j]? = some s →
      (x.IsTar m s → x.h5Mask.entry i j = 1) ∧ (x.IsNon m s → x.h5Mask.entry i j = -1) ∧
      (¬x.IsTar m s → ¬x.IsNon m s → x.h5Mask.entry i j = 0) := by
  refine ⟨hx.trows, hx.tcols, ?_⟩
  intro i j m s hi hj
  have h1 : m ∈ x.models := List.mem_of_getElem? hi
  have h2 : s ∈ x.segs := List.mem_of_getElem? hj
  have := hc m s
  unfold Key.IsTar Key.IsNon at this ⊢
  rw [trueAt_iff hx.models hx.segs, trueAt_iff hx.models hx.segs, idxOf_of_getElem? hx.models hi, idxOf_of_getElem? hx.segs hj] at this ⊢
  simp only [Key.h5Mask, Mat.zip]
  by_cases ht : x.tar.entry i j = true <;> by_cases hn : x.non.entry i j = true <;> simp [h1, h2, ht, hn] at this ⊢

/-- `to_ndx` lists exactly the labelled trials. -/
theorem C12_to_ndx (x : Key ν) (hx : x.WF) :
    ∃ r, x.toNdx = some r ∧ r.WF ∧ ∀ m s, r.IsTrial m s ↔ x.IsTar m s ∨ x.IsNon m s := by
  have hk := Ndx.create_some (M := Mat.zip (· || ·) x.tar x.non) hx.models hx.segs hx.trows hx.tcols
  refine ⟨_, hk, (Ndx.create_eq_some hk).2, ?_⟩
  intro m s
  unfold Key.IsTar Key.IsNon Ndx.IsTrial
  rw [trueAt_iff hx.models hx.segs, trueAt_iff hx.models hx.segs, trueAt_iff hx.models hx.segs]
  simp only [Mat.zip, Bool.or_eq_true]
  tauto

example : exK1.WF ∧ exK1.Consistent ∧ exK1.IsTar 1 10 :=
  ⟨exK1_wf, (by rintro m s ⟨_, i, j, _, _, hh⟩; cases hh), 0, 0, rfl, rfl, rfl⟩

end Hyp.Trials
