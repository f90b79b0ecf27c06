import Verif.Scp.Spec
import Verif.TextLemmas
import Verif.ListUtils.Lemmas

namespace Hyp.Scp
open Hyp.ListUtils Hyp.Text

variable {κ π α β : Type}

theorem gather_zip {a : List α} {b : List β} {idx : List Nat} {a' : List α} {b' : List β}
    (ha : gather a idx = some a') (hb : gather b idx = some b') :
    gather (a.zip b) idx = some (a'.zip b') := by
  induction idx generalizing a' b' with
  | nil => simp [gather] at ha hb ⊢; subst ha hb; simp
  | cons i is ih =>
    simp only [gather, List.mapM_cons, Option.bind_eq_bind, Option.pure_def] at ha hb ⊢
    cases h1 : a[i]? with
    | none => simp [h1] at ha
    | some u =>
      cases h2 : b[i]? with
      | none => simp [h2] at hb
      | some v =>
        simp only [h1, h2, Option.bind_some] at ha hb
        cases h3 : List.mapM (fun i => a[i]?) is with
        | none => simp [h3] at ha
        | some us =>
          cases h4 : List.mapM (fun i => b[i]?) is with
          | none => simp [h4] at hb
          | some vs =>
            simp [h3] at ha; simp [h4] at hb
            subst ha hb
            have := ih h3 h4
            unfold gather at this
            rw [this]
            have : (a.zip b)[i]? = some (u, v) := by rw [List.getElem?_zip_eq_some]; exact ⟨h1, h2⟩
            rw [this]; simp

theorem gather_col {c : Option (List α)} {n : Nat} {idx : List Nat} {c' : Option (List α)}
    (hi : ∀ i ∈ idx, i < n) (h : gatherOpt c idx = some c') :
    gather (col c n) idx = some (col c' idx.length) := by
  cases c with
  | none =>
    simp [gatherOpt] at h; subst h
    simp only [col]
    induction idx with
    | nil => simp [gather]
    | cons i is ih =>
      have := ih (fun j hj => hi j (by simp [hj]))
      have h2 := hi i (by simp)
      simp only [gather, List.mapM_cons] at this ⊢
      rw [this]
      simp [h2, List.replicate_succ]
  | some l =>
    simp only [gatherOpt, Option.map_eq_some_iff] at h
    obtain ⟨l', hl, rfl⟩ := h
    simp only [col]
    rw [gather_map, hl]; rfl

theorem create_iff {key : List κ} {path : List π} {o : Option (List Nat)} {r : Option (List (Nat × Int))}
    {y : Scp κ π} : create key path o r = some y ↔
    path.length = key.length ∧ (∀ l, o = some l → l.length = key.length) ∧
    (∀ l, r = some l → l ≠ [] → l.length = key.length) ∧
    y = ⟨key, path, o, if r = some [] then none else r, none⟩ := by
  unfold create
  by_cases h1 : key.length = path.length
  · rw [if_neg (by simp [h1])]
    cases o with
    | none =>
      rw [if_neg (by simp)]
      cases r with
      | none => simp [h1]; exact eq_comm
      | some l =>
        by_cases hl : l = []
        · subst hl; simp [h1]; exact eq_comm
        · by_cases h2 : path.length = l.length
          · simp [h1, hl, h2]; exact eq_comm
          · simp [h1, hl, h2, Ne.symm h2]
    | some o =>
      by_cases h3 : path.length = o.length
      · rw [if_neg (by simp [h1, h3])]
        cases r with
        | none => simp [h1, h3]; exact eq_comm
        | some l =>
          by_cases hl : l = []
          · subst hl; simp [h1, h3]; exact eq_comm
          · by_cases h2 : o.length = l.length
            · simp [h1, h3, hl, h2]; exact eq_comm
            · simp [h1, h3, hl, h2, Ne.symm h2]
      · rw [if_pos (by simp [h1, h3])]; simp [h1, Ne.symm h3]
  · rw [if_pos h1]; simp [Ne.symm h1]

theorem create_wf {key : List κ} {path : List π} {o : Option (List Nat)} {r : Option (List (Nat × Int))}
    {y : Scp κ π} (h : create key path o r = some y) : y.WF := by
  obtain ⟨h1, h2, h3, rfl⟩ := create_iff.1 h
  refine ⟨h1, h2, ?_⟩
  intro l hl
  simp only at hl
  split at hl
  · simp at hl
  · rename_i h4; rw [hl] at h4
    have h4 : l ≠ [] := fun e => h4 (by rw [e])
    exact ⟨h3 l hl h4, h4⟩

theorem gatherOpt_length {c c' : Option (List α)} {idx : List Nat} (h : gatherOpt c idx = some c') :
    ∀ l, c' = some l → l.length = idx.length := by
  intro l hl; subst hl
  cases c with
  | none => simp [gatherOpt] at h
  | some m =>
    simp only [gatherOpt, Option.map_eq_some_iff] at h
    obtain ⟨l', hl, h⟩ := h
    simp at h; subst h; exact gather_length hl

theorem gatherOpt_some {c : Option (List α)} {idx : List Nat} {n : Nat} (hn : ∀ l, c = some l → l.length = n)
    (hi : ∀ i ∈ idx, i < n) : ∃ c', gatherOpt c idx = some c' := by
  cases c with
  | none => exact ⟨none, rfl⟩
  | some l =>
    obtain ⟨r, hr, _⟩ := gather_eq_some (l := l) (idx := idx) (by rw [hn l rfl]; exact hi)
    exact ⟨some r, by simp [gatherOpt, hr]⟩

theorem gather_lt {l : List α} {idx : List Nat} {r : List α} (h : gather l idx = some r) :
    ∀ i ∈ idx, i < l.length := by
  intro i hi
  by_contra hc
  have : gather l idx = none := by
    unfold gather; rw [mapM_eq_none_iff]; exact ⟨i, hi, by simp; omega⟩
  rw [h] at this; simp at this

theorem entries_length {x : Scp κ π} (hx : x.WF) : x.entries.length = x.key.length := by
  unfold Scp.entries
  have h1 := hx.path
  have : ∀ (α : Type) (c : Option (List α)) (n : Nat), (∀ l, c = some l → l.length = n) → (col c n).length = n := by
    intro α c n h; cases c with
    | none => simp [col]
    | some l => simp [col, h l rfl]
  have h2 := this _ x.offset x.key.length hx.offset
  have h3 := this _ x.range x.key.length (fun l hl => (hx.range l hl).1)
  simp [h1, h2, h3]

/-- the columns gathered with the same index list give the entries gathered. -/
theorem entries_gather {x : Scp κ π} {idx : List Nat} {k : List κ} {p : List π}
    {o : Option (List Nat)} {r : Option (List (Nat × Int))} {ca : Option (List (κ × Nat))}
    (hk : gather x.key idx = some k) (hp : gather x.path idx = some p)
    (ho : gatherOpt x.offset idx = some o) (hr : gatherOpt x.range idx = some r) :
    gather x.entries idx = some (Scp.entries ⟨k, p, o, r, ca⟩) := by
  have hl := gather_lt hk
  have h := gather_zip hk (gather_zip hp (gather_zip (gather_col hl ho) (gather_col hl hr)))
  rw [← gather_length hk] at h
  exact h

theorem entries_emptyRange {k : List κ} {p : List π} {o : Option (List Nat)} {ca ca' : Option (List (κ × Nat))}
    {r : Option (List (Nat × Int))} (h : ∀ l, r = some l → l.length = k.length) :
    Scp.entries ⟨k, p, o, if r = some [] then none else r, ca⟩ = Scp.entries ⟨k, p, o, r, ca'⟩ := by
  unfold Scp.entries
  split
  · rename_i e
    have := h [] e
    have : k = [] := List.length_eq_zero_iff.1 this.symm
    subst this; rfl
  · rfl

theorem select_some {x y : Scp κ π} {idx : List Nat} (h : x.select idx = some y) :
    y.WF ∧ y.cache = none ∧ gather x.entries idx = some y.entries ∧
    gather x.key idx = some y.key ∧ gather x.path idx = some y.path := by
  unfold Scp.select at h
  simp only [Option.bind_eq_bind, Option.bind_eq_some_iff] at h
  obtain ⟨k, hk, p, hp, o, ho, r, hr, h⟩ := h
  have hw := create_wf h
  obtain ⟨_, _, _, rfl⟩ := create_iff.1 h
  refine ⟨hw, rfl, ?_, hk, hp⟩
  rw [entries_gather (ca := none) hk hp ho hr]
  congr 1
  exact (entries_emptyRange (fun l hl => (gatherOpt_length hr l hl).trans (gather_length hk).symm)).symm

theorem select_total {x : Scp κ π} {idx : List Nat} (hx : x.WF) (hi : ∀ i ∈ idx, i < x.key.length) :
    ∃ y, x.select idx = some y := by
  obtain ⟨k, hk, _⟩ := gather_eq_some (l := x.key) hi
  obtain ⟨p, hp, _⟩ := gather_eq_some (l := x.path) (idx := idx) (by rw [hx.path]; exact hi)
  obtain ⟨o, ho⟩ := gatherOpt_some (idx := idx) hx.offset hi
  obtain ⟨r, hr⟩ := gatherOpt_some (idx := idx) (fun l hl => (hx.range l hl).1) hi
  unfold Scp.select
  rw [hk, hp, ho, hr]
  refine ⟨_, create_iff.2 ⟨?_, ?_, ?_, rfl⟩⟩
  · rw [gather_length hk, gather_length hp]
  · intro l hl; rw [gather_length hk, gatherOpt_length ho l hl]
  · intro l hl _; rw [gather_length hk, gatherOpt_length hr l hl]

theorem permute_some {x y : Scp κ π} {idx : List Nat} (h : x.permute idx = some y) :
    y.cache = none ∧ gather x.entries idx = some y.entries ∧ gather x.key idx = some y.key ∧
    gather x.path idx = some y.path ∧ gatherOpt x.offset idx = some y.offset ∧
    gatherOpt x.range idx = some y.range := by
  unfold Scp.permute at h
  simp only [Option.bind_eq_bind, Option.bind_eq_some_iff, Option.pure_def, Option.some.injEq] at h
  obtain ⟨k, hk, p, hp, o, ho, r, hr, rfl⟩ := h
  exact ⟨rfl, entries_gather hk hp ho hr, hk, hp, ho, hr⟩

theorem permute_total {x : Scp κ π} {idx : List Nat} (hx : x.WF) (hi : ∀ i ∈ idx, i < x.key.length) :
    ∃ y, x.permute idx = some y := by
  obtain ⟨k, hk, _⟩ := gather_eq_some (l := x.key) hi
  obtain ⟨p, hp, _⟩ := gather_eq_some (l := x.path) (idx := idx) (by rw [hx.path]; exact hi)
  obtain ⟨o, ho⟩ := gatherOpt_some (idx := idx) hx.offset hi
  obtain ⟨r, hr⟩ := gatherOpt_some (idx := idx) (fun l hl => (hx.range l hl).1) hi
  unfold Scp.permute
  rw [hk, hp, ho, hr]
  exact ⟨_, rfl⟩

theorem permute_wf {x y : Scp κ π} {perm : List Nat} (hx : x.WF) (hp : perm.Perm (List.range x.key.length))
    (h : x.permute perm = some y) : y.WF := by
  obtain ⟨_, _, hk, hp', ho, hr⟩ := permute_some h
  have hl : perm.length = x.key.length := by simpa using hp.length_eq
  refine ⟨by rw [gather_length hk, gather_length hp'], ?_, ?_⟩
  · intro l hl; rw [gatherOpt_length ho l hl, gather_length hk]
  · intro l hl'
    refine ⟨by rw [gatherOpt_length hr l hl', gather_length hk], ?_⟩
    rintro rfl
    have h0 := gatherOpt_length hr [] hl'
    rw [hl] at h0
    cases hxr : x.range with
    | none => rw [hxr] at hr; simp [gatherOpt] at hr; rw [← hr] at hl'; simp at hl'
    | some r =>
      obtain ⟨h1, h2⟩ := hx.range r hxr
      exact h2 (List.length_eq_zero_iff.1 (by rw [h1, ← h0]; rfl))

/-! `merge` -/

theorem concatOpt_some {cs : List (Option (List α))} {c : Option (List α)} (h : concatOpt cs = some c) :
    (c = none ∧ cs.head? = some none) ∨ (∃ ls, cs = ls.map some ∧ ls ≠ [] ∧ c = some ls.flatten) := by
  cases cs with
  | nil => simp [concatOpt] at h
  | cons a as =>
    cases a with
    | none => simp [concatOpt] at h; left; simp [h]
    | some a =>
      right
      simp only [concatOpt, Option.map_eq_some_iff] at h
      obtain ⟨ls, h1, rfl⟩ := h
      have h2 := mapM_eq_some_iff.1 h1
      refine ⟨ls, by simpa using h2, ?_, rfl⟩
      rintro rfl; simp at h2

theorem concatOpt_map_some {ls : List (List α)} (h : ls ≠ []) :
    concatOpt (ls.map some) = some (some ls.flatten) := by
  cases ls with
  | nil => exact absurd rfl h
  | cons a as =>
    have : (List.map some (a :: as)).mapM id = some (a :: as) := mapM_eq_some_iff.2 (by simp)
    simp only [List.map_cons] at this ⊢
    simp only [concatOpt, this, Option.map_some]

end Hyp.Scp
