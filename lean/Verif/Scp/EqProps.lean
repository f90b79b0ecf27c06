import Verif.Scp.Props

/-! Property C05, continued: equality of script lists, access by position. -/

namespace Hyp.Scp
variable {κ π : Type} [DecidableEq κ] [DecidableEq π]

omit [DecidableEq κ] [DecidableEq π] in
theorem zip_inj {α β : Type} {a a' : List α} {b b' : List β} (h : a.length = b.length) (h' : a'.length = b'.length) (e : a.zip b = a'.zip b') : a = a' ∧ b = b' := by
  have h1 := congrArg (List.map Prod.fst) e
  have h2 := congrArg (List.map Prod.snd) e
  rw [List.map_fst_zip (by omega), List.map_fst_zip (by omega)] at h1
  rw [List.map_snd_zip (by omega), List.map_snd_zip (by omega)] at h2
  exact ⟨h1, h2⟩

omit [DecidableEq κ] [DecidableEq π] in
theorem col_length {α : Type} {c : Option (List α)} {n : Nat} (h : ∀ l, c = some l → l.length = n) : (col c n).length = n := by
  cases c with
  | none => simp [col]
  | some l => simp [col, h l rfl]

omit [DecidableEq κ] [DecidableEq π] in
theorem col_inj {α : Type} {c c' : Option (List α)} {n : Nat} (hn : 0 < n) (h : ∀ l, c = some l → l.length = n) (h' : ∀ l, c' = some l → l.length = n)
    (e : col c n = col c' n) : c = c' := by
  obtain ⟨k, rfl⟩ : ∃ k, n = k + 1 := ⟨n - 1, by omega⟩
  cases c with
  | none =>
    cases c' with
    | none => rfl
    | some l =>
      have hl := h' l rfl
      cases l with
      | nil => simp at hl
      | cons a l => simp [col, List.replicate_succ] at e
  | some l =>
    cases c' with
    | none =>
      have hl := h l rfl
      cases l with
      | nil => simp at hl
      | cons a l => simp [col, List.replicate_succ] at e
    | some l' =>
      congr 1
      simp only [col] at e
      exact List.map_injective_iff.2 (Option.some_injective _) e

/-- **C05 (equality).** `==` on valid script lists is equality of their entries (key, path, offset, range), in order. -/
theorem C05_eq (x y : Scp κ π) (hx : x.WF) (hy : y.WF) : x.eq y = true ↔ x.entries = y.entries := by
  have cx := col_length (c := x.offset) hx.offset
  have cy := col_length (c := y.offset) hy.offset
  have rx := col_length (c := x.range) (fun l h => (hx.range l h).1)
  have ry := col_length (c := y.range) (fun l h => (hy.range l h).1)
  have hxl : x.entries.length = x.key.length := by simp [Scp.entries, List.length_zip, hx.path, cx, rx]
  have hyl : y.entries.length = y.key.length := by simp [Scp.entries, List.length_zip, hy.path, cy, ry]
  unfold Scp.eq
  by_cases h0 : x.key.length = 0 ∧ y.key.length = 0
  · rw [if_pos h0]
    have e1 : x.entries = [] := List.length_eq_zero_iff.1 (by omega)
    have e2 : y.entries = [] := List.length_eq_zero_iff.1 (by omega)
    simp [e1, e2]
  · rw [if_neg h0]
    simp only [Bool.and_eq_true, decide_eq_true_eq]
    constructor
    · rintro ⟨⟨⟨h1, h2⟩, h3⟩, h4⟩
      simp [Scp.entries, h1, h2, h3, h4]
    · intro e
      have hk : x.key.length = y.key.length := by rw [← hxl, ← hyl, e]
      unfold Scp.entries at e
      obtain ⟨e1, e⟩ := zip_inj (by simp [List.length_zip, hx.path, cx, rx]) (by simp [List.length_zip, hy.path, cy, ry]) e
      obtain ⟨e2, e⟩ := zip_inj (by simp [List.length_zip, hx.path, cx, rx]) (by simp [List.length_zip, hy.path, cy, ry]) e
      obtain ⟨e3, e4⟩ := zip_inj (by rw [cx, rx]) (by rw [cy, ry]) e
      rw [hk] at e3 e4
      have hn : 0 < y.key.length := by omega
      refine ⟨⟨⟨e1, e2⟩, ?_⟩, ?_⟩
      · exact col_inj hn (fun l h => (hx.offset l h).trans hk) hy.offset e3
      · exact col_inj hn (fun l h => (hx.range l h).1.trans hk) (fun l h => (hy.range l h).1) e4

/-- **C05 (access by position).** `scp[i]` is the `i`-th entry. -/
theorem C05_getitem_position (x : Scp κ π) (hx : x.WF) (i : Nat) : x.getByPos i = x.entries[i]? := by
  have cx := col_length (c := x.offset) hx.offset
  have rx := col_length (c := x.range) (fun l h => (hx.range l h).1)
  have hxl : x.entries.length = x.key.length := by simp [Scp.entries, List.length_zip, hx.path, cx, rx]
  unfold Scp.getByPos
  by_cases hi : i < x.key.length
  · have hp : i < x.path.length := by rw [hx.path]; exact hi
    have hcol : ∀ {γ : Type} (c : Option (List γ)), (∀ l, c = some l → l.length = x.key.length) → ∃ v, optCol c i = some v ∧ (col c x.key.length)[i]? = some v := by
      intro γ c hc
      cases c with
      | none => exact ⟨none, rfl, by simp [col, hi]⟩
      | some l =>
        have hl : i < l.length := by rw [hc l rfl]; exact hi
        exact ⟨some l[i], by simp [optCol, hl], by simp [col, hl]⟩
    obtain ⟨o, ho, ho'⟩ := hcol x.offset hx.offset
    obtain ⟨r, hr, hr'⟩ := hcol x.range (fun l h => (hx.range l h).1)
    rw [ho, hr, List.getElem?_eq_getElem hi, List.getElem?_eq_getElem hp]
    symm
    unfold Scp.entries
    have hz : (x.key.zip (x.path.zip ((col x.offset x.key.length).zip (col x.range x.key.length))))[i]? = some (x.key[i], x.path[i], o, r) :=
      List.getElem?_zip_eq_some.2 ⟨List.getElem?_eq_getElem hi, List.getElem?_zip_eq_some.2 ⟨List.getElem?_eq_getElem hp,
        List.getElem?_zip_eq_some.2 ⟨ho', hr'⟩⟩⟩
    rw [hz]
    rfl
  · rw [List.getElem?_eq_none (l := x.entries) (by omega)]
    rw [List.getElem?_eq_none (l := x.key) (by omega)]
    cases optCol x.offset i <;> [rfl; cases optCol x.range i <;> rfl]

/-- non-vacuity: two lists differing only in a range are not equal. -/
example : (⟨["a"], ["p"], none, some [(0, 3)], none⟩ : Scp String String).eq ⟨["a"], ["p"], none, some [(0, 4)], none⟩ = false := by decide

end Hyp.Scp
