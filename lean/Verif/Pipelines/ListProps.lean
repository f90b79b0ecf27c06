import Verif.Pipelines.LreProps

/-! C108: the name lists read by the scripts of scores. -/

namespace Hyp.Eval
open Hyp.Trials Hyp.Text

/-- a line: the name alone, or the name, a blank and more text -/
def listLine (r : Str × Option Str) : Str := r.1 ++ (match r.2 with | none => [] | some t => ' ' :: t)

theorem rstrip_word (n t : Str) (hn : n ≠ []) (h : ∀ c ∈ n, isSpace c = false) : ∃ p, p <+: t ∧ rstrip (n ++ t) = n ++ p := by
  induction t using List.reverseRecOn with
  | nil =>
    refine ⟨[], List.prefix_refl _, ?_⟩
    rw [rstrip_id]
    intro c hc
    rw [List.append_nil] at hc
    exact h c (List.mem_of_getLast? hc)
  | append_singleton t c ih =>
    obtain ⟨p, hp, e⟩ := ih
    by_cases hc : isSpace c = true
    · refine ⟨p, hp.trans (List.prefix_append _ _), ?_⟩
      rw [← List.append_assoc, rstrip_append (by simpa using hc), e]
    · refine ⟨t ++ [c], List.prefix_refl _, ?_⟩
      rw [rstrip_id]
      intro d hd
      rw [← List.append_assoc, List.getLast?_append] at hd
      simp at hd
      subst hd
      simpa using hc

theorem head_field (n : Str) (r : Option Str) (hn : n ≠ []) (h : ∀ c ∈ n, isSpace c = false) :
    (splitAll ' ' (rstrip (listLine (n, r) ++ ['\n']))).headD [] = n := by
  have hsp : ' ' ∉ n := fun hc => by
    have := h ' ' hc
    revert this
    decide
  unfold listLine
  rw [rstrip_append (by decide)]
  obtain ⟨p, hp, e⟩ := rstrip_word n (match r with | none => [] | some t => ' ' :: t) hn h
  rw [e]
  have hcase : p = [] ∨ ∃ q, p = ' ' :: q := by
    cases p with
    | nil => exact Or.inl rfl
    | cons c q =>
      right
      cases r with
      | none =>
        have := hp.eq_of_length_le
        simp at hp
      | some t =>
        obtain ⟨u, hu⟩ := hp
        simp at hu
        exact ⟨q, by rw [hu.1]⟩
  rcases hcase with rfl | ⟨q, rfl⟩
  · rw [List.append_nil, splitAll_noSep hsp]
    rfl
  · rw [splitAll_append hsp]
    rfl

/-- C108: of a test list with a name, or a name, a blank and more text per line, the names used are the first words of the lines except the heading `segmentid`. -/
theorem C108_lre_list (rows : List (Str × Option Str)) (hn : ∀ r ∈ rows, r.1 ≠ [] ∧ ∀ c ∈ r.1, isSpace c = false)
    (hr : ∀ r ∈ rows, ∀ t, r.2 = some t → '\n' ∉ t ∧ '\r' ∉ t) :
    lreNames (rows.flatMap (fun r => listLine r ++ ['\n'])) = (rows.map Prod.fst).filter (fun s => decide (s ≠ "segmentid".toList)) := by
  have hl : ∀ l ∈ rows.map listLine, '\n' ∉ l ∧ '\r' ∉ l := by
    intro l hl
    obtain ⟨r, hr', rfl⟩ := List.mem_map.1 hl
    have h1 : ∀ c, isSpace c = true → c ∉ r.1 := fun c hc hm => by
      have := (hn r hr').2 c hm
      rw [hc] at this
      cases this
    have a1 := h1 '\n' (by decide)
    have a2 := h1 '\r' (by decide)
    unfold listLine
    rcases hr2 : r.2 with _ | t
    · simp [a1, a2]
    · have := hr r hr' t hr2
      simp [a1, a2, this.1, this.2]
  have e := fileLines_join hl
  rw [List.flatMap_map] at e
  unfold lreNames
  rw [e, List.map_map, List.map_map]
  congr 1
  apply List.map_congr_left
  intro r hr'
  exact head_field r.1 r.2 (hn r hr').1 (hn r hr').2

/-- C108: the words of a list are split at blanks only: a list whose columns are separated by tabs gives whole lines, heading included, as names. -/
theorem C108_lre_tabs : lreNames "segmentid\tlang\na\teng\n".toList = ["segmentid\tlang".toList, "a\teng".toList] := by decide

/-- C108: of a list with a name, or a name, white space and more text per line, the names of classes and models are the first words of the lines. -/
theorem C108_first_fields (rows : List (Str × Option (Char × Str))) (hn : ∀ r ∈ rows, r.1 ≠ [] ∧ ∀ c ∈ r.1, isSpace c = false)
    (hr : ∀ r ∈ rows, ∀ t, r.2 = some t → isSpace t.1 = true ∧ '\n' ∉ t.1 :: t.2 ∧ '\r' ∉ t.1 :: t.2) :
    firstFields (rows.flatMap (fun r => r.1 ++ (r.2.elim [] (fun t => t.1 :: t.2)) ++ ['\n'])) = some (rows.map Prod.fst) := by
  have hl : ∀ l ∈ rows.map (fun r => r.1 ++ (r.2.elim [] (fun t => t.1 :: t.2))), '\n' ∉ l ∧ '\r' ∉ l := by
    intro l hl
    obtain ⟨r, hr', rfl⟩ := List.mem_map.1 hl
    have h1 : ∀ c, isSpace c = true → c ∉ r.1 := fun c hc hm => by
      have := (hn r hr').2 c hm
      rw [hc] at this
      cases this
    have a1 := h1 '\n' (by decide)
    have a2 := h1 '\r' (by decide)
    rcases hr2 : r.2 with _ | t
    · simp [a1, a2]
    · have := hr r hr' t hr2
      simp only [Option.elim_some, List.mem_append, not_or]
      exact ⟨⟨a1, this.2.1⟩, ⟨a2, this.2.2⟩⟩
  have e := fileLines_join hl
  rw [List.flatMap_map] at e
  unfold firstFields
  rw [e, mapM_eq_some_iff, List.map_map, List.map_map, List.map_map]
  apply List.map_congr_left
  intro r hr'
  have h1 := hn r hr'
  simp only [Function.comp]
  rcases hr2 : r.2 with _ | t
  · simp only [Option.elim_none, List.append_nil]
    rw [splitWs_cons (by decide) h1.1 h1.2]
    rfl
  · simp only [Option.elim_some, List.append_assoc, List.cons_append]
    rw [splitWs_cons (hr r hr' t hr2).1 h1.1 h1.2]
    rfl

example : lreNames "segmentid lang\na eng\nb\n".toList = ["a".toList, "b".toList] := by decide

example : firstFields "spk1 x\nspk2\n".toList = some ["spk1".toList, "spk2".toList] := by decide

end Hyp.Eval
