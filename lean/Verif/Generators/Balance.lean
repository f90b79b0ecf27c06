import Verif.Generators.V1Lemmas
import Mathlib.Tactic.Ring

/-! Property C55: class balancing of the utterance list (sequence_batch_generator_v1.py:177-209). -/

namespace Hyp.Gen

/-- the samples of class `i` in the balanced list (the loop body of lines 181-188). -/
def balPart (ids : List Nat) (maxS i : Nat) : List Nat :=
  let idx := (List.range ids.length).filter (fun j => ids[j]? = some i)
  let n := ids.count i
  if n < maxS then (List.replicate ((maxS + n - 1) / n) idx).flatten.take maxS else idx

theorem idx_length (ids : List Nat) (i : Nat) : ((List.range ids.length).filter (fun j => ids[j]? = some i)).length = ids.count i := by
  induction ids using List.reverseRecOn with
  | nil => simp
  | append_singleton l a ih =>
    rw [List.length_append, List.length_singleton, List.range_succ, List.filter_append, List.length_append]
    rw [List.count_append, ← ih]
    congr 1
    · congr 1
      apply List.filter_congr
      intro j hj
      rw [List.getElem?_append_left (List.mem_range.1 hj)]
    · by_cases h : a = i
      · subst h; simp
      · simp [h]

theorem flat_len {α : Type} (l : List α) (m : Nat) : (List.replicate m l).flatten.length = m * l.length := by
  induction m with
  | zero => simp
  | succ m ih => rw [List.replicate_succ, List.flatten_cons, List.length_append, ih]; ring

theorem balPart_length {ids : List Nat} {maxS i : Nat} (hi : i ∈ ids) : (balPart ids maxS i).length = max (ids.count i) maxS := by
  have hn : 0 < ids.count i := List.count_pos_iff.2 hi
  unfold balPart
  dsimp only
  split
  · rename_i h
    rw [List.length_take, flat_len, idx_length]
    have h1 : maxS ≤ (maxS + ids.count i - 1) / ids.count i * ids.count i := by
      have := Nat.div_add_mod (maxS + ids.count i - 1) (ids.count i)
      have h2 := Nat.mod_lt (maxS + ids.count i - 1) hn
      rw [Nat.mul_comm]
      generalize ids.count i * ((maxS + ids.count i - 1) / ids.count i) = Q at *
      omega
    omega
  · rw [idx_length]; omega

theorem balPart_mem {ids : List Nat} {maxS i j : Nat} (h : j ∈ balPart ids maxS i) : ids[j]? = some i := by
  unfold balPart at h
  dsimp only at h
  split at h
  · have := List.mem_of_mem_take h
    simp only [List.mem_flatten, List.mem_replicate] at this
    obtain ⟨l, ⟨_, rfl⟩, hl⟩ := this
    simpa using (List.mem_filter.1 hl).2
  · simpa using (List.mem_filter.1 h).2

theorem balPart_all {ids : List Nat} {maxS i j : Nat} (h : ids[j]? = some i) : j ∈ balPart ids maxS i := by
  have hj : j < ids.length := (List.getElem?_eq_some_iff.1 h).1
  have hm : j ∈ (List.range ids.length).filter (fun j => ids[j]? = some i) := List.mem_filter.2 ⟨List.mem_range.2 hj, by simpa using h⟩
  have hn : 0 < ids.count i := List.count_pos_iff.2 (List.mem_of_getElem? h)
  unfold balPart
  dsimp only
  split
  · rename_i hlt
    have hpos : 0 < (maxS + ids.count i - 1) / ids.count i := Nat.div_pos (by omega) hn
    obtain ⟨m, hm'⟩ : ∃ m, (maxS + ids.count i - 1) / ids.count i = m + 1 := ⟨_, (Nat.succ_pred_eq_of_pos hpos).symm⟩
    rw [hm', List.replicate_succ, List.flatten_cons, List.take_append]
    apply List.mem_append_left
    rw [List.take_of_length_le (by rw [idx_length]; omega)]
    exact hm
  · exact hm

theorem foldl_max_ge (l : List Nat) (a : Nat) : a ≤ l.foldl max a ∧ (∀ x ∈ l, x ≤ l.foldl max a) ∧ (l.foldl max a = a ∨ l.foldl max a ∈ l) := by
  induction l generalizing a with
  | nil => simp
  | cons b l ih =>
    obtain ⟨h1, h2, h3⟩ := ih (max a b)
    simp only [List.foldl_cons]
    refine ⟨by omega, ?_, ?_⟩
    · intro x hx
      rcases List.mem_cons.1 hx with rfl | hx
      · omega
      · exact h2 x hx
    · rcases h3 with h3 | h3
      · rw [h3]
        rcases Nat.le_total a b with h | h
        · right; rw [Nat.max_eq_right h]; simp
        · left; exact Nat.max_eq_left h
      · right; exact List.mem_cons_of_mem _ h3

/-- the balanced list of indices, for class numbers 0..top which all occur. -/
theorem balanceIdx_spec {ids : List Nat} {top imb : Nat} (htop : ids.max? = some top) (hall : ∀ i ≤ top, i ∈ ids) (himb : 0 < imb) :
    ∃ out maxS, balanceIdx ids imb = .ok out ∧ out = ((List.range (top + 1)).map (balPart ids maxS)).flatten ∧
      (∀ i ∈ ids, ids.count i ≤ imb * maxS) ∧ (∃ b ∈ ids, maxS ≤ ids.count b) := by
  generalize hM : ((List.range (top + 1)).map (fun i => ids.count i)).foldl max 0 = M
  refine ⟨((List.range (top + 1)).map (balPart ids ((M + imb - 1) / imb))).flatten, (M + imb - 1) / imb, ?_, rfl, ?_, ?_⟩
  · unfold balanceIdx
    rw [htop]
    dsimp only
    rw [hM]
    rw [if_pos]
    · rfl
    · refine ⟨himb, ?_⟩
      show ((List.range (top + 1)).map (balPart ids ((M + imb - 1) / imb))).flatten.length ≥ _
      rw [List.length_flatten, List.length_map, List.length_range, List.map_map]
      have : ∀ n, n ≤ top + 1 → n * ((M + imb - 1) / imb) ≤ ((List.range n).map (List.length ∘ balPart ids ((M + imb - 1) / imb))).sum := by
        intro n
        induction n with
        | zero => simp
        | succ n ih =>
          intro hn
          rw [List.range_succ, List.map_append, List.sum_append, Nat.add_mul]
          have h1 := ih (by omega)
          have h2 : (balPart ids ((M + imb - 1) / imb) n).length = _ := balPart_length (hall n (by omega))
          simp only [List.map_cons, List.map_nil, List.sum_singleton, Function.comp, h2, Nat.one_mul]
          omega
      exact this (top + 1) (Nat.le_refl _)
  · intro i hi
    have hle : i ≤ top := (List.max?_eq_some_iff.1 htop).2 i hi
    have hc : ids.count i ≤ M := by
      rw [← hM]
      exact (foldl_max_ge _ 0).2.1 _ (List.mem_map.2 ⟨i, List.mem_range.2 (by omega), rfl⟩)
    have := Nat.div_add_mod (M + imb - 1) imb
    have h2 := Nat.mod_lt (M + imb - 1) himb
    generalize imb * ((M + imb - 1) / imb) = Q at *
    omega
  · have hmem : M ∈ (List.range (top + 1)).map (fun i => ids.count i) := by
      rcases (foldl_max_ge ((List.range (top + 1)).map (fun i => ids.count i)) 0).2.2 with h | h
      · rw [hM] at h
        have h0 := (foldl_max_ge ((List.range (top + 1)).map (fun i => ids.count i)) 0).2.1 (ids.count 0)
          (List.mem_map.2 ⟨0, List.mem_range.2 (by omega), rfl⟩)
        have := List.count_pos_iff.2 (hall 0 (by omega))
        omega
      · rw [hM] at h; exact h
    obtain ⟨b, hb, hbM⟩ := List.mem_map.1 hmem
    refine ⟨b, hall b (by have := List.mem_range.1 hb; omega), ?_⟩
    rw [hbM]
    have hMpos : 0 < M := by rw [← hbM]; exact List.count_pos_iff.2 (hall b (by have := List.mem_range.1 hb; omega))
    apply Nat.div_le_of_le_mul
    have : M ≤ imb * M := Nat.le_mul_of_pos_left _ himb
    have h3 : M + imb ≤ imb * M + 1 := by
      obtain ⟨m, rfl⟩ : ∃ m, M = m + 1 := ⟨M - 1, by omega⟩
      obtain ⟨k, rfl⟩ : ∃ k, imb = k + 1 := ⟨imb - 1, by omega⟩
      have : (k + 1) * (m + 1) = k * m + k + m + 1 := by ring
      rw [this]; omega
    omega

theorem countP_flatten_parts {ids : List Nat} {maxS a n : Nat} (ha : a < n) :
    ((List.range n).map (balPart ids maxS)).flatten.countP (fun j => decide (ids[j]? = some a)) = (balPart ids maxS a).length := by
  have hz : ∀ k, k ≠ a → (balPart ids maxS k).countP (fun j => decide (ids[j]? = some a)) = 0 := by
    intro k hk
    rw [List.countP_eq_zero]
    intro j hj
    have := balPart_mem hj
    simp [this, hk]
  have hself : (balPart ids maxS a).countP (fun j => decide (ids[j]? = some a)) = (balPart ids maxS a).length := by
    rw [List.countP_eq_length]
    intro j hj
    simpa using balPart_mem hj
  induction n with
  | zero => omega
  | succ n ih =>
    rw [List.range_succ, List.map_append, List.flatten_append, List.countP_append]
    simp only [List.map_cons, List.map_nil, List.flatten_cons, List.flatten_nil, List.append_nil]
    by_cases hn : a = n
    · subst hn
      rw [hself]
      have : ((List.range a).map (balPart ids maxS)).flatten.countP (fun j => decide (ids[j]? = some a)) = 0 := by
        rw [List.countP_eq_zero]
        intro j hj
        simp only [List.mem_flatten, List.mem_map, List.mem_range] at hj
        obtain ⟨_, ⟨k, hk, rfl⟩, hj⟩ := hj
        have := balPart_mem hj
        simp [this]; omega
      omega
    · rw [ih (by omega), hz n (by omega)]; rfl

/-- C55. Class balancing, for any list of class names (one per utterance) and any admitted imbalance `imb ≥ 1`: it succeeds, keeps every
utterance, adds only copies, and afterwards no class has more than `imb` times as many entries as another one; no class shrinks, and none
grows beyond the size of the largest original class. -/
theorem C55_class_balance (names : List String) (hne : names ≠ []) {imb : Nat} (himb : 0 < imb) :
    ∃ out T, balanceIdx (npInverse names) imb = .ok out ∧ pick names out = .ok T ∧
      (∀ j, j < names.length ↔ j ∈ out) ∧
      (∀ a ∈ names, ∀ b ∈ names, T.count b ≤ imb * T.count a) ∧
      (∀ a ∈ names, names.count a ≤ T.count a ∧ ∃ b ∈ names, T.count a ≤ names.count b) := by
  have hlen : (npInverse names).length = names.length := npInverse_length names
  have hidx : ∀ a ∈ names, (npUnique names).idxOf a < (npUnique names).length := fun a ha => List.idxOf_lt_length_iff.2 (mem_npUnique.2 ha)
  have hget : ∀ (j : Nat) (a : String), a ∈ names → ((npInverse names)[j]? = some ((npUnique names).idxOf a) ↔ names[j]? = some a) := by
    intro j a ha
    unfold npInverse
    rw [List.getElem?_map]
    constructor
    · intro h
      rcases Option.eq_none_or_eq_some (names[j]?) with h1 | ⟨x, h1⟩
      · rw [h1] at h; simp at h
      · rw [h1] at h ⊢
        simp only [Option.map_some, Option.some.injEq] at h
        have hx : x ∈ names := List.mem_of_getElem? h1
        have h2 : (npUnique names)[(npUnique names).idxOf x]'(hidx x hx) = (npUnique names)[(npUnique names).idxOf a]'(hidx a ha) := by
          congr 1
        rw [List.getElem_idxOf, List.getElem_idxOf] at h2
        rw [h2]
    · intro h; rw [h]; rfl
  have hcount : ∀ a ∈ names, (npInverse names).count ((npUnique names).idxOf a) = names.count a := by
    intro a ha
    rw [← idx_length]
    have : ∀ (l : List String) (a : String), ((List.range l.length).filter (fun j => decide (l[j]? = some a))).length = l.count a := by
      intro l a
      induction l using List.reverseRecOn with
      | nil => simp
      | append_singleton l x ih =>
        rw [List.length_append, List.length_singleton, List.range_succ, List.filter_append, List.length_append, List.count_append, ← ih]
        congr 1
        · congr 1
          apply List.filter_congr
          intro j hj
          rw [List.getElem?_append_left (List.mem_range.1 hj)]
        · by_cases h : x = a
          · subst h; simp
          · simp [h]
    rw [← this names a, hlen]
    congr 1
    apply List.filter_congr
    intro j _
    simp only [hget j a ha]
  obtain ⟨top, htop⟩ : ∃ top, (npInverse names).max? = some top := by
    cases h : (npInverse names).max? with
    | none => rw [List.max?_eq_none_iff] at h; rw [h] at hlen; exact absurd (List.eq_nil_of_length_eq_zero (by simpa using hlen.symm)) hne
    | some m => exact ⟨m, rfl⟩
  have htop' := List.max?_eq_some_iff.1 htop
  have hall : ∀ i ≤ top, i ∈ npInverse names := by
    intro i hi
    have h1 := npInverse_lt htop'.1
    have h2 : (npUnique names)[i]'(by omega) ∈ names := mem_npUnique.1 (List.getElem_mem _)
    exact List.mem_map.2 ⟨_, h2, (npUnique_nodup names).idxOf_getElem i (by omega)⟩
  obtain ⟨out, maxS, h1, h2, h3, h4⟩ := balanceIdx_spec htop hall himb
  have hmem : ∀ j, j < names.length ↔ j ∈ out := by
    intro j
    rw [h2]
    simp only [List.mem_flatten, List.mem_map, List.mem_range]
    constructor
    · intro hj
      rw [← hlen] at hj
      have hj' : (npInverse names)[j]? = some (npInverse names)[j] := List.getElem?_eq_getElem hj
      exact ⟨_, ⟨(npInverse names)[j], by have := htop'.2 _ (List.getElem_mem hj); omega, rfl⟩, balPart_all hj'⟩
    · rintro ⟨_, ⟨i, _, rfl⟩, hj⟩
      have := balPart_mem hj
      rw [← hlen]; exact (List.getElem?_eq_some_iff.1 this).1
  obtain ⟨T, hT, _⟩ := gather_eq_some (l := names) (idx := out) (fun i hi => (hmem i).2 hi)
  have hTc : ∀ a ∈ names, T.count a = max (names.count a) maxS := by
    intro a ha
    have hT' := hT
    unfold gather at hT'
    rw [mapM_eq_some_iff] at hT'
    have e1 : T.count a = (T.map some).countP (fun x => decide (x = some a)) := by
      rw [List.countP_map, List.count_eq_countP]
      apply List.countP_congr
      intro x _; simp
    rw [e1, ← hT', List.countP_map]
    have e2 : out.countP ((fun x => decide (x = some a)) ∘ fun i => names[i]?) =
        out.countP (fun j => decide ((npInverse names)[j]? = some ((npUnique names).idxOf a))) := by
      apply List.countP_congr
      intro j _
      simp only [Function.comp, decide_eq_true_eq, hget j a ha]
    have hid : (npUnique names).idxOf a ∈ npInverse names := List.mem_map.2 ⟨a, ha, rfl⟩
    rw [e2, h2, countP_flatten_parts (by have := htop'.2 _ hid; omega), balPart_length hid, hcount a ha]
  have hbound : ∀ a ∈ names, names.count a ≤ imb * maxS := by
    intro a ha
    rw [← hcount a ha]; exact h3 _ (List.mem_map.2 ⟨a, ha, rfl⟩)
  refine ⟨out, T, h1, pick_ok.2 hT, hmem, ?_, ?_⟩
  · intro a ha b hb
    rw [hTc a ha, hTc b hb]
    have hb' := hbound b hb
    have e1 : imb * maxS ≤ imb * max (names.count a) maxS := Nat.mul_le_mul_left _ (by omega)
    have e2 : maxS ≤ imb * maxS := Nat.le_mul_of_pos_left _ himb
    omega
  · intro a ha
    rw [hTc a ha]
    refine ⟨by omega, ?_⟩
    obtain ⟨b, hb, hbm⟩ := h4
    obtain ⟨x, hx, rfl⟩ := List.mem_map.1 hb
    rw [hcount x hx] at hbm
    rcases Nat.le_total (names.count a) maxS with h | h
    · exact ⟨x, hx, by omega⟩
    · exact ⟨a, ha, by omega⟩

/-- a concrete case: classes of sizes 3, 1, 2 with imbalance 1 become 3, 3, 3. -/
example : ∃ out T, balanceIdx (npInverse ["b", "a", "b", "c", "b", "c"]) 1 = .ok out ∧ pick ["b", "a", "b", "c", "b", "c"] out = .ok T ∧
    T.count "a" = 3 ∧ T.count "b" = 3 ∧ T.count "c" = 3 :=
  ⟨[1, 1, 1, 0, 2, 4, 3, 5, 3], ["a", "a", "a", "b", "b", "b", "c", "c", "c"], by rfl, by rfl, by decide, by decide, by decide⟩

end Hyp.Gen
