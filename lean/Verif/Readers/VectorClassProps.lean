import Verif.Readers.VectorClass
import Mathlib.Tactic.Ring
import Mathlib.Data.List.Nodup

/-! Properties C46 and C47: pruning and splitting of classes. -/

namespace Hyp.Readers
open Hyp.Text

/-- the rows of a class with their positions. -/
def classZ (t : Rows) (c : String) : List ((String × String) × Nat) := t.zipIdx.filter (fun p => decide (p.1.2 = c))

theorem classZ_idx (t : Rows) (c : String) : (classZ t c).map Prod.snd = classIdx t c := by
  unfold classZ classIdx nonzero
  rw [List.length_map]
  induction t using List.reverseRecOn with
  | nil => rfl
  | append_singleton l a ih =>
    rw [List.zipIdx_append, List.filter_append, List.map_append, List.length_append, List.length_singleton, List.range_succ, List.filter_append]
    have e : (List.range l.length).filter (fun i => ((l ++ [a]).map (fun p => decide (p.2 = c))).getD i false) =
        (List.range l.length).filter (fun i => (l.map (fun p => decide (p.2 = c))).getD i false) := by
      apply List.filter_congr
      intro i hi
      rw [List.map_append, List.getD_eq_getElem?_getD, List.getD_eq_getElem?_getD, List.getElem?_append_left (by simpa using List.mem_range.1 hi)]
    rw [e, ← ih]
    congr 1
    by_cases h : a.2 = c <;> simp [h]

theorem classZ_rows (t : Rows) (c : String) : (classZ t c).map Prod.fst = t.filter (fun p => decide (p.2 = c)) := by
  unfold classZ
  have : ∀ (l : Rows) (n : Nat), ((l.zipIdx n).filter (fun p => decide (p.1.2 = c))).map Prod.fst = l.filter (fun p => decide (p.2 = c)) := by
    intro l
    induction l with
    | nil => intro n; rfl
    | cons a l ih =>
      intro n
      rw [List.zipIdx_cons, List.filter_cons, List.filter_cons]
      by_cases h : a.2 = c
      · simp [h, ih]
      · simp [h, ih]
  exact this t 0

theorem spc_eq (t : Rows) (c : String) : spc t c = (t.filter (fun p => decide (p.2 = c))).length := by
  unfold spc
  induction t with
  | nil => rfl
  | cons a l ih =>
    rw [List.map_cons, List.count_cons, List.filter_cons, ih]
    by_cases h : a.2 = c <;> simp [h]

theorem classIdx_length (t : Rows) (c : String) : (classIdx t c).length = spc t c := by
  rw [← classZ_idx, List.length_map, spc_eq, ← classZ_rows, List.length_map]

theorem classIdx_nodup (t : Rows) (c : String) : (classIdx t c).Nodup := nonzero_nodup _

theorem mem_classIdx {t : Rows} {c : String} {i : Nat} : i ∈ classIdx t c ↔ ∃ k, t[i]? = some (k, c) := by
  unfold classIdx
  rw [mem_nonzero, List.getElem?_map, Option.map_eq_some_iff]
  constructor
  · rintro ⟨⟨k, c'⟩, h, e⟩
    simp only [decide_eq_true_eq] at e
    exact ⟨k, by rw [h, e]⟩
  · rintro ⟨k, h⟩; exact ⟨_, h, by simp⟩

/-- dropping positions, restricted to a class. -/
theorem dropIdx_class (t : Rows) (rej : List Nat) (c : String) :
    (dropIdx t rej).filter (fun p => decide (p.2 = c)) = ((classZ t c).filter (fun p => decide (p.2 ∉ rej))).map Prod.fst := by
  unfold dropIdx classZ
  rw [List.filter_map, List.filter_filter, List.filter_filter]
  congr 1
  apply List.filter_congr
  intro x _
  simp [Bool.and_comm]

theorem dropIdx_sublist (t : Rows) (rej : List Nat) : (dropIdx t rej).Sublist t := by
  unfold dropIdx
  have : (t.zipIdx.map Prod.fst).Sublist t := by simp
  exact (List.filter_sublist.map Prod.fst).trans this

theorem filter_not_drop {Z : List ((String × String) × Nat)} (hn : (Z.map Prod.snd).Nodup) {rej : List Nat} {M : Nat}
    (h : ∀ x ∈ Z.map Prod.snd, x ∈ rej ↔ x ∈ (Z.map Prod.snd).drop M) : Z.filter (fun p => decide (p.2 ∉ rej)) = Z.take M := by
  have e : Z = Z.take M ++ Z.drop M := (List.take_append_drop M Z).symm
  have hd : (Z.map Prod.snd).drop M = (Z.drop M).map Prod.snd := by simp
  have hdis : ∀ p ∈ Z.take M, p.2 ∉ (Z.drop M).map Prod.snd := by
    intro p hp hq
    rw [e, List.map_append, List.nodup_append] at hn
    exact hn.2.2 p.2 (List.mem_map.2 ⟨p, hp, rfl⟩) p.2 hq rfl
  conv_lhs => rw [e]
  rw [List.filter_append, List.filter_eq_self.2, List.filter_eq_nil_iff.2, List.append_nil]
  · intro p hp
    have h1 : p.2 ∈ (Z.drop M).map Prod.snd := List.mem_map.2 ⟨p, hp, rfl⟩
    have h2 : p.2 ∈ rej := (h p.2 (List.mem_map.2 ⟨p, List.mem_of_mem_drop hp, rfl⟩)).2 (by rw [hd]; exact h1)
    simpa using h2
  · intro p hp
    have h2 : p.2 ∉ rej := by
      rw [h p.2 (List.mem_map.2 ⟨p, List.mem_of_mem_take hp, rfl⟩), hd]
      exact hdis p hp
    simpa using h2

theorem filter_not_take {Z : List ((String × String) × Nat)} (hn : (Z.map Prod.snd).Nodup) {rej : List Nat} {M : Nat}
    (h : ∀ x ∈ Z.map Prod.snd, x ∈ rej ↔ x ∈ (Z.map Prod.snd).take M) : Z.filter (fun p => decide (p.2 ∉ rej)) = Z.drop M := by
  have e : Z = Z.take M ++ Z.drop M := (List.take_append_drop M Z).symm
  have hd : (Z.map Prod.snd).take M = (Z.take M).map Prod.snd := by simp
  have hdis : ∀ p ∈ Z.drop M, p.2 ∉ (Z.take M).map Prod.snd := by
    intro p hp hq
    rw [e, List.map_append, List.nodup_append] at hn
    exact hn.2.2 p.2 hq p.2 (List.mem_map.2 ⟨p, hp, rfl⟩) rfl
  conv_lhs => rw [e]
  rw [List.filter_append, List.filter_eq_nil_iff.2, List.filter_eq_self.2, List.nil_append]
  · intro p hp
    have h2 : p.2 ∉ rej := by
      rw [h p.2 (List.mem_map.2 ⟨p, List.mem_of_mem_drop hp, rfl⟩), hd]
      exact hdis p hp
    simpa using h2
  · intro p hp
    have h1 : p.2 ∈ (Z.take M).map Prod.snd := List.mem_map.2 ⟨p, hp, rfl⟩
    have h2 : p.2 ∈ rej := (h p.2 (List.mem_map.2 ⟨p, List.mem_of_mem_take hp, rfl⟩)).2 (by rw [hd]; exact h1)
    simpa using h2

theorem filter_not_mem_length {l rej : List Nat} (hn : l.Nodup) (hr : rej.Nodup) (hsub : ∀ x ∈ rej, x ∈ l) :
    (l.filter (fun x => decide (x ∉ rej))).length = l.length - rej.length := by
  have h1 : (l.filter (fun x => decide (x ∈ rej))).Perm rej := by
    rw [List.perm_ext_iff_of_nodup (hn.filter _) hr]
    intro a
    rw [List.mem_filter]
    constructor
    · rintro ⟨_, h⟩; simpa using h
    · intro h; exact ⟨hsub a h, by simpa using h⟩
  have h2 := List.length_eq_length_filter_add (l := l) (fun x => decide (x ∈ rej))
  rw [h1.length_eq] at h2
  have h3 : l.filter (fun x => !decide (x ∈ rej)) = l.filter (fun x => decide (x ∉ rej)) := by
    apply List.filter_congr; intro x _; simp
  rw [h3] at h2
  omega

variable {R : CRng}

theorem rejects_spec {mode : Prune} {idx : List Nat} {M : Nat} {g : R.σ} (hn : idx.Nodup) (hM : M ≤ idx.length) :
    (rejects mode idx M g).1.Nodup ∧ (rejects mode idx M g).1.length = idx.length - M ∧ (∀ x ∈ (rejects mode idx M g).1, x ∈ idx) ∧
    (mode = .last → (rejects mode idx M g).1 = idx.drop M) ∧ (mode = .first → (rejects mode idx M g).1 = idx.take (idx.length - M)) := by
  unfold rejects
  cases mode with
  | random =>
    obtain ⟨h1, h2, h3⟩ := R.spec g idx (idx.length - M) (by omega) hn
    exact ⟨h2, h1, h3, by simp, by simp⟩
  | first =>
    refine ⟨hn.sublist (List.take_sublist _ _), by simp, fun x hx => List.mem_of_mem_take hx, by simp, fun _ => rfl⟩
  | last =>
    have e : idx.length - (idx.length - M) = M := by omega
    refine ⟨hn.sublist (List.drop_sublist _ _), by simp; omega, fun x hx => List.mem_of_mem_drop hx, fun _ => by dsimp only; rw [e], by simp⟩

/-- the rejected positions of class `c`: nothing when the class is small, the outcome of `rejects` otherwise. -/
theorem rejectAll_spec {mode : Prune} {t : Rows} {M : Nat} {cs : List String} (hn : cs.Nodup) (g : R.σ) (c : String) :
    (c ∈ cs → M < spc t c → ∃ g1 : R.σ, ∀ x ∈ classIdx t c, x ∈ (rejectAll mode t M cs g).1 ↔ x ∈ (rejects mode (classIdx t c) M g1).1) ∧
    ((c ∉ cs ∨ spc t c ≤ M) → ∀ x ∈ classIdx t c, x ∉ (rejectAll mode t M cs g).1) := by
  induction cs generalizing g with
  | nil => simp [rejectAll]
  | cons a cs ih =>
    rw [List.nodup_cons] at hn
    have hother : ∀ (b : String) (x : Nat), b ≠ c → x ∈ classIdx t c → M < spc t b → ∀ g1 : R.σ, x ∉ (rejects mode (classIdx t b) M g1).1 := by
      intro b x hb hx hM g1 hxr
      have := (rejects_spec (R := R) (mode := mode) (g := g1) (classIdx_nodup t b) (M := M) (by rw [classIdx_length]; omega)).2.2.1 x hxr
      obtain ⟨k, hk⟩ := mem_classIdx.1 this
      obtain ⟨k', hk'⟩ := mem_classIdx.1 hx
      rw [hk] at hk'
      simp only [Option.some.injEq, Prod.mk.injEq] at hk'
      exact hb hk'.2
    unfold rejectAll
    constructor
    · intro hc hM
      by_cases hac : a = c
      · subst hac
        rw [if_pos hM]
        dsimp only
        refine ⟨g, ?_⟩
        intro x hx
        rw [List.mem_append]
        have := (ih hn.2 (rejects mode (classIdx t a) M g).2).2 (Or.inl hn.1) x hx
        tauto
      · have hc' : c ∈ cs := by
          rcases List.mem_cons.1 hc with h | h
          · exact absurd h.symm hac
          · exact h
        split
        · rename_i ha
          dsimp only
          obtain ⟨g1, hg1⟩ := (ih hn.2 (rejects mode (classIdx t a) M g).2).1 hc' hM
          refine ⟨g1, ?_⟩
          intro x hx
          rw [List.mem_append, hg1 x hx]
          have := hother a x hac hx ha g
          tauto
        · exact (ih hn.2 g).1 hc' hM
    · intro hcase x hx
      split
      · rename_i ha
        dsimp only
        rw [List.mem_append, not_or]
        have hac : a ≠ c := by
          intro h
          subst h
          rcases hcase with h | h
          · exact h (List.mem_cons_self ..)
          · omega
        refine ⟨hother a x hac hx ha g, ?_⟩
        apply (ih hn.2 _).2 _ x hx
        rcases hcase with h | h
        · exact Or.inl (fun h' => h (List.mem_cons_of_mem _ h'))
        · exact Or.inr h
      · apply (ih hn.2 _).2 _ x hx
        rcases hcase with h | h
        · exact Or.inl (fun h' => h (List.mem_cons_of_mem _ h'))
        · exact Or.inr h

theorem filterMin_class (t : Rows) (m : Nat) (c : String) :
    (filterMin t m).filter (fun p => decide (p.2 = c)) = if m ≤ 1 ∨ m ≤ spc t c then t.filter (fun p => decide (p.2 = c)) else [] := by
  unfold filterMin
  split
  · rename_i hm
    rw [List.filter_filter]
    split
    · rename_i h
      apply List.filter_congr
      intro p _
      by_cases hp : p.2 = c
      · subst hp; have : m ≤ spc t p.2 := by omega
        simp [this]
      · simp [hp]
    · rename_i h
      rw [List.filter_eq_nil_iff]
      intro p _
      by_cases hp : p.2 = c
      · subst hp; have : ¬ m ≤ spc t p.2 := by omega
        simp [this]
      · simp [hp]
  · rename_i hm
    rw [if_pos (by omega)]

theorem filterMin_sublist (t : Rows) (m : Nat) : (filterMin t m).Sublist t := by
  unfold filterMin
  split
  · exact List.filter_sublist
  · exact List.Sublist.refl _

theorem filter_length_min {t : Rows} (c : String) : spc t c = ((t.filter (fun p => decide (p.2 = c)))).length := spc_eq t c

/-- C46. For every table, limits, mode and random machine, `_filter_by_spc` succeeds and returns a sub-list of the table (no sample is
invented, moved or relabelled); a class is kept iff it has at least `min_spc` samples (always if `min_spc ≤ 1`), and a kept class has `min(count,
max_spc)` samples left: in 'last' mode these are its first ones, in 'first' mode its last ones — the name of the mode says which samples are
REMOVED. -/
theorem C46_filter_by_spc (t : Rows) (m : Nat) (maxSpc : Option Nat) (mode : Prune) (g : R.σ) :
    ∃ t' g', filterBySpc t (some m) maxSpc mode g = some (t', g') ∧ t'.Sublist t ∧
      ∀ c, let rows := fun (t : Rows) => t.filter (fun p => decide (p.2 = c))
        (¬ (m ≤ 1 ∨ m ≤ spc t c) → rows t' = []) ∧
        (m ≤ 1 ∨ m ≤ spc t c → maxSpc = none → rows t' = rows t) ∧
        (m ≤ 1 ∨ m ≤ spc t c → ∀ M, maxSpc = some M → spc t' c = min (spc t c) M ∧
          (mode = .last → rows t' = (rows t).take M) ∧ (mode = .first → rows t' = (rows t).drop (spc t c - M))) := by
  unfold filterBySpc
  dsimp only
  have hkeep : ∀ c, m ≤ 1 ∨ m ≤ spc t c → spc (filterMin t m) c = spc t c := by
    intro c hc
    rw [spc_eq, filterMin_class, if_pos hc, ← spc_eq]
  rcases maxSpc with _ | M
  · refine ⟨_, _, rfl, filterMin_sublist t m, ?_⟩
    intro c
    refine ⟨fun h => ?_, fun h _ => ?_, fun _ M hM => ?_⟩
    · rw [filterMin_class, if_neg h]
    · rw [filterMin_class, if_pos h]
    · simp at hM
  · dsimp only
    split
    · rename_i hall
      refine ⟨_, _, rfl, filterMin_sublist t m, ?_⟩
      intro c
      refine ⟨fun h => ?_, fun h h' => ?_, fun h M' hM => ?_⟩
      · rw [filterMin_class, if_neg h]
      · simp at h'
      · simp only [Option.some.injEq] at hM
        subst hM
        rw [hkeep c h]
        have hle : spc t c ≤ M := by
          rcases Nat.eq_zero_or_pos (spc t c) with h0 | h0
          · omega
          · rw [← hkeep c h] at h0 ⊢
            have : c ∈ npUnique ((filterMin t m).map Prod.snd) := mem_npUnique.2 (List.count_pos_iff.1 h0)
            rw [List.all_eq_true] at hall
            simpa using hall c this
        refine ⟨by omega, fun _ => ?_, fun _ => ?_⟩
        · rw [filterMin_class, if_pos h, List.take_of_length_le (by rw [← spc_eq]; exact hle)]
        · rw [filterMin_class, if_pos h]
          have : spc t c - M = 0 := by omega
          rw [this, List.drop_zero]
    · refine ⟨_, _, rfl, (dropIdx_sublist _ _).trans (filterMin_sublist t m), ?_⟩
      intro c
      generalize ht1 : filterMin t m = t1
      have hu := npUnique_nodup (t1.map Prod.snd)
      obtain ⟨s1, s2⟩ := rejectAll_spec (R := R) (mode := mode) (t := t1) (M := M) hu g c
      generalize (rejectAll mode t1 M (npUnique (t1.map Prod.snd)) g).1 = rej at s1 s2
      refine ⟨fun h => ?_, fun h h' => ?_, fun h M' hM => ?_⟩
      · have hz : t1.filter (fun p => decide (p.2 = c)) = [] := by rw [← ht1, filterMin_class, if_neg h]
        exact List.sublist_nil.1 (hz ▸ (dropIdx_sublist t1 rej).filter _)
      · simp at h'
      · simp only [Option.some.injEq] at hM
        subst hM
        have hs1 : spc t1 c = spc t c := by rw [← ht1]; exact hkeep c h
        have hr1 : t1.filter (fun p => decide (p.2 = c)) = t.filter (fun p => decide (p.2 = c)) := by rw [← ht1, filterMin_class, if_pos h]
        by_cases hbig : M < spc t1 c
        · have hc : c ∈ npUnique (t1.map Prod.snd) := mem_npUnique.2 (List.count_pos_iff.1 (by unfold spc at hbig; omega))
          obtain ⟨g1, hg1⟩ := s1 hc hbig
          obtain ⟨r1, r2, r3, r4, r5⟩ := rejects_spec (R := R) (mode := mode) (g := g1) (M := M) (classIdx_nodup t1 c) (by rw [classIdx_length]; omega)
          have hZ := classZ_idx t1 c
          refine ⟨?_, ?_, ?_⟩
          · rw [spc_eq, dropIdx_class, List.length_map]
            have e1 : ((classZ t1 c).filter (fun p => decide (p.2 ∉ rej))).length =
                (((classZ t1 c).map Prod.snd).filter (fun x => decide (x ∉ (rejects mode (classIdx t1 c) M g1).1))).length := by
              rw [List.filter_map, List.length_map]
              congr 1
              apply List.filter_congr
              intro p hp
              have : p.2 ∈ classIdx t1 c := by rw [← hZ]; exact List.mem_map.2 ⟨p, hp, rfl⟩
              simp only [Function.comp, hg1 p.2 this]
            rw [e1, hZ, filter_not_mem_length (classIdx_nodup t1 c) r1 r3, r2, classIdx_length]
            omega
          · intro hm
            rw [dropIdx_class, filter_not_drop (M := M) (by rw [hZ]; exact classIdx_nodup t1 c), List.map_take, classZ_rows, hr1]
            intro x hx
            rw [hZ] at hx ⊢
            rw [hg1 x hx, r4 hm]
          · intro hm
            rw [dropIdx_class, filter_not_take (M := spc t c - M) (by rw [hZ]; exact classIdx_nodup t1 c), List.map_drop, classZ_rows, hr1]
            intro x hx
            rw [hZ] at hx ⊢
            rw [hg1 x hx, r5 hm, classIdx_length, hs1]
        · have hnone := s2 (Or.inr (by omega))
          have hall : (dropIdx t1 rej).filter (fun p => decide (p.2 = c)) = t.filter (fun p => decide (p.2 = c)) := by
            rw [dropIdx_class, List.filter_eq_self.2, classZ_rows, hr1]
            intro p hp
            have : p.2 ∈ classIdx t1 c := by rw [← classZ_idx]; exact List.mem_map.2 ⟨p, hp, rfl⟩
            simpa using hnone p.2 this
          refine ⟨?_, fun _ => ?_, fun _ => ?_⟩
          · rw [spc_eq, hall, ← spc_eq]; omega
          · rw [hall, List.take_of_length_le (by rw [← spc_eq]; omega)]
          · rw [hall]
            have : spc t c - M = 0 := by omega
            rw [this, List.drop_zero]

/-- C46 (a defect): the class-splitting options leave `min_spc` at None on the command line, and then the call raises. -/
theorem C46_none_min_raises (t : Rows) (maxSpc : Option Nat) (mode : Prune) (g : R.σ) : filterBySpc t none maxSpc mode g = none := rfl

example : (filterBySpc (R := firstRng) [("a", "x"), ("b", "y"), ("c", "x"), ("d", "x"), ("e", "z"), ("f", "z")] (some 2) (some 2) .last ()).map Prod.fst =
    some [("a", "x"), ("c", "x"), ("e", "z"), ("f", "z")] := by decide

end Hyp.Readers
