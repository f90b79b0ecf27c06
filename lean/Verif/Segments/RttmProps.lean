import Verif.Segments.Rttm
import Mathlib.Tactic.Linarith
import Mathlib.Tactic.Ring
import Mathlib.Tactic.FieldSimp
import Mathlib.Tactic.NormNum

/-! Properties C48 (merging of adjacent segments), C49 (speakers in a window), C57 (overlap elimination). -/

namespace Hyp.Segments

variable {K : Type} [Field K] [LinearOrder K] [IsStrictOrderedRing K]

/-- the row which replaces a run of rows: it starts where the run starts and ends where its last row ends. -/
def runRow (run : List (Row K)) : Option (Row K) :=
  match run.head?, run.getLast? with
  | some a, some b => some { a with tdur := b.tend - a.tbeg }
  | _, _ => none

theorem splitBy_cons_true {α : Type} {r : α → α → Bool} {a b : α} {l : List α} (h : r a b = true) {g : List α} {gs : List (List α)}
    (e : (b :: l).splitBy r = g :: gs) : (a :: b :: l).splitBy r = (a :: g) :: gs := by
  rw [List.splitBy_eq_iff] at e ⊢
  obtain ⟨h1, h2, h3, h4⟩ := e
  have hg : g ≠ [] := fun h => h2 (by simp [h])
  obtain ⟨b', g', rfl⟩ := List.exists_cons_of_ne_nil hg
  have hb : b' = b := by simpa using (congrArg List.head? h1).symm
  subst hb
  refine ⟨by rw [h1]; simp, ?_, ?_, ?_⟩
  · intro hm
    rcases List.mem_cons.1 hm with h | h
    · simp at h
    · exact h2 (List.mem_cons_of_mem _ h)
  · intro m hm
    rcases List.mem_cons.1 hm with rfl | hm
    · rw [List.isChain_cons_cons]
      exact ⟨h, h3 _ (List.mem_cons_self ..)⟩
    · exact h3 m (List.mem_cons_of_mem _ hm)
  · rw [List.isChain_cons] at h4 ⊢
    refine ⟨?_, h4.2⟩
    intro y hy
    obtain ⟨ha, hb, hr⟩ := h4.1 y hy
    exact ⟨by simp, hb, by rw [List.getLast_cons ha]; exact hr⟩

theorem splitBy_cons_false {α : Type} {r : α → α → Bool} {a b : α} {l : List α} (h : r a b = false) :
    (a :: b :: l).splitBy r = [a] :: (b :: l).splitBy r := by
  have := List.splitBy_append_cons (r := r) (l := [a]) (a := b) l (by simpa using h)
  exact this

/-- flags of a table whose first row has flag `f`. -/
def flagged (margin : K) (f : Bool) (r : Row K) (rest : List (Row K)) : List (Row K × Bool) :=
  (r :: rest).zip (f :: ((r :: rest).zip rest).map (fun p => joinable margin p.1 p.2))

theorem mergeLoop_spec (margin : K) (f : Bool) (r : Row K) (rest : List (Row K)) (hd : ∀ x ∈ r :: rest, x.stype ≠ "DROP") :
    ∃ h out, mergeLoop (flagged margin f r rest) = (h, f) :: out ∧ h.stype = r.stype ∧ 
      (h :: (out.map Prod.fst).filter (fun r => decide (r.stype ≠ "DROP"))).map some = ((r :: rest).splitBy (joinable margin)).map runRow := by
  induction rest generalizing r f with
  | nil => exact ⟨r, [], rfl, rfl, by simp [runRow, Row.tend, List.splitBy, List.splitBy.loop]⟩
  | cons b rest ih =>
    obtain ⟨h', out', e, hs, hm⟩ := ih (joinable margin r b) b (fun x hx => hd x (List.mem_cons_of_mem _ hx))
    have e0 : mergeLoop (flagged margin f r (b :: rest)) = match mergeLoop (flagged margin (joinable margin r b) b rest) with
      | [] => [(r, f)]
      | (r', f') :: out =>
        if f' then ({ r with tdur := (r'.tbeg + r'.tdur) - r.tbeg }, f) :: ({ r' with stype := "DROP" }, f') :: out
        else (r, f) :: (r', f') :: out := rfl
    rw [e] at e0
    dsimp only at e0
    have hne : ((b :: rest).splitBy (joinable margin)) ≠ [] := by rw [List.splitBy_ne_nil]; simp
    obtain ⟨g, gs, hg⟩ := List.exists_cons_of_ne_nil hne
    rw [hg] at hm
    simp only [List.map_cons, List.cons.injEq] at hm
    by_cases hj : joinable margin r b = true
    · rw [if_pos hj] at e0
      refine ⟨_, _, e0, rfl, ?_⟩
      rw [splitBy_cons_true hj hg]
      simp only [List.map_cons, List.filter_cons, ne_eq, not_true_eq_false, decide_false, Bool.false_eq_true, if_false]
      rw [hm.2]
      congr 1
      have hgn : g ≠ [] := by
        intro h0
        have := List.nil_notMem_splitBy (joinable margin) (b :: rest)
        rw [hg, h0] at this
        simp at this
      obtain ⟨b', g', rfl⟩ := List.exists_cons_of_ne_nil hgn
      have h1 := hm.1
      unfold runRow at h1 ⊢
      rw [List.head?_cons, List.getLast?_eq_some_getLast (by simp)] at h1 ⊢
      dsimp only at h1 ⊢
      simp only [Option.some.injEq] at h1 ⊢
      rw [h1, List.getLast_cons (a := r) (l := b' :: g') (by simp)]
      dsimp only
      congr 1
      ring
    · rw [if_neg hj] at e0
      refine ⟨_, _, e0, rfl, ?_⟩
      rw [splitBy_cons_false (by simpa using hj), hg]
      have hbs : h'.stype ≠ "DROP" := by rw [hs]; exact hd b (by simp)
      rw [List.map_cons, List.map_cons, List.map_cons, List.filter_cons, if_pos (by simpa using hbs), List.map_cons, List.map_cons, hm.1, hm.2]
      congr 1
      simp [runRow, Row.tend]

/-- the functional specification of the merge: the table is cut exactly where two neighbours are not joinable and every run becomes one row. -/
theorem mergeAdjacent_runs (margin : K) (rows : List (Row K)) (hd : ∀ r ∈ rows, r.stype ≠ "DROP") :
    (mergeAdjacent margin rows).map some = (rows.splitBy (joinable margin)).map runRow := by
  cases rows with
  | nil => rfl
  | cons r rest =>
    obtain ⟨h, out, e, hs, hm⟩ := mergeLoop_spec margin false r rest hd
    have e1 : mergeAdjacent margin (r :: rest) = ((mergeLoop (flagged margin false r rest)).map Prod.fst).filter (fun r => decide (r.stype ≠ "DROP")) := rfl
    rw [e1, e, List.map_cons, List.filter_cons, if_pos (by simpa [hs] using hd r (by simp)), hm]

/-- `t` is inside the half-open interval of a row. -/
def Row.covers (r : Row K) (t : K) : Prop := r.tbeg ≤ t ∧ t < r.tend

/-- same type, file and speaker. -/
def Row.same (a b : Row K) : Prop := a.stype = b.stype ∧ a.file = b.file ∧ a.name = b.name

theorem joinable_iff {margin : K} {a b : Row K} : joinable margin a b = true ↔ b.same a ∧ b.tbeg - a.tend ≤ margin := by
  unfold joinable Row.same Row.tend
  simp only [Bool.and_eq_true, decide_eq_true_eq]
  rw [sub_sub]
  tauto

theorem chain_same {margin : K} {a : Row K} {l : List (Row K)} (h : (a :: l).IsChain (fun x y => joinable margin x y = true)) :
    ∀ b ∈ a :: l, b.same a := by
  induction l generalizing a with
  | nil => intro b hb; simp at hb; subst hb; exact ⟨rfl, rfl, rfl⟩
  | cons c l ih =>
    rw [List.isChain_cons_cons] at h
    intro b hb
    rcases List.mem_cons.1 hb with rfl | hb
    · exact ⟨rfl, rfl, rfl⟩
    · obtain ⟨h1, h2, h3⟩ := ih h.2 b hb
      obtain ⟨⟨g1, g2, g3⟩, _⟩ := joinable_iff.1 h.1
      exact ⟨h1.trans g1, h2.trans g2, h3.trans g3⟩

/-- two rows which follow each other in the table. -/
def Neighbours (rows : List (Row K)) (a b : Row K) : Prop := ∃ l1 l2, rows = l1 ++ a :: b :: l2

theorem chain_covers {margin : K} {a : Row K} {l : List (Row K)} (h : (a :: l).IsChain (fun x y => joinable margin x y = true)) {t : K}
    (ht : a.tbeg ≤ t) (ht' : t < ((a :: l).getLast (by simp)).tend) :
    (∃ b ∈ a :: l, b.covers t) ∨ ∃ b c, Neighbours (a :: l) b c ∧ b.tend ≤ t ∧ t < c.tbeg ∧ c.tbeg - b.tend ≤ margin := by
  induction l generalizing a with
  | nil => left; exact ⟨a, by simp, ht, by simpa using ht'⟩
  | cons c l ih =>
    rw [List.isChain_cons_cons] at h
    rw [List.getLast_cons (by simp)] at ht'
    by_cases hc : c.tbeg ≤ t
    · rcases ih h.2 hc ht' with ⟨b, hb, hcov⟩ | ⟨x, y, ⟨l1, l2, e⟩, hx⟩
      · left; exact ⟨b, List.mem_cons_of_mem _ hb, hcov⟩
      · right; exact ⟨x, y, ⟨a :: l1, l2, by rw [e]; rfl⟩, hx⟩
    · by_cases ha : t < a.tend
      · left; exact ⟨a, by simp, ht, ha⟩
      · right
        exact ⟨a, c, ⟨[], l, rfl⟩, not_lt.1 ha, not_le.1 hc, (joinable_iff.1 h.1).2⟩

theorem neighbours_of_flatten {runs : List (List (Row K))} {run : List (Row K)} (h : run ∈ runs) {a b : Row K} (hn : Neighbours run a b) :
    Neighbours runs.flatten a b := by
  obtain ⟨l1, l2, e⟩ := hn
  obtain ⟨r1, r2, e2⟩ := List.append_of_mem h
  refine ⟨r1.flatten ++ l1, l2 ++ r2.flatten, ?_⟩
  rw [e2, e]
  simp

theorem mem_merge {margin : K} {rows : List (Row K)} (hd : ∀ r ∈ rows, r.stype ≠ "DROP") {o : Row K} :
    o ∈ mergeAdjacent margin rows ↔ ∃ run ∈ rows.splitBy (joinable margin), runRow run = some o := by
  rw [← List.mem_map, ← mergeAdjacent_runs margin rows hd]
  simp

/-- C48. Merging never invents speech: every instant of a merged row is inside a row of the table with the same type, file and speaker, or in a gap,
of at most the margin, between two neighbouring rows with that type, file and speaker. For every table (no row of type 'DROP') and margin. -/
theorem C48_merge_sound (margin : K) (rows : List (Row K)) (hd : ∀ r ∈ rows, r.stype ≠ "DROP") {o : Row K} (ho : o ∈ mergeAdjacent margin rows) {t : K}
    (ht : o.covers t) :
    (∃ b ∈ rows, b.same o ∧ b.covers t) ∨
    ∃ b c, Neighbours rows b c ∧ b.same o ∧ c.same o ∧ b.tend ≤ t ∧ t < c.tbeg ∧ c.tbeg - b.tend ≤ margin := by
  obtain ⟨run, hrun, hr⟩ := (mem_merge hd).1 ho
  have hfl := List.flatten_splitBy (joinable margin) rows
  have hc := List.isChain_of_mem_splitBy hrun
  cases run with
  | nil => simp [runRow] at hr
  | cons a l =>
    unfold runRow at hr
    rw [List.head?_cons, List.getLast?_eq_some_getLast (by simp)] at hr
    simp only [Option.some.injEq] at hr
    have hsame := chain_same hc
    have h1 : a.tbeg ≤ t := by rw [← hr] at ht; exact ht.1
    have h2 : t < ((a :: l).getLast (by simp)).tend := by
      have := ht.2
      rw [← hr] at this
      unfold Row.tend at this ⊢
      dsimp only at this
      linarith
    have ho' : ∀ b : Row K, b.same a → b.same o := by
      intro b hb
      rw [← hr]
      exact hb
    rcases chain_covers hc h1 h2 with ⟨b, hb, hcov⟩ | ⟨b, c, hn, hx⟩
    · left
      exact ⟨b, by rw [← hfl]; exact List.mem_flatten.2 ⟨_, hrun, hb⟩, ho' b (hsame b hb), hcov⟩
    · right
      have hn' := neighbours_of_flatten hrun hn
      rw [hfl] at hn'
      obtain ⟨l1, l2, e⟩ := hn
      have hb : b ∈ a :: l := by rw [e]; simp
      have hcm : c ∈ a :: l := by rw [e]; simp
      exact ⟨b, c, hn', ho' b (hsame b hb), ho' c (hsame c hcm), hx⟩

theorem validate_iff {rows : List (Row K)} : validate rows = true ↔ ∀ a b, Neighbours rows a b → a.file = b.file → a.tbeg ≤ b.tbeg := by
  unfold validate
  rw [List.all_eq_true]
  have key : ∀ a b : Row K, (a, b) ∈ rows.zip rows.tail ↔ Neighbours rows a b := by
    intro a b
    induction rows with
    | nil => simp [Neighbours]
    | cons r rows ih =>
      cases rows with
      | nil => 
        simp only [List.tail_cons, List.zip_nil_right, List.not_mem_nil, false_iff]
        rintro ⟨l1, l2, e⟩
        have := congrArg List.length e
        simp at this
        omega
      | cons s rows =>
        rw [List.tail_cons, List.zip_cons_cons, List.mem_cons]
        rw [List.tail_cons] at ih
        rw [ih]
        constructor
        · rintro (h | ⟨l1, l2, e⟩)
          · simp only [Prod.mk.injEq] at h
            exact ⟨[], rows, by rw [h.1, h.2]; rfl⟩
          · exact ⟨r :: l1, l2, by rw [e]; rfl⟩
        · rintro ⟨l1, l2, e⟩
          cases l1 with
          | nil =>
            left
            simp only [List.nil_append, List.cons.injEq] at e
            rw [e.1, e.2.1]
          | cons x l1 =>
            right
            simp only [List.cons_append, List.cons.injEq] at e
            exact ⟨l1, l2, e.2⟩
  constructor
  · intro h a b hn hf
    have := h (a, b) ((key a b).2 hn)
    simp only [ge_iff_le, sub_nonneg, Bool.or_eq_true, decide_eq_true_eq] at this
    rcases this with h | h
    · exact h
    · exact absurd hf.symm h
  · rintro h ⟨a, b⟩ hm
    simp only [ge_iff_le, sub_nonneg, Bool.or_eq_true, decide_eq_true_eq]
    by_cases hf : b.file = a.file
    · left; exact h a b ((key a b).1 hm) hf.symm
    · right; exact hf

theorem chain_bounds {margin : K} {a : Row K} {l : List (Row K)} (h : (a :: l).IsChain (fun x y => joinable margin x y = true))
    (h1 : ∀ x y, Neighbours (a :: l) x y → x.tbeg ≤ y.tbeg) (h2 : ∀ x y, Neighbours (a :: l) x y → x.tend ≤ y.tend) :
    ∀ b ∈ a :: l, a.tbeg ≤ b.tbeg ∧ b.tend ≤ ((a :: l).getLast (by simp)).tend := by
  induction l generalizing a with
  | nil => intro b hb; simp at hb; subst hb; simp
  | cons c l ih =>
    rw [List.isChain_cons_cons] at h
    have hn : Neighbours (a :: c :: l) a c := ⟨[], l, rfl⟩
    have ih' := ih h.2 (fun x y ⟨l1, l2, e⟩ => h1 x y ⟨a :: l1, l2, by rw [e]; rfl⟩) (fun x y ⟨l1, l2, e⟩ => h2 x y ⟨a :: l1, l2, by rw [e]; rfl⟩)
    intro b hb
    rw [List.getLast_cons (by simp)]
    rcases List.mem_cons.1 hb with rfl | hb
    · exact ⟨le_refl _, (h2 _ _ hn).trans (ih' c (by simp)).2⟩
    · exact ⟨(h1 _ _ hn).trans (ih' b hb).1, (ih' b hb).2⟩

/-- C48. For a validated table in which no row ends before a joinable neighbour in front of it, no speech is lost: every instant covered by a row is covered,
after merging, by a row with the same type, file and speaker. -/
theorem C48_merge_complete (margin : K) (rows : List (Row K)) (hd : ∀ r ∈ rows, r.stype ≠ "DROP") (hv : validate rows = true)
    (hend : ∀ a b, Neighbours rows a b → b.same a → a.tend ≤ b.tend) {b : Row K} (hb : b ∈ rows) {t : K} (ht : b.covers t) :
    ∃ o ∈ mergeAdjacent margin rows, o.same b ∧ o.covers t := by
  have hfl := List.flatten_splitBy (joinable margin) rows
  have hb2 := hb
  rw [← hfl] at hb2
  obtain ⟨run, hrun, hbr⟩ := List.mem_flatten.1 hb2
  have hc := List.isChain_of_mem_splitBy hrun
  cases run with
  | nil => simp at hbr
  | cons a l =>
    have hsame := chain_same hc
    have hnb : ∀ x y, Neighbours (a :: l) x y → Neighbours rows x y ∧ y.same x := by
      intro x y hn
      have h1 := neighbours_of_flatten hrun hn
      rw [hfl] at h1
      refine ⟨h1, ?_⟩
      obtain ⟨l1, l2, e⟩ := hn
      obtain ⟨x1, x2, x3⟩ := hsame x (by rw [e]; simp)
      obtain ⟨y1, y2, y3⟩ := hsame y (by rw [e]; simp)
      exact ⟨y1.trans x1.symm, y2.trans x2.symm, y3.trans x3.symm⟩
    have hbd := chain_bounds hc (fun x y hn => validate_iff.1 hv x y (hnb x y hn).1 (hnb x y hn).2.2.1.symm)
      (fun x y hn => hend x y (hnb x y hn).1 (hnb x y hn).2) b hbr
    refine ⟨{ a with tdur := ((a :: l).getLast (by simp)).tend - a.tbeg }, (mem_merge hd).2 ⟨_, hrun, ?_⟩, ?_, ?_, ?_⟩
    · unfold runRow
      rw [List.head?_cons, List.getLast?_eq_some_getLast (by simp)]
    · obtain ⟨s1, s2, s3⟩ := hsame b hbr
      exact ⟨s1.symm, s2.symm, s3.symm⟩
    · exact hbd.1.trans ht.1
    · have := lt_of_lt_of_le ht.2 hbd.2
      unfold Row.tend at this ⊢
      dsimp only
      linarith

/-- C48. Merging a merged table changes nothing. -/
theorem C48_merge_idempotent (margin : K) (rows : List (Row K)) (hd : ∀ r ∈ rows, r.stype ≠ "DROP") :
    mergeAdjacent margin (mergeAdjacent margin rows) = mergeAdjacent margin rows := by
  have hm := mergeAdjacent_runs margin rows hd
  generalize hM : mergeAdjacent margin rows = M at *
  have hdM : ∀ r ∈ M, r.stype ≠ "DROP" := by
    intro r hr
    rw [← hM] at hr
    unfold mergeAdjacent at hr
    simpa using (List.mem_filter.1 hr).2
  have hchain := List.isChain_getLast_head_splitBy (joinable margin) rows
  have hne := List.nil_notMem_splitBy (joinable margin) rows
  have hcs : ∀ run ∈ rows.splitBy (joinable margin), run.IsChain (fun x y => joinable margin x y = true) := fun run h => List.isChain_of_mem_splitBy h
  generalize rows.splitBy (joinable margin) = runs at *
  have hs : M.splitBy (joinable margin) = M.map (fun r => [r]) := by
    rw [List.splitBy_eq_iff]
    refine ⟨by simp [List.flatten_eq_flatMap, List.flatMap_map], by simp, ?_, ?_⟩
    · intro m hm'
      obtain ⟨r, _, rfl⟩ := List.mem_map.1 hm'
      exact List.isChain_singleton _
    · clear hM hdM hd
      induction runs generalizing M with
      | nil => simp at hm; subst hm; simp
      | cons run runs ih =>
        cases M with
        | nil => simp at hm
        | cons x M =>
          rw [List.map_cons, List.map_cons, List.cons.injEq] at hm
          have hI := ih M hm.2 (List.isChain_cons.1 hchain).2 (fun h => hne (List.mem_cons_of_mem _ h)) (fun r hr => hcs r (List.mem_cons_of_mem _ hr))
          rw [List.map_cons]
          rw [List.isChain_cons]
          refine ⟨?_, hI⟩
          intro y hy
          cases M with
          | nil => simp at hy
          | cons x' M =>
            cases runs with
            | nil => simp at hm
            | cons run' runs =>
              have hy' : y = [x'] := by simpa using hy.symm
              subst hy'
              refine ⟨by simp, by simp, ?_⟩
              rw [List.isChain_cons_cons] at hchain
              obtain ⟨ha, hb, hr⟩ := hchain.1
              obtain ⟨a, l, rfl⟩ := List.exists_cons_of_ne_nil ha
              obtain ⟨a', l', rfl⟩ := List.exists_cons_of_ne_nil hb
              have h1 := hm.1
              have h2 := hm.2
              rw [List.map_cons, List.map_cons, List.cons.injEq] at h2
              have h3 := h2.1
              unfold runRow at h1 h3
              rw [List.head?_cons, List.getLast?_eq_some_getLast (by simp)] at h1 h3
              simp only [Option.some.injEq] at h1 h3
              have hsame := chain_same (hcs _ (List.mem_cons_self ..)) ((a :: l).getLast (by simp)) (List.getLast_mem _)
              rw [Bool.eq_false_iff] at hr ⊢
              intro hj
              apply hr
              rw [joinable_iff] at hj ⊢
              simp only [List.getLast_singleton, List.head_cons] at hj ⊢
              obtain ⟨⟨j1, j2, j3⟩, j4⟩ := hj
              rw [h1, h3] at j1 j2 j3 j4
              dsimp only at j1 j2 j3
              refine ⟨⟨j1.trans hsame.1.symm, j2.trans hsame.2.1.symm, j3.trans hsame.2.2.symm⟩, ?_⟩
              have : ({ a with tdur := ((a :: l).getLast (by simp)).tend - a.tbeg } : Row K).tend = ((a :: l).getLast (by simp)).tend := by
                unfold Row.tend; dsimp only; ring
              rw [this] at j4
              exact j4
  have h2 := mergeAdjacent_runs margin M hdM
  rw [hs, List.map_map] at h2
  have h3 : M.map (runRow ∘ fun r => [r]) = M.map some := by
    apply List.map_congr_left
    intro r _
    simp [runRow, Row.tend]
  rw [h3] at h2
  exact List.map_injective_iff.2 (fun a b h => by simpa using h) h2

/-- C48 (a defect): speech is lost when a segment lies inside the one before it: 0-10 s and 2-3 s of one speaker become 0-3 s. -/
theorem C48_contained_loses_speech : ∃ rows : List (Row ℚ), validate rows = true ∧ (∀ r ∈ rows, r.stype ≠ "DROP") ∧ (∀ r ∈ rows, 0 ≤ r.tdur) ∧
    (∃ b ∈ rows, b.covers 5) ∧ ∀ o ∈ mergeAdjacent 0 rows, ¬ o.covers 5 := by
  refine ⟨[⟨"SPEAKER", "f", "a", 0, 10⟩, ⟨"SPEAKER", "f", "a", 2, 1⟩], by norm_num [validate], by decide, ?_, ?_, ?_⟩
  · intro r hr
    simp at hr
    rcases hr with rfl | rfl <;> norm_num
  · exact ⟨⟨"SPEAKER", "f", "a", 0, 10⟩, by simp, by unfold Row.covers Row.tend; norm_num⟩
  · have : mergeAdjacent 0 ([⟨"SPEAKER", "f", "a", 0, 10⟩, ⟨"SPEAKER", "f", "a", 2, 1⟩] : List (Row ℚ)) = [⟨"SPEAKER", "f", "a", 0, 3⟩] := by
      simp [mergeAdjacent, mergeLoop, joinFlags, joinable] <;> norm_num <;> rfl
    rw [this]
    intro o ho
    simp at ho
    subst ho
    unfold Row.covers Row.tend
    norm_num

/-- non-vacuity: three rows of which the first two are merged over a gap of one. -/
example : mergeAdjacent 1 ([⟨"SPEAKER", "f", "a", 0, 2⟩, ⟨"SPEAKER", "f", "a", 3, 1⟩, ⟨"SPEAKER", "f", "b", 4, 1⟩] : List (Row ℚ)) =
    [⟨"SPEAKER", "f", "a", 0, 4⟩, ⟨"SPEAKER", "f", "b", 4, 1⟩] := by
  simp [mergeAdjacent, mergeLoop, joinFlags, joinable] <;> norm_num <;> rfl

/-! ### C49 -/

/-- a row shares an instant with the window. -/
def Row.overlaps (r : Row K) (tb te : K) : Prop := ∃ t, r.covers t ∧ tb ≤ t ∧ t < te

theorem overlaps_iff {r : Row K} {tb te : K} : r.overlaps tb te ↔ max r.tbeg tb < min r.tend te := by
  unfold Row.overlaps Row.covers
  constructor
  · rintro ⟨t, ⟨h1, h2⟩, h3, h4⟩
    exact lt_of_le_of_lt (max_le h1 h3) (lt_min h2 h4)
  · intro h
    refine ⟨max r.tbeg tb, ⟨le_max_left _ _, ?_⟩, le_max_right _ _, ?_⟩
    · exact h.trans_le (min_le_left _ _)
    · exact h.trans_le (min_le_right _ _)

/-- the test of the code on rows and windows of positive length: the row overlaps the window and is not strictly inside it. -/
theorem hits_iff {r : Row K} {tb te : K} (hw : tb < te) (hr : 0 < r.tdur) :
    hits tb te r = true ↔ r.overlaps tb te ∧ ¬ (tb < r.tbeg ∧ r.tend < te) := by
  rw [overlaps_iff]
  unfold hits Row.tend
  simp only [Bool.or_eq_true, Bool.and_eq_true, decide_eq_true_eq, gt_iff_lt, ge_iff_le]
  rw [max_lt_iff, lt_min_iff, lt_min_iff]
  have h1 : r.tbeg < r.tbeg + r.tdur := by linarith
  constructor
  · rintro (⟨a, b⟩ | ⟨a, b⟩)
    · exact ⟨⟨⟨h1, by linarith⟩, b, hw⟩, fun h => by linarith [h.1]⟩
    · exact ⟨⟨⟨h1, a⟩, by linarith, hw⟩, fun h => by linarith [h.2]⟩
  · rintro ⟨⟨⟨_, a⟩, b, _⟩, c⟩
    by_cases h : r.tbeg ≤ tb
    · exact Or.inl ⟨h, b⟩
    · right
      refine ⟨a, ?_⟩
      by_contra h2
      exact c ⟨not_le.1 h, not_le.1 h2⟩

theorem pdUnique_spec {α : Type} [DecidableEq α] (l : List α) : (pdUnique l).Nodup ∧ ∀ x, x ∈ pdUnique l ↔ x ∈ l := by
  unfold pdUnique
  suffices h : ∀ acc : List α, acc.Nodup → (l.foldl (fun acc x => if x ∈ acc then acc else acc ++ [x]) acc).Nodup ∧
      ∀ x, x ∈ l.foldl (fun acc x => if x ∈ acc then acc else acc ++ [x]) acc ↔ x ∈ acc ∨ x ∈ l by
    have := h [] List.nodup_nil
    simpa using this
  induction l with
  | nil => intro acc h; simpa using h
  | cons a l ih =>
    intro acc h
    rw [List.foldl_cons]
    by_cases ha : a ∈ acc
    · rw [if_pos ha]
      obtain ⟨h1, h2⟩ := ih acc h
      refine ⟨h1, fun x => ?_⟩
      rw [h2, List.mem_cons]
      constructor
      · rintro (h | h)
        · exact Or.inl h
        · exact Or.inr (Or.inr h)
      · rintro (h | h | h)
        · exact Or.inl h
        · exact Or.inl (h ▸ ha)
        · exact Or.inr h
    · rw [if_neg ha]
      obtain ⟨h1, h2⟩ := ih (acc ++ [a]) (by
        rw [List.nodup_append]
        refine ⟨h, List.nodup_singleton a, ?_⟩
        intro x hx y hy
        simp at hy
        subst hy
        intro e
        exact ha (e ▸ hx))
      refine ⟨h1, fun x => ?_⟩
      rw [h2, List.mem_append, List.mem_singleton, List.mem_cons]
      tauto

/-- an answer for one window: the number is the number of distinct speakers of the given type and file which meet condition `P`, the text
joins exactly those names, and no speaker at all is '<NA>' with number zero. -/
def AnswerFor (rows : List (Row K)) (file stype sep : String) (P : Row K → Prop) (a : String × Nat) : Prop :=
  ∃ names : List String, names.Nodup ∧ (∀ n, n ∈ names ↔ ∃ r ∈ rows, r.stype = stype ∧ r.file = file ∧ r.name = n ∧ P r) ∧
    a.2 = names.length ∧ a.1 = if names = [] then "<NA>" else sep.intercalate names

theorem answer_spec (rows : List (Row K)) (file stype sep : String) (p : Row K → Bool) {P : Row K → Prop} (hp : ∀ r ∈ rows, p r = true ↔ P r) :
    AnswerFor rows file stype sep P (answer sep (rows.filter (fun r => decide (r.stype = stype) && decide (r.file = file) && p r))) := by
  generalize hs : rows.filter (fun r => decide (r.stype = stype) && decide (r.file = file) && p r) = sel
  obtain ⟨h1, h2⟩ := pdUnique_spec (sel.map Row.name)
  have hmem : ∀ n, n ∈ pdUnique (sel.map Row.name) ↔ ∃ r ∈ rows, r.stype = stype ∧ r.file = file ∧ r.name = n ∧ P r := by
    intro n
    rw [h2, List.mem_map, ← hs]
    constructor
    · rintro ⟨r, hr, rfl⟩
      rw [List.mem_filter] at hr
      simp only [Bool.and_eq_true, decide_eq_true_eq] at hr
      exact ⟨r, hr.1, hr.2.1.1, hr.2.1.2, rfl, (hp r hr.1).1 hr.2.2⟩
    · rintro ⟨r, hr, e1, e2, e3, e4⟩
      refine ⟨r, ?_, e3⟩
      rw [List.mem_filter]
      simp only [Bool.and_eq_true, decide_eq_true_eq]
      exact ⟨hr, ⟨e1, e2⟩, (hp r hr).2 e4⟩
  refine ⟨pdUnique (sel.map Row.name), h1, hmem, ?_, ?_⟩
  · unfold answer
    split
    · rename_i h0
      rw [List.length_eq_zero_iff.1 h0]; rfl
    · rfl
  · unfold answer
    cases sel with
    | nil => simp [pdUnique]
    | cons x sel =>
      rw [if_neg (by simp), if_neg]
      intro h0
      have : x.name ∈ pdUnique ((x :: sel).map Row.name) := by rw [h2]; simp
      rw [h0] at this
      simp at this

theorem namesFast_eq (rows : List (Row K)) (sep stype : String) (qs : List (Query K)) (prev : String) (segf : Option (List (Row K)))
    (h : segf = some ((rows.filter (fun r => decide (r.stype = stype))).filter (fun r => decide (r.file = prev))) ∨
      (∀ q, qs.head? = some q → q.file ≠ prev)) :
    namesFast rows sep stype qs prev segf = some (namesSlow rows qs sep stype) := by
  induction qs generalizing prev segf with
  | nil => rfl
  | cons q qs ih =>
    have hsel : (if q.file ≠ prev then some ((rows.filter (fun r => decide (r.stype = stype))).filter (fun r => decide (r.file = q.file))) else segf) =
        some ((rows.filter (fun r => decide (r.stype = stype))).filter (fun r => decide (r.file = q.file))) := by
      split
      · rfl
      · rename_i hq
        rw [not_not] at hq
        rcases h with h | h
        · rw [h, hq]
        · exact absurd hq (h q rfl)
    have hprev : (if q.file ≠ prev then q.file else prev) = q.file := by
      split
      · rfl
      · rename_i hq; rw [not_not] at hq; exact hq.symm
    unfold namesFast
    dsimp only
    rw [hsel, hprev]
    dsimp only
    rw [ih _ _ (Or.inl rfl)]
    dsimp only [namesSlow]
    rw [List.map_cons, List.filter_filter, List.filter_filter]
    congr 3
    apply List.filter_congr
    intro r _
    cases decide (r.stype = stype) <;> cases decide (r.file = q.file) <;> cases hits q.tbeg q.tend r <;> rfl

/-- C49. The cached look-up gives the same answers as the direct one for every table and every list of windows whose first file name is not empty. -/
theorem C49_fast_eq_slow (rows : List (Row K)) (qs : List (Query K)) (sep stype : String) (hq : ∀ q, qs.head? = some q → q.file ≠ "") :
    getSegmentNames rows qs sep stype = some (namesSlow rows qs sep stype) :=
  namesFast_eq rows sep stype qs "" none (Or.inr hq)

/-- C49. For rows and windows of positive length the answer to each window is about exactly the speakers, of the given type and file, with a row which shares an
instant with the window and is not strictly inside it. -/
theorem C49_names_of_window (rows : List (Row K)) (qs : List (Query K)) (sep stype : String) (hq : ∀ q, qs.head? = some q → q.file ≠ "")
    (hr : ∀ r ∈ rows, 0 < r.tdur) (hw : ∀ q ∈ qs, q.tbeg < q.tend) :
    ∃ out, getSegmentNames rows qs sep stype = some out ∧ out.length = qs.length ∧
      ∀ (i : Nat) (q : Query K), qs[i]? = some q → ∃ a, out[i]? = some a ∧
        AnswerFor rows q.file stype sep (fun r => r.overlaps q.tbeg q.tend ∧ ¬ (q.tbeg < r.tbeg ∧ r.tend < q.tend)) a := by
  refine ⟨_, C49_fast_eq_slow rows qs sep stype hq, by simp [namesSlow], ?_⟩
  intro i q hi
  refine ⟨_, by rw [namesSlow, List.getElem?_map, hi]; rfl, ?_⟩
  exact answer_spec rows q.file stype sep (hits q.tbeg q.tend) (fun r h => hits_iff (hw q (List.mem_of_getElem? hi)) (hr r h))

/-- C49. Hence if no row is strictly inside a window, the answers are about exactly the speakers who talk in it. -/
theorem C49_exact_when_not_inside (rows : List (Row K)) (qs : List (Query K)) (sep stype : String) (hq : ∀ q, qs.head? = some q → q.file ≠ "")
    (hr : ∀ r ∈ rows, 0 < r.tdur) (hw : ∀ q ∈ qs, q.tbeg < q.tend)
    (hin : ∀ q ∈ qs, ∀ r ∈ rows, r.stype = stype → r.file = q.file → ¬ (q.tbeg < r.tbeg ∧ r.tend < q.tend)) :
    ∃ out, getSegmentNames rows qs sep stype = some out ∧ out.length = qs.length ∧
      ∀ (i : Nat) (q : Query K), qs[i]? = some q → ∃ a, out[i]? = some a ∧ AnswerFor rows q.file stype sep (fun r => r.overlaps q.tbeg q.tend) a := by
  obtain ⟨out, h1, h2, h3⟩ := C49_names_of_window rows qs sep stype hq hr hw
  refine ⟨out, h1, h2, ?_⟩
  intro i q hi
  obtain ⟨a, ha, names, n1, n2, n3, n4⟩ := h3 i q hi
  refine ⟨a, ha, names, n1, ?_, n3, n4⟩
  intro n
  rw [n2]
  constructor
  · rintro ⟨r, hr, e1, e2, e3, e4, _⟩; exact ⟨r, hr, e1, e2, e3, e4⟩
  · rintro ⟨r, hr, e1, e2, e3, e4⟩; exact ⟨r, hr, e1, e2, e3, e4, hin q (List.mem_of_getElem? hi) r hr e1 e2⟩

/-- C49 (a defect): a speaker who only talks strictly inside the window is not found. -/
theorem C49_inside_missed : ∃ (rows : List (Row ℚ)) (q : Query ℚ), (∃ r ∈ rows, r.stype = "SPEAKER" ∧ r.file = q.file ∧ r.overlaps q.tbeg q.tend) ∧
    getSegmentNames rows [q] "@" "SPEAKER" = some [("<NA>", 0)] := by
  refine ⟨[⟨"SPEAKER", "f", "a", 2, 1⟩], ⟨"f", 0, 10⟩, ⟨_, List.mem_singleton.2 rfl, rfl, rfl, 2, ?_, ?_⟩, ?_⟩
  · unfold Row.covers Row.tend; norm_num
  · norm_num
  · simp [getSegmentNames, namesFast, hits, answer]; norm_num

/-- C49 (a defect): a first window with an empty file name raises in the cached look-up. -/
theorem C49_empty_file_raises (rows : List (Row K)) (q : Query K) (qs : List (Query K)) (sep stype : String) (h : q.file = "") :
    getSegmentNames rows (q :: qs) sep stype = none := by
  unfold getSegmentNames namesFast
  simp [h]

/-- non-vacuity: a window with two speakers and one without. -/
example : getSegmentNames ([⟨"SPEAKER", "f", "a", 0, 2⟩, ⟨"SPEAKER", "f", "b", 1, 3⟩, ⟨"SPEAKER", "g", "c", 0, 1⟩] : List (Row ℚ))
    [⟨"f", 1, 2⟩, ⟨"f", 5, 6⟩] "@" "SPEAKER" = some [("@".intercalate ["a", "b"], 2), ("<NA>", 0)] := by
  simp [getSegmentNames, namesFast, hits, answer, pdUnique] <;> norm_num

/-! ### C57: overlap elimination -/

theorem elimLoop_getElem? (p : Option (Row K)) (rows : List (Row K)) (i : Nat) (r : Row K) (h : rows[i]? = some r) :
    (elimLoop p rows)[i]? = some (elimRow (if i = 0 then p else rows[i - 1]?) r rows[i + 1]?) := by
  induction rows generalizing p i with
  | nil => simp at h
  | cons a rows ih =>
    cases i with
    | zero =>
      simp only [List.getElem?_cons_zero, Option.some.injEq] at h
      subst h
      simp [elimLoop, List.head?_eq_getElem?]
    | succ i =>
      simp only [List.getElem?_cons_succ] at h
      unfold elimLoop
      rw [List.getElem?_cons_succ, ih (some a) i h]
      cases i with
      | zero => simp
      | succ i => simp

/-- `r` starts before the row before it, of the same file and type, has ended. -/
def OverlapAt (rows : List (Row K)) (i : Nat) : Prop :=
  ∃ p r : Row K, rows[i]? = some p ∧ rows[i + 1]? = some r ∧ r.file = p.file ∧ r.stype = p.stype ∧ r.tbeg < p.tend

theorem overlapsPrev_iff {p r : Row K} : overlapsPrev p r = true ↔ r.file = p.file ∧ r.stype = p.stype ∧ r.tbeg < p.tend := by
  unfold overlapsPrev
  simp [and_assoc]

theorem filter_none {α : Type} {o : Option α} {f : α → Bool} (h : ∀ x, o = some x → f x = false) : o.filter f = none := by
  cases o with
  | none => rfl
  | some x => simp [h x rfl]

/-- C57. For every table: overlap elimination keeps the rows with their labels; a row which overlaps no neighbour is unchanged; and an overlap whose neighbours
do not overlap too is cut in its middle: the first row keeps its start and ends there, the second starts there and keeps its end. -/
theorem C57_eliminate_overlaps (rows : List (Row K)) :
    (elimOverlaps rows).length = rows.length ∧
    (∀ (i : Nat) (r : Row K), rows[i]? = some r → ∃ o, (elimOverlaps rows)[i]? = some o ∧ o.same r) ∧
    (∀ (i : Nat) (r : Row K), rows[i]? = some r → (i = 0 ∨ ¬ OverlapAt rows (i - 1)) → ¬ OverlapAt rows i → (elimOverlaps rows)[i]? = some r) ∧
    (∀ (i : Nat) (a b : Row K), rows[i]? = some a → rows[i + 1]? = some b → OverlapAt rows i → (i = 0 ∨ ¬ OverlapAt rows (i - 1)) →
      ∃ a' b', (elimOverlaps rows)[i]? = some a' ∧ (elimOverlaps rows)[i + 1]? = some b' ∧ a'.tbeg = a.tbeg ∧ a'.tend = (b.tbeg + a.tend) / 2 ∧
        b'.tbeg = (b.tbeg + a.tend) / 2 ∧ b'.tend = b.tend) := by
  have hprev : ∀ (i : Nat) (r : Row K), rows[i]? = some r → (i = 0 ∨ ¬ OverlapAt rows (i - 1)) →
      (if i = 0 then none else rows[i - 1]?).filter (fun p => overlapsPrev p r) = none := by
    intro i r hi hno
    apply filter_none
    intro p hp
    split at hp
    · simp at hp
    · rename_i h0
      rw [Bool.eq_false_iff]
      intro hov
      have hno' := hno.resolve_left h0
      exact hno' ⟨p, r, hp, by rw [Nat.sub_add_cancel (by omega)]; exact hi, overlapsPrev_iff.1 hov⟩
  refine ⟨?_, ?_, ?_, ?_⟩
  · have : ∀ (p : Option (Row K)) (l : List (Row K)), (elimLoop p l).length = l.length := by
      intro p l
      induction l generalizing p with
      | nil => rfl
      | cons a l ih => simp [elimLoop, ih]
    exact this none rows
  · intro i r hi
    refine ⟨_, elimLoop_getElem? none rows i r hi, ?_⟩
    unfold elimRow
    split
    · exact ⟨rfl, rfl, rfl⟩
    · split <;> exact ⟨rfl, rfl, rfl⟩
  · intro i r hi h1 h2
    unfold elimOverlaps
    rw [elimLoop_getElem? none rows i r hi]
    unfold elimRow
    rw [hprev i r hi h1]
    dsimp only
    rw [filter_none]
    intro n hn
    rw [Bool.eq_false_iff]
    intro hov
    exact h2 ⟨r, n, hi, hn, overlapsPrev_iff.1 hov⟩
  · intro i a b ha hb hov hno
    have hab : overlapsPrev a b = true := by
      obtain ⟨p, r, h1, h2, h3⟩ := hov
      rw [ha] at h1; rw [hb] at h2
      simp only [Option.some.injEq] at h1 h2
      subst h1; subst h2
      exact overlapsPrev_iff.2 h3
    refine ⟨_, _, elimLoop_getElem? none rows i a ha, elimLoop_getElem? none rows (i + 1) b hb, ?_⟩
    have e1 : elimRow (if i = 0 then none else rows[i - 1]?) a rows[i + 1]? = { a with tdur := (b.tbeg + a.tend) / 2 - a.tbeg } := by
      unfold elimRow
      rw [hprev i a ha hno, hb]
      simp [Option.filter, hab]
    have e2 : elimRow (if i + 1 = 0 then none else rows[i + 1 - 1]?) b rows[i + 1 + 1]? =
        { b with tbeg := (b.tbeg + a.tend) / 2, tdur := b.tend - (b.tbeg + a.tend) / 2 } := by
      unfold elimRow
      rw [if_neg (by omega), Nat.add_sub_cancel, ha]
      simp [Option.filter, hab]
    rw [e1, e2]
    refine ⟨rfl, ?_, rfl, ?_⟩
    · unfold Row.tend; dsimp only; ring
    · simp only [Row.tend]; ring

/-- C57 (a defect): three rows each overlapping the next still overlap afterwards. -/
theorem C57_chain_still_overlaps : ∃ rows : List (Row ℚ), validate rows = true ∧ OverlapAt (elimOverlaps rows) 1 := by
  refine ⟨[⟨"SPEAKER", "f", "a", 0, 4⟩, ⟨"SPEAKER", "f", "b", 2, 4⟩, ⟨"SPEAKER", "f", "c", 4, 4⟩], by norm_num [validate], ?_⟩
  have : elimOverlaps ([⟨"SPEAKER", "f", "a", 0, 4⟩, ⟨"SPEAKER", "f", "b", 2, 4⟩, ⟨"SPEAKER", "f", "c", 4, 4⟩] : List (Row ℚ)) =
      [⟨"SPEAKER", "f", "a", 0, 3⟩, ⟨"SPEAKER", "f", "b", 3, 3⟩, ⟨"SPEAKER", "f", "c", 5, 3⟩] := by
    norm_num [elimOverlaps, elimLoop, elimRow, overlapsPrev, Row.tend, Option.filter]
  rw [this]
  exact ⟨_, _, rfl, rfl, rfl, rfl, by norm_num [Row.tend]⟩

/-- C57 (a defect): a row inside the row before it can get a negative duration. -/
theorem C57_contained_negative : ∃ rows : List (Row ℚ), validate rows = true ∧ (∀ r ∈ rows, 0 < r.tdur) ∧ ∃ o ∈ elimOverlaps rows, o.tdur < 0 := by
  refine ⟨[⟨"SPEAKER", "f", "a", 0, 10⟩, ⟨"SPEAKER", "f", "b", 2, 1⟩], by norm_num [validate], ?_, ⟨"SPEAKER", "f", "b", 6, -3⟩, ?_, by norm_num⟩
  · intro r hr
    simp at hr
    rcases hr with rfl | rfl <;> norm_num
  · norm_num [elimOverlaps, elimLoop, elimRow, overlapsPrev, Row.tend, Option.filter]

/-- C57 (a defect): with a table indexed by row number the first row of every isolated overlap loses its duration (NaN). -/
theorem C57_by_row_nan (p : Option (Row K)) (a b : Row K) (hp : ∀ x, p = some x → overlapsPrev x a = false) (hab : overlapsPrev a b = true) :
    elimDurByRow p a (some b) = none := by
  unfold elimDurByRow
  rw [filter_none hp]
  simp [Option.filter, hab]

/-! ### names -/

/-- C49. `get_files_with_names_diff_to_file` lists exactly the files with a speaker who is not in the given file. -/
theorem C49_files_with_other_names (rows : List (Row K)) (file stype f : String) :
    f ∈ filesWithOtherNames rows file stype ↔
      ∃ r ∈ rows, r.stype = stype ∧ r.file = f ∧ ∀ s ∈ rows, s.stype = stype → s.file = file → s.name ≠ r.name := by
  unfold filesWithOtherNames
  dsimp only
  rw [(pdUnique_spec _).2, List.mem_map]
  constructor
  · rintro ⟨r, hr, rfl⟩
    rw [List.mem_filter, List.mem_filter] at hr
    obtain ⟨⟨h1, h2⟩, h3⟩ := hr
    simp only [decide_eq_true_eq] at h2 h3
    refine ⟨r, h1, h2, rfl, ?_⟩
    intro s hs e1 e2 e3
    apply h3
    rw [(pdUnique_spec _).2, List.mem_map]
    exact ⟨s, by simp [List.mem_filter, hs, e1, e2], e3⟩
  · rintro ⟨r, hr, e1, e2, h⟩
    refine ⟨r, ?_, e2⟩
    rw [List.mem_filter, List.mem_filter]
    refine ⟨⟨hr, by simpa using e1⟩, ?_⟩
    simp only [decide_eq_true_eq]
    rw [(pdUnique_spec _).2, List.mem_map]
    rintro ⟨s, hs, e3⟩
    rw [List.mem_filter, List.mem_filter] at hs
    obtain ⟨⟨h1, h2⟩, h3⟩ := hs
    exact h s h1 (by simpa using h2) (by simpa using h3) e3

end Hyp.Segments
