import Verif.Utt2Info.Model

/-! Property C52: Utt2Info tables keep key and info aligned. -/

namespace Hyp.U2I
open Hyp.ListUtils

/-- labels and cache are those of the rows. -/
structure Inv (t : Tab) : Prop where
  index : t.index = t.rows.map Prod.fst
  cache : ∀ d, t.k2i = some d → d = enumDict (t.rows.map Prod.fst)

theorem inv_ofRows (r : List Row) : Inv (ofRows r) := ⟨rfl, by simp [ofRows]⟩

theorem iloc_eq {t : Tab} (h : t.index = t.rows.map Prod.fst) {idx : List Nat} {p : List String × List Row} (hp : iloc t idx = some p) :
    p.1 = p.2.map Prod.fst ∧ gather t.rows idx = some p.2 := by
  unfold iloc at hp
  rw [h, gather_map] at hp
  rcases hg : gather t.rows idx with _ | r
  · rw [hg] at hp; simp at hp
  · rw [hg] at hp
    simp only [Option.map_some, Option.bind_eq_bind, Option.bind_some, Option.some.injEq] at hp
    subst hp
    exact ⟨rfl, rfl⟩

theorem locOne_eq {t : Tab} (h : t.index = t.rows.map Prod.fst) (k : String) : locOne t k = t.rows.filter (fun r => r.1 = k) := by
  unfold locOne
  rw [h]
  induction t.rows with
  | nil => simp
  | cons r l ih =>
    simp only [List.map_cons, List.zip_cons_cons, List.filter_cons]
    by_cases hk : r.1 = k
    · simp only [hk, decide_true, if_true, List.map_cons]; rw [ih]
    · simp only [hk, decide_false]; simpa using ih

theorem locMany_mem {t : Tab} (h : t.index = t.rows.map Prod.fst) {ks : List String} {r : List Row} (hr : locMany t ks = some r) :
    r = (ks.map (fun k => t.rows.filter (fun r => r.1 = k))).flatten ∧ ∀ k ∈ ks, k ∈ t.rows.map Prod.fst := by
  unfold locMany at hr
  rw [Option.map_eq_some_iff] at hr
  obtain ⟨l, hl, rfl⟩ := hr
  rw [mapM_eq_some_iff] at hl
  have hne : ∀ k ∈ ks, locOne t k ≠ [] := by
    intro k hk he
    have : (if locOne t k = [] then none else some (locOne t k)) ∈ l.map some := by
      rw [← hl]; exact List.mem_map.2 ⟨k, hk, rfl⟩
    rw [if_pos he] at this
    simp at this
  constructor
  · have : l = ks.map (fun k => t.rows.filter (fun r => r.1 = k)) := by
      apply List.map_injective_iff.2 (Option.some_injective _)
      rw [← hl, List.map_map]
      apply List.map_congr_left
      intro k hk
      simp only [Function.comp]
      rw [if_neg (hne k hk), locOne_eq h]
    rw [this]
  · intro k hk
    have := hne k hk
    rw [locOne_eq h] at this
    obtain ⟨r, hr⟩ := List.exists_mem_of_ne_nil _ this
    have hr' := List.mem_filter.1 hr
    exact List.mem_map.2 ⟨r, hr'.1, by simpa using hr'.2⟩

/-- `o` does something on `t` to give `t'`: what C52 says about one operation. -/
def srcRows (t : Tab) : Op → List Row
  | .merge a b => a.flatten ++ t.rows ++ b.flatten
  | _ => t.rows

theorem merge_rows (a b : List (List Row)) (t : Tab) : (merge (a.map ofRows ++ [t] ++ b.map ofRows)).rows = a.flatten ++ t.rows ++ b.flatten := by
  have : ∀ l : List (List Row), (l.map ofRows).map (fun t => t.rows) = l := by
    intro l; rw [List.map_map]; simp [Function.comp_def, ofRows]
  simp only [merge, ofRows, List.map_append, List.flatten_append, List.map_cons, List.map_nil, List.flatten_cons, List.flatten_nil,
    List.append_nil]
  have ha := this a
  have hb := this b
  rw [show ((fun t : Tab => t.rows) = Tab.rows) from rfl] at *
  rw [ha, hb]

theorem step_spec {t t' : Tab} {o : Op} (hi : Inv t) (h : step t o = some t') : Inv t' ∧ ∀ r ∈ t'.rows, r ∈ srcRows t o := by
  cases o with
  | getIndex k =>
    simp only [step, getIndex, Option.some.injEq] at h
    subst h
    refine ⟨⟨hi.index, ?_⟩, fun r hr => hr⟩
    intro d hd
    simp only [Option.some.injEq] at hd
    rcases hk : t.k2i with _ | d'
    · rw [hk] at hd; simp only at hd; rw [← hd, hi.index]
    · rw [hk] at hd; simp only at hd; rw [← hd]; exact hi.cache d' hk
  | sort f p =>
    simp only [step, sort, Option.bind_eq_bind, Option.bind_eq_some_iff] at h
    obtain ⟨_, _, q, hq, h⟩ := h
    obtain ⟨q1, q2⟩ := iloc_eq hi.index hq
    simp only [Option.some.injEq] at h
    subst h
    exact ⟨⟨q1, by simp⟩, fun r hr => ((gather_mem q2).1 hr).elim fun i hi => List.mem_of_getElem? hi.2⟩
  | shuffle p =>
    simp only [step, shuffle, Option.bind_eq_bind, Option.map_eq_some_iff, Option.bind_eq_some_iff] at h
    obtain ⟨_, ⟨q, hq, h⟩, rfl⟩ := h
    obtain ⟨q1, q2⟩ := iloc_eq hi.index hq
    simp only [Option.some.injEq] at h
    subst h
    exact ⟨⟨q1, by simp⟩, fun r hr => ((gather_mem q2).1 hr).elim fun i hi => List.mem_of_getElem? hi.2⟩
  | split i n f =>
    simp only [step, split, Option.bind_eq_bind, Option.bind_eq_some_iff] at h
    obtain ⟨loc, _, q, hq, h⟩ := h
    obtain ⟨q1, q2⟩ := iloc_eq hi.index hq
    simp only [Option.some.injEq] at h
    subst h
    exact ⟨inv_ofRows _, fun r hr => ((gather_mem q2).1 hr).elim fun i hi => List.mem_of_getElem? hi.2⟩
  | merge a b =>
    simp only [step, Option.some.injEq] at h
    subst h
    refine ⟨inv_ofRows _, ?_⟩
    rw [merge_rows]
    exact fun r hr => hr
  | filter ks keep =>
    simp only [step, filter, Option.bind_eq_bind, Option.bind_eq_some_iff] at h
    obtain ⟨r, hr, h⟩ := h
    simp only [Option.some.injEq] at h
    subst h
    refine ⟨inv_ofRows _, ?_⟩
    obtain ⟨e, _⟩ := locMany_mem hi.index hr
    intro x hx
    simp only [ofRows, e, List.mem_flatten, List.mem_map] at hx
    obtain ⟨_, ⟨k, _, rfl⟩, hx⟩ := hx
    exact (List.mem_filter.1 hx).1
  | filterInfo vs f keep =>
    simp only [step, filterInfo, Option.bind_eq_bind, Option.bind_eq_some_iff] at h
    obtain ⟨col, _, h⟩ := h
    generalize (if keep = true then vs else npSetdiff col vs) = vs' at h
    split at h
    · simp only [Option.bind_eq_some_iff] at h
      obtain ⟨q, hq, h⟩ := h
      obtain ⟨q1, q2⟩ := iloc_eq hi.index hq
      simp only [Option.some.injEq] at h
      subst h
      exact ⟨inv_ofRows _, fun r hr => ((gather_mem q2).1 hr).elim fun i hi => List.mem_of_getElem? hi.2⟩
    · simp at h
  | filterIndex i keep =>
    simp only [step, filterIndex, Option.bind_eq_bind, Option.bind_eq_some_iff] at h
    obtain ⟨q, hq, h⟩ := h
    obtain ⟨q1, q2⟩ := iloc_eq hi.index hq
    simp only [Option.some.injEq] at h
    subst h
    exact ⟨inv_ofRows _, fun r hr => ((gather_mem q2).1 hr).elim fun i hi => List.mem_of_getElem? hi.2⟩

theorem run_inv {t t' : Tab} {ops : List Op} (hi : Inv t) (h : run t ops = some t') : Inv t' := by
  induction ops generalizing t with
  | nil => simp only [run, List.foldlM_nil, Option.pure_def, Option.some.injEq] at h; rw [← h]; exact hi
  | cons o l ih =>
    simp only [run, List.foldlM_cons, Option.bind_eq_bind, Option.bind_eq_some_iff] at h
    obtain ⟨t1, h1, h2⟩ := h
    exact ih (step_spec hi h1).1 h2

/-- tables merged in during a history. -/
def merged : List Op → List Row
  | [] => []
  | .merge a b :: l => a.flatten ++ b.flatten ++ merged l
  | _ :: l => merged l

/-- C52, alignment: after any history of operations on a table, every row (key together with its info) is a row of the initial table or
of a table merged in. -/
theorem C52_rows_aligned {r0 : List Row} {ops : List Op} {t : Tab} (h : run (ofRows r0) ops = some t) : ∀ r ∈ t.rows, r ∈ r0 ∨ r ∈ merged ops := by
  have gen : ∀ (ops : List Op) (t0 t : Tab), Inv t0 → run t0 ops = some t → ∀ r ∈ t.rows, r ∈ t0.rows ∨ r ∈ merged ops := by
    intro ops
    induction ops with
    | nil =>
      intro t0 t _ h r hr
      simp only [run, List.foldlM_nil, Option.pure_def, Option.some.injEq] at h
      rw [h]; exact Or.inl hr
    | cons o l ih =>
      intro t0 t hi h r hr
      simp only [run, List.foldlM_cons, Option.bind_eq_bind, Option.bind_eq_some_iff] at h
      obtain ⟨t1, h1, h2⟩ := h
      obtain ⟨s1, s2⟩ := step_spec hi h1
      rcases ih t1 t s1 h2 r hr with h3 | h3
      · have := s2 r h3
        cases o with
        | merge a b =>
          simp only [srcRows, List.mem_append] at this
          simp only [merged, List.mem_append]
          tauto
        | _ => exact Or.inl this
      · right
        cases o with
        | merge a b => simp only [merged, List.mem_append]; tauto
        | _ => exact h3
  exact gen ops (ofRows r0) t (inv_ofRows r0) h

/-- C52, look-up: after any history, `key in t` tells whether some row has that key; if exactly one row has it, `t[key]` is the info of
that row and `get_index(key)` its position, whatever look-ups were cached before. -/
theorem C52_lookup {r0 : List Row} {ops : List Op} {t : Tab} (h : run (ofRows r0) ops = some t) (k : String) :
    (contains t k = true ↔ ∃ v, (k, v) ∈ t.rows) ∧
    ∀ (i : Nat) (v : List String), t.rows[i]? = some (k, v) → (∀ (j : Nat) (v' : List String), t.rows[j]? = some (k, v') → j = i) →
      (getIndex t k).2 = some i ∧ (∀ x, v = [x] → get t k = some (.one x)) ∧ (v.length ≠ 1 → get t k = some (.many v)) := by
  have hi := run_inv (inv_ofRows r0) h
  constructor
  · unfold contains
    rw [hi.index, List.contains_iff_mem, List.mem_map]
    constructor
    · rintro ⟨⟨a, b⟩, hr, rfl⟩; exact ⟨b, hr⟩
    · rintro ⟨v, hv⟩; exact ⟨_, hv, rfl⟩
  · intro i v hv huniq
    constructor
    · have hd : (getIndex t k).2 = dictGet (enumDict (t.rows.map Prod.fst)) k := by
        unfold getIndex
        dsimp only
        rcases hk : t.k2i with _ | d'
        · rw [hi.index]
        · rw [hi.cache d' hk]
      rw [hd]
      have hmem : k ∈ t.rows.map Prod.fst := List.mem_map.2 ⟨_, List.mem_of_getElem? hv, rfl⟩
      obtain ⟨j, hj⟩ := Option.isSome_iff_exists.1 (enumDict_isSome.2 hmem)
      rw [hj]
      have := enumDict_some hj
      rw [List.getElem?_map, Option.map_eq_some_iff] at this
      obtain ⟨⟨a, b⟩, hr, rfl⟩ := this
      rw [huniq j b hr]
    · have hone : locOne t k = [(k, v)] := by
        rw [locOne_eq hi.index]
        have hlt : i < t.rows.length := (List.getElem?_eq_some_iff.1 hv).1
        have e : t.rows = t.rows.take i ++ (k, v) :: t.rows.drop (i + 1) := by
          have e1 : t.rows[i] = (k, v) := by rw [List.getElem?_eq_getElem hlt] at hv; simpa using hv
          rw [← e1]
          simp
        have hno : ∀ r ∈ t.rows.take i, ¬ r.1 = k := by
          intro r hr he
          obtain ⟨j, hj⟩ := List.mem_iff_getElem?.1 hr
          rw [List.getElem?_take] at hj
          split at hj
          · rename_i hji
            obtain ⟨a, b⟩ := r
            simp only at he
            subst he
            have := huniq j b hj
            omega
          · simp at hj
        have hno2 : ∀ r ∈ t.rows.drop (i + 1), ¬ r.1 = k := by
          intro r hr he
          obtain ⟨j, hj⟩ := List.mem_iff_getElem?.1 hr
          rw [List.getElem?_drop] at hj
          obtain ⟨a, b⟩ := r
          simp only at he
          subst he
          have := huniq _ b hj
          omega
        rw [e, List.filter_append, List.filter_cons]
        rw [List.filter_eq_nil_iff.2 (by intro r hr; simpa using hno r hr), List.filter_eq_nil_iff.2 (by intro r hr; simpa using hno2 r hr)]
        simp
      unfold get
      rw [hone]
      refine ⟨?_, ?_⟩
      · intro x hx; subst hx; rfl
      · intro hl
        dsimp only
        split
        · simp at hl
        · rfl

/-- C52 (a defect): for a key which occurs twice, `t[key]` is the whole second row, key included, not an info value. -/
theorem C52_duplicate_key_lookup (k a b : String) : get (ofRows [(k, [a]), (k, [b])]) k = some (.row (k, [b])) := by
  simp [get, locOne, ofRows]

/-- C52 (a defect): with two or more info columns the property `info` is a table without its first row, not the info columns. -/
theorem C52_info_two_columns (r : Row) (l : List Row) : info 2 (ofRows (r :: l)) = .slice l := rfl

/-- C52, `info` with one column: the info of every row, aligned with the keys. -/
theorem C52_info_one_column (l : List (String × String)) : info 1 (ofRows (l.map (fun p => (p.1, [p.2])))) = .column (l.map Prod.snd) := by
  simp [info, ofRows, Function.comp_def]

/-- C52, `filter(keys)`: raises when a key is missing; otherwise, for a table with distinct keys, it returns the rows of the requested
keys in the requested order. -/
theorem C52_filter {r0 : List Row} {ops : List Op} {t : Tab} (h : run (ofRows r0) ops = some t) (ks : List String) :
    (filter t ks true = none ↔ ∃ k ∈ ks, k ∉ t.rows.map Prod.fst) ∧
    ∀ t', filter t ks true = some t' → (∀ r, r ∈ t'.rows ↔ r ∈ t.rows ∧ r.1 ∈ ks) ∧
      ((t.rows.map Prod.fst).Nodup → t'.rows.map Prod.fst = ks) := by
  have hi := run_inv (inv_ofRows r0) h
  constructor
  · unfold filter
    simp only [if_true]
    rw [Option.bind_eq_bind, Option.bind_eq_none_iff]
    constructor
    · intro hn
      rcases hl : locMany t ks with _ | r
      · unfold locMany at hl
        rw [Option.map_eq_none_iff, mapM_eq_none_iff] at hl
        obtain ⟨k, hk, hk'⟩ := hl
        refine ⟨k, hk, ?_⟩
        split at hk'
        · rename_i he
          intro hm
          rw [locOne_eq hi.index] at he
          obtain ⟨r, hr, hrk⟩ := List.mem_map.1 hm
          have : r ∈ t.rows.filter (fun r => r.1 = k) := List.mem_filter.2 ⟨hr, by simpa using hrk⟩
          rw [he] at this; simp at this
        · simp at hk'
      · have := hn r hl; simp at this
    · rintro ⟨k, hk, hno⟩ r hr
      exact absurd ((locMany_mem hi.index hr).2 k hk) hno
  · intro t' ht
    unfold filter at ht
    simp only [if_true, Option.bind_eq_bind, Option.bind_eq_some_iff, Option.some.injEq] at ht
    obtain ⟨r, hr, rfl⟩ := ht
    obtain ⟨e, hmem⟩ := locMany_mem hi.index hr
    constructor
    · intro x
      simp only [ofRows, e, List.mem_flatten, List.mem_map]
      constructor
      · rintro ⟨_, ⟨k, hk, rfl⟩, hx⟩
        have := List.mem_filter.1 hx
        refine ⟨this.1, ?_⟩
        have h2 : x.1 = k := by simpa using this.2
        rw [h2]; exact hk
      · rintro ⟨hx, hxk⟩
        exact ⟨_, ⟨x.1, hxk, rfl⟩, List.mem_filter.2 ⟨hx, by simp⟩⟩
    · intro hnd
      simp only [ofRows, e]
      clear e hr
      have hone : ∀ (l : List Row) (k : String), (l.map Prod.fst).Nodup → k ∈ l.map Prod.fst → ((l.filter (fun r => r.1 = k)).map Prod.fst) = [k] := by
        intro l k
        induction l with
        | nil => simp
        | cons a l ih =>
          intro hn hk
          simp only [List.map_cons, List.nodup_cons] at hn
          simp only [List.map_cons, List.mem_cons] at hk
          rw [List.filter_cons]
          by_cases ha : a.1 = k
          · simp only [ha, decide_true, if_true, List.map_cons]
            have : l.filter (fun r => decide (r.1 = k)) = [] := by
              rw [List.filter_eq_nil_iff]
              intro r hr
              simp only [decide_eq_true_eq]
              intro he
              exact hn.1 (List.mem_map.2 ⟨r, hr, by rw [he, ha]⟩)
            rw [this]; rfl
          · simp only [ha, decide_false]
            rcases hk with hk | hk
            · exact absurd hk.symm ha
            · simpa using ih hn.2 hk
      induction ks with
      | nil => rfl
      | cons k ks ih =>
        simp only [List.map_cons, List.flatten_cons, List.map_append]
        rw [hone _ k hnd (hmem k (by simp))]
        have := ih (fun k' hk' => hmem k' (by simp [hk']))
        rw [this]; rfl

/-- C52, `filter(keys, keep=False)` never raises and keeps exactly the rows whose key is not listed, sorted by key. -/
theorem C52_filter_complement {r0 : List Row} {ops : List Op} {t : Tab} (h : run (ofRows r0) ops = some t) (ks : List String) :
    ∃ t', filter t ks false = some t' ∧ (∀ r, r ∈ t'.rows ↔ r ∈ t.rows ∧ r.1 ∉ ks) ∧ (t'.rows.map Prod.fst).Pairwise (· ≤ ·) := by
  have hi := run_inv (inv_ofRows r0) h
  have hne : ∀ k ∈ npSetdiff (t.rows.map Prod.fst) ks, locOne t k ≠ [] := by
    intro k hk he
    rw [mem_npSetdiff] at hk
    rw [locOne_eq hi.index] at he
    obtain ⟨r, hr, hrk⟩ := List.mem_map.1 hk.1
    have : r ∈ t.rows.filter (fun r => r.1 = k) := List.mem_filter.2 ⟨hr, by simpa using hrk⟩
    rw [he] at this; simp at this
  have hl : locMany t (npSetdiff (t.rows.map Prod.fst) ks) =
      some ((npSetdiff (t.rows.map Prod.fst) ks).map (fun k => t.rows.filter (fun r => r.1 = k))).flatten := by
    unfold locMany
    rw [Option.map_eq_some_iff]
    refine ⟨_, mapM_eq_some_iff.2 ?_, rfl⟩
    rw [List.map_map]
    apply List.map_congr_left
    intro k hk
    simp only [Function.comp]
    rw [if_neg (hne k hk), locOne_eq hi.index]
  refine ⟨ofRows ((npSetdiff (t.rows.map Prod.fst) ks).map (fun k => t.rows.filter (fun r => r.1 = k))).flatten, ?_, ?_, ?_⟩
  · unfold filter
    simp [hl]
  · intro x
    simp only [ofRows, List.mem_flatten, List.mem_map, mem_npSetdiff]
    constructor
    · rintro ⟨_, ⟨k, hk, rfl⟩, hx⟩
      have := List.mem_filter.1 hx
      have h2 : x.1 = k := by simpa using this.2
      rw [h2]; exact ⟨this.1, hk.2⟩
    · rintro ⟨hx, hxk⟩
      exact ⟨_, ⟨x.1, ⟨⟨x, hx, rfl⟩, hxk⟩, rfl⟩, List.mem_filter.2 ⟨hx, by simp⟩⟩
  · have hs : (npSetdiff (t.rows.map Prod.fst) ks).Pairwise (· < ·) := npUnique_sorted _
    simp only [ofRows]
    generalize npSetdiff (t.rows.map Prod.fst) ks = l at hs
    induction l with
    | nil => simp
    | cons k l ih =>
      rw [List.pairwise_cons] at hs
      simp only [List.map_cons, List.flatten_cons, List.map_append]
      rw [List.pairwise_append]
      have hk : ∀ a ∈ (t.rows.filter (fun r => decide (r.1 = k))).map Prod.fst, a = k := by
        intro a ha
        obtain ⟨r, hr, rfl⟩ := List.mem_map.1 ha
        simpa using (List.mem_filter.1 hr).2
      refine ⟨?_, ih hs.2, ?_⟩
      · rw [List.pairwise_iff_forall_sublist]
        intro a b hab
        have h1 := hk a (hab.subset (by simp))
        have h2 := hk b (hab.subset (by simp))
        rw [h1, h2]
      · intro a ha b hb
        obtain ⟨r, hr, rfl⟩ := List.mem_map.1 hb
        simp only [List.mem_flatten, List.mem_map] at hr
        obtain ⟨_, ⟨k', hk', rfl⟩, hr⟩ := hr
        have h2 : r.1 = k' := by simpa using (List.mem_filter.1 hr).2
        rw [hk a ha, h2]
        exact le_of_lt (hs.1 k' hk')

theorem mapM_col {rows : List Row} {f : Nat} {col : List String} (h : rows.mapM (fun r => r.2[f]?) = some col) :
    col.length = rows.length ∧ ∀ (i : Nat) (r : Row), rows[i]? = some r → col[i]? = r.2[f]? := by
  rw [mapM_eq_some_iff] at h
  constructor
  · have := congrArg List.length h; simpa using this.symm
  · intro i r hr
    have := congrArg (fun l => l[i]?) h
    simp only [List.getElem?_map, hr, Option.map_some] at this
    rcases hc : col[i]? with _ | c
    · rw [hc] at this; simp at this
    · rw [hc] at this; simpa using this.symm

/-- C52, `filter_info(values, field)`: raises when a listed value does not occur in the column; otherwise keeps exactly the rows whose info is
listed, in table order. With `keep=False` it never raises and keeps exactly the other rows. -/
theorem C52_filter_info {r0 : List Row} {ops : List Op} {t : Tab} (h : run (ofRows r0) ops = some t) (vs : List String) (f : Nat)
    (hf : 1 ≤ f) (hw : ∀ r ∈ t.rows, f ≤ r.2.length) (keep : Bool) :
    (filterInfo t vs f keep = none ↔ keep = true ∧ ∃ v ∈ vs, ∀ r ∈ t.rows, r.2[f - 1]? ≠ some v) ∧
    ∀ t', filterInfo t vs f keep = some t' → t'.rows = t.rows.filter (fun r => decide (∃ v ∈ vs, r.2[f - 1]? = some v) == keep) := by
  have hi := run_inv (inv_ofRows r0) h
  obtain ⟨col, hcol⟩ : ∃ col, t.rows.mapM (fun r => r.2[f - 1]?) = some col := by
    rcases hc : t.rows.mapM (fun r => r.2[f - 1]?) with _ | col
    · rw [mapM_eq_none_iff] at hc
      obtain ⟨r, hr, hn⟩ := hc
      rw [List.getElem?_eq_none_iff] at hn
      have := hw r hr
      omega
    · exact ⟨col, hc⟩
  obtain ⟨hlen, hget⟩ := mapM_col hcol
  have hmemcol : ∀ v, v ∈ col ↔ ∃ r ∈ t.rows, r.2[f - 1]? = some v := by
    intro v
    constructor
    · intro hv
      obtain ⟨i, hi'⟩ := List.mem_iff_getElem?.1 hv
      have hlt : i < t.rows.length := by rw [← hlen]; exact (List.getElem?_eq_some_iff.1 hi').1
      have := hget i _ (List.getElem?_eq_getElem hlt)
      exact ⟨_, List.getElem_mem hlt, by rw [← this]; exact hi'⟩
    · rintro ⟨r, hr, hv⟩
      obtain ⟨i, hi'⟩ := List.mem_iff_getElem?.1 hr
      exact List.mem_of_getElem? ((hget i r hi').trans hv)
  generalize hvs' : (if keep = true then vs else npSetdiff col vs) = vs'
  -- the selected rows
  have hsel : iloc t (nonzero (ismember col vs').1) =
      some ((t.rows.filter (fun r => decide (∃ v ∈ vs', r.2[f - 1]? = some v))).map Prod.fst, t.rows.filter (fun r => decide (∃ v ∈ vs', r.2[f - 1]? = some v))) := by
    have hg : gather t.rows (nonzero (ismember col vs').1) = some (t.rows.filter (fun r => decide (∃ v ∈ vs', r.2[f - 1]? = some v))) := by
      rw [ismember_flag]
      have hm : col.map (fun x => decide (x ∈ vs')) = t.rows.map (fun r => decide (∃ v ∈ vs', r.2[f - 1]? = some v)) := by
        apply List.ext_getElem?
        intro i
        rw [List.getElem?_map, List.getElem?_map]
        rcases Option.eq_none_or_eq_some (t.rows[i]?) with hr | ⟨r, hr⟩
        · have : col[i]? = none := by
            rw [List.getElem?_eq_none_iff] at hr ⊢; omega
          rw [hr, this]; rfl
        · have h1 := hget i r hr
          obtain ⟨c, hc⟩ : ∃ c, r.2[f - 1]? = some c := by
            have := hw r (List.mem_of_getElem? hr)
            exact ⟨_, List.getElem?_eq_getElem (by omega)⟩
          rw [hr, h1, hc]
          simp only [Option.map_some, hc, Option.some.injEq, exists_eq_right']
      rw [hm]
      clear hm
      generalize (fun r : Row => decide (∃ v ∈ vs', r.2[f - 1]? = some v)) = q
      have key : ∀ l : List Row, nonzero (l.map q) = (List.range l.length).filter (fun i => (l[i]?.map q).getD false) := by
        intro l
        unfold nonzero
        rw [List.length_map]
        apply List.filter_congr
        intro i _
        rw [List.getD_eq_getElem?_getD, List.getElem?_map]
      rw [key]
      unfold gather
      rw [mapM_eq_some_iff]
      induction t.rows using List.reverseRecOn with
      | nil => simp
      | append_singleton l a ih =>
        rw [List.length_append, List.length_singleton, List.range_succ, List.filter_append, List.map_append, List.filter_append, List.map_append]
        have e1 : (List.range l.length).filter (fun i => ((l ++ [a])[i]?.map q).getD false) = (List.range l.length).filter (fun i => (l[i]?.map q).getD false) := by
          apply List.filter_congr
          intro i hi'
          rw [List.getElem?_append_left (List.mem_range.1 hi')]
        rw [e1, ← ih]
        congr 1
        · apply List.map_congr_left
          intro i hi'
          rw [List.getElem?_append_left (List.mem_range.1 (List.mem_filter.1 hi').1)]
        · cases hq : q a <;> simp [hq]
    unfold iloc
    rw [hi.index, gather_map, hg]
    rfl
  have hdef : filterInfo t vs f keep = if (ismember vs' col).1.all id then some (ofRows (t.rows.filter (fun r => decide (∃ v ∈ vs', r.2[f - 1]? = some v)))) else none := by
    unfold filterInfo
    rw [hcol]
    simp only [Option.bind_eq_bind, Option.bind_some, hvs', hsel]
  have hall : (ismember vs' col).1.all id = true ↔ ∀ v ∈ vs', v ∈ col := by
    rw [ismember_flag, List.all_map, List.all_eq_true]
    simp
  constructor
  · rw [hdef]
    cases keep with
    | true =>
      simp only [if_true] at hvs'
      subst hvs'
      simp only [ite_eq_right_iff, reduceCtorEq, imp_false, hall, not_forall, true_and]
      constructor
      · rintro ⟨v, hv, hn⟩
        refine ⟨v, hv, ?_⟩
        intro r hr he
        exact hn ((hmemcol v).2 ⟨r, hr, he⟩)
      · rintro ⟨v, hv, hn⟩
        refine ⟨v, hv, ?_⟩
        intro hc
        obtain ⟨r, hr, he⟩ := (hmemcol v).1 hc
        exact hn r hr he
    | false =>
      have : (ismember vs' col).1.all id = true := by
        rw [hall, ← hvs']
        intro v hv
        simp only [Bool.false_eq_true, if_false, mem_npSetdiff] at hv
        exact hv.1
      rw [if_pos this]
      simp
  · intro t' ht
    rw [hdef] at ht
    split at ht
    · simp only [Option.some.injEq] at ht
      subst ht
      simp only [ofRows]
      apply List.filter_congr
      intro r hr
      cases keep with
      | true => simp only [if_true] at hvs'; subst hvs'; simp
      | false =>
        simp only [Bool.false_eq_true, if_false] at hvs'
        subst hvs'
        obtain ⟨c, hc⟩ : ∃ c, r.2[f - 1]? = some c := by
          have := hw r hr
          exact ⟨_, List.getElem?_eq_getElem (by omega)⟩
        have hcc : c ∈ col := (hmemcol c).2 ⟨r, hr, hc⟩
        rw [hc]
        by_cases hcv : c ∈ vs
        · simp [hcv]
        · simp [hcv, hcc]
    · simp at ht

/-- C52, `filter_index(positions)`: the listed rows in the listed order; with `keep=False` the other rows in table order. -/
theorem C52_filter_index (t : Tab) (hi : Inv t) (idx : List Nat) :
    (∀ t', filterIndex t idx true = some t' → ∀ k : Nat, t'.rows[k]? = (idx[k]?).bind (fun i => t.rows[i]?)) ∧
    ((∀ i ∈ idx, i < t.rows.length) → (filterIndex t idx true).isSome) ∧
    ∃ t', filterIndex t idx false = some t' ∧ gather t.rows ((List.range t.rows.length).filter (fun i => decide (i ∉ idx))) = some t'.rows := by
  refine ⟨?_, ?_, ?_⟩
  · intro t' ht k
    simp only [filterIndex, if_true, Option.bind_eq_bind, Option.bind_eq_some_iff, Option.some.injEq] at ht
    obtain ⟨q, hq, rfl⟩ := ht
    obtain ⟨_, hg⟩ := iloc_eq hi.index hq
    simp only [ofRows]
    unfold gather at hg
    rw [mapM_eq_some_iff] at hg
    have := congrArg (fun l => l[k]?) hg
    simp only [List.getElem?_map] at this
    rcases hik : idx[k]? with _ | i
    · rw [hik] at this
      rcases hq2 : q.2[k]? with _ | x
      · simp
      · rw [hq2] at this; simp at this
    · rw [hik] at this
      rcases hq2 : q.2[k]? with _ | x
      · rw [hq2] at this; simp at this
      · rw [hq2] at this; simp only [Option.map_some, Option.some.injEq] at this; simp [this]
  · intro hall
    obtain ⟨r, hr, _⟩ := gather_eq_some hall
    simp [filterIndex, iloc, hi.index, gather_map, hr]
  · have hset : npSetdiff (List.range t.rows.length) idx = (List.range t.rows.length).filter (fun i => decide (i ∉ idx)) := by
      unfold npSetdiff
      apply npUnique_of_sorted
      exact (List.pairwise_lt_range).filter _
    obtain ⟨r, hr, _⟩ := gather_eq_some (l := t.rows) (idx := (List.range t.rows.length).filter (fun i => decide (i ∉ idx)))
      (fun i hi => List.mem_range.1 (List.mem_filter.1 hi).1)
    refine ⟨ofRows r, ?_, hr⟩
    simp only [filterIndex, Bool.false_eq_true, if_false, hset, iloc, hi.index, gather_map, hr]
    rfl

/-- C52, `split`: the parts 1..n of a table, in order, make up the table. -/
theorem C52_split (r0 : List Row) (n : Nat) (hn : 1 ≤ n) :
    ∃ parts : List Tab, (List.range' 1 n).mapM (fun i => split (ofRows r0) i n 0) = some parts ∧ (parts.map (fun t => t.rows)).flatten = r0 := by
  obtain ⟨parts, h1, h2, h3, h4⟩ := C01_split_list_partition (r0.map Prod.fst) n hn
  obtain ⟨rparts, g1, g2, g3, g4⟩ := C01_split_list_partition r0 n hn
  refine ⟨rparts.map (fun p => ofRows p.1), ?_, ?_⟩
  · rw [mapM_eq_some_iff] at g1 h1 ⊢
    rw [List.map_map]
    have hlen : (List.range' 1 n).length = rparts.length := by have := congrArg List.length g1; simpa using this
    apply List.ext_getElem?
    intro j
    have e1 := congrArg (fun l => l[j]?) g1
    have e2 := congrArg (fun l => l[j]?) h1
    simp only [List.getElem?_map] at e1 e2 ⊢
    rcases hi : (List.range' 1 n)[j]? with _ | i
    · rw [hi] at e1
      rcases hr : rparts[j]? with _ | x
      · rfl
      · rw [hr] at e1; simp at e1
    · rw [hi] at e1 e2
      rcases hr : rparts[j]? with _ | x
      · rw [hr] at e1; simp at e1
      · rcases hr2 : parts[j]? with _ | y
        · rw [hr2] at e2; simp at e2
        · rw [hr] at e1; rw [hr2] at e2
          simp only [Option.map_some, Option.some.injEq] at e1 e2 ⊢
          have hxy : y.2 = x.2 := by
            unfold splitList at e1 e2
            split at e1
            · simp at e1
            · rename_i hz
              rw [if_neg hz] at e2
              simp only [Option.map_eq_some_iff] at e1 e2
              obtain ⟨_, _, rfl⟩ := e1
              obtain ⟨_, _, rfl⟩ := e2
              simp
          have hg := g4 x (List.mem_of_getElem? hr)
          unfold split
          simp only [if_true, ofRows, e2, Option.map_some, Option.bind_eq_bind, Option.bind_some, hxy]
          simp only [iloc, gather_map, hg]
          rfl
  · rw [List.map_map]
    simpa [Function.comp_def, ofRows] using g2

/-- **C52** (parts as operations of a history): the operation `split(i, n)` of a history makes the `i`-th of the `n` parts. -/
theorem C52_split_history (r0 : List Row) (n : Nat) (hn : 1 ≤ n) :
    ∃ parts : List Tab, (List.range' 1 n).mapM (fun i => run (ofRows r0) [.split i n 0]) = some parts ∧ (parts.map (fun t => t.rows)).flatten = r0 := by
  obtain ⟨parts, h1, h2⟩ := C52_split r0 n hn
  refine ⟨parts, ?_, h2⟩
  rw [← h1]
  congr 1
  funext i
  unfold run
  rw [List.foldlM_cons]
  show (split (ofRows r0) i n 0).bind _ = _
  cases split (ofRows r0) i n 0 <;> rfl

/-- C52, `split(group_by_field)`: rows with the same info value go to the same part, the parts contain every row once, and an empty table
raises. -/
theorem C52_split_group (l : List (String × String)) (hl : l ≠ []) (n : Nat) (hn : 1 ≤ n) :
    ∃ parts : List Tab, (List.range' 1 n).mapM (fun i => split (ofRows (l.map (fun p => (p.1, [p.2])))) i n 1) = some parts ∧
      (parts.map (fun t => t.rows)).flatten.Perm (l.map (fun p => (p.1, [p.2]))) ∧
      ∀ t ∈ parts, ∀ p ∈ l, ∀ q ∈ l, p.2 = q.2 → (p.1, [p.2]) ∈ t.rows → (q.1, [q.2]) ∈ t.rows := by
  generalize hrows : l.map (fun p => (p.1, [p.2])) = rows
  have hne : rows ≠ [] := by rw [← hrows]; simpa using hl
  have hcol : rows.mapM (fun r : Row => r.2[0]?) = some (l.map Prod.snd) := by
    rw [mapM_eq_some_iff, ← hrows, List.map_map, List.map_map]
    apply List.map_congr_left; intro p _; simp
  have hklen : (l.map Prod.snd).length = rows.length := by rw [← hrows]; simp
  obtain ⟨parts, h1, h2, h3, h4⟩ := C02_group_split_partition (l.map Prod.snd) (l.map Prod.snd) rfl (by simpa using hl) n hn
  have hgat : ∀ p ∈ parts, ∃ r, gather rows p.2 = some r := by
    intro p hp
    obtain ⟨r, hr, _⟩ := gather_eq_some (l := rows) (idx := p.2) (by
      intro i hi
      have : i ∈ (parts.map Prod.snd).flatten := List.mem_flatten.2 ⟨p.2, List.mem_map.2 ⟨p, hp, rfl⟩, hi⟩
      have := List.mem_range.1 (h2.mem_iff.1 this)
      omega)
    exact ⟨r, hr⟩
  have hsplit : ∀ i p, splitListGroupByKey (l.map Prod.snd) i n (l.map Prod.snd) = some p → p ∈ parts →
      ∀ r, gather rows p.2 = some r → split (ofRows rows) i n 1 = some (ofRows r) := by
    intro i p hp _ r hr
    unfold split
    simp only [Nat.one_ne_zero, if_false, ofRows, Nat.sub_self, hcol, Option.bind_eq_bind, Option.bind_some, hp, Option.map_some]
    simp only [iloc, gather_map, hr]
    rfl
  refine ⟨parts.map (fun p => ofRows ((gather rows p.2).getD [])), ?_, ?_, ?_⟩
  · rw [mapM_eq_some_iff] at h1 ⊢
    rw [List.map_map]
    apply List.ext_getElem?
    intro j
    have e1 := congrArg (fun l => l[j]?) h1
    simp only [List.getElem?_map] at e1 ⊢
    rcases hi : (List.range' 1 n)[j]? with _ | i
    · rw [hi] at e1
      rcases hr : parts[j]? with _ | x
      · rfl
      · rw [hr] at e1; simp at e1
    · rw [hi] at e1
      rcases hr : parts[j]? with _ | x
      · rw [hr] at e1; simp at e1
      · rw [hr] at e1
        simp only [Option.map_some, Option.some.injEq, Function.comp] at e1 ⊢
        obtain ⟨r, hg⟩ := hgat x (List.mem_of_getElem? hr)
        rw [hsplit i x e1 (List.mem_of_getElem? hr) r hg, hg]
        rfl
  · rw [List.map_map]
    have : (parts.map ((fun t => t.rows) ∘ fun p => ofRows ((gather rows p.2).getD []))).flatten = (gather rows (parts.map Prod.snd).flatten).getD [] := by
      clear h1 h2 h3 h4 hsplit
      induction parts with
      | nil => simp [gather]
      | cons p ps ih =>
        obtain ⟨r, hr⟩ := hgat p (by simp)
        have ih' := ih (fun q hq => hgat q (by simp [hq]))
        simp only [List.map_cons, List.flatten_cons, Function.comp, ofRows, hr, Option.getD_some, gather_append] at ih' ⊢
        have hrest : ∃ r', gather rows (ps.map Prod.snd).flatten = some r' := by
          obtain ⟨r', hr', _⟩ := gather_eq_some (l := rows) (idx := (ps.map Prod.snd).flatten) (by
            intro i hi
            obtain ⟨m, hm, him⟩ := List.mem_flatten.1 hi
            obtain ⟨q, hq, rfl⟩ := List.mem_map.1 hm
            obtain ⟨rq, hrq⟩ := hgat q (by simp [hq])
            unfold gather at hrq
            rw [mapM_eq_some_iff] at hrq
            have : rows[i]? ∈ rq.map some := by rw [← hrq]; exact List.mem_map.2 ⟨i, him, rfl⟩
            rcases Option.eq_none_or_eq_some (rows[i]?) with hn | ⟨x, hx⟩
            · rw [hn] at this; simp at this
            · exact (List.getElem?_eq_some_iff.1 hx).1)
          exact ⟨r', hr'⟩
        obtain ⟨r', hr'⟩ := hrest
        rw [hr'] at ih' ⊢
        simp only [Option.getD_some] at ih'
        simp only [ofRows, Function.comp_def] at ih' ⊢
        rw [ih']
        simp
    rw [this]
    have hp : (parts.map Prod.snd).flatten.Perm (List.range rows.length) := by rw [← hklen]; exact h2
    obtain ⟨r, hr, _⟩ := gather_eq_some (l := rows) (idx := (parts.map Prod.snd).flatten) (fun i hi => List.mem_range.1 (hp.mem_iff.1 hi))
    rw [hr]
    exact gather_perm hp hr
  · intro t ht p hp q hq hpq hpt
    obtain ⟨x, hx, rfl⟩ := List.mem_map.1 ht
    obtain ⟨r, hg⟩ := hgat x hx
    rw [hg] at hpt ⊢
    simp only [Option.getD_some, ofRows] at hpt ⊢
    obtain ⟨i, hi, hri⟩ := (gather_mem hg).1 hpt
    obtain ⟨j, hj⟩ := List.mem_iff_getElem?.1 hq
    have hki : (l.map Prod.snd)[i]? = some p.2 := by
      rw [← hrows, List.getElem?_map, Option.map_eq_some_iff] at hri
      obtain ⟨y, hy, hye⟩ := hri
      rw [List.getElem?_map, hy]
      simp only [Prod.mk.injEq, List.cons.injEq, and_true] at hye
      simp [hye.2]
    have hkj : (l.map Prod.snd)[j]? = some q.2 := by rw [List.getElem?_map, hj]; rfl
    -- the part number
    have hx' : some x ∈ parts.map some := List.mem_map.2 ⟨x, hx, rfl⟩
    rw [mapM_eq_some_iff] at h1
    rw [← h1] at hx'
    obtain ⟨m, hm, hme⟩ := List.mem_map.1 hx'
    have hm' := List.mem_range'_1.1 hm
    have := C02_group_split_keeps_groups (l.map Prod.snd) (l.map Prod.snd) rfl (by simpa using hl) n m (by omega) (by omega) x.1 x.2 hme i j
      (by rw [hki, hkj, hpq]) hi
    refine (gather_mem hg).2 ⟨j, this, ?_⟩
    rw [← hrows, List.getElem?_map, hj]; rfl

/-- C52, `sort`: for every outcome of the (unstable) library sort, the rows are the same ones, ordered by the field. -/
theorem C52_sort (t : Tab) (hi : Inv t) (field : Nat) (hw : field = 0 ∨ ∀ r ∈ t.rows, field ≤ r.2.length) {perm : List Nat}
    (hp : IsArgsort (t.rows.map (sortKey field)) perm) :
    ∃ t', sort t field perm = some t' ∧ t'.rows.Perm t.rows ∧ (t'.rows.map (sortKey field)).Pairwise (· ≤ ·) := by
  obtain ⟨hp1, hp2⟩ := hp
  rw [List.length_map] at hp1
  obtain ⟨r, hr, _⟩ := gather_eq_some (l := t.rows) (idx := perm) (fun i hi => List.mem_range.1 (hp1.mem_iff.1 hi))
  refine ⟨⟨r.map Prod.fst, r, none⟩, ?_, gather_perm hp1 hr, ?_⟩
  · unfold sort
    have : (if field = 0 then some () else if ∀ r ∈ t.rows, field ≤ r.2.length then some () else none) = some () := by
      rcases hw with h | h
      · rw [if_pos h]
      · rw [if_pos h, ite_self]
    rw [this]
    simp [iloc, hi.index, gather_map, hr]
  · have : perm.filterMap (fun i => (t.rows.map (sortKey field))[i]?) = r.map (sortKey field) := by
      have hg : gather (t.rows.map (sortKey field)) perm = some (r.map (sortKey field)) := by rw [gather_map, hr]; rfl
      unfold gather at hg
      rw [mapM_eq_some_iff] at hg
      have : perm.filterMap (fun i => (t.rows.map (sortKey field))[i]?) = (perm.map (fun i => (t.rows.map (sortKey field))[i]?)).filterMap id := by
        rw [List.filterMap_map]; rfl
      rw [this, hg]
      simp
    rw [← this]; exact hp2

/-- a concrete history: build, look up (filling the cache), shuffle, filter, sort; look-up after it. -/
example : ∃ t, run (ofRows [("u1", ["s1"]), ("u2", ["s2"]), ("u3", ["s1"])]) [.getIndex "u1", .shuffle [2, 0, 1], .filterInfo ["s1"] 1 true] = some t ∧
    get t "u1" = some (.one "s1") ∧ (getIndex t "u1").2 = some 1 ∧ get t "u2" = none := by
  exact ⟨⟨["u3", "u1"], [("u3", ["s1"]), ("u1", ["s1"])], none⟩, by decide, by decide, by decide, by decide⟩

end Hyp.U2I
