import Verif.Segments.ExtSeg

/-! Property C50: extended segments are runs of consecutive segments of one speaker. -/

namespace Hyp.Segments
open Hyp.Text

abbrev P := XSeg × Option String

/-- grouping, as a recursion: the current group is `cur ++ [last]`. -/
def grp (maxSeg : Nat) : List P → P → List P → List (List P)
  | cur, last, [] => [cur ++ [last]]
  | cur, last, x :: rest =>
    if !linked last x || decide (cur.length + 1 = maxSeg) then (cur ++ [last]) :: grp maxSeg [] x rest
    else grp maxSeg (cur ++ [last]) x rest

theorem grp_cons (maxSeg : Nat) (cur : List P) (last x : P) (rest : List P) : grp maxSeg cur last (x :: rest) =
    if !linked last x || decide (cur.length + 1 = maxSeg) then (cur ++ [last]) :: grp maxSeg [] x rest
    else grp maxSeg (cur ++ [last]) x rest := by
  conv_lhs => unfold grp

def rangesOf {α : Type} : Nat → List (List α) → List (Nat × Nat)
  | _, [] => []
  | f, g :: gs => (f, f + g.length - 1) :: rangesOf (f + g.length) gs

theorem ranges_grp (maxSeg : Nat) (rest : List P) (pre cur : List P) (last : P) (rs : List (Nat × Nat)) (rows : List P)
    (hr : rows = pre ++ cur ++ last :: rest) :
    ∃ st, (List.range' (pre.length + cur.length + 1) (rest.length + 1)).foldlM (rangeStep rows.length maxSeg rows)
      ⟨rs, pre.length, pre.length + cur.length, cur.length + 1⟩ = some st ∧ st.ranges = rs ++ rangesOf pre.length (grp maxSeg cur last rest) := by
  induction rest generalizing pre cur last rs with
  | nil =>
    have hn : rows.length = pre.length + cur.length + 1 := by rw [hr]; simp; omega
    refine ⟨⟨rs ++ [(pre.length, pre.length + cur.length)], pre.length + cur.length + 1, pre.length + cur.length + 1, 1⟩, ?_, ?_⟩
    · simp [List.range', rangeStep, hn]
    · simp [grp, rangesOf]
  | cons x rest ih =>
    have hn : rows.length = pre.length + cur.length + 1 + (rest.length + 1) := by rw [hr]; simp only [List.length_append, List.length_cons]; omega
    have hfl : linkFlag rows (pre.length + cur.length + 1) = some (linked last x) := by
      unfold linkFlag
      have h1 : rows[pre.length + cur.length + 1 - 1]? = some last := by
        rw [hr, Nat.add_sub_cancel, List.getElem?_append_right (by simp)]
        simp
      have h2 : rows[pre.length + cur.length + 1]? = some x := by
        rw [hr, List.getElem?_append_right (by simp)]
        simp
      rw [h1, h2]
    rw [List.length_cons, List.range'_succ, List.foldlM_cons]
    have hstep : rangeStep rows.length maxSeg rows ⟨rs, pre.length, pre.length + cur.length, cur.length + 1⟩ (pre.length + cur.length + 1) =
        if !linked last x || decide (cur.length + 1 = maxSeg) then
          some ⟨rs ++ [(pre.length, pre.length + cur.length)], pre.length + cur.length + 1, pre.length + cur.length + 1, 1⟩
        else some ⟨rs, pre.length, pre.length + cur.length + 1, cur.length + 1 + 1⟩ := by
      unfold rangeStep
      dsimp only
      rw [if_neg (by omega), hfl]
    rw [hstep]
    by_cases hc : (!linked last x || decide (cur.length + 1 = maxSeg)) = true
    · rw [if_pos hc]
      obtain ⟨st, e, hs⟩ := ih (pre ++ cur ++ [last]) [] x (rs ++ [(pre.length, pre.length + cur.length)]) (by rw [hr]; simp)
      refine ⟨st, ?_, ?_⟩
      · simp only [List.length_append, List.length_singleton, List.length_nil, Nat.add_zero, Nat.zero_add] at e
        exact e
      · rw [hs]
        rw [grp_cons, if_pos hc]
        simp only [rangesOf, List.length_append, List.length_singleton, List.append_assoc, List.singleton_append]
        rw [show pre.length + (cur.length + 1) - 1 = pre.length + cur.length by omega]
    · rw [if_neg hc]
      obtain ⟨st, e, hs⟩ := ih pre (cur ++ [last]) x rs (by rw [hr]; simp)
      refine ⟨st, ?_, ?_⟩
      · simp only [List.length_append, List.length_singleton] at e
        exact e
      · rw [hs]
        rw [grp_cons, if_neg hc]

/-- what the groups are. -/
theorem grp_spec (maxSeg : Nat) (hm : 1 ≤ maxSeg) (rest : List P) (cur : List P) (last : P)
    (hch : (cur ++ [last]).IsChain (fun a b => linked a b = true)) (hlen : cur.length + 1 ≤ maxSeg) :
    (grp maxSeg cur last rest).flatten = cur ++ last :: rest ∧ (∃ tl gs, grp maxSeg cur last rest = (cur ++ last :: tl) :: gs) ∧
    (∀ g ∈ grp maxSeg cur last rest, g ≠ [] ∧ g.length ≤ maxSeg ∧ g.IsChain (fun a b => linked a b = true)) ∧
    (grp maxSeg cur last rest).IsChain (fun a b => ∃ ha hb, linked (a.getLast ha) (b.head hb) = false ∨ a.length = maxSeg) := by
  induction rest generalizing cur last with
  | nil =>
    refine ⟨by simp [grp], ⟨[], [], by simp [grp]⟩, ?_, by simp [grp]⟩
    intro g hg
    simp only [grp, List.mem_singleton] at hg
    subst hg
    exact ⟨by simp, by simpa using hlen, hch⟩
  | cons x rest ih =>
    rw [grp_cons]
    by_cases hc : (!linked last x || decide (cur.length + 1 = maxSeg)) = true
    · rw [if_pos hc]
      obtain ⟨h1, ⟨tl, gs, h2⟩, h3, h4⟩ := ih [] x (by simp) (by simpa using hm)
      refine ⟨by rw [List.flatten_cons, h1]; simp, ⟨[], _, rfl⟩, ?_, ?_⟩
      · intro g hg
        rcases List.mem_cons.1 hg with rfl | hg
        · exact ⟨by simp, by simpa using hlen, hch⟩
        · exact h3 g hg
      · rw [h2] at h4 ⊢
        rw [List.isChain_cons_cons]
        refine ⟨⟨by simp, by simp, ?_⟩, h4⟩
        simp only [List.nil_append, List.head_cons, List.getLast_append, List.length_append, List.length_singleton]
        simpa using hc
    · rw [if_neg hc]
      simp only [Bool.or_eq_true, Bool.not_eq_true', decide_eq_true_eq, not_or, Bool.not_eq_false] at hc
      obtain ⟨h1, ⟨tl, gs, h2⟩, h3, h4⟩ := ih (cur ++ [last]) x (by
        rw [List.append_assoc, List.singleton_append, List.isChain_append]
        rw [List.isChain_append] at hch
        refine ⟨hch.1, by rw [List.isChain_cons_cons]; exact ⟨hc.1, by simp⟩, ?_⟩
        intro a ha b hb
        simp at hb
        subst hb
        exact hch.2.2 a ha last (by simp)) (by simp; omega)
      refine ⟨by rw [h1]; simp, ⟨x :: tl, gs, by rw [h2]; simp⟩, h3, h4⟩

/-! the updates -/

theorem dictSet_new {κ β : Type} [DecidableEq κ] {d : List (κ × β)} {k : κ} {v : β} (h : k ∉ d.map Prod.fst) : dictSet d k v = d ++ [(k, v)] := by
  induction d with
  | nil => rfl
  | cons p d ih =>
    obtain ⟨a, b⟩ := p
    simp only [List.map_cons, List.mem_cons, not_or] at h
    unfold dictSet
    rw [if_neg (fun e => h.1 e.symm), ih h.2]
    rfl

theorem foldl_dictSet_new {α κ β : Type} [DecidableEq κ] (key : α → κ) (val : α → β) {l : List α} {d : List (κ × β)} (h : (d.map Prod.fst ++ l.map key).Nodup) :
    l.foldl (fun d a => dictSet d (key a) (val a)) d = d ++ l.map (fun a => (key a, val a)) := by
  induction l generalizing d with
  | nil => simp
  | cons a l ih =>
    rw [List.map_cons] at h
    have hk : key a ∉ d.map Prod.fst := by
      intro hm
      rw [List.nodup_append] at h
      exact h.2.2 _ hm _ (List.mem_cons_self ..) rfl
    rw [List.foldl_cons, dictSet_new hk, ih]
    · simp
    · simpa using h

def relabel (g : List XSeg) : List XSeg := g.map (fun s => { s with ext := joinAt (g.map XSeg.id) })

def headName (exts : XTable) (g : List XSeg) : Option String := (g.head?.bind (fun s => dictGet exts s.ext)).join

theorem apply_groups (exts : XTable) (gs : List (List XSeg)) (hne : ∀ g ∈ gs, g ≠ []) (hn : ∀ g ∈ gs, ∀ s ∈ g, (dictGet exts s.ext).isSome)
    (done : List XSeg) (d : XTable) :
    (rangesOf done.length gs).foldlM (applyGroup exts) (done ++ gs.flatten, d) =
      some (done ++ gs.flatMap relabel, gs.foldl (fun d g => dictSet d (joinAt (g.map XSeg.id)) (headName exts g)) d) := by
  induction gs generalizing done d with
  | nil => simp [rangesOf]
  | cons g gs ih =>
    obtain ⟨s, g', hg⟩ := List.exists_cons_of_ne_nil (hne g (List.mem_cons_self ..))
    obtain ⟨name, hname⟩ := Option.isSome_iff_exists.1 (hn g (List.mem_cons_self ..) s (by rw [hg]; simp))
    have hlen : 1 ≤ g.length := by rw [hg]; simp
    have hhead : headName exts g = name := by rw [hg]; simp [headName, hname]
    have hap : applyGroup exts (done ++ (g :: gs).flatten, d) (done.length, done.length + g.length - 1) =
        some (done ++ relabel g ++ gs.flatten, dictSet d (joinAt (g.map XSeg.id)) (headName exts g)) := by
      unfold applyGroup
      dsimp only
      have hslice : ((done ++ (g :: gs).flatten).drop done.length).take (done.length + g.length - 1 + 1 - done.length) = g := by
        rw [List.drop_left, List.flatten_cons, show done.length + g.length - 1 + 1 - done.length = g.length by omega, List.take_left]
      rw [hslice]
      have hdrop : (done ++ (g :: gs).flatten).drop (done.length + g.length - 1 + 1) = gs.flatten := by
        rw [show done.length + g.length - 1 + 1 = (done ++ g).length by simp; omega, List.flatten_cons, ← List.append_assoc, List.drop_left]
      rw [hdrop, List.take_left, hhead]
      subst hg
      dsimp only
      rw [hname]
      rfl
    rw [rangesOf, List.foldlM_cons, hap]
    have hl : (done ++ relabel g).length = done.length + g.length := by simp [relabel]
    have := ih (fun g hg => hne g (List.mem_cons_of_mem _ hg)) (fun g hg => hn g (List.mem_cons_of_mem _ hg)) (done ++ relabel g)
      (dictSet d (joinAt (g.map XSeg.id)) (headName exts g))
    rw [hl] at this
    simp only [bind, Option.bind_some]
    rw [this]
    simp

theorem splitAll_joinAt {l : List Str} (hne : l ≠ []) (h : ∀ s ∈ l, '@' ∉ s) : splitAll '@' (joinAt l) = l := by
  induction l with
  | nil => exact absurd rfl hne
  | cons a l ih =>
    cases l with
    | nil => exact splitAll_noSep (h a (List.mem_cons_self ..))
    | cons b l =>
      unfold joinAt
      rw [splitAll_append (h a (List.mem_cons_self ..)), ih (by simp) (fun s hs => h s (List.mem_cons_of_mem _ hs))]

theorem dictGet_isSome_of_mem {κ β : Type} [DecidableEq κ] {d : List (κ × β)} {k : κ} (h : k ∈ d.map Prod.fst) : (dictGet d k).isSome := by
  induction d with
  | nil => simp at h
  | cons p d ih =>
    obtain ⟨a, b⟩ := p
    unfold dictGet
    by_cases hk : a = k
    · simp [hk]
    · rw [if_neg hk]
      simp only [List.map_cons, List.mem_cons] at h
      exact ih (h.resolve_left (fun e => hk e.symm))

theorem filter_key {κ β : Type} [DecidableEq κ] {d : List (κ × β)} (hn : (d.map Prod.fst).Nodup) {k : κ} {v : β} (h : dictGet d k = some v) :
    d.filter (fun e => decide (e.1 = k)) = [(k, v)] := by
  induction d with
  | nil => simp [dictGet] at h
  | cons p d ih =>
    obtain ⟨a, b⟩ := p
    rw [List.map_cons, List.nodup_cons] at hn
    unfold dictGet at h
    by_cases hk : a = k
    · rw [if_pos hk] at h
      simp only [Option.some.injEq] at h
      subst h; subst hk
      rw [List.filter_cons, if_pos (by simp), List.filter_eq_nil_iff.2]
      intro e he
      simp only [decide_eq_true_eq]
      intro h2
      exact hn.1 (List.mem_map.2 ⟨e, he, h2⟩)
    · rw [if_neg hk] at h
      rw [List.filter_cons, if_neg (by simpa using hk), ih hn.2 h]

theorem dictGet_eq_iff {κ β : Type} [DecidableEq κ] {d : List (κ × β)} (hn : (d.map Prod.fst).Nodup) {k : κ} {v : β} : dictGet d k = some v ↔ (k, v) ∈ d := by
  induction d with
  | nil => simp [dictGet]
  | cons p d ih =>
    obtain ⟨a, b⟩ := p
    rw [List.map_cons, List.nodup_cons] at hn
    unfold dictGet
    by_cases hk : a = k
    · rw [if_pos hk]
      subst hk
      simp only [Option.some.injEq, List.mem_cons, Prod.mk.injEq, true_and]
      constructor
      · intro h; exact Or.inl h.symm
      · rintro (h | h)
        · exact h.symm
        · exact absurd (List.mem_map.2 ⟨_, h, rfl⟩) hn.1
    · rw [if_neg hk, ih hn.2]
      simp only [List.mem_cons, Prod.mk.injEq]
      constructor
      · intro h; exact Or.inr h
      · rintro (h | h)
        · exact absurd h.1.symm hk
        · exact h

/-- the name of a segment: that of its extended segment (none: NaN). -/
def nameOf (exts : XTable) (s : XSeg) : Option String := (dictGet exts s.ext).join

theorem joinExt_eq {segs : List XSeg} {exts : XTable} (hx : (exts.map Prod.fst).Nodup) (hm : ∀ s ∈ segs, s.ext ∈ exts.map Prod.fst) :
    joinExt segs exts = segs.map (fun s => (s, nameOf exts s)) := by
  unfold joinExt
  induction segs with
  | nil => rfl
  | cons s segs ih =>
    rw [List.flatMap_cons, List.map_cons, ih (fun s hs => hm s (List.mem_cons_of_mem _ hs))]
    obtain ⟨n, hn⟩ := Option.isSome_iff_exists.1 (dictGet_isSome_of_mem (hm s (List.mem_cons_self ..)))
    rw [filter_key hx hn]
    simp [nameOf, hn]

/-- two segments of the same file whose extended segments have the same known name. -/
def SameSpk (exts : XTable) (a b : XSeg) : Prop := b.file = a.file ∧ ∃ n : String, (a.ext, some n) ∈ exts ∧ (b.ext, some n) ∈ exts

theorem linked_iff {exts : XTable} (hx : (exts.map Prod.fst).Nodup) {a b : XSeg} :
    linked (a, nameOf exts a) (b, nameOf exts b) = true ↔ SameSpk exts a b := by
  unfold linked SameSpk
  simp only [Bool.and_eq_true, decide_eq_true_eq]
  constructor
  · rintro ⟨h1, h2, h3⟩
    obtain ⟨n, hn⟩ := Option.isSome_iff_exists.1 h2
    refine ⟨h1, n, ?_, ?_⟩
    · rw [← dictGet_eq_iff hx]
      rw [hn] at h3
      unfold nameOf at h3
      exact Option.join_eq_some_iff.1 h3.symm
    · rw [← dictGet_eq_iff hx]
      unfold nameOf at hn
      exact Option.join_eq_some_iff.1 hn
  · rintro ⟨h1, n, h2, h3⟩
    rw [← dictGet_eq_iff hx] at h2 h3
    refine ⟨h1, ?_, ?_⟩
    · simp [nameOf, h3]
    · simp [nameOf, h2, h3]

theorem chain_adj {α : Type} {r : α → α → Prop} {l l1 l2 : List α} {a b : α} (h : l.IsChain r) (e : l = l1 ++ a :: b :: l2) : r a b := by
  rw [e, List.isChain_append] at h
  exact (List.isChain_cons_cons.1 h.2.1).1

/-- C50. For every table of segments and extended segments whose extended ids are unique and all present, whose segment ids are unique and without '@', and every
`max_segments` (0: no limit), merging succeeds. The segments are cut, in order, into groups of consecutive segments of one file and name; a group has at most
`max_segments`; a group ends only where the next segment is of another file or name, or where it is full. Every segment gets the '@'-joined ids of its
group as extended id, and the new table of extended segments has one row per group, in order, with that id and the name of the group. -/
theorem C50_merge_adjacent (segs : List XSeg) (exts : XTable) (maxSegments : Nat) (hx : (exts.map Prod.fst).Nodup)
    (hm : ∀ s ∈ segs, s.ext ∈ exts.map Prod.fst) (hid : (segs.map XSeg.id).Nodup) (hat : ∀ s ∈ segs, '@' ∉ s.id) :
    ∃ groups segs' exts', mergeExt segs exts maxSegments = some (segs', exts') ∧ groups.flatten = segs ∧
      (∀ g ∈ groups, g ≠ [] ∧ (maxSegments ≠ 0 → g.length ≤ maxSegments) ∧ g.IsChain (SameSpk exts)) ∧
      (∀ l1 l2 a b, groups = l1 ++ a :: b :: l2 → ∃ ha hb, ¬ SameSpk exts (a.getLast ha) (b.head hb) ∨ (maxSegments ≠ 0 ∧ a.length = maxSegments)) ∧
      segs' = groups.flatMap (fun g => g.map (fun s => { s with ext := joinAt (g.map XSeg.id) })) ∧
      exts'.length = groups.length ∧
      ∀ (k : Nat) (g : List XSeg), groups[k]? = some g → ∃ s n, g.head? = some s ∧ (s.ext, n) ∈ exts ∧ exts'[k]? = some (joinAt (g.map XSeg.id), n) := by
  cases segs with
  | nil =>
    refine ⟨[], [], [], ?_, rfl, by simp, ?_, rfl, rfl, by simp⟩
    · simp [mergeExt]
    · intro l1 l2 a b e
      simp at e
  | cons s0 rest0 =>
    generalize hsegs : s0 :: rest0 = segs at *
    unfold mergeExt
    dsimp only
    generalize hmx : (if maxSegments = 0 then segs.length else maxSegments) = mx
    have hmx1 : 1 ≤ mx := by
      rw [← hmx, ← hsegs]
      split
      · simp
      · omega
    rw [joinExt_eq hx hm]
    generalize hf : (fun s => (s, nameOf exts s) : XSeg → P) = f
    have hrows : segs.map f = [] ++ [] ++ f s0 :: rest0.map f := by rw [← hsegs]; simp
    obtain ⟨st, e1, e2⟩ := ranges_grp mx (rest0.map f) [] [] (f s0) [] (segs.map f) hrows
    have hl : segs.length = rest0.length + 1 := by rw [← hsegs]; simp
    simp only [List.length_nil, Nat.add_zero, Nat.zero_add, List.length_map, List.nil_append] at e1 e2
    rw [hl]
    rw [hl] at e1
    rw [e1]
    dsimp only
    rw [e2]
    obtain ⟨g1, _, g3, g4⟩ := grp_spec mx hmx1 (rest0.map f) [] (f s0) (by simp) (by simpa using hmx1)
    generalize grp mx [] (f s0) (rest0.map f) = G at *
    have hffst : ∀ s, (f s).1 = s := by intro s; rw [← hf]
    have hflat : (G.map (List.map Prod.fst)).flatten = segs := by
      rw [← List.map_flatten, g1, ← hsegs]
      simp [hffst, Function.comp_def]
    have hGf : ∀ g ∈ G, g = (g.map Prod.fst).map f := by
      intro g hg
      have hsub : ∀ p ∈ g, f p.1 = p := by
        intro p hp
        have : p ∈ G.flatten := List.mem_flatten.2 ⟨g, hg, hp⟩
        rw [g1] at this
        have hmem : p ∈ segs.map f := by rw [← hsegs]; simpa using this
        obtain ⟨s, _, rfl⟩ := List.mem_map.1 hmem
        rw [hffst]
      rw [List.map_map]
      conv_lhs => rw [← List.map_id g]
      apply List.map_congr_left
      intro p hp
      simp [hsub p hp]
    have hrng : ∀ (n : Nat) (G : List (List P)), rangesOf n G = rangesOf n (G.map (List.map Prod.fst)) := by
      intro n G
      induction G generalizing n with
      | nil => rfl
      | cons g G ih => simp [rangesOf, ih]
    rw [hrng]
    generalize hgr : G.map (List.map Prod.fst) = groups at *
    have hgne : ∀ g ∈ groups, g ≠ [] := by
      intro g hg
      rw [← hgr] at hg
      obtain ⟨g0, hg0, rfl⟩ := List.mem_map.1 hg
      have := (g3 g0 hg0).1
      simpa using this
    have hmem : ∀ g ∈ groups, ∀ s ∈ g, s ∈ segs := by
      intro g hg s hs
      rw [← hflat]; exact List.mem_flatten.2 ⟨g, hg, hs⟩
    have happ := apply_groups exts groups hgne (fun g hg s hs => dictGet_isSome_of_mem (hm s (hmem g hg s hs))) [] []
    simp only [List.length_nil, List.nil_append] at happ
    rw [hflat] at happ
    have hkeys : ((([] : XTable).map Prod.fst) ++ groups.map (fun g => joinAt (g.map XSeg.id))).Nodup := by
      simp only [List.map_nil, List.nil_append]
      have hgn : groups.Nodup := by
        -- equal groups would repeat a segment
        have : (groups.flatten.map XSeg.id).Nodup := by rw [hflat]; exact hid
        clear happ hmem hgr hflat
        induction groups with
        | nil => simp
        | cons g groups ih =>
          rw [List.flatten_cons, List.map_append, List.nodup_append] at this
          rw [List.nodup_cons]
          refine ⟨?_, ih (fun g hg => hgne g (List.mem_cons_of_mem _ hg)) this.2.1⟩
          intro hg
          obtain ⟨s, g', e⟩ := List.exists_cons_of_ne_nil (hgne g (List.mem_cons_self ..))
          refine this.2.2 s.id (List.mem_map.2 ⟨s, by rw [e]; simp, rfl⟩) s.id (List.mem_map.2 ⟨s, List.mem_flatten.2 ⟨g, hg, by rw [e]; simp⟩, rfl⟩) rfl
      apply List.Nodup.map_on _ hgn
      intro a ha b hb e
      have h1 : splitAll '@' (joinAt (a.map XSeg.id)) = a.map XSeg.id := by
        apply splitAll_joinAt
        · simpa using hgne a ha
        · intro s hs
          obtain ⟨x, hx', rfl⟩ := List.mem_map.1 hs
          exact hat x (hmem a ha x hx')
      have h2 : splitAll '@' (joinAt (b.map XSeg.id)) = b.map XSeg.id := by
        apply splitAll_joinAt
        · simpa using hgne b hb
        · intro s hs
          obtain ⟨x, hx', rfl⟩ := List.mem_map.1 hs
          exact hat x (hmem b hb x hx')
      rw [e, h2] at h1
      -- ids determine the segments
      have hinj : ∀ x ∈ segs, ∀ y ∈ segs, x.id = y.id → x = y := fun x hx y hy h => List.inj_on_of_nodup_map hid hx hy h
      have : ∀ (a b : List XSeg), (∀ x ∈ a, x ∈ segs) → (∀ x ∈ b, x ∈ segs) → b.map XSeg.id = a.map XSeg.id → a = b := by
        intro a
        induction a with
        | nil => intro b _ _ h; simp at h; exact h.symm
        | cons x a ih =>
          intro b h1 h2 h
          cases b with
          | nil => simp at h
          | cons y b =>
            simp only [List.map_cons, List.cons.injEq] at h
            rw [hinj x (h1 x (by simp)) y (h2 y (by simp)) h.1.symm,
              ih b (fun z hz => h1 z (List.mem_cons_of_mem _ hz)) (fun z hz => h2 z (List.mem_cons_of_mem _ hz)) h.2]
      exact this a b (hmem a ha) (hmem b hb) h1
    have hdict := foldl_dictSet_new (fun g : List XSeg => joinAt (g.map XSeg.id)) (fun g => headName exts g) (l := groups) (d := []) hkeys
    refine ⟨groups, _, _, happ, hflat, ?_, ?_, rfl, ?_, ?_⟩
    · intro g hg
      refine ⟨hgne g hg, ?_, ?_⟩
      · intro h0
        rw [← hgr] at hg
        obtain ⟨g0, hg0, rfl⟩ := List.mem_map.1 hg
        have := (g3 g0 hg0).2.1
        rw [← hmx, if_neg h0] at this
        simpa using this
      · rw [← hgr] at hg
        obtain ⟨g0, hg0, rfl⟩ := List.mem_map.1 hg
        have := (g3 g0 hg0).2.2
        rw [hGf g0 hg0, List.isChain_map] at this
        refine this.imp ?_
        intro a b hab
        rw [← hf] at hab
        exact (linked_iff hx).1 hab
    · intro l1 l2 a b e
      rw [← hgr] at e
      obtain ⟨L1, L2, eG, e3, e4⟩ := List.map_eq_append_iff.1 e
      obtain ⟨A, L3, eA, e5, e6⟩ := List.map_eq_cons_iff.1 e4
      obtain ⟨B, L4, eB, e7, e8⟩ := List.map_eq_cons_iff.1 e6
      rw [eA, eB] at eG
      obtain ⟨ha, hb, hd⟩ := chain_adj g4 eG
      have hA : A ∈ G := by rw [eG]; simp
      have hB : B ∈ G := by rw [eG]; simp
      have ha' : a ≠ [] := by rw [← e5]; simpa using ha
      have hb' : b ≠ [] := by rw [← e7]; simpa using hb
      refine ⟨ha', hb', ?_⟩
      have hlast : A.getLast ha = f (a.getLast ha') := by
        have h1 : A = a.map f := by rw [← e5]; exact hGf A hA
        subst h1
        rw [List.getLast_map]
      have hhead : B.head hb = f (b.head hb') := by
        have h1 : B = b.map f := by rw [← e7]; exact hGf B hB
        subst h1
        rw [List.head_map]
      rw [hlast, hhead] at hd
      rcases hd with hd | hd
      · left
        intro hs
        rw [← linked_iff hx] at hs
        rw [← hf] at hd
        dsimp only at hd
        rw [hs] at hd
        simp at hd
      · by_cases h0 : maxSegments = 0
        · exfalso
          rw [← hmx, if_pos h0, ← hflat, ← hgr, eG] at hd
          have : 1 ≤ B.length := by
            rcases B with _ | ⟨_, _⟩
            · exact absurd rfl hb
            · simp
          simp at hd
          omega
        · right
          rw [← hmx, if_neg h0] at hd
          exact ⟨h0, by rw [← e5, List.length_map]; exact hd⟩
    · rw [hdict]; simp
    · intro k g hk
      obtain ⟨s, g', hg⟩ := List.exists_cons_of_ne_nil (hgne g (List.mem_of_getElem? hk))
      have hs : s ∈ segs := hmem g (List.mem_of_getElem? hk) s (by rw [hg]; simp)
      obtain ⟨n, hn⟩ := Option.isSome_iff_exists.1 (dictGet_isSome_of_mem (hm s hs))
      refine ⟨s, n, by rw [hg]; rfl, (dictGet_eq_iff hx).1 hn, ?_⟩
      rw [hdict, List.nil_append, List.getElem?_map, hk]
      simp [hg, headName, hn]

/-- non-vacuity: four segments, the first three of one speaker, at most two per group. -/
example : mergeExt [⟨['a'], "f", ['1']⟩, ⟨['b'], "f", ['2']⟩, ⟨['c'], "f", ['3']⟩, ⟨['d'], "f", ['4']⟩]
    [(['1'], some "x"), (['2'], some "x"), (['3'], some "x"), (['4'], some "y")] 2 =
    some ([⟨['a'], "f", ['a', '@', 'b']⟩, ⟨['b'], "f", ['a', '@', 'b']⟩, ⟨['c'], "f", ['c']⟩, ⟨['d'], "f", ['d']⟩],
      [(['a', '@', 'b'], some "x"), (['c'], some "x"), (['d'], some "y")]) := by decide

/-- C50 (a limit): with ids which contain '@' two groups can share an id, and one of them loses its name: here the group of 'a','b' (name x) and the
segment 'a@b' (name y). -/
theorem C50_at_sign_collision : mergeExt [⟨['a'], "f", ['1']⟩, ⟨['b'], "f", ['2']⟩, ⟨['a', '@', 'b'], "f", ['3']⟩]
    [(['1'], some "x"), (['2'], some "x"), (['3'], some "y")] 0 =
    some ([⟨['a'], "f", ['a', '@', 'b']⟩, ⟨['b'], "f", ['a', '@', 'b']⟩, ⟨['a', '@', 'b'], "f", ['a', '@', 'b']⟩], [(['a', '@', 'b'], some "y")]) := by decide

/-- C50. The index of the segments in the table of extended segments: it raises iff a segment's extended id is not in the table; otherwise it has one entry per segment, the number of
a row of the table with the segment's extended id, and equal ids have equal entries. -/
theorem C50_index (segs : List XSeg) (exts : XTable) :
    (extSegmentIndex segs exts = none ↔ ∃ s ∈ segs, ∀ e ∈ exts, e.1 ≠ s.ext) ∧
    (∀ idx, extSegmentIndex segs exts = some idx → idx.length = segs.length ∧
      (∀ (i : Nat) (s : XSeg) (k : Nat), segs[i]? = some s → idx[i]? = some k → ∃ e, exts[k]? = some e ∧ e.1 = s.ext) ∧
      (∀ (i j : Nat) (s t : XSeg), segs[i]? = some s → segs[j]? = some t → s.ext = t.ext → idx[i]? = idx[j]?)) := by
  constructor
  · unfold extSegmentIndex
    rw [mapM_eq_none_iff]
    constructor
    · rintro ⟨s, hs, h⟩
      refine ⟨s, hs, fun e he heq => ?_⟩
      have : (dictGet (enumDict (exts.map Prod.fst)) s.ext).isSome := enumDict_isSome.2 (List.mem_map.2 ⟨e, he, heq⟩)
      rw [h] at this
      cases this
    · rintro ⟨s, hs, h⟩
      refine ⟨s, hs, enumDict_get_not_mem ?_⟩
      intro hm
      obtain ⟨e, he, heq⟩ := List.mem_map.1 hm
      exact h e he heq
  · intro idx h
    unfold extSegmentIndex at h
    rw [mapM_eq_some_iff] at h
    have hg : ∀ (i : Nat) (s : XSeg), segs[i]? = some s → (idx[i]?).map some = some (dictGet (enumDict (exts.map Prod.fst)) s.ext) := by
      intro i s hs
      rw [← List.getElem?_map, ← h, List.getElem?_map, hs]
      rfl
    refine ⟨by simpa using (congrArg List.length h).symm, ?_, ?_⟩
    · intro i s k hs hk
      have e := hg i s hs
      rw [hk] at e
      have e' : dictGet (enumDict (exts.map Prod.fst)) s.ext = some k := (Option.some.inj e).symm
      have := enumDict_some e'
      rw [List.getElem?_map, Option.map_eq_some_iff] at this
      exact this
    · intro i j s t hs ht hst
      have e1 := hg i s hs
      have e2 := hg j t ht
      rw [← hst] at e2
      have := e1.trans e2.symm
      cases h1 : idx[i]? <;> cases h2 : idx[j]? <;> rw [h1, h2] at this
      · cases this
      · cases this
      · exact congrArg some (Option.some.inj (Option.some.inj this))

/-- a case: two segments of one extended segment; with repeated ids the last row counts. -/
example : extSegmentIndex [⟨['a'], "f", ['x']⟩, ⟨['b'], "f", ['y']⟩, ⟨['c'], "g", ['x']⟩] [(['y'], none), (['x'], some "n")] = some [1, 0, 1] ∧
    extSegmentIndex [⟨['a'], "f", ['x']⟩] [(['x'], none), (['x'], none)] = some [1] ∧ extSegmentIndex [⟨['a'], "f", ['z']⟩] [(['x'], none)] = none := by decide

end Hyp.Segments
