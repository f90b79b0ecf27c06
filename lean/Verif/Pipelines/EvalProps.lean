import Verif.Pipelines.Eval

/-! C106: evaluation of trials from files to scores. -/

namespace Hyp.Eval
open Hyp.Trials Hyp.U2I Hyp.Text

variable {V W : Type}

theorem create_all {M S : List String} {sc : Mat ℝ} {r : Scores String ℝ} :
    Scores.create M S sc none = some r ↔
      M.Nodup ∧ S.Nodup ∧ sc.rows = M.length ∧ sc.cols = S.length ∧ r = ⟨M, S, sc, Mat.full M.length S.length true⟩ := by
  unfold Scores.create
  by_cases h : uniqueOk M = true ∧ uniqueOk S = true
  · have h' : (uniqueOk M && uniqueOk S) = true := by simp [h.1, h.2]
    rw [if_pos h']
    rw [uniqueOk_iff, uniqueOk_iff] at h
    by_cases h2 : sc.rows = M.length ∧ sc.cols = S.length
    · rw [if_pos h2]
      simp only [Option.some.injEq]
      constructor
      · intro e
        exact ⟨h.1, h.2, h2.1, h2.2, e.symm⟩
      · intro e
        exact e.2.2.2.2.symm
    · rw [if_neg h2]
      constructor
      · intro e
        cases e
      · intro e
        exact absurd ⟨e.2.2.1, e.2.2.2.1⟩ h2
  · have h' : ¬ (uniqueOk M && uniqueOk S) = true := by simpa using h
    rw [if_neg h']
    rw [uniqueOk_iff, uniqueOk_iff] at h
    constructor
    · intro e
      cases e
    · intro e
      exact absurd ⟨e.1, e.2.1⟩ h

theorem readAll_iff {r : String → Option V} {keys : List String} {xs : List V} :
    readAll r keys = some xs ↔ keys ≠ [] ∧ keys.map r = xs.map some := by
  unfold readAll
  by_cases h : keys = []
  · simp [h]
  · rw [if_neg h, mapM_eq_some_iff]
    tauto

theorem readAll_exists {r : String → Option V} {keys : List String} :
    (∃ xs, readAll r keys = some xs) ↔ keys ≠ [] ∧ ∀ k ∈ keys, ∃ x, r k = some x := by
  simp only [readAll_iff]
  constructor
  · rintro ⟨xs, h, e⟩
    refine ⟨h, fun k hk => ?_⟩
    have : r k ∈ xs.map some := e ▸ List.mem_map_of_mem hk
    obtain ⟨x, -, hx⟩ := List.mem_map.1 this
    exact ⟨x, hx.symm⟩
  · rintro ⟨h, e⟩
    have : Nonempty V := by
      obtain ⟨k, hk⟩ := List.exists_mem_of_ne_nil keys h
      exact ⟨(e k hk).choose⟩
    choose! f hf using e
    refine ⟨keys.map f, h, ?_⟩
    rw [List.map_map]
    exact List.map_congr_left (fun k hk => hf k hk)

theorem read_getD [Inhabited W] {r : String → Option V} {keys : List String} {xs : List V} (h : keys.map r = xs.map some) (pre : V → W) {i : Nat}
    {k : String} (hk : keys[i]? = some k) : ∃ x, r k = some x ∧ (xs.map pre).getD i default = pre x := by
  have := congrArg (fun l => l[i]?) h
  simp only [List.getElem?_map, hk, Option.map_some] at this
  rcases hx : xs[i]? with _ | x
  · rw [hx] at this
    cases this
  · rw [hx] at this
    simp only [Option.map_some, Option.some.injEq] at this
    refine ⟨x, this, ?_⟩
    rw [List.getD_eq_getElem?_getD, List.getElem?_map, hx]
    rfl

/-- the part of the script after the lists have been prepared -/
def core [Inhabited W] (r : String → Option V) (pre : V → W) (score : W → W → ℝ) (used : List (String × String)) (segs : List String) :
    Option (Scores String ℝ) := do
  let xe ← readAll r (used.map Prod.fst)
  let xt ← readAll r segs
  Scores.create (used.map Prod.snd) segs
    ⟨(xe.map pre).length, (xt.map pre).length, fun i j => score ((xe.map pre).getD i default) ((xt.map pre).getD j default)⟩ none

theorem core_spec [Inhabited W] (r : String → Option V) (pre : V → W) (score : W → W → ℝ) (used : List (String × String)) (segs : List String)
    (hs : segs.Nodup) :
    ((∃ S, core r pre score used segs = some S) ↔
      used ≠ [] ∧ segs ≠ [] ∧ (used.map Prod.snd).Nodup ∧ (∀ p ∈ used, ∃ x, r p.1 = some x) ∧ ∀ s ∈ segs, ∃ x, r s = some x) ∧
    ∀ S, core r pre score used segs = some S → S.WF ∧ S.models = used.map Prod.snd ∧ S.segs = segs ∧
      ∀ m s v, S.HasScore m s v ↔ s ∈ segs ∧ ∃ k xk xs, (k, m) ∈ used ∧ r k = some xk ∧ r s = some xs ∧ v = score (pre xk) (pre xs) := by
  constructor
  · constructor
    · rintro ⟨S, h⟩
      unfold core at h
      obtain ⟨xe, he, h⟩ := Option.bind_eq_some_iff.1 h
      obtain ⟨xt, ht, h⟩ := Option.bind_eq_some_iff.1 h
      obtain ⟨h1, h2, -⟩ := create_all.1 h
      obtain ⟨a1, a2⟩ := readAll_exists.1 ⟨xe, he⟩
      obtain ⟨b1, b2⟩ := readAll_exists.1 ⟨xt, ht⟩
      exact ⟨by simpa using a1, b1, h1, fun p hp => a2 p.1 (List.mem_map_of_mem hp), b2⟩
    · rintro ⟨h1, h2, h3, h4, h5⟩
      obtain ⟨xe, he⟩ := readAll_exists.2 (show used.map Prod.fst ≠ [] ∧ ∀ k ∈ used.map Prod.fst, ∃ x, r k = some x from
        ⟨by simpa using h1, fun k hk => by
          obtain ⟨p, hp, rfl⟩ := List.mem_map.1 hk
          exact h4 p hp⟩)
      obtain ⟨xt, ht⟩ := readAll_exists.2 ⟨h2, h5⟩
      have le := congrArg List.length (readAll_iff.1 he).2
      have lt := congrArg List.length (readAll_iff.1 ht).2
      simp only [List.length_map] at le lt
      unfold core
      rw [he, ht]
      exact ⟨_, create_all.2 ⟨h3, hs, by simp [le], by simp [lt], rfl⟩⟩
  · intro S h
    unfold core at h
    obtain ⟨xe, he, h⟩ := Option.bind_eq_some_iff.1 h
    obtain ⟨xt, ht, h⟩ := Option.bind_eq_some_iff.1 h
    obtain ⟨h1, h2, h3, h4, rfl⟩ := create_all.1 h
    have ee := (readAll_iff.1 he).2
    have et := (readAll_iff.1 ht).2
    refine ⟨⟨h1, h2, h3, h4, rfl, rfl⟩, rfl, rfl, fun m s v => ?_⟩
    unfold Scores.HasScore
    simp only [Mat.full, true_and]
    constructor
    · rintro ⟨i, j, hi, hj, rfl⟩
      rw [List.getElem?_map] at hi
      obtain ⟨p, hp, rfl⟩ := Option.map_eq_some_iff.1 hi
      have hk : (used.map Prod.fst)[i]? = some p.1 := by rw [List.getElem?_map, hp]; rfl
      obtain ⟨x, hx, e1⟩ := read_getD ee pre hk
      obtain ⟨y, hy, e2⟩ := read_getD et pre hj
      exact ⟨List.mem_of_getElem? hj, p.1, x, y, List.mem_of_getElem? hp, hx, hy, by rw [e1, e2]⟩
    · rintro ⟨hs, k, xk, xs, hk, hxk, hxs, rfl⟩
      obtain ⟨i, hi⟩ := List.mem_iff_getElem?.1 hk
      obtain ⟨j, hj⟩ := List.mem_iff_getElem?.1 hs
      have hk : (used.map Prod.fst)[i]? = some k := by rw [List.getElem?_map, hi]; rfl
      obtain ⟨x, hx, e1⟩ := read_getD ee pre hk
      obtain ⟨y, hy, e2⟩ := read_getD et pre hj
      refine ⟨i, j, by rw [List.getElem?_map, hi]; rfl, hj, ?_⟩
      rw [e1, e2]
      rw [hxk] at hx
      rw [hxs] at hy
      rw [Option.some.inj hx, Option.some.inj hy]

/-- an enrolment file: pairs of a vector key and a model name -/
def enrollTab (rows : List (String × String)) : Tab := ofRows (rows.map (fun p => (p.1, [p.2])))

theorem keys_enrollTab (rows : List (String × String)) : (enrollTab rows).rows.map Prod.fst = rows.map Prod.fst := by
  simp [enrollTab, ofRows, Function.comp_def]

theorem info_enrollTab (rows : List (String × String)) : infoCol (enrollTab rows) = rows.map Prod.snd := by
  simp [enrollTab, ofRows, infoCol, Function.comp_def]

theorem tab_ext_rows (l : List Row) : (ofRows l).rows = l := rfl

theorem filterInfo_ofRows {t t' : Tab} {vs : List String} {f : Nat} {keep : Bool} (h : filterInfo t vs f keep = some t') : t' = ofRows t'.rows := by
  unfold filterInfo at h
  obtain ⟨col, -, h⟩ := Option.bind_eq_some_iff.1 h
  have key : ∀ vs' : List String, (if (ListUtils.ismember vs' col).1.all id = true then do
      let __x ← iloc t (nonzero (ListUtils.ismember col vs').1)
      some (ofRows __x.2)
    else none) = some t' → t' = ofRows t'.rows := by
    intro vs' h
    by_cases hc : (ListUtils.ismember vs' col).1.all id = true
    · rw [if_pos hc] at h
      obtain ⟨p, -, h⟩ := Option.bind_eq_some_iff.1 h
      rw [← Option.some.inj h]
      rfl
    · rw [if_neg hc] at h
      cases h
  exact key _ h

theorem filter_enroll (rows : List (String × String)) (ms : List String) :
    (filterInfo (enrollTab rows) ms 1 true = none ↔ ∃ m ∈ ms, ∀ p ∈ rows, p.2 ≠ m) ∧
    ∀ t, filterInfo (enrollTab rows) ms 1 true = some t → t = enrollTab (rows.filter (fun p => decide (p.2 ∈ ms))) := by
  have hrun : run (ofRows (rows.map (fun p => (p.1, [p.2])))) [] = some (enrollTab rows) := rfl
  obtain ⟨h1, h2⟩ := C52_filter_info hrun ms 1 (by omega) (by
    intro r hr
    obtain ⟨p, -, rfl⟩ := List.mem_map.1 hr
    simp) true
  constructor
  · rw [h1]
    constructor
    · rintro ⟨-, m, hm, h⟩
      refine ⟨m, hm, fun p hp he => h (p.1, [p.2]) (List.mem_map.2 ⟨p, hp, rfl⟩) (by simp [he])⟩
    · rintro ⟨m, hm, h⟩
      refine ⟨rfl, m, hm, fun r hr => ?_⟩
      obtain ⟨p, hp, rfl⟩ := List.mem_map.1 hr
      simpa using h p hp
  · intro t ht
    have e := h2 t ht
    rw [filterInfo_ofRows ht, e]
    unfold enrollTab
    rw [tab_ext_rows, List.filter_map]
    congr 2
    apply List.filter_congr
    intro p _
    simp

/-- C106: the main evaluation (`enroll-test`). For an enrolment file `rows`, the script succeeds exactly when every model of the trial list is enrolled with
exactly one vector, and all vectors can be read. The score object then has the enrolled models of the trial list, in the order of the enrolment file, and
the segments of the trial list, and the score of model `m` and segment `s` is the score of the vector enrolled for `m` and the vector of `s`. -/
theorem C106_enroll_test [Inhabited W] (r : String → Option V) (pre : V → W) (score : W → W → ℝ) (ndx : Ndx String) (hn : ndx.WF)
    (rows : List (String × String)) :
    ((∃ S, evalTrials r pre score (some ndx) (enrollTab rows) .enrollTest 1 1 = some S) ↔
      ndx.models ≠ [] ∧ ndx.segs ≠ [] ∧ (∀ m ∈ ndx.models, ∃ p ∈ rows, p.2 = m) ∧
      ((rows.filter (fun p => decide (p.2 ∈ ndx.models))).map Prod.snd).Nodup ∧
      (∀ p ∈ rows, p.2 ∈ ndx.models → ∃ x, r p.1 = some x) ∧ ∀ s ∈ ndx.segs, ∃ x, r s = some x) ∧
    ∀ S, evalTrials r pre score (some ndx) (enrollTab rows) .enrollTest 1 1 = some S →
      S.WF ∧ S.models = (rows.filter (fun p => decide (p.2 ∈ ndx.models))).map Prod.snd ∧ S.segs = ndx.segs ∧
      ∀ m s v, S.HasScore m s v ↔ m ∈ ndx.models ∧ s ∈ ndx.segs ∧
        ∃ k xk xs, (k, m) ∈ rows ∧ r k = some xk ∧ r s = some xs ∧ v = score (pre xk) (pre xs) := by
  obtain ⟨f1, f2⟩ := filter_enroll rows ndx.models
  rcases hf : filterInfo (enrollTab rows) ndx.models 1 true with _ | t
  · obtain ⟨m, hm, hp⟩ := f1.1 hf
    have e : evalTrials r pre score (some ndx) (enrollTab rows) .enrollTest 1 1 = none := by
      simp [evalTrials, tdrInit, parseEvalSet, hf]
    rw [e]
    refine ⟨⟨fun ⟨S, h⟩ => (by cases h), fun h => ?_⟩, fun S h => (by cases h)⟩
    obtain ⟨p, hp', he⟩ := h.2.2.1 m hm
    exact absurd he (hp p hp')
  · have ht := f2 t hf
    have hall : ∀ m ∈ ndx.models, ∃ p ∈ rows, p.2 = m := by
      intro m hm
      by_contra hc
      have := f1.2 ⟨m, hm, fun p hp he => hc ⟨p, hp, he⟩⟩
      rw [hf] at this
      cases this
    have e : evalTrials r pre score (some ndx) (enrollTab rows) .enrollTest 1 1 =
        core r pre score (rows.filter (fun p => decide (p.2 ∈ ndx.models))) ndx.segs := by
      unfold evalTrials core tdrInit parseEvalSet tdrRead
      simp only [Option.bind_eq_bind, Option.bind_some, hf, Option.map_some, ht]
      simp only [Nat.lt_irrefl, or_self, if_false, Option.bind_some, keys_enrollTab, info_enrollTab]
      rw [Option.bind_assoc]
      congr 1
      funext xe
      rw [Option.bind_assoc]
      rfl
    rw [e]
    obtain ⟨c1, c2⟩ := core_spec r pre score (rows.filter (fun p => decide (p.2 ∈ ndx.models))) ndx.segs hn.segs
    constructor
    · rw [c1]
      constructor
      · rintro ⟨h1, h2, h3, h4, h5⟩
        refine ⟨?_, h2, hall, h3, fun p hp hm => h4 p (List.mem_filter.2 ⟨hp, by simpa using hm⟩), h5⟩
        intro h0
        apply h1
        rw [List.filter_eq_nil_iff]
        intro p _
        simp [h0]
      · rintro ⟨h1, h2, h3, h4, h5, h6⟩
        refine ⟨?_, h2, h4, fun p hp => ?_, h6⟩
        · obtain ⟨m, hm⟩ := List.exists_mem_of_ne_nil _ h1
          obtain ⟨p, hp, rfl⟩ := h3 m hm
          exact List.ne_nil_of_mem (List.mem_filter.2 ⟨hp, by simpa using hm⟩)
        · obtain ⟨h, h'⟩ := List.mem_filter.1 hp
          exact h5 p h (by simpa using h')
    · intro S hS
      obtain ⟨w, a, b, c⟩ := c2 S hS
      refine ⟨w, a, b, fun m s v => ?_⟩
      rw [c]
      constructor
      · rintro ⟨h1, k, xk, xs, hk, h⟩
        obtain ⟨hk, hm⟩ := List.mem_filter.1 hk
        exact ⟨by simpa using hm, h1, k, xk, xs, hk, h⟩
      · rintro ⟨hm, h1, k, xk, xs, hk, h⟩
        exact ⟨h1, k, xk, xs, List.mem_filter.2 ⟨hk, by simpa using hm⟩, h⟩

/-- C106: the scores do not depend on the order of the enrolment file nor of the trial list. -/
theorem C106_order [Inhabited W] (r : String → Option V) (pre : V → W) (score : W → W → ℝ) (ndx ndx' : Ndx String) (hn : ndx.WF) (hn' : ndx'.WF)
    (rows rows' : List (String × String)) (hp : rows.Perm rows') (hm : ndx.models.Perm ndx'.models) (hs : ndx.segs.Perm ndx'.segs)
    (S : Scores String ℝ) (h : evalTrials r pre score (some ndx) (enrollTab rows) .enrollTest 1 1 = some S) :
    ∃ S', evalTrials r pre score (some ndx') (enrollTab rows') .enrollTest 1 1 = some S' ∧ ∀ m s v, S'.HasScore m s v ↔ S.HasScore m s v := by
  obtain ⟨a, b⟩ := C106_enroll_test r pre score ndx hn rows
  obtain ⟨a', b'⟩ := C106_enroll_test r pre score ndx' hn' rows'
  obtain ⟨h1, h2, h3, h4, h5, h6⟩ := a.1 ⟨S, h⟩
  have e : ∃ S', evalTrials r pre score (some ndx') (enrollTab rows') .enrollTest 1 1 = some S' := by
    apply a'.2
    refine ⟨?_, ?_, ?_, ?_, ?_, ?_⟩
    · intro h0
      rw [h0] at hm
      exact h1 hm.eq_nil
    · intro h0
      rw [h0] at hs
      exact h2 hs.eq_nil
    · intro m h
      obtain ⟨p, hp1, hp2⟩ := h3 m (hm.mem_iff.2 h)
      exact ⟨p, hp.mem_iff.1 hp1, hp2⟩
    · have e1 : (rows'.filter (fun p => decide (p.2 ∈ ndx'.models))) = rows'.filter (fun p => decide (p.2 ∈ ndx.models)) := by
        apply List.filter_congr
        intro p _
        simp [hm.mem_iff]
      rw [e1]
      exact (((hp.filter _).map _).nodup_iff).1 h4
    · intro p h h'
      exact h5 p (hp.mem_iff.2 h) (hm.mem_iff.2 h')
    · intro s h
      exact h6 s (hs.mem_iff.2 h)
  obtain ⟨S', hS'⟩ := e
  refine ⟨S', hS', fun m s v => ?_⟩
  rw [(b' S' hS').2.2.2, (b S h).2.2.2]
  simp only [hm.mem_iff, hs.mem_iff, hp.mem_iff]

/-- C106: cohort against test segments (`coh-test`). All rows of the enrolment file are scored, under the names of its second column; a name or key that
occurs twice raises. -/
theorem C106_coh_test [Inhabited W] (r : String → Option V) (pre : V → W) (score : W → W → ℝ) (ndx : Ndx String) (hn : ndx.WF)
    (rows : List (String × String)) :
    ((∃ S, evalTrials r pre score (some ndx) (enrollTab rows) .cohTest 1 1 = some S) ↔
      rows ≠ [] ∧ ndx.segs ≠ [] ∧ (rows.map Prod.fst).Nodup ∧ (rows.map Prod.snd).Nodup ∧
      (∀ p ∈ rows, ∃ x, r p.1 = some x) ∧ ∀ s ∈ ndx.segs, ∃ x, r s = some x) ∧
    ∀ S, evalTrials r pre score (some ndx) (enrollTab rows) .cohTest 1 1 = some S →
      S.WF ∧ S.models = rows.map Prod.snd ∧ S.segs = ndx.segs ∧
      ∀ m s v, S.HasScore m s v ↔ s ∈ ndx.segs ∧ ∃ k xk xs, (k, m) ∈ rows ∧ r k = some xk ∧ r s = some xs ∧ v = score (pre xk) (pre xs) := by
  obtain ⟨c1, c2⟩ := core_spec r pre score rows ndx.segs hn.segs
  by_cases hk : (rows.map Prod.fst).Nodup
  · have hc : Ndx.create ((enrollTab rows).rows.map Prod.fst) ndx.segs none =
        some ⟨rows.map Prod.fst, ndx.segs, Mat.full (rows.map Prod.fst).length ndx.segs.length true⟩ := by
      rw [keys_enrollTab]
      unfold Ndx.create
      simp [uniqueOk_iff.2 hk, uniqueOk_iff.2 hn.segs]
    have e : evalTrials r pre score (some ndx) (enrollTab rows) .cohTest 1 1 = core r pre score rows ndx.segs := by
      unfold evalTrials core tdrInit parseEvalSet tdrRead
      simp only [Option.bind_eq_bind, Option.bind_some, hc, Option.map_some]
      simp only [Nat.lt_irrefl, or_self, if_false, Option.bind_some, keys_enrollTab, info_enrollTab]
      rw [Option.bind_assoc]
      congr 1
      funext xe
      rw [Option.bind_assoc]
      rfl
    rw [e]
    refine ⟨?_, c2⟩
    rw [c1]
    tauto
  · have hc : Ndx.create ((enrollTab rows).rows.map Prod.fst) ndx.segs none = none := by
      rw [keys_enrollTab]
      unfold Ndx.create
      rw [if_neg]
      intro h
      rw [Bool.and_eq_true, uniqueOk_iff] at h
      exact hk h.1
    have e : evalTrials r pre score (some ndx) (enrollTab rows) .cohTest 1 1 = none := by
      simp [evalTrials, tdrInit, parseEvalSet, hc]
    rw [e]
    exact ⟨⟨fun ⟨S, h⟩ => (by cases h), fun h => absurd h.2.2.1 hk⟩, fun S h => (by cases h)⟩

/-- C106, negative: cohort segments as test set always raise, and so does a division of the trials into parts. -/
theorem C106_raises [Inhabited W] (r : String → Option V) (pre : V → W) (score : W → W → ℝ) (ndx : Option (Ndx String)) (enroll : Tab)
    (es : EvalSet) (mParts sParts : Nat) (h : es = .enrollCoh ∨ es = .cohCoh ∨ 1 < mParts ∨ 1 < sParts ∨ ndx = none) :
    evalTrials r pre score ndx enroll es mParts sParts = none := by
  rcases ndx with _ | ndx
  · rfl
  rcases h with rfl | rfl | h | h | h
  · rfl
  · rfl
  · unfold evalTrials tdrInit
    simp only [h, true_or, if_true]
    cases parseEvalSet (some ndx) enroll es <;> rfl
  · unfold evalTrials tdrInit
    simp only [h, or_true, if_true]
    cases parseEvalSet (some ndx) enroll es <;> rfl
  · cases h

/-! ### the scores of the two scripts -/

theorem zip_scale (a b : List ℝ) (c d : ℝ) :
    (List.zipWith (fun u v => u * v) (a.map (fun v => c * v)) (b.map (fun v => d * v))).sum = c * d * (List.zipWith (fun u v => u * v) a b).sum := by
  induction a generalizing b with
  | nil => simp
  | cons u a ih =>
    rcases b with _ | ⟨v, b⟩
    · simp
    · simp only [List.map_cons, List.zipWith_cons_cons, List.sum_cons, ih]
      ring

theorem zip_cauchy (a b : List ℝ) :
    (List.zipWith (fun u v => u * v) a b).sum ^ 2 ≤ (a.map (fun v => v ^ 2)).sum * (b.map (fun v => v ^ 2)).sum := by
  have pos : ∀ l : List ℝ, 0 ≤ (l.map (fun v => v ^ 2)).sum := fun l => List.sum_nonneg (by
    intro x hx
    obtain ⟨v, -, rfl⟩ := List.mem_map.1 hx
    positivity)
  induction a generalizing b with
  | nil => simp
  | cons u a ih =>
    rcases b with _ | ⟨v, b⟩
    · simp
    · simp only [List.map_cons, List.zipWith_cons_cons, List.sum_cons]
      have h := ih b
      have p1 := pos a
      have p2 := pos b
      set S := (List.zipWith (fun u v => u * v) a b).sum
      set A := (a.map (fun v => v ^ 2)).sum
      set B := (b.map (fun v => v ^ 2)).sum
      have hS : |S| ≤ Real.sqrt A * Real.sqrt B := by
        rw [← Real.sqrt_mul p1, ← Real.sqrt_sq_eq_abs]
        exact Real.sqrt_le_sqrt h
      have h2 : 2 * (u * v) * S ≤ u ^ 2 * B + v ^ 2 * A := by
        have e1 : 2 * (u * v) * S ≤ 2 * |u * v| * |S| := by
          have := le_abs_self ((u * v) * S)
          rw [abs_mul] at this
          linarith
        have e2 : 2 * |u * v| * |S| ≤ 2 * |u * v| * (Real.sqrt A * Real.sqrt B) :=
          mul_le_mul_of_nonneg_left hS (by positivity)
        have e3 : 2 * |u * v| * (Real.sqrt A * Real.sqrt B) ≤ u ^ 2 * B + v ^ 2 * A := by
          rw [abs_mul]
          have := sq_nonneg (|u| * Real.sqrt B - |v| * Real.sqrt A)
          have s1 := Real.sq_sqrt p1
          have s2 := Real.sq_sqrt p2
          have s3 := sq_abs u
          have s4 := sq_abs v
          have : 2 * (|u| * |v|) * (Real.sqrt A * Real.sqrt B) ≤ |u| ^ 2 * Real.sqrt B ^ 2 + |v| ^ 2 * Real.sqrt A ^ 2 := by nlinarith
          rw [s1, s2, s3, s4] at this
          exact this
        linarith
      nlinarith

/-- C106: cosine scoring. The score of two vectors of dimension `d` is `d` times the cosine of their angle, up to the constant `1e-10` added to the norms;
it lies between `-d` and `d`, does not depend on which of the two was enrolled. -/
theorem C106_cosine (a b : List ℝ) (hab : a.length = b.length) :
    cosScore a b = a.length * ((List.zipWith (fun u v => u * v) a b).sum /
      ((Real.sqrt (a.map (fun v => v ^ 2)).sum + 1 / 10 ^ 10) * (Real.sqrt (b.map (fun v => v ^ 2)).sum + 1 / 10 ^ 10))) ∧
    abs (cosScore a b) ≤ a.length ∧ cosScore a b = cosScore b a := by
  have pos : ∀ l : List ℝ, 0 ≤ (l.map (fun v => v ^ 2)).sum := fun l => List.sum_nonneg (by
    intro x hx
    obtain ⟨v, -, rfl⟩ := List.mem_map.1 hx
    positivity)
  have e : ∀ y : List ℝ, Transforms.lnorm y = y.map (fun v => (Real.sqrt y.length / (Real.sqrt (y.map (fun v => v ^ 2)).sum + 1 / 10 ^ 10)) * v) := by
    intro y
    unfold Transforms.lnorm
    apply List.map_congr_left
    intro v _
    ring
  have main : cosScore a b = a.length * ((List.zipWith (fun u v => u * v) a b).sum /
      ((Real.sqrt (a.map (fun v => v ^ 2)).sum + 1 / 10 ^ 10) * (Real.sqrt (b.map (fun v => v ^ 2)).sum + 1 / 10 ^ 10))) := by
    unfold cosScore
    rw [e, e, zip_scale, hab, div_mul_div_comm, Real.mul_self_sqrt (by positivity)]
    ring
  refine ⟨main, ?_, ?_⟩
  · rw [main, abs_mul, abs_of_nonneg (by positivity : (0 : ℝ) ≤ a.length)]
    have hA := Real.sqrt_nonneg (a.map (fun v => v ^ 2)).sum
    have hB := Real.sqrt_nonneg (b.map (fun v => v ^ 2)).sum
    have hc : |(List.zipWith (fun u v => u * v) a b).sum| ≤ Real.sqrt (a.map (fun v => v ^ 2)).sum * Real.sqrt (b.map (fun v => v ^ 2)).sum := by
      rw [← Real.sqrt_mul (pos a), ← Real.sqrt_sq_eq_abs]
      exact Real.sqrt_le_sqrt (zip_cauchy a b)
    have h1 : |(List.zipWith (fun u v => u * v) a b).sum /
      ((Real.sqrt (a.map (fun v => v ^ 2)).sum + 1 / 10 ^ 10) * (Real.sqrt (b.map (fun v => v ^ 2)).sum + 1 / 10 ^ 10))| ≤ 1 := by
      rw [abs_div, abs_of_pos (a := (Real.sqrt (a.map (fun v => v ^ 2)).sum + 1 / 10 ^ 10) * _) (by positivity), div_le_one (by positivity)]
      refine hc.trans (mul_le_mul ?_ ?_ hB (by positivity)) <;> linarith [show (0 : ℝ) < 1 / 10 ^ 10 by positivity]
    calc (a.length : ℝ) * _ ≤ a.length * 1 := mul_le_mul_of_nonneg_left h1 (by positivity)
      _ = a.length := mul_one _
  · unfold cosScore
    congr 1
    rw [List.zipWith_comm]
    simp only [mul_comm]

/-- C106: PLDA scoring from files. With a model `g` of type `frplda`, the score of model `m` and segment `s` is the log likelihood ratio of the two transformed
vectors. -/
theorem C106_frplda {n : Nat} {chol : (n : Nat) → Plda.Mat n n → Plda.Mat n n} (hc : Plda.IsCholesky chol) (g : Plda.FR n) (hB : g.B.PosDef) (hW : g.W.PosDef)
    (r : String → Option V) (pre : V → Plda.Vec n) (ndx : Ndx String) (hn : ndx.WF) (rows : List (String × String)) (S : Scores String ℝ)
    (h : evalTrials r pre (fun a b => g.llr1vs1 chol a b) (some ndx) (enrollTab rows) .enrollTest 1 1 = some S) (m s : String) (v : ℝ) :
    S.HasScore m s v ↔ m ∈ ndx.models ∧ s ∈ ndx.segs ∧
      ∃ k xk xs, (k, m) ∈ rows ∧ r k = some xk ∧ r s = some xs ∧ v = Plda.logLikRatio g.mu g.B 0 1 g.W [pre xk] [pre xs] := by
  rw [((C106_enroll_test r pre _ ndx hn rows).2 S h).2.2.2]
  simp only [Plda.C80_frplda_llr hc g hB hW]

/-- C106: the same for a model of type `splda`. -/
theorem C106_splda {n k : Nat} {chol : (n : Nat) → Plda.Mat n n → Plda.Mat n n} (hc : Plda.IsCholesky chol) (g : Plda.SP k n) (hW : g.W.PosDef)
    (r : String → Option V) (pre : V → Plda.Vec n) (ndx : Ndx String) (hn : ndx.WF) (rows : List (String × String)) (S : Scores String ℝ)
    (h : evalTrials r pre (fun a b => g.llr1vs1 chol a b) (some ndx) (enrollTab rows) .enrollTest 1 1 = some S) (m s : String) (v : ℝ) :
    S.HasScore m s v ↔ m ∈ ndx.models ∧ s ∈ ndx.segs ∧
      ∃ k xk xs, (k, m) ∈ rows ∧ r k = some xk ∧ r s = some xs ∧ v = Plda.logLikRatio 0 1 g.mu g.V g.W [pre xk] [pre xs] := by
  rw [((C106_enroll_test r pre _ ndx hn rows).2 S h).2.2.2]
  simp only [Plda.C80_splda_llr hc g hW]

/-- non-vacuity: two models, two segments, cosine scoring -/
example : ∃ S, evalTrials (fun k => if k = "missing" then none else some [1, (2 : ℝ)]) id cosScore
    (some ⟨["a", "b"], ["t"], Mat.full 2 1 true⟩) (enrollTab [("k2", "b"), ("k3", "c"), ("k1", "a")]) .enrollTest 1 1 = some S := by
  refine (C106_enroll_test _ _ _ _ ⟨by decide, by decide, rfl, rfl⟩ _).1.2 ⟨by decide, by decide, by decide, by decide, ?_, ?_⟩
  · intro p hp _
    simp only [List.mem_cons, List.not_mem_nil, or_false] at hp
    rcases hp with rfl | rfl | rfl <;> simp
  · intro s hs
    simp only [List.mem_cons, List.not_mem_nil, or_false] at hs
    subst hs
    simp

end Hyp.Eval
