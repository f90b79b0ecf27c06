import Verif.Generators.V2
import Mathlib.Tactic.Ring

/-! Properties C44, C45 for SequenceBatchGeneratorV2. -/

namespace Hyp.Gen

variable {R : Rng} {c : V2Cfg} {rows : String → Int} {tab : List (String × String)}

theorem npRepeat_length {α : Type} (n : Nat) (l : List α) : (npRepeat n l).length = l.length * n := by
  induction l with
  | nil => simp [npRepeat]
  | cons a l ih => simp only [npRepeat, List.map_cons, List.flatten_cons, List.length_append, List.length_replicate, List.length_cons] at ih ⊢; rw [ih]; ring

theorem npRepeat_get {α : Type} {n : Nat} (hn : 0 < n) (l : List α) (j : Nat) : (npRepeat n l)[j]? = l[j / n]? := by
  induction l generalizing j with
  | nil => simp [npRepeat]
  | cons a l ih =>
    have e : npRepeat n (a :: l) = List.replicate n a ++ npRepeat n l := by simp [npRepeat]
    rw [e, List.getElem?_append]
    split
    · rename_i h
      simp only [List.length_replicate] at h
      rw [Nat.div_eq_of_lt h]; simp [h]
    · rename_i h
      simp only [List.length_replicate] at h ⊢
      rw [ih]
      have : j / n = (j - n) / n + 1 := by
        have := Nat.add_div_right (j - n) hn
        rw [Nat.sub_add_cancel (by omega)] at this; omega
      rw [this]; simp

theorem mapE_spec {A B : Type} {f : A → R.σ → Except GErr (B × R.σ)} {l : List A} {g g' : R.σ} {r : List B}
    (h : mapE f l g = .ok (r, g')) :
    r.length = l.length ∧ ∀ (j : Nat) (b : B), r[j]? = some b → ∃ a g1 g2, l[j]? = some a ∧ f a g1 = .ok (b, g2) := by
  induction l generalizing g r with
  | nil => simp only [mapE, Except.ok.injEq, Prod.mk.injEq] at h; simp [← h.1]
  | cons a l ih =>
    simp only [mapE, bind_ok, Prod.exists, Except.ok.injEq, Prod.mk.injEq] at h
    obtain ⟨b, g1, h1, r', g2, h2, rfl, rfl⟩ := h
    obtain ⟨e1, e2⟩ := ih h2
    refine ⟨by simp [e1], ?_⟩
    intro j x hx
    cases j with
    | zero => simp only [List.getElem?_cons_zero, Option.some.injEq] at hx; subst hx; exact ⟨a, g, g1, by simp, h1⟩
    | succ j => simp only [List.getElem?_cons_succ] at hx; simpa using e2 j x hx

theorem drawClasses_length {i : V2Info} {fuel k : Nat} {g g' : R.σ} {l : List Nat} (h : drawClasses i fuel k g = .ok (l, g')) : l.length = k := by
  induction fuel generalizing k g l with
  | zero => cases k <;> simp [drawClasses] at h; simp [← h.1]
  | succ f ih =>
    cases k with
    | zero => simp [drawClasses] at h; simp [← h.1]
    | succ k =>
      simp only [drawClasses, bind_ok, Prod.exists] at h
      obtain ⟨v, g1, _, h⟩ := h
      split at h
      · simp only [bind_ok, Prod.exists, Except.ok.injEq, Prod.mk.injEq] at h
        obtain ⟨l', g2, h2, rfl, rfl⟩ := h
        simp [ih h2]
      · exact ih h

theorem v2DrawClasses_length {i : V2Info} {fuel : Nat} {g g' : R.σ} {l : List Nat} (h : v2DrawClasses c i fuel g = .ok (l, g')) :
    l.length = v2NumClasses c := by
  unfold v2DrawClasses at h
  split at h
  · exact repeatE_length h
  · exact drawClasses_length h

theorem drawUtt_ok {i : V2Info} {k u : Nat} {g g' : R.σ} (h : drawUtt i k g = .ok (u, g')) : i.ids[u]? = some k := by
  simp only [drawUtt, bind_ok, Prod.exists, Except.ok.injEq, Prod.mk.injEq] at h
  obtain ⟨v, g1, _, u', hu, rfl, _⟩ := h
  rw [getE_ok] at hu
  have := List.mem_of_getElem? hu
  simpa [classRows] using (List.mem_filter.1 this).2

theorem v2Pairs_spec {i : V2Info} {fuel : Nat} {g g' : R.σ} {ps : List (Nat × Nat)} (hc : 0 < c.egsPerClass) (hu : 0 < c.egsPerUtt)
    (h : v2Pairs c i fuel g = .ok (ps, g')) :
    ps.length = v2NumClasses c * c.egsPerClass * c.egsPerUtt ∧ ∃ (cl us : List Nat), ∀ (j : Nat) (p : Nat × Nat), ps[j]? = some p →
      us[j / c.egsPerUtt]? = some p.1 ∧ cl[j / c.egsPerUtt / c.egsPerClass]? = some p.2 ∧ i.ids[p.1]? = some p.2 := by
  simp only [v2Pairs, bind_ok, Prod.exists, Except.ok.injEq, Prod.mk.injEq] at h
  obtain ⟨cl, g1, h1, us, g2, h2, rfl, _⟩ := h
  obtain ⟨e1, e2⟩ := mapE_spec h2
  have hl := v2DrawClasses_length h1
  refine ⟨by simp [npRepeat_length, e1, hl], cl, us, ?_⟩
  intro j p hp
  obtain ⟨p1, p2⟩ := p
  rw [List.getElem?_zip_eq_some] at hp
  obtain ⟨hp1, hp2⟩ := hp
  simp only [npRepeat_get hu, npRepeat_get hc] at hp1 hp2
  obtain ⟨a, g3, g4, ha, hf⟩ := e2 _ _ hp1
  rw [npRepeat_get hc, hp2] at ha
  simp only [Option.some.injEq] at ha
  subst ha
  exact ⟨hp1, hp2, drawUtt_ok hf⟩

/-- what one batch is: everything C44 says about a batch, in terms of the tables computed by the constructor. -/
theorem v2Batch_spec {i : V2Info} {fuel : Nat} {g g' : R.σ} {b : List V2Item} (h : v2Batch c rows i fuel g = .ok (b, g')) :
    b.length = c.batchSize ∧
    (∃ lo hi, minSeq2 c (i.lens rows) = .ok lo ∧ maxSeq2 c (i.lens rows) = .ok hi ∧
      ∀ x ∈ b, (∃ cl, i.tab[x.row]? = some (x.sub.key, cl)) ∧ i.ids[x.row]? = some x.cls ∧ 0 ≤ x.sub.first ∧
        x.sub.first + x.sub.len ≤ rows x.sub.key ∧ min (rows x.sub.key) lo ≤ x.sub.len ∧ x.sub.len ≤ hi) ∧
    (∀ (j j' : Nat) (x x' : V2Item), b[j]? = some x → b[j']? = some x' →
      (j / c.egsPerUtt = j' / c.egsPerUtt → x.row = x'.row) ∧
      (j / (c.egsPerUtt * c.egsPerClass) = j' / (c.egsPerUtt * c.egsPerClass) → x.cls = x'.cls)) := by
  unfold v2Batch at h
  split at h
  · simp at h
  rename_i hz
  have hc : 0 < c.egsPerClass := by omega
  have hu : 0 < c.egsPerUtt := by omega
  simp only [bind_ok, Prod.exists] at h
  obtain ⟨ps, g1, h1, lo, hlo, hi, hhi, h⟩ := h
  split at h
  · simp at h
  rename_i hlen
  obtain ⟨e1, e2⟩ := mapE_spec h
  obtain ⟨q1, cl, us, q2⟩ := v2Pairs_spec hc hu h1
  have hitem : ∀ (j : Nat) (x : V2Item), b[j]? = some x → ∃ (p : Nat × Nat) (g2 g3 : R.σ), ps[j]? = some p ∧ v2Sub rows i lo hi p g2 = .ok (x, g3) := by
    intro j x hx
    obtain ⟨p, g2, g3, hp, hf⟩ := e2 j x hx
    rw [List.getElem?_take] at hp
    split at hp
    · exact ⟨p, g2, g3, hp, hf⟩
    · simp at hp
  have hsub : ∀ (p : Nat × Nat) (g2 g3 : R.σ) (x : V2Item), v2Sub rows i lo hi p g2 = .ok (x, g3) → x.row = p.1 ∧ x.cls = p.2 ∧ (∃ cl, i.tab[x.row]? = some (x.sub.key, cl)) ∧
      0 ≤ x.sub.first ∧ x.sub.first + x.sub.len ≤ rows x.sub.key ∧ min (rows x.sub.key) lo ≤ x.sub.len ∧ x.sub.len ≤ hi := by
    intro p g2 g3 x hx
    simp only [v2Sub, bind_ok, Prod.exists, Except.ok.injEq, Prod.mk.injEq] at hx
    obtain ⟨a, b', ha, full, hfull, len, g4, hl, first, g5, hf, rfl, _⟩ := hx
    rw [getE_ok] at ha hfull
    have : full = rows a := by
      unfold V2Info.lens at hfull
      rw [List.getElem?_map, ha] at hfull
      simpa using hfull.symm
    subst this
    have r1 := draw_range hl
    have r2 := draw_range hf
    refine ⟨rfl, rfl, ⟨b', ha⟩, r2.1, ?_, r1.1, ?_⟩
    · show first + len ≤ rows a; omega
    · show len ≤ hi; omega
  refine ⟨by rw [e1]; simp; omega, ⟨lo, hi, hlo, hhi, ?_⟩, ?_⟩
  · intro x hx
    obtain ⟨j, hj⟩ := List.mem_iff_getElem?.1 hx
    obtain ⟨p, g2, g3, hp, hf⟩ := hitem j x hj
    obtain ⟨s1, s2, s3, s4⟩ := hsub p g2 g3 x hf
    refine ⟨s3, ?_, s4⟩
    rw [s1, s2]; exact (q2 j p hp).2.2
  · intro j j' x x' hx hx'
    obtain ⟨p, g2, g3, hp, hf⟩ := hitem j x hx
    obtain ⟨p', g2', g3', hp', hf'⟩ := hitem j' x' hx'
    obtain ⟨s1, s2, _⟩ := hsub p g2 g3 x hf
    obtain ⟨s1', s2', _⟩ := hsub p' g2' g3' x' hf'
    obtain ⟨a1, a2, _⟩ := q2 j p hp
    obtain ⟨b1, b2, _⟩ := q2 j' p' hp'
    constructor
    · intro e; rw [e, b1] at a1; rw [s1, s1']; simpa using a1.symm
    · intro e
      rw [Nat.div_div_eq_div_mul] at a2 b2
      rw [e, b2] at a2; rw [s2, s2']; simpa using a2.symm

theorem v2Read_split {i : V2Info} {fuel : Nat} {s s' : V2St R} {b : List V2Item} (h : v2Read c rows i fuel s = .ok (b, s')) :
    ∃ g, v2Batch c rows i fuel s.rng = .ok (b, g) ∧ v2Tick c i { s with rng := g } = .ok s' := by
  simp only [v2Read, bind_ok, Prod.exists, Except.ok.injEq, Prod.mk.injEq] at h
  obtain ⟨b', g, h1, s1, h2, rfl, rfl⟩ := h
  exact ⟨g, h1, h2⟩

/-- the constructor: rows of the table are rows of the utterance list which are long enough; the number of a row is the position of its
class name in the list of classes. -/
theorem v2New_spec {i : V2Info} (h : v2New c rows tab = .ok i) :
    i.tab = (if c.prune > 0 then tab.filter (fun p => decide (rows p.1 ≥ c.prune)) else tab) ∧
    ∀ (j : Nat) (p : String × String) (k : Nat), i.tab[j]? = some p → i.ids[j]? = some k →
      (c.classList.getD (npUnique (i.tab.map Prod.snd)))[k]? = some p.2 := by
  unfold v2New at h
  dsimp only at h
  generalize (if c.prune > 0 then tab.filter (fun p => decide (rows p.1 ≥ c.prune)) else tab) = T at h ⊢
  simp only [bind_ok, Prod.exists] at h
  obtain ⟨ids, n, h1, h⟩ := h
  have key : i.tab = T ∧ i.ids = ids := by
    split at h
    · simp only [Except.ok.injEq] at h; rw [← h]; exact ⟨rfl, rfl⟩
    · simp only [bind_ok] at h
      obtain ⟨lo, _, hi, _, h⟩ := h
      split at h
      · simp at h
      · simp only [Except.ok.injEq] at h; rw [← h]; exact ⟨rfl, rfl⟩
  obtain ⟨k1, k2⟩ := key
  refine ⟨k1, ?_⟩
  rw [k1, k2]
  intro j p k hj hk
  unfold v2Classes at h1
  split at h1
  · rename_i hcl
    simp only [Except.ok.injEq, Prod.mk.injEq] at h1
    rw [hcl]
    simp only [Option.getD_none]
    rw [← h1.1, npInverse, List.map_map, List.getElem?_map, hj] at hk
    simp only [Option.map_some, Function.comp, Option.some.injEq] at hk
    rw [← hk]
    refine List.getElem?_eq_some_iff.2 ⟨?_, ?_⟩
    · exact List.idxOf_lt_length_iff.2 (by rw [mem_npUnique]; exact List.mem_map.2 ⟨p, List.mem_of_getElem? hj, rfl⟩)
    · exact List.getElem_idxOf _
  · rename_i names hcl
    dsimp only at h1
    split at h1
    · rename_i ids' hids
      simp only [Except.ok.injEq, Prod.mk.injEq] at h1
      rw [hcl]
      simp only [Option.getD_some]
      rw [← h1.1] at hk
      rw [mapM_eq_some_iff] at hids
      have e : (T.map (fun p => dictGet (enumDict names) p.2))[j]? = (ids'.map some)[j]? := by rw [hids]
      rw [List.getElem?_map, List.getElem?_map, hj, hk] at e
      simp only [Option.map_some, Option.some.injEq] at e
      exact enumDict_some e
    · simp at h1

/-- C44 for the second generator. Every batch of every run has exactly `batch_size` items; each item is taken from an utterance of the list,
lies inside it, is at least as long as the configured minimum (or the whole utterance when that is shorter) and at most as long as the
configured maximum; its label is the position of the utterance's class in the class list (the sorted classes of the long-enough
utterances when no list is given). Consecutive items share the utterance in groups of `num_egs_per_utt` and the class in groups of
`num_egs_per_class * num_egs_per_utt`. For every random generator. -/
theorem C44_v2 {i : V2Info} (h0 : v2New c rows tab = .ok i) {s s' : V2St R} {fuel k : Nat} {bs : List (List V2Item)}
    (h : v2Run c rows i fuel k s = .ok (bs, s')) :
    bs.length = k ∧ ∀ b ∈ bs, b.length = c.batchSize ∧
      (∀ x ∈ b, (∃ cl, (x.sub.key, cl) ∈ tab ∧
          (c.classList.getD (npUnique (((tab.filter (fun p => c.prune ≤ 0 || rows p.1 ≥ c.prune))).map Prod.snd)))[x.cls]? = some cl) ∧
        0 ≤ x.sub.first ∧ x.sub.first + x.sub.len ≤ rows x.sub.key ∧ (0 < c.prune → c.prune ≤ rows x.sub.key) ∧
        (∀ m, c.minLen = some m → min (rows x.sub.key) m ≤ x.sub.len) ∧
        (∀ m, c.minLen = none → (∀ p ∈ tab, m ≤ rows p.1) → m ≤ x.sub.len) ∧
        (∀ M, c.maxLen = some M → x.sub.len ≤ M)) ∧
      (∀ (j j' : Nat) (x x' : V2Item), b[j]? = some x → b[j']? = some x' →
        (j / c.egsPerUtt = j' / c.egsPerUtt → x.sub.key = x'.sub.key) ∧
        (j / (c.egsPerUtt * c.egsPerClass) = j' / (c.egsPerUtt * c.egsPerClass) → x.cls = x'.cls)) := by
  obtain ⟨n1, n2⟩ := v2New_spec h0
  have htab : i.tab = tab.filter (fun p => c.prune ≤ 0 || rows p.1 ≥ c.prune) := by
    rw [n1]
    split
    · rename_i hp
      apply List.filter_congr
      intro p _
      have : ¬ c.prune ≤ 0 := by omega
      simp [this]
    · rename_i hp
      have : c.prune ≤ 0 := by omega
      simp [this]
  refine ⟨repeatE_length h, (repeatE_inv (fun _ => True) _ ?_ h trivial).2⟩
  intro s b s' _ hr
  refine ⟨trivial, ?_⟩
  obtain ⟨g, h1, _⟩ := v2Read_split hr
  obtain ⟨b1, ⟨lo, hi, hlo, hhi, b2⟩, b3⟩ := v2Batch_spec h1
  refine ⟨b1, ?_, ?_⟩
  · intro x hx
    obtain ⟨⟨cl, c1⟩, c2, c3, c4, c5, c6⟩ := b2 x hx
    have hmem : (x.sub.key, cl) ∈ i.tab := List.mem_of_getElem? c1
    have hmem' := hmem
    rw [htab, List.mem_filter] at hmem'
    refine ⟨⟨cl, hmem'.1, ?_⟩, c3, c4, ?_, ?_, ?_, ?_⟩
    · rw [← htab]; exact n2 _ _ _ c1 c2
    · intro hp
      have := hmem'.2
      have h' : ¬ c.prune ≤ 0 := by omega
      simpa [h'] using this
    · intro m hm
      unfold minSeq2 at hlo
      rw [hm] at hlo
      simp only [Except.ok.injEq] at hlo
      rw [hlo]; exact c5
    · intro m hm hall
      unfold minSeq2 at hlo
      rw [hm] at hlo
      dsimp only at hlo
      have hrow : m ≤ rows x.sub.key := hall _ hmem'.1
      split at hlo
      · rename_i m' hm'
        simp only [Except.ok.injEq] at hlo
        subst hlo
        rw [List.min?_eq_some_iff] at hm'
        obtain ⟨p, hp, hpe⟩ := List.mem_map.1 hm'.1
        rw [htab] at hp
        have := hall p (List.mem_filter.1 hp).1
        omega
      · simp at hlo
    · intro M hM
      unfold maxSeq2 at hhi
      rw [hM] at hhi
      simp only [Except.ok.injEq] at hhi
      rw [hhi]; exact c6
  · intro j j' x x' hx hx'
    obtain ⟨d1, d2⟩ := b3 j j' x x' hx hx'
    refine ⟨?_, d2⟩
    intro e
    obtain ⟨⟨cl, c1⟩, _⟩ := b2 x (List.mem_of_getElem? hx)
    obtain ⟨⟨cl', c1'⟩, _⟩ := b2 x' (List.mem_of_getElem? hx')
    rw [d1 e, c1'] at c1
    simp only [Option.some.injEq, Prod.mk.injEq] at c1
    exact c1.1.symm

/-! ### epochs -/

theorem v2Tick_ok {i : V2Info} {s s' : V2St R} {st : Int} (hst : v2Steps c i = .ok st) (h : v2Tick c i s = .ok s') :
    st ≠ 0 ∧ (((s.curStep : Int) + 1) % st = 0 ∧ s' = ⟨0, s.epoch + 1, R.seeded (if c.resetRng then c.seed else c.seed + s.epoch)⟩ ∨
      ((s.curStep : Int) + 1) % st ≠ 0 ∧ s' = ⟨(((s.curStep : Int) + 1) % st).toNat, s.epoch, s.rng⟩) := by
  unfold v2Tick at h
  rw [hst] at h
  simp only [bind, Except.bind] at h
  split at h
  · simp at h
  rename_i hz
  refine ⟨hz, ?_⟩
  split at h
  · rename_i hk
    simp only [Except.ok.injEq] at h
    exact Or.inl ⟨hk, h.symm⟩
  · rename_i hk
    simp only [Except.ok.injEq] at h
    exact Or.inr ⟨hk, h.symm⟩

/-- C45, counters: after any number of batches, (cur_epoch, cur_step) are the quotient and remainder of the number of batches by the
number of steps per epoch, which is `⌈passes * utterances / batch_size⌉`. -/
theorem C45_v2_counters {i : V2Info} {st : Nat} (hst : v2Steps c i = .ok (st : Int)) {s' : V2St R} {fuel k : Nat} {bs : List (List V2Item)}
    (h : v2Run c rows i fuel k (v2Init c) = .ok (bs, s')) : s'.epoch = c.initEpoch + (k / st : Nat) ∧ s'.curStep = k % st := by
  have gen : ∀ k (s s' : V2St R) bs, v2Run c rows i fuel k s = .ok (bs, s') → ∀ m : Nat, s.epoch = c.initEpoch + (m / st : Nat) → s.curStep = m % st →
      s'.epoch = c.initEpoch + ((m + k) / st : Nat) ∧ s'.curStep = (m + k) % st := by
    intro k
    induction k with
    | zero =>
      intro s s' bs h m h1 h2
      simp only [v2Run, repeatE, Except.ok.injEq, Prod.mk.injEq] at h
      rw [← h.2]; exact ⟨h1, h2⟩
    | succ k ih =>
      intro s s' bs h m h1 h2
      simp only [v2Run, repeatE, bind_ok, Prod.exists, Except.ok.injEq, Prod.mk.injEq] at h
      obtain ⟨b, s1, hr, bs', s2, hrest, _, rfl⟩ := h
      obtain ⟨g, _, ht⟩ := v2Read_split hr
      obtain ⟨hz, hcase⟩ := v2Tick_ok hst ht
      have hst0 : 0 < st := by
        rcases Nat.eq_zero_or_pos st with h | h
        · simp [h] at hz
        · exact h
      have em : ((s.curStep : Int) + 1) % (st : Int) = ((m + 1) % st : Nat) := by
        rw [h2]; push_cast; simp
      have hd := Nat.div_add_mod (m + 1) st
      have hd' := Nat.div_add_mod m st
      have hl := Nat.mod_lt m hst0
      have := ih s1 s2 bs' hrest (m + 1)
      rw [show m + 1 + k = m + (k + 1) by omega] at this
      apply this
      · rcases hcase with ⟨hc0, rfl⟩ | ⟨hc0, rfl⟩
        · rw [em] at hc0
          have hc1 : (m + 1) % st = 0 := by exact_mod_cast hc0
          dsimp only
          rw [h1]
          have : (m + 1) / st = m / st + 1 := by
            have h3 : m % st = st - 1 := by
              by_contra hne
              have : (m + 1) % st = m % st + 1 := by
                rw [Nat.add_mod, Nat.mod_eq_of_lt (a := 1) (by omega), Nat.mod_eq_of_lt (by omega)]
              omega
            rw [hc1, Nat.add_zero] at hd
            have e4 : st * ((m + 1) / st) = st * (m / st + 1) := by rw [hd, Nat.mul_add, Nat.mul_one]; omega
            exact Nat.eq_of_mul_eq_mul_left hst0 e4
          rw [this]; push_cast; omega
        · rw [em] at hc0
          have hc1 : (m + 1) % st ≠ 0 := by exact_mod_cast hc0
          dsimp only
          rw [h1]
          have : (m + 1) / st = m / st := by
            rw [Nat.succ_div]
            have : ¬ st ∣ m + 1 := fun hd => hc1 (Nat.mod_eq_zero_of_dvd hd)
            simp [this]
          rw [this]
      · rcases hcase with ⟨hc0, rfl⟩ | ⟨hc0, rfl⟩
        · rw [em] at hc0; dsimp only; exact_mod_cast hc0.symm
        · dsimp only; rw [em]; exact Int.toNat_natCast _
  have := gen k (v2Init c) s' bs h 0 (by simp [v2Init, V2St.reset]) (by simp [v2Init, V2St.reset])
  simpa using this

end Hyp.Gen
