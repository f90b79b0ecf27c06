import Verif.Generators.V1
import Verif.NpLemmas

namespace Hyp.Gen

theorem bind_ok {α β : Type} {x : Except GErr α} {f : α → Except GErr β} {b : β} :
    (x >>= f) = .ok b ↔ ∃ a, x = .ok a ∧ f a = .ok b := by
  cases x <;> simp [bind, Except.bind]

theorem getE_ok {α : Type} {l : List α} {i : Nat} {a : α} : getE l i = .ok a ↔ l[i]? = some a := by
  unfold getE; split <;> simp_all

theorem pick_ok {α : Type} {l : List α} {i : List Nat} {a : List α} : pick l i = .ok a ↔ gather l i = some a := by
  unfold pick; split <;> simp_all

theorem draw_ok {R : Rng} {s : R.σ} {lo hi : Int} {r : Int × R.σ} : draw s lo hi = .ok r ↔ R.randint s lo hi = some r := by
  unfold draw; split <;> simp_all

theorem draw_range {R : Rng} {s : R.σ} {lo hi : Int} {v : Int} {g : R.σ} (h : draw s lo hi = .ok (v, g)) : lo ≤ v ∧ v < hi :=
  R.randint_range _ _ _ _ _ (draw_ok.1 h)

theorem repeatE_length {S A : Type} {f : S → Except GErr (A × S)} {n : Nat} {s s' : S} {l : List A}
    (h : repeatE f n s = .ok (l, s')) : l.length = n := by
  induction n generalizing s l s' with
  | zero => simp only [repeatE, Except.ok.injEq, Prod.mk.injEq] at h; simp [← h.1]
  | succ n ih =>
    simp only [repeatE, bind_ok] at h
    obtain ⟨⟨a, s1⟩, h1, ⟨l1, s2⟩, h2, h3⟩ := h
    simp only [Except.ok.injEq, Prod.mk.injEq] at h3
    rw [← h3.1, List.length_cons, ih h2]

theorem repeatE_inv {S A : Type} {f : S → Except GErr (A × S)} (P : S → Prop) (Q : A → Prop)
    (hstep : ∀ s a s', P s → f s = .ok (a, s') → P s' ∧ Q a) {n : Nat} {s s' : S} {l : List A}
    (h : repeatE f n s = .ok (l, s')) (hs : P s) : P s' ∧ ∀ a ∈ l, Q a := by
  induction n generalizing s l s' with
  | zero => simp only [repeatE, Except.ok.injEq, Prod.mk.injEq] at h; obtain ⟨rfl, rfl⟩ := h; simpa using hs
  | succ n ih =>
    simp only [repeatE, bind_ok] at h
    obtain ⟨⟨a, s1⟩, h1, ⟨l1, s2⟩, h2, h3⟩ := h
    simp only [Except.ok.injEq, Prod.mk.injEq] at h3
    obtain ⟨rfl, rfl⟩ := h3
    obtain ⟨p1, q1⟩ := hstep _ _ _ hs h1
    obtain ⟨p2, q2⟩ := ih h2 p1
    exact ⟨p2, by simpa using ⟨q1, q2⟩⟩

theorem repeatE_add {S A : Type} {f : S → Except GErr (A × S)} {m n : Nat} {s s'' : S} {l : List A}
    (h : repeatE f (m + n) s = .ok (l, s'')) :
    ∃ l1 l2 s', repeatE f m s = .ok (l1, s') ∧ repeatE f n s' = .ok (l2, s'') ∧ l = l1 ++ l2 := by
  induction m generalizing s l with
  | zero => exact ⟨[], l, s, rfl, by simpa using h, rfl⟩
  | succ m ih =>
    rw [Nat.succ_add] at h
    simp only [repeatE, bind_ok] at h
    obtain ⟨⟨a, s1⟩, h1, ⟨l1, s2⟩, h2, h3⟩ := h
    simp only [Except.ok.injEq, Prod.mk.injEq] at h3
    obtain ⟨rfl, rfl⟩ := h3
    obtain ⟨k1, k2, s', e1, e2, rfl⟩ := ih h2
    refine ⟨a :: k1, k2, s', ?_, e2, rfl⟩
    simp only [repeatE, bind_ok]
    exact ⟨_, h1, _, e1, rfl⟩

/-- the caches and tables of a generator agree with the data. -/
structure Inv {R : Rng} (c : V1Cfg) (rows : String → Int) (tab0 : List (String × String)) (s : V1St R) : Prop where
  perm : s.tab.Perm s.initTab
  sub : ∀ p ∈ s.initTab, p ∈ tab0
  il : s.initLens = some (s.initTab.map (fun p => rows p.1)) ∨ (s.initLens = none ∧ s.lens = none ∧ s.tab = s.initTab)
  l : s.lens = some (s.tab.map (fun p => rows p.1)) ∨ (s.lens = none ∧ s.tab = s.initTab)

theorem Inv.lensVal {R : Rng} {c : V1Cfg} {rows : String → Int} {tab0 : List (String × String)} {s : V1St R} (h : Inv c rows tab0 s) :
    s.lensVal rows = s.tab.map (fun p => rows p.1) := by
  unfold V1St.lensVal
  rcases h.l with h | ⟨h, _⟩ <;> simp [h]

theorem force_eq {R : Rng} {c : V1Cfg} {rows : String → Int} {tab0 : List (String × String)} {s : V1St R} (h : Inv c rows tab0 s) :
    s.force rows = { s with initLens := (s.force rows).initLens, lens := some (s.tab.map (fun p => rows p.1)) } ∧
    (s.force rows).initLens = if s.lens.isSome then s.initLens else some (s.initTab.map (fun p => rows p.1)) := by
  unfold V1St.force
  rcases h.l with h | ⟨h, h'⟩
  · rw [h]; simp only [Option.isSome_some, if_true, and_true]
    cases s; simp_all
  · rw [h]; simp [h']

theorem Inv.force {R : Rng} {c : V1Cfg} {rows : String → Int} {tab0 : List (String × String)} {s : V1St R} (h : Inv c rows tab0 s) :
    Inv c rows tab0 (s.force rows) := by
  obtain ⟨h1, h2⟩ := force_eq h
  rw [h1]
  refine ⟨h.perm, h.sub, ?_, Or.inl rfl⟩
  show (s.force rows).initLens = _ ∨ _
  rw [h2]
  left
  split
  · rename_i hsome
    rcases h.il with h | ⟨_, h, _⟩
    · exact h
    · rw [h] at hsome; simp at hsome
  · rfl

theorem gather_perm_total {α : Type} (l : List α) (idx : List Nat) (h : idx.Perm (List.range l.length)) :
    ∃ r, gather l idx = some r := by
  obtain ⟨r, hr, _⟩ := gather_eq_some (l := l) (idx := idx) (fun i hi => List.mem_range.1 (h.mem_iff.1 hi))
  exact ⟨r, hr⟩

/-- what `reset` computes, from the parts of the state it reads. -/
theorem reset_spec {R : Rng} {c : V1Cfg} {rows : String → Int} {tab0 : List (String × String)} {s : V1St R} (h : Inv c rows tab0 s)
    (hn : s.initNsub = none ∨ ∃ n, s.initNsub = some n ∧ n.length = s.initTab.length)
    {s' : V1St R} (hs : s.reset c rows = .ok s') :
    Inv c rows tab0 s' ∧ s'.initTab = s.initTab ∧ s'.initNsub = s.initNsub ∧ s'.epoch = s.epoch ∧ s'.curSeq = 0 ∧ s'.curStep = 0 ∧
    s'.frame.length = s.frame.length ∧ s'.sub.length = s.sub.length ∧
    (c.method = .sequential → (∀ x ∈ s'.frame, x = 0) ∧ (∀ x ∈ s'.sub, x = 0)) ∧
    (c.method ≠ .sequential → s'.frame = s.frame ∧ s'.sub = s.sub) ∧
    (c.shuffle = true →
      s'.initLens = some (s.initTab.map (fun p => rows p.1)) ∧
      (let g := R.shuffle (R.seeded (if c.resetRng then c.seed else c.seed + s.epoch)) s.initTab.length
      s'.rng = g.2 ∧ gather s.initTab g.1 = some s'.tab ∧ s'.lens = some (s'.tab.map (fun p => rows p.1)) ∧
      ((s.initNsub = none ∧ s'.nsub = s.nsub) ∨ ∃ n n', s.initNsub = some n ∧ gather n g.1 = some n' ∧ s'.nsub = some n'))) ∧
    (c.shuffle = false →
      s'.initLens = s.initLens ∧ s'.rng = R.seeded (if c.resetRng then c.seed else c.seed + s.epoch) ∧ s'.tab = s.tab ∧
      s'.lens = s.lens ∧ s'.nsub = s.nsub) := by
  unfold V1St.reset at hs
  simp only [bind_ok] at hs
  obtain ⟨s2, h2, h3⟩ := hs
  simp only [Except.ok.injEq] at h3
  by_cases hsh : c.shuffle = true
  · rw [if_pos hsh] at h2
    simp only [bind_ok] at h2
    obtain ⟨tab, ht, lens, hl, nsub, hns, h2⟩ := h2
    set s1 : V1St R := { s with curSeq := 0, curStep := 0, rng := R.seeded (if c.resetRng then c.seed else c.seed + s.epoch) } with hs1
    set s1' : V1St R := if s1.initLens.isNone then s1.force rows else s1 with hs1'
    have hI1 : Inv c rows tab0 s1 := ⟨h.perm, h.sub, h.il, h.l⟩
    have hI1' : Inv c rows tab0 s1' := by rw [hs1']; split; exact hI1.force; exact hI1
    have e1 : s1'.initTab = s.initTab ∧ s1'.initNsub = s.initNsub ∧ s1'.nsub = s.nsub ∧ s1'.frame = s.frame ∧ s1'.sub = s.sub ∧
        s1'.epoch = s.epoch ∧ s1'.curSeq = 0 ∧ s1'.curStep = 0 := by
      rw [hs1']; split
      · rw [(force_eq hI1).1]; simp [hs1]
      · simp [hs1]
    obtain ⟨e1, e2, e3, e4, e5, e6, e7, e8⟩ := e1
    have eil : s1'.initLens = some (s.initTab.map (fun p => rows p.1)) := by
      rw [hs1']
      split
      · rename_i hnone
        rcases h.il with hi | ⟨hi, hl', hti⟩
        · simp [hs1, hi] at hnone
        · rw [(force_eq hI1).2]; simp [hs1, hl']
      · rename_i hnone
        rcases h.il with hi | ⟨hi, hti⟩
        · simp [hs1, hi]
        · simp [hs1, hi] at hnone
    rw [e1, pick_ok] at ht
    rw [e1, eil, pick_ok, Option.getD_some, gather_map, ht, Option.map_some, Option.some.injEq] at hl
    have hperm := gather_perm (R.shuffle_perm _ _) ht
    have hns' : (s.initNsub = none ∧ nsub = s.nsub) ∨ ∃ n n', s.initNsub = some n ∧
        gather n (R.shuffle (R.seeded (if c.resetRng then c.seed else c.seed + s.epoch)) s.initTab.length).1 = some n' ∧ nsub = some n' := by
      rcases hn with hn | ⟨n, hn, hlen⟩
      · rw [e2, hn] at hns; simp only [Except.ok.injEq] at hns; left; exact ⟨hn, by rw [← hns, e3]⟩
      · right
        rw [e2, hn, e1] at hns
        obtain ⟨n', hn'⟩ := gather_perm_total n (R.shuffle (R.seeded (if c.resetRng then c.seed else c.seed + s.epoch)) s.initTab.length).1
          (by rw [hlen]; exact R.shuffle_perm _ _)
        refine ⟨n, n', hn, hn', ?_⟩
        simp only [pick_ok.2 hn', Except.map, Except.ok.injEq] at hns
        exact hns.symm
    simp only [Except.ok.injEq] at h2
    have hI2 : Inv c rows tab0 s2 := by
      rw [← h2]
      refine ⟨by rw [e1]; exact hperm, by rw [e1]; exact h.sub, Or.inl (by rw [e1]; exact eil), Or.inl (by rw [← hl])⟩
    have hsame : s'.tab = tab ∧ s'.initTab = s1'.initTab ∧ s'.initLens = s1'.initLens ∧ s'.lens = some lens ∧
        s'.initNsub = s1'.initNsub ∧ s'.nsub = nsub ∧ s'.epoch = s1'.epoch ∧ s'.curSeq = s1'.curSeq ∧ s'.curStep = s1'.curStep ∧
        s'.rng = (R.shuffle (R.seeded (if c.resetRng then c.seed else c.seed + s.epoch)) s1'.initTab.length).2 := by
      rw [← h3, ← h2]; split <;> simp
    obtain ⟨q1, q2, q3, q4, q5, q6, q7, q8, q9, q10⟩ := hsame
    refine ⟨?_, by rw [q2, e1], by rw [q5, e2], by rw [q7, e6], by rw [q8, e7], by rw [q9, e8], ?_, ?_, ?_, ?_, ?_, ?_⟩
    · exact ⟨by rw [q1, q2, e1]; exact hperm, by rw [q2, e1]; exact h.sub, Or.inl (by rw [q2, q3, e1]; exact eil),
        Or.inl (by rw [q4, q1, hl])⟩
    · rw [← h3, ← h2]; split <;> simp [e4]
    · rw [← h3, ← h2]; split <;> simp [e5]
    · intro hm; rw [← h3, ← h2]; simp [hm]
    · intro hm; rw [← h3, ← h2]; split
      · contradiction
      · simp [e4, e5]
    · intro _
      refine ⟨by rw [q3]; exact eil, by rw [q10, e1], by rw [q1]; exact ht, by rw [q4, q1, hl], ?_⟩
      rw [q6]; exact hns'
    · intro hf; rw [hsh] at hf; simp at hf
  · rw [if_neg hsh] at h2
    simp only [Except.ok.injEq] at h2
    have hsame : s'.tab = s.tab ∧ s'.initTab = s.initTab ∧ s'.initLens = s.initLens ∧ s'.lens = s.lens ∧
        s'.initNsub = s.initNsub ∧ s'.nsub = s.nsub ∧ s'.epoch = s.epoch ∧ s'.curSeq = 0 ∧ s'.curStep = 0 ∧
        s'.rng = (R.seeded (if c.resetRng then c.seed else c.seed + s.epoch)) := by
      rw [← h3, ← h2]; split <;> simp
    obtain ⟨q1, q2, q3, q4, q5, q6, q7, q8, q9, q10⟩ := hsame
    refine ⟨?_, q2, q5, q7, q8, q9, ?_, ?_, ?_, ?_, ?_, ?_⟩
    · exact ⟨by rw [q1, q2]; exact h.perm, by rw [q2]; exact h.sub, by rw [q3, q2, q4, q1]; exact h.il, by rw [q4, q1, q2]; exact h.l⟩
    · rw [← h3, ← h2]; split <;> simp
    · rw [← h3, ← h2]; split <;> simp
    · intro hm; rw [← h3, ← h2]; simp [hm]
    · intro hm; rw [← h3, ← h2]; split
      · contradiction
      · simp
    · intro hf; exact absurd hf hsh
    · intro _; exact ⟨q3, q10, q1, q4, q6⟩

/-- `reset` never raises on a consistent state. -/
theorem reset_total {R : Rng} {c : V1Cfg} {rows : String → Int} {tab0 : List (String × String)} {s : V1St R} (h : Inv c rows tab0 s)
    (hn : s.initNsub = none ∨ ∃ n, s.initNsub = some n ∧ n.length = s.initTab.length) : ∃ s', s.reset c rows = .ok s' := by
  unfold V1St.reset
  simp only [bind_ok]
  by_cases hsh : c.shuffle = true
  · simp only [if_pos hsh, bind_ok]
    set s1 : V1St R := { s with curSeq := 0, curStep := 0, rng := R.seeded (if c.resetRng then c.seed else c.seed + s.epoch) } with hs1
    set s1' : V1St R := if s1.initLens.isNone then s1.force rows else s1 with hs1'
    have hI1 : Inv c rows tab0 s1 := ⟨h.perm, h.sub, h.il, h.l⟩
    have e1 : s1'.initTab = s.initTab ∧ s1'.initNsub = s.initNsub := by
      rw [hs1']; split
      · rw [(force_eq hI1).1]; simp [hs1]
      · simp [hs1]
    obtain ⟨e1, e2⟩ := e1
    have eil : s1'.initLens = some (s.initTab.map (fun p => rows p.1)) := by
      rw [hs1']
      split
      · rename_i hnone
        rcases h.il with hi | ⟨hi, hl', hti⟩
        · simp [hs1, hi] at hnone
        · rw [(force_eq hI1).2]; simp [hs1, hl']
      · rename_i hnone
        rcases h.il with hi | ⟨hi, hti⟩
        · simp [hs1, hi]
        · simp [hs1, hi] at hnone
    obtain ⟨tab, ht⟩ := gather_perm_total s.initTab (R.shuffle (R.seeded (if c.resetRng then c.seed else c.seed + s.epoch)) s.initTab.length).1
      (R.shuffle_perm _ _)
    have ht' : pick s1'.initTab (R.shuffle (R.seeded (if c.resetRng then c.seed else c.seed + s.epoch)) s1'.initTab.length).1 = .ok tab := by
      rw [pick_ok, e1]; exact ht
    have hl' : pick (s1'.initLens.getD []) (R.shuffle (R.seeded (if c.resetRng then c.seed else c.seed + s.epoch)) s1'.initTab.length).1
        = .ok (tab.map (fun p => rows p.1)) := by
      rw [pick_ok, e1, eil, Option.getD_some, gather_map, ht]; rfl
    have hn' : ∃ nn, (match s1'.initNsub with
        | none => Except.ok s1'.nsub
        | some n => (pick n (R.shuffle (R.seeded (if c.resetRng then c.seed else c.seed + s.epoch)) s1'.initTab.length).1).map some) = Except.ok nn := by
      rw [e2]
      rcases hn with hn | ⟨n, hn, hlen⟩
      · rw [hn]; exact ⟨_, rfl⟩
      · rw [hn]
        obtain ⟨n', hn'⟩ := gather_perm_total n (R.shuffle (R.seeded (if c.resetRng then c.seed else c.seed + s.epoch)) s1'.initTab.length).1
          (by rw [hlen, e1]; exact R.shuffle_perm _ _)
        refine ⟨some n', ?_⟩
        simp only [pick_ok.2 hn', Except.map]
    obtain ⟨nn, hnn⟩ := hn'
    exact ⟨_, _, ⟨_, ht', _, hl', _, hnn, rfl⟩, rfl⟩
  · simp only [if_neg hsh]
    exact ⟨_, _, rfl, rfl⟩

end Hyp.Gen
