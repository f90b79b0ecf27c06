import Verif.Generators.V1New
import Mathlib.Algebra.BigOperators.Group.List.Basic
import Mathlib.Algebra.Ring.Int.Defs

namespace Hyp.Gen

variable {R : Rng} {c : V1Cfg} {rows : String → Int} {tab0 T : List (String × String)} {lo hi : Int}

/-- what every state of a run satisfies; `T` is the table the generator works with. -/
structure Good (c : V1Cfg) (rows : String → Int) (tab0 T : List (String × String)) (lo hi : Int) (s : V1St R) : Prop where
  inv : Inv c rows tab0 s
  tabT : s.initTab = T
  other : c.method ≠ .sequential → s.initNsub = none ∧ s.nsub = none ∧ s.frame = [] ∧ s.sub = []
  seq : c.method = .sequential → SeqInv c rows lo hi s

theorem Good.nsub_len {s : V1St R} (h : Good c rows tab0 T lo hi s) :
    s.initNsub = none ∨ ∃ n, s.initNsub = some n ∧ n.length = s.initTab.length := by
  by_cases hm : c.method = .sequential
  · exact seqinv_nsub_len (h.seq hm)
  · exact Or.inl (h.other hm).1

/-- the parts of the state a batch does not change. -/
structure Same (s s' : V1St R) : Prop where
  tab : s'.tab = s.tab
  initTab : s'.initTab = s.initTab
  initNsub : s'.initNsub = s.initNsub
  nsub : s'.nsub = s.nsub
  epoch : s'.epoch = s.epoch
  curStep : s'.curStep = s.curStep
  initLens : s'.initLens = s.initLens
  lens : s'.lens = s.lens
  frame : s'.frame.length = s.frame.length
  sub : s'.sub.length = s.sub.length

theorem Same.rfl' {s : V1St R} : Same s s := ⟨rfl, rfl, rfl, rfl, rfl, rfl, rfl, rfl, rfl, rfl⟩

theorem Same.trans {a b d : V1St R} (h : Same a b) (h' : Same b d) : Same a d :=
  ⟨h'.tab.trans h.tab, h'.initTab.trans h.initTab, h'.initNsub.trans h.initNsub, h'.nsub.trans h.nsub, h'.epoch.trans h.epoch,
    h'.curStep.trans h.curStep, h'.initLens.trans h.initLens, h'.lens.trans h.lens, h'.frame.trans h.frame, h'.sub.trans h.sub⟩

theorem Good.same {s s' : V1St R} (h : Good c rows tab0 T lo hi s) (hs : Same s s') : Good c rows tab0 T lo hi s' := by
  refine ⟨⟨?_, ?_, ?_, ?_⟩, ?_, ?_, ?_⟩
  · rw [hs.tab, hs.initTab]; exact h.inv.perm
  · rw [hs.initTab]; exact h.inv.sub
  · rw [hs.tab, hs.initTab, hs.initLens, hs.lens]; exact h.inv.il
  · rw [hs.tab, hs.initTab, hs.lens]; exact h.inv.l
  · rw [hs.initTab]; exact h.tabT
  · intro hm
    obtain ⟨a, b, d, e⟩ := h.other hm
    refine ⟨by rw [hs.initNsub, a], by rw [hs.nsub, b], ?_, ?_⟩
    · have := hs.frame; rw [d] at this; exact List.length_eq_zero_iff.1 this
    · have := hs.sub; rw [e] at this; exact List.length_eq_zero_iff.1 this
  · intro hm
    have q := h.seq hm
    exact ⟨by rw [hs.initTab]; exact q.hlo, by rw [hs.initTab]; exact q.hhi, q.shift, by rw [hs.initNsub, hs.initTab]; exact q.initNsub,
      by rw [hs.nsub, hs.tab]; exact q.nsub, by rw [hs.frame, hs.tab]; exact q.frame, by rw [hs.sub, hs.tab]; exact q.sublen⟩

theorem force_fields (s : V1St R) : (s.force rows).tab = s.tab ∧ (s.force rows).initTab = s.initTab ∧ (s.force rows).initNsub = s.initNsub ∧
    (s.force rows).nsub = s.nsub ∧ (s.force rows).epoch = s.epoch ∧ (s.force rows).curStep = s.curStep ∧ (s.force rows).frame = s.frame ∧
    (s.force rows).sub = s.sub ∧ (s.force rows).curSeq = s.curSeq ∧ (s.force rows).rng = s.rng := by
  unfold V1St.force; split <;> simp

theorem Good.force {s : V1St R} (h : Good c rows tab0 T lo hi s) : Good c rows tab0 T lo hi (s.force rows) := by
  obtain ⟨f1, f2, f3, f4, f5, f6, f7, f8, f9, f10⟩ := force_fields (rows := rows) s
  refine ⟨h.inv.force, by rw [f2]; exact h.tabT, ?_, ?_⟩
  · intro hm; rw [f3, f4, f7, f8]; exact h.other hm
  · intro hm
    have q := h.seq hm
    exact ⟨by rw [f2]; exact q.hlo, by rw [f2]; exact q.hhi, q.shift, by rw [f3, f2]; exact q.initNsub, by rw [f4, f1]; exact q.nsub,
      by rw [f7, f1]; exact q.frame, by rw [f8, f1]; exact q.sublen⟩

theorem Good.reset {s s' : V1St R} (h : Good c rows tab0 T lo hi s) (hs : s.reset c rows = .ok s') : Good c rows tab0 T lo hi s' := by
  obtain ⟨r1, r2, r3, r4, r5, r6, r7, r8, r9, r10, r11, r12⟩ := reset_spec h.inv h.nsub_len hs
  refine ⟨r1, by rw [r2]; exact h.tabT, ?_, fun hm => (h.seq hm).reset h.inv hs⟩
  intro hm
  obtain ⟨q1, q2, q3, q4⟩ := h.other hm
  refine ⟨by rw [r3, q1], ?_, by rw [(r10 hm).1, q3], by rw [(r10 hm).2, q4]⟩
  by_cases hsh : c.shuffle = true
  · obtain ⟨_, _, e2, _, e4⟩ := r11 hsh
    rcases e4 with ⟨e, e'⟩ | ⟨n, n', e, e', e''⟩
    · rw [e', q2]
    · rw [q1] at e; simp at e
  · obtain ⟨_, _, e2, _, e4⟩ := r12 (by simpa using hsh)
    rw [e4, q2]

/-! ### the loops -/

theorem randomOne_ok {lens : List Int} {s s' : V1St R} {x : SubSeq} (h : randomOne lo hi lens s = .ok (x, s')) :
    Same s s' ∧ s'.frame = s.frame ∧ s'.sub = s.sub ∧ s'.curSeq = (s.curSeq + 1) % s.tab.length ∧ ∃ p full, s.tab[s.curSeq]? = some p ∧ lens[s.curSeq]? = some full ∧ x.key = p.1 ∧
      min full lo ≤ x.len ∧ x.len ≤ min full hi ∧ 0 ≤ x.first ∧ x.first + x.len ≤ full := by
  unfold randomOne at h
  simp only [bind_ok] at h
  obtain ⟨p, hp, full, hf, ⟨len, g⟩, h1, ⟨first, g'⟩, h2, h3⟩ := h
  simp only [Except.ok.injEq, Prod.mk.injEq] at h3
  obtain ⟨rfl, rfl⟩ := h3
  rw [getE_ok] at hp hf
  have b1 := draw_range h1
  have b2 := draw_range h2
  refine ⟨⟨rfl, rfl, rfl, rfl, rfl, rfl, rfl, rfl, rfl, rfl⟩, rfl, rfl, rfl, p, full, hp, hf, rfl, b1.1, ?_, b2.1, ?_⟩
  · show len ≤ _; omega
  · show first + len ≤ full; omega

theorem seqTake_ok {lens nsub : List Int} {s s' : V1St R} {x : SubSeq} (h : seqTake c lo hi lens nsub s = .ok (x, s')) :
    Same s s' ∧ s'.curSeq = (s.curSeq + 1) % s.tab.length ∧ ∃ p first full k n fr k', s.tab[s.curSeq]? = some p ∧
      s.frame[s.curSeq]? = some first ∧ lens[s.curSeq]? = some full ∧ s.sub[s.curSeq]? = some k ∧ nsub[s.curSeq]? = some n ∧
      x.key = p.1 ∧ x.first = first ∧ s'.frame = s.frame.set s.curSeq fr ∧ s'.sub = s.sub.set s.curSeq k' ∧
      k' = (if c.seqBalanced then (k + 1).fmod n else k + 1) ∧
      ((k = n - 1 ∧ x.len = min (full - first) hi ∧ fr = 0) ∨
       (k ≠ n - 1 ∧ min (full - first) lo ≤ x.len ∧ x.len ≤ min (max lo (full - first - lo)) hi ∧
          fr = min (full - lo) (first + x.len - c.overlap))) := by
  unfold seqTake at h
  simp only [bind_ok] at h
  obtain ⟨p, hp, first, hfi, full, hf, k, hk, n, hn, ⟨len, fr, g⟩, h1, h2⟩ := h
  rw [getE_ok] at hp hfi hf hk hn
  simp only [Except.ok.injEq, Prod.mk.injEq] at h2
  obtain ⟨rfl, rfl⟩ := h2
  refine ⟨⟨rfl, rfl, rfl, rfl, rfl, rfl, rfl, rfl, by simp, by simp⟩, rfl, p, first, full, k, n, fr, _, hp, hfi, hf, hk, hn, rfl, rfl, rfl, rfl, rfl, ?_⟩
  split at h1
  · rename_i hkn
    simp only [Except.ok.injEq, Prod.mk.injEq] at h1
    left; exact ⟨hkn, h1.1.symm, h1.2.1.symm⟩
  · rename_i hkn
    simp only [bind_ok] at h1
    obtain ⟨⟨len', g'⟩, h3, h4⟩ := h1
    simp only [Except.ok.injEq, Prod.mk.injEq] at h4
    obtain ⟨rfl, rfl, rfl⟩ := h4
    have b := draw_range h3
    right
    refine ⟨hkn, b.1, ?_, rfl⟩
    show len' ≤ _; omega

/-- induction over the `while` loop. -/
theorem seqLoop_inv {lens nsub : List Int} (P : V1St R → Prop) (Q : SubSeq → Prop)
    (hskip : ∀ s, P s → P { s with curSeq := (s.curSeq + 1) % s.tab.length })
    (htake : ∀ s x s', P s → (∀ n, nsub[s.curSeq]? = some n → s.sub[s.curSeq]? ≠ some n) → seqTake c lo hi lens nsub s = .ok (x, s') → P s' ∧ Q x)
    {f k : Nat} {s s' : V1St R} {l : List SubSeq}
    (h : seqLoop c lo hi lens nsub f k s = .ok (l, s')) (hs : P s) : P s' ∧ l.length = k ∧ ∀ x ∈ l, Q x := by
  induction f generalizing k s l s' with
  | zero =>
    cases k with
    | zero => simp only [seqLoop, Except.ok.injEq, Prod.mk.injEq] at h; obtain ⟨rfl, rfl⟩ := h; simpa using hs
    | succ k => simp [seqLoop] at h
  | succ f ih =>
    cases k with
    | zero => simp only [seqLoop, Except.ok.injEq, Prod.mk.injEq] at h; obtain ⟨rfl, rfl⟩ := h; simpa using hs
    | succ k =>
      simp only [seqLoop, bind_ok] at h
      obtain ⟨j, hj, n, hn, h⟩ := h
      rw [getE_ok] at hj hn
      split at h
      · exact ih h (hskip _ hs)
      · rename_i hjn
        simp only [bind_ok] at h
        obtain ⟨⟨x, s1⟩, h1, ⟨l1, s2⟩, h2, h3⟩ := h
        simp only [Except.ok.injEq, Prod.mk.injEq] at h3
        obtain ⟨rfl, rfl⟩ := h3
        obtain ⟨p1, q1⟩ := htake _ _ _ hs (by intro n' hn' hc; rw [hn] at hn'; rw [hj] at hc; simp_all) h1
        obtain ⟨p2, q2, q3⟩ := ih h2 p1
        exact ⟨p2, by simp [q2], by simpa using ⟨q1, q3⟩⟩

theorem body_same {fuel : Nat} {s s' : V1St R} {b : List SubSeq} (h : v1Body c rows fuel s = .ok (b, s')) :
    (c.method = .fullSeqs ∧ Same s s') ∨ Same (s.force rows) s' := by
  unfold v1Body at h
  split at h
  · rename_i hm
    unfold readFull at h
    dsimp only at h
    split at h
    · simp at h
    · simp only [Except.ok.injEq, Prod.mk.injEq] at h
      obtain ⟨_, rfl⟩ := h
      left; exact ⟨hm, ⟨rfl, rfl, rfl, rfl, rfl, rfl, rfl, rfl, rfl, rfl⟩⟩
  · unfold readRandom at h
    simp only [bind_ok] at h
    obtain ⟨lo, _, hi, _, h⟩ := h
    right
    exact (repeatE_inv (fun t => Same (s.force rows) t) (fun _ => True)
      (fun t a t' ht hf => ⟨ht.trans (randomOne_ok hf).1, trivial⟩) h Same.rfl').1
  · unfold readSeq at h
    simp only [bind_ok] at h
    obtain ⟨lo, _, hi, _, h⟩ := h
    right
    exact (seqLoop_inv (fun t => Same (s.force rows) t) (fun _ => True)
      (fun t ht => ht.trans ⟨rfl, rfl, rfl, rfl, rfl, rfl, rfl, rfl, rfl, rfl⟩)
      (fun t a t' ht _ hf => ⟨ht.trans (seqTake_ok hf).1, trivial⟩) h Same.rfl').1

theorem body_good {fuel : Nat} {s s' : V1St R} {b : List SubSeq} (h : v1Body c rows fuel s = .ok (b, s')) (hs : Good c rows tab0 T lo hi s) :
    Good c rows tab0 T lo hi s' ∧ s'.curStep = s.curStep ∧ s'.epoch = s.epoch ∧ s'.tab = s.tab := by
  obtain ⟨f1, f2, f3, f4, f5, f6, f7, f8, f9, f10⟩ := force_fields (rows := rows) s
  rcases body_same h with ⟨_, h⟩ | h
  · exact ⟨hs.same h, h.curStep, h.epoch, h.tab⟩
  · exact ⟨hs.force.same h, by rw [h.curStep, f6], by rw [h.epoch, f5], by rw [h.tab, f1]⟩

/-! ### number of steps -/

theorem steps_eq {s s' : V1St R} (h : Good c rows tab0 T lo hi s) (h' : Good c rows tab0 T lo hi s') : s.steps c rows = s'.steps c rows := by
  have hp : s.tab.Perm s'.tab := h.inv.perm.trans (by rw [h.tabT, ← h'.tabT]; exact h'.inv.perm.symm)
  have hpl : (s.tab.map (fun p => rows p.1)).Perm (s'.tab.map (fun p => rows p.1)) := hp.map _
  have hit : s.itersVal c rows = s'.itersVal c rows := by
    unfold V1St.itersVal
    rw [h.inv.lensVal, h'.inv.lensVal]
    split
    · rfl
    · dsimp only
      rw [minSeq_perm hpl, maxSeq_perm hpl, hpl.sum_eq, hpl.length_eq]
    · rfl
  unfold V1St.steps
  rw [hit, hp.length_eq]
  by_cases hm : c.method = .sequential
  · rw [(h.seq hm).nsub, (h'.seq hm).nsub, hm]
    simp only [Option.getD_some]
    rw [max?_perm (hp.map _), (hp.map _).sum_eq]
  · split
    · contradiction
    · rfl

/-- one `read`: the counters. -/
theorem tick_ok {s s' : V1St R} {st : Int} (hs : Good c rows tab0 T lo hi s) (hst : s.steps c rows = .ok st) (h : v1Tick c rows s = .ok s') :
    Good c rows tab0 T lo hi s' ∧ st ≠ 0 ∧
    ((((s.curStep : Int) + 1) % st ≠ 0 ∧ s' = { s with curStep := (((s.curStep : Int) + 1) % st).toNat }) ∨
     (((s.curStep : Int) + 1) % st = 0 ∧ ∃ s1 : V1St R, ({ s with curStep := 0 } : V1St R).reset c rows = .ok s1 ∧ s' = { s1 with epoch := s1.epoch + 1 })) := by
  unfold v1Tick at h
  rw [hst] at h
  simp only [bind_ok, Except.ok.injEq] at h
  obtain ⟨st', hst', h⟩ := h
  subst hst'
  split at h
  · simp at h
  · rename_i h0
    split at h
    · rename_i hk
      simp only [bind_ok] at h
      obtain ⟨s1, h1, h2⟩ := h
      simp only [Except.ok.injEq] at h2
      subst h2
      have hg : Good c rows tab0 T lo hi ({ s with curStep := 0 } : V1St R) :=
        ⟨⟨hs.inv.perm, hs.inv.sub, hs.inv.il, hs.inv.l⟩, hs.tabT, hs.other, fun hm => by
          have q := hs.seq hm; exact ⟨q.hlo, q.hhi, q.shift, q.initNsub, q.nsub, q.frame, q.sublen⟩⟩
      have hg1 := hg.reset h1
      refine ⟨⟨⟨hg1.inv.perm, hg1.inv.sub, hg1.inv.il, hg1.inv.l⟩, hg1.tabT, hg1.other, fun hm => by
          have q := hg1.seq hm; exact ⟨q.hlo, q.hhi, q.shift, q.initNsub, q.nsub, q.frame, q.sublen⟩⟩, h0, Or.inr ⟨hk, s1, h1, rfl⟩⟩
    · rename_i hk
      simp only [Except.ok.injEq] at h
      subst h
      refine ⟨⟨⟨hs.inv.perm, hs.inv.sub, hs.inv.il, hs.inv.l⟩, hs.tabT, hs.other, fun hm => by
          have q := hs.seq hm; exact ⟨q.hlo, q.hhi, q.shift, q.initNsub, q.nsub, q.frame, q.sublen⟩⟩, h0, Or.inl ⟨hk, rfl⟩⟩

theorem read_split {fuel : Nat} {s s' : V1St R} {b : List SubSeq} (h : v1Read c rows fuel s = .ok (b, s')) :
    ∃ s1 : V1St R, v1Body c rows fuel s = .ok (b, s1) ∧ v1Tick c rows s1 = .ok s' := by
  unfold v1Read at h
  simp only [bind_ok] at h
  obtain ⟨⟨b', s1⟩, h1, s2, h2, h3⟩ := h
  simp only [Except.ok.injEq, Prod.mk.injEq] at h3
  obtain ⟨rfl, rfl⟩ := h3
  exact ⟨s1, h1, h2⟩

theorem new_good {tab : List (String × String)} (hc : CfgAligned c) {s0 : V1St R} (h : v1New c rows tab = .ok s0) :
    ∃ lo hi, Good c rows tab s0.initTab lo hi s0 := by
  obtain ⟨p1, p2, p3, p4, p5, p6, p7⟩ := v1New_inv hc h
  by_cases hm : c.method = .sequential
  · obtain ⟨lo, hi, hq, _⟩ := p7 hm
    exact ⟨lo, hi, p1, rfl, fun h => absurd hm h, fun _ => hq⟩
  · exact ⟨0, 0, p1, rfl, p6, fun h => absurd h hm⟩

end Hyp.Gen
