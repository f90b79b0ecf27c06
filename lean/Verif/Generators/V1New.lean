import Verif.Generators.V1Lemmas

namespace Hyp.Gen

/-- constructor calls which leave the cached lengths consistent with the table: no pruning, or pruning without class balancing by a
method which reloads the lengths in the constructor. -/
def CfgAligned (c : V1Cfg) : Prop :=
  c.prune ≤ 0 ∨ (c.balance = none ∧ (c.method = .sequential ∨ (c.method = .random ∧ c.iters = none)))

theorem min?_perm {l l' : List Int} (h : l.Perm l') : l.min? = l'.min? := by
  cases hl : l'.min? with
  | none =>
    rw [List.min?_eq_none_iff] at hl ⊢
    subst hl; exact h.eq_nil
  | some m =>
    rw [List.min?_eq_some_iff] at hl ⊢
    exact ⟨h.mem_iff.2 hl.1, fun b hb => hl.2 b (h.mem_iff.1 hb)⟩

theorem max?_perm {l l' : List Int} (h : l.Perm l') : l.max? = l'.max? := by
  cases hl : l'.max? with
  | none =>
    rw [List.max?_eq_none_iff] at hl ⊢
    subst hl; exact h.eq_nil
  | some m =>
    rw [List.max?_eq_some_iff] at hl ⊢
    exact ⟨h.mem_iff.2 hl.1, fun b hb => hl.2 b (h.mem_iff.1 hb)⟩

theorem minSeq_perm {c : V1Cfg} {l l' : List Int} (h : l.Perm l') : minSeq c l = minSeq c l' := by
  unfold minSeq; rw [min?_perm h]

theorem maxSeq_perm {c : V1Cfg} {l l' : List Int} (h : l.Perm l') : maxSeq c l = maxSeq c l' := by
  unfold maxSeq; rw [max?_perm h]

/-- number of sub-sequences of an utterance. -/
def nsubOf (c : V1Cfg) (rows : String → Int) (lo hi : Int) (p : String × String) : Int :=
  ceilDiv (rows p.1) ((hi + lo).tdiv 2 - c.overlap)

/-- the state of the sequential method. -/
structure SeqInv {R : Rng} (c : V1Cfg) (rows : String → Int) (lo hi : Int) (s : V1St R) : Prop where
  hlo : minSeq c (s.initTab.map (fun p => rows p.1)) = .ok lo
  hhi : maxSeq c (s.initTab.map (fun p => rows p.1)) = .ok hi
  shift : (hi + lo).tdiv 2 - c.overlap ≠ 0
  initNsub : s.initNsub = some (s.initTab.map (nsubOf c rows lo hi))
  nsub : s.nsub = some (s.tab.map (nsubOf c rows lo hi))
  frame : s.frame.length = s.tab.length
  sublen : s.sub.length = s.tab.length

theorem pruneMin_sub {R : Rng} {c : V1Cfg} {rows : String → Int} {tab : List (String × String)} :
    ∀ p ∈ ((V1St.empty (R := R) c tab).pruneMin c rows).tab, p ∈ tab ∧ c.prune ≤ rows p.1 ∨ (c.prune ≤ 0 ∧ p ∈ tab) := by
  intro p hp
  unfold V1St.pruneMin V1St.empty V1St.force at hp
  split at hp
  · simp only [List.mem_filter, decide_eq_true_eq] at hp; left; exact ⟨hp.1, hp.2⟩
  · right; exact ⟨by omega, hp⟩

/-- the state just before the first `reset`. -/
theorem pre_inv {R : Rng} {c : V1Cfg} {rows : String → Int} {tab : List (String × String)} (hc : CfgAligned c)
    {s1 s2 s3 : V1St R} (h1 : ((V1St.empty (R := R) c tab).pruneMin c rows).balanceClasses c = .ok s1)
    (h2 : s1.fixTab.prepare c rows = .ok s2) (h3 : s2.autoIters c rows = .ok s3) :
    Inv c rows tab s3 ∧ s3.epoch = c.initEpoch ∧ s3.initTab = s1.tab ∧ s3.tab = s1.tab ∧ (∀ p ∈ s3.initTab, c.prune ≤ rows p.1 ∨ c.prune ≤ 0) ∧
    (c.method ≠ .sequential → s3.initNsub = none ∧ s3.nsub = none ∧ s3.frame = [] ∧ s3.sub = []) ∧
    (c.method = .sequential → ∃ lo hi, SeqInv c rows lo hi s3) := by
  -- after balancing
  have hA : (∀ p ∈ s1.tab, p ∈ tab ∧ c.prune ≤ rows p.1 ∨ (c.prune ≤ 0 ∧ p ∈ tab)) ∧ s1.epoch = c.initEpoch ∧ s1.initNsub = none ∧ s1.nsub = none ∧
      s1.frame = [] ∧ s1.sub = [] ∧ ((s1.lens = none ∧ s1.initLens = none) ∨ (s1.lens = none ∧ c.balance = none ∧ 0 < c.prune)) := by
    unfold V1St.balanceClasses at h1
    rcases hb : c.balance with _ | imb
    · rw [hb] at h1
      simp only [Except.ok.injEq] at h1
      subst h1
      refine ⟨pruneMin_sub, ?_⟩
      unfold V1St.pruneMin V1St.empty V1St.force
      split
      · rename_i hp; exact ⟨rfl, rfl, rfl, rfl, rfl, Or.inr ⟨rfl, rfl, hp⟩⟩
      · exact ⟨rfl, rfl, rfl, rfl, rfl, Or.inl ⟨rfl, rfl⟩⟩
    · have hp : c.prune ≤ 0 := by
        rcases hc with hc | ⟨hc, _⟩
        · exact hc
        · rw [hb] at hc; simp at hc
      have hpr : (V1St.empty (R := R) c tab).pruneMin c rows = V1St.empty c tab := by
        unfold V1St.pruneMin; rw [if_neg (by omega)]
      rw [hpr, hb] at h1
      simp only [bind_ok] at h1
      obtain ⟨idx, _, t, ht, h1⟩ := h1
      simp only [V1St.empty, Except.ok.injEq] at h1
      subst h1
      refine ⟨?_, rfl, rfl, rfl, rfl, rfl, Or.inl ⟨rfl, rfl⟩⟩
      intro p hpm
      right
      refine ⟨hp, ?_⟩
      obtain ⟨i, _, hi⟩ := (gather_mem (pick_ok.1 ht)).1 hpm
      exact List.mem_of_getElem? hi
  obtain ⟨a1, a2, a3, a4, a5, a6, a7⟩ := hA
  have a8 : ∀ p ∈ s1.tab, p ∈ tab := fun p hp => by rcases a1 p hp with h | h; exact h.1; exact h.2
  have a9 : ∀ p ∈ s1.tab, c.prune ≤ rows p.1 ∨ c.prune ≤ 0 := fun p hp => by
    rcases a1 p hp with h | h; exact Or.inl h.2; exact Or.inr h.1
  have a10 : s1.lens = none := by rcases a7 with h | h; exact h.1; exact h.1
  have hforce : s1.fixTab.force rows = { s1.fixTab with initLens := some (s1.tab.map (fun p => rows p.1)), lens := some (s1.tab.map (fun p => rows p.1)) } := by
    simp [V1St.fixTab, V1St.force, a10]
  have hlv : s1.fixTab.lensVal rows = s1.tab.map (fun p => rows p.1) := by
    simp [V1St.fixTab, V1St.lensVal, a10]
  -- methods
  rcases hm : c.method with _ | _ | _
  · -- full_seqs
    unfold V1St.prepare at h2; rw [hm] at h2; simp only [Except.ok.injEq] at h2; subst h2
    unfold V1St.autoIters at h3; rw [hm] at h3
    have h3' : s1.fixTab = s3 := by
      rcases hi : c.iters with _ | _ <;> rw [hi] at h3 <;> simpa using h3
    subst h3'
    have hp : c.prune ≤ 0 := by
      rcases hc with hc | ⟨_, hc | ⟨hc, _⟩⟩
      · exact hc
      · rw [hm] at hc; simp at hc
      · rw [hm] at hc; simp at hc
    have : s1.initLens = none := by
      rcases a7 with h | h
      · exact h.2
      · omega
    refine ⟨⟨List.Perm.refl _, a8, Or.inr ⟨this, a10, rfl⟩, Or.inr ⟨a10, rfl⟩⟩, a2, rfl, rfl, a9, ?_, by simp⟩
    intro _; exact ⟨a3, a4, a5, a6⟩
  · -- random
    unfold V1St.prepare at h2; rw [hm] at h2; simp only [Except.ok.injEq] at h2; subst h2
    unfold V1St.autoIters at h3; rw [hm] at h3
    rcases hi : c.iters with _ | n
    · rw [hi] at h3
      simp only [bind_ok] at h3
      obtain ⟨lo, _, hi', _, h3⟩ := h3
      split at h3
      · simp at h3
      · simp only [Except.ok.injEq] at h3
        rw [hforce] at h3
        subst h3
        refine ⟨⟨List.Perm.refl _, a8, Or.inl rfl, Or.inl rfl⟩, a2, rfl, rfl, a9, ?_, by simp⟩
        intro _; exact ⟨a3, a4, a5, a6⟩
    · rw [hi] at h3
      simp only [Except.ok.injEq] at h3
      subst h3
      have hp : c.prune ≤ 0 := by
        rcases hc with hc | ⟨_, hc | ⟨_, hc⟩⟩
        · exact hc
        · rw [hm] at hc; simp at hc
        · rw [hi] at hc; simp at hc
      have : s1.initLens = none := by
        rcases a7 with h | h
        · exact h.2
        · omega
      refine ⟨⟨List.Perm.refl _, a8, Or.inr ⟨this, a10, rfl⟩, Or.inr ⟨a10, rfl⟩⟩, a2, rfl, rfl, a9, ?_, by simp⟩
      intro _; exact ⟨a3, a4, a5, a6⟩
  · -- sequential
    unfold V1St.prepare at h2; rw [hm] at h2
    simp only [bind_ok] at h2
    obtain ⟨lo, hlo, hi, hhi, h2⟩ := h2
    rw [hlv] at hlo hhi
    split at h2
    · simp at h2
    · rename_i hshift
      simp only [Except.ok.injEq] at h2
      rw [hforce, hlv] at h2
      have h3' : s2 = s3 := by
        unfold V1St.autoIters at h3; rw [hm] at h3
        rcases hi : c.iters with _ | _ <;> rw [hi] at h3 <;> simpa using h3
      rw [← h3', ← h2]
      refine ⟨⟨List.Perm.refl _, a8, Or.inl rfl, Or.inl rfl⟩, a2, rfl, rfl, a9, by simp, ?_⟩
      intro _
      refine ⟨lo, hi, hlo, hhi, hshift, ?_, ?_, ?_, ?_⟩
      · simp [V1St.fixTab, nsubOf]
      · simp [V1St.fixTab, nsubOf]
      · simp [V1St.fixTab]
      · simp [V1St.fixTab]

theorem SeqInv.reset {R : Rng} {c : V1Cfg} {rows : String → Int} {tab0 : List (String × String)} {lo hi : Int} {s s' : V1St R}
    (h : Inv c rows tab0 s) (hq : SeqInv c rows lo hi s) (hs : s.reset c rows = .ok s') : SeqInv c rows lo hi s' := by
  obtain ⟨r1, r2, r3, r4, r5, r6, r7, r8, r9, r10, r11, r12⟩ := reset_spec h (Or.inr ⟨_, hq.initNsub, by simp⟩) hs
  have hlen : s'.tab.length = s.tab.length := by rw [r1.perm.length_eq, r2, h.perm.length_eq]
  refine ⟨by rw [r2]; exact hq.hlo, by rw [r2]; exact hq.hhi, hq.shift, by rw [r3, r2]; exact hq.initNsub, ?_, by rw [r7, hlen]; exact hq.frame,
    by rw [r8, hlen]; exact hq.sublen⟩
  by_cases hsh : c.shuffle = true
  · obtain ⟨_, _, e2, _, e4⟩ := r11 hsh
    rcases e4 with ⟨e, _⟩ | ⟨n, n', e, e', e''⟩
    · rw [hq.initNsub] at e; simp at e
    · rw [hq.initNsub] at e
      simp only [Option.some.injEq] at e
      subst e
      rw [gather_map, e2] at e'
      rw [e'']; exact e'.symm
  · obtain ⟨_, _, e2, _, e4⟩ := r12 (by simpa using hsh)
    rw [e4, e2]; exact hq.nsub

theorem seqinv_nsub_len {R : Rng} {c : V1Cfg} {rows : String → Int} {s : V1St R} {lo hi : Int} (h : SeqInv c rows lo hi s) :
    s.initNsub = none ∨ ∃ n, s.initNsub = some n ∧ n.length = s.initTab.length := Or.inr ⟨_, h.initNsub, by simp⟩

theorem v1New_split {R : Rng} {c : V1Cfg} {rows : String → Int} {tab : List (String × String)} {s0 : V1St R}
    (h : v1New c rows tab = .ok s0) : ∃ s1 s2 s3 : V1St R, ((V1St.empty (R := R) c tab).pruneMin c rows).balanceClasses c = .ok s1 ∧
      s1.fixTab.prepare c rows = .ok s2 ∧ s2.autoIters c rows = .ok s3 ∧ s3.reset c rows = .ok s0 := by
  unfold v1New at h
  simp only [bind_ok] at h
  obtain ⟨s1, h1, s2, h2, s3, h3, h4⟩ := h
  exact ⟨s1, s2, s3, h1, h2, h3, h4⟩

/-- the state the constructor returns. -/
theorem v1New_inv {R : Rng} {c : V1Cfg} {rows : String → Int} {tab : List (String × String)} (hc : CfgAligned c) {s0 : V1St R}
    (h : v1New c rows tab = .ok s0) :
    Inv c rows tab s0 ∧ s0.epoch = c.initEpoch ∧ s0.curSeq = 0 ∧ s0.curStep = 0 ∧ (∀ p ∈ s0.initTab, c.prune ≤ rows p.1 ∨ c.prune ≤ 0) ∧
    (c.method ≠ .sequential → s0.initNsub = none ∧ s0.nsub = none ∧ s0.frame = [] ∧ s0.sub = []) ∧
    (c.method = .sequential → ∃ lo hi, SeqInv c rows lo hi s0 ∧ (∀ x ∈ s0.frame, x = 0) ∧ ∀ x ∈ s0.sub, x = 0) := by
  obtain ⟨s1, s2, s3, h1, h2, h3, h4⟩ := v1New_split h
  obtain ⟨p1, p2, _, _, p5, p6, p7⟩ := pre_inv hc h1 h2 h3
  by_cases hm : c.method = .sequential
  · obtain ⟨lo, hi, hq⟩ := p7 hm
    obtain ⟨r1, r2, r3, r4, r5, r6, r7, r8, r9, r10, r11, r12⟩ := reset_spec p1 (seqinv_nsub_len hq) h4
    refine ⟨r1, by rw [r4, p2], r5, r6, by rw [r2]; exact p5, by simp [hm], ?_⟩
    intro _
    exact ⟨lo, hi, hq.reset p1 h4, (r9 hm).1, (r9 hm).2⟩
  · obtain ⟨q1, q2, q3, q4⟩ := p6 hm
    obtain ⟨r1, r2, r3, r4, r5, r6, r7, r8, r9, r10, r11, r12⟩ := reset_spec p1 (Or.inl q1) h4
    refine ⟨r1, by rw [r4, p2], r5, r6, by rw [r2]; exact p5, ?_, fun h => absurd h hm⟩
    intro _
    refine ⟨by rw [r3, q1], ?_, by rw [(r10 hm).1, q3], by rw [(r10 hm).2, q4]⟩
    by_cases hsh : c.shuffle = true
    · obtain ⟨_, _, e2, _, e4⟩ := r11 hsh
      rcases e4 with ⟨e, e'⟩ | ⟨n, n', e, e', e''⟩
      · rw [e', q2]
      · rw [q1] at e; simp at e
    · obtain ⟨_, _, e2, _, e4⟩ := r12 (by simpa using hsh)
      rw [e4, q2]

end Hyp.Gen
