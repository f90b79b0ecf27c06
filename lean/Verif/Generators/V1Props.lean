import Verif.Generators.V1Run

/-! Properties C44, C45 for SequenceBatchGeneratorV1. -/

namespace Hyp.Gen

variable {R : Rng} {c : V1Cfg} {rows : String → Int} {tab : List (String × String)}

/-- `m` is a lower bound of the configured (or default) minimum length. -/
def IsMin (c : V1Cfg) (rows : String → Int) (tab : List (String × String)) (m : Int) : Prop :=
  c.minLen = some m ∨ (c.minLen = none ∧ ∀ p ∈ tab, m ≤ rows p.1)

theorem minSeq_ge {m lo : Int} {T : List (String × String)} (hsub : ∀ p ∈ T, p ∈ tab) (hm : IsMin c rows tab m)
    (h : minSeq c (T.map (fun p => rows p.1)) = .ok lo) : m ≤ lo := by
  unfold minSeq at h
  rcases hm with hm | ⟨hm, hall⟩
  · rw [hm] at h; simp only [Except.ok.injEq] at h; omega
  · rw [hm] at h
    split at h
    · rename_i h1; simp at h1
    · split at h
      · rename_i m' hm'
        simp only [Except.ok.injEq] at h
        subst h
        rw [List.min?_eq_some_iff] at hm'
        obtain ⟨p, hp, hpe⟩ := List.mem_map.1 hm'.1
        rw [← hpe]; exact hall p (hsub p hp)
      · simp at h

theorem maxSeq_some {M hi : Int} {l : List Int} (hM : c.maxLen = some M) (h : maxSeq c l = .ok hi) : hi = M := by
  unfold maxSeq at h; rw [hM] at h; simpa using h.symm

theorem maxSeq_none {hi x : Int} {l : List Int} (hM : c.maxLen = none) (h : maxSeq c l = .ok hi) (hx : x ∈ l) : x ≤ hi := by
  unfold maxSeq at h; rw [hM] at h
  dsimp only at h
  split at h
  · rename_i m hm
    simp only [Except.ok.injEq] at h
    subst h
    exact (List.max?_eq_some_iff.1 hm).2 x hx
  · simp at h

theorem run_inv (P : V1St R → Prop) (Q : List SubSeq → Prop) {fuel k : Nat} {s s' : V1St R} {bs : List (List SubSeq)}
    (hstep : ∀ s b s', P s → v1Read c rows fuel s = .ok (b, s') → P s' ∧ Q b)
    (h : v1Run c rows fuel k s = .ok (bs, s')) (hs : P s) : P s' ∧ ∀ b ∈ bs, Q b :=
  repeatE_inv P Q hstep h hs

/-- C44, random sub-sequences. Every sub-sequence of every batch of every run comes from an utterance of the table, lies inside it, and its
length is between the minimum (or the whole utterance, when that is shorter) and the maximum. -/
theorem C44_v1_random (hc : CfgAligned c) (hm : c.method = .random) {s0 s : V1St R} (h0 : v1New c rows tab = .ok s0) {fuel k : Nat}
    {bs : List (List SubSeq)} (h : v1Run c rows fuel k s0 = .ok (bs, s)) :
    bs.length = k ∧ ∀ b ∈ bs, b.length = c.batchSize ∧ ∀ x ∈ b, (∃ cl, (x.key, cl) ∈ tab) ∧ 0 ≤ x.first ∧ x.first + x.len ≤ rows x.key ∧
      (∀ m, IsMin c rows tab m → min m (rows x.key) ≤ x.len) ∧ (∀ M, c.maxLen = some M → x.len ≤ M) := by
  refine ⟨repeatE_length h, ?_⟩
  obtain ⟨lo, hi, hg⟩ := new_good hc h0
  refine (run_inv (fun s => Good c rows tab s0.initTab lo hi s) _ ?_ h hg).2
  intro s b s' hs hr
  obtain ⟨s1, h1, h2⟩ := read_split hr
  obtain ⟨g1, _⟩ := body_good h1 hs
  obtain ⟨st, hst, _⟩ : ∃ st, s1.steps c rows = .ok st ∧ True := by
    unfold v1Tick at h2; simp only [bind_ok] at h2; obtain ⟨st, h, _⟩ := h2; exact ⟨st, h, trivial⟩
  refine ⟨(tick_ok g1 hst h2).1, ?_⟩
  unfold v1Body at h1
  rw [hm] at h1
  dsimp only at h1
  unfold readRandom at h1
  simp only [bind_ok] at h1
  obtain ⟨lo', hlo, hi', hhi, h1⟩ := h1
  refine ⟨repeatE_length h1, ?_⟩
  have hT : ∀ p ∈ s.tab, p ∈ tab := fun p hp => hs.inv.sub p (hs.inv.perm.mem_iff.1 hp)
  refine (repeatE_inv (fun t => t.tab = s.tab) _ ?_ h1 (force_fields s).1).2
  intro t x t' ht hx
  obtain ⟨q1, _, _, q2, p, full, q3, q4, q5, q6, q7, q8, q9⟩ := randomOne_ok hx
  refine ⟨by rw [q1.tab, ht], ?_⟩
  rw [hs.inv.lensVal] at hlo hhi q4
  rw [ht] at q3
  rw [List.getElem?_map, q3] at q4
  simp only [Option.map_some, Option.some.injEq] at q4
  rw [q5, q4]
  refine ⟨⟨p.2, hT p (List.mem_of_getElem? q3)⟩, q8, q9, ?_, ?_⟩
  · intro m hmm
    have := minSeq_ge hT hmm hlo
    omega
  · intro M hM
    have := maxSeq_some hM hhi
    omega

/-- C44, sequential sub-sequences: when utterances shorter than the minimum are pruned and the overlap is at most the minimum, every
sub-sequence of every run lies inside its utterance and has an allowed length. -/
theorem C44_v1_sequential (hc : CfgAligned c) (hm : c.method = .sequential) (hrows : ∀ k, 0 ≤ rows k)
    (hmin : ∀ m, c.minLen = some m → 0 ≤ m) (hshort : ∀ m, c.minLen = some m → ∀ p ∈ tab, rows p.1 < m → rows p.1 < c.prune)
    (hov : ∃ m, IsMin c rows tab m ∧ c.overlap ≤ m)
    {s0 s : V1St R} (h0 : v1New c rows tab = .ok s0) {fuel k : Nat}
    {bs : List (List SubSeq)} (h : v1Run c rows fuel k s0 = .ok (bs, s)) :
    bs.length = k ∧ ∀ b ∈ bs, b.length = c.batchSize ∧ ∀ x ∈ b, (∃ cl, (x.key, cl) ∈ tab) ∧ 0 ≤ x.first ∧ x.first + x.len ≤ rows x.key ∧
      (∀ m, IsMin c rows tab m → (∀ M, c.maxLen = some M → m ≤ M) → m ≤ x.len) ∧ (∀ M, c.maxLen = some M → x.len ≤ M) := by
  refine ⟨repeatE_length h, ?_⟩
  obtain ⟨lo, hi, hg⟩ := new_good hc h0
  obtain ⟨i1, i2, i3, i4, i5, i6, i7⟩ := v1New_inv hc h0
  obtain ⟨_, _, _, i8, _⟩ := i7 hm
  have hT0 : ∀ p ∈ s0.initTab, p ∈ tab := hg.inv.sub
  have hlo0 := (hg.seq hm).hlo
  -- utterances are not shorter than the minimum
  have hfull : ∀ p ∈ s0.initTab, lo ≤ rows p.1 := by
    intro p hp
    rcases hml : c.minLen with _ | m
    · unfold minSeq at hlo0; rw [hml] at hlo0
      dsimp only at hlo0
      split at hlo0
      · rename_i m' hm'
        simp only [Except.ok.injEq] at hlo0
        subst hlo0
        exact (List.min?_eq_some_iff.1 hm').2 _ (List.mem_map.2 ⟨p, hp, rfl⟩)
      · simp at hlo0
    · have : lo = m := by unfold minSeq at hlo0; rw [hml] at hlo0; simpa using hlo0.symm
      by_contra hlt
      have h1 := hshort m hml p (hT0 p hp) (by omega)
      have h2 := i5 p hp
      have h3 := hrows p.1
      omega
  have hlopos : 0 ≤ lo := by
    rcases hml : c.minLen with _ | m
    · unfold minSeq at hlo0; rw [hml] at hlo0
      dsimp only at hlo0
      split at hlo0
      · rename_i m' hm'
        simp only [Except.ok.injEq] at hlo0
        subst hlo0
        obtain ⟨p, _, hpe⟩ := List.mem_map.1 (List.min?_eq_some_iff.1 hm').1
        rw [← hpe]; exact hrows _
      · simp at hlo0
    · have : lo = m := by unfold minSeq at hlo0; rw [hml] at hlo0; simpa using hlo0.symm
      have := hmin m hml
      omega
  have hovlo : c.overlap ≤ lo := by
    obtain ⟨m, h1, h2⟩ := hov
    have := minSeq_ge hT0 h1 hlo0
    omega
  let F : V1St R → Prop := fun s => ∀ (i : Nat) (f : Int) (p : String × String), s.frame[i]? = some f → s.tab[i]? = some p → 0 ≤ f ∧ f + lo ≤ rows p.1
  have zeroF : ∀ s : V1St R, Good c rows tab s0.initTab lo hi s → (∀ x ∈ s.frame, x = 0) → F s := by
    intro s hs hz i f p hf hp
    have h1 := hz f (List.mem_of_getElem? hf)
    have h2 := hfull p (by rw [← hs.tabT]; exact hs.inv.perm.mem_iff.1 (List.mem_of_getElem? hp))
    omega
  refine (run_inv (fun s => Good c rows tab s0.initTab lo hi s ∧ F s) _ ?_ h ⟨hg, zeroF s0 hg i8⟩).2
  rintro s b s' ⟨hs, hF⟩ hr
  obtain ⟨s1, h1, h2⟩ := read_split hr
  obtain ⟨g1, _⟩ := body_good h1 hs
  obtain ⟨st, hst, _⟩ : ∃ st, s1.steps c rows = .ok st ∧ True := by
    unfold v1Tick at h2; simp only [bind_ok] at h2; obtain ⟨st, h, _⟩ := h2; exact ⟨st, h, trivial⟩
  obtain ⟨t1, t2, t3⟩ := tick_ok g1 hst h2
  -- the batch
  have hbatch : F s1 ∧ b.length = c.batchSize ∧ ∀ x ∈ b, (∃ cl, (x.key, cl) ∈ tab) ∧ 0 ≤ x.first ∧ x.first + x.len ≤ rows x.key ∧
      (∀ m, IsMin c rows tab m → (∀ M, c.maxLen = some M → m ≤ M) → m ≤ x.len) ∧ (∀ M, c.maxLen = some M → x.len ≤ M) := by
    unfold v1Body at h1
    rw [hm] at h1
    dsimp only at h1
    unfold readSeq at h1
    simp only [bind_ok] at h1
    obtain ⟨lo', hlo, hi', hhi, h1⟩ := h1
    rw [hs.inv.lensVal] at hlo hhi h1
    have hperm : (s.tab.map (fun p => rows p.1)).Perm (s.initTab.map (fun p => rows p.1)) := hs.inv.perm.map _
    have e1 : lo' = lo := by
      rw [minSeq_perm hperm, (hs.seq hm).hlo] at hlo; simpa using hlo.symm
    have e2 : hi' = hi := by
      rw [maxSeq_perm hperm, (hs.seq hm).hhi] at hhi; simpa using hhi.symm
    subst e1 e2
    have := seqLoop_inv (fun t => t.tab = s.tab ∧ F t) (fun x => (∃ cl, (x.key, cl) ∈ tab) ∧ 0 ≤ x.first ∧ x.first + x.len ≤ rows x.key ∧
      (∀ m, IsMin c rows tab m → (∀ M, c.maxLen = some M → m ≤ M) → m ≤ x.len) ∧ (∀ M, c.maxLen = some M → x.len ≤ M))
      (fun t ht => ⟨ht.1, ht.2⟩) ?_ h1 ⟨(force_fields s).1, by
        intro i f p hf hp
        rw [(force_fields s).2.2.2.2.2.2.1] at hf
        rw [(force_fields s).1] at hp
        exact hF i f p hf hp⟩
    · exact ⟨this.1.2, this.2.1, this.2.2⟩
    · rintro t x t' ⟨ht, hFt⟩ _ hx
      obtain ⟨q1, q2, p, first, full, k, n, fr, k', q3, q4, q5, q6, q7, q8, q9, q10, q11, q12, q13⟩ := seqTake_ok hx
      rw [ht] at q3
      rw [List.getElem?_map, q3] at q5
      simp only [Option.map_some, Option.some.injEq] at q5
      have hpT : p ∈ s0.initTab := by rw [← hs.tabT]; exact hs.inv.perm.mem_iff.1 (List.mem_of_getElem? q3)
      have hfp := hfull p hpT
      have hft := hFt _ _ _ q4 (by rw [ht]; exact q3)
      have hhi' : c.maxLen = none → rows p.1 ≤ hi' := fun hnone => maxSeq_none hnone hhi (List.mem_map.2 ⟨p, List.mem_of_getElem? q3, rfl⟩)
      have hlomin : ∀ m, IsMin c rows tab m → m ≤ lo' := fun m hmm => minSeq_ge hT0 hmm hlo0
      have hlohi : ∀ m, IsMin c rows tab m → (∀ M, c.maxLen = some M → m ≤ M) → m ≤ min (rows p.1 - first) hi' := by
        intro m h1 h2
        have a := hlomin m h1
        rcases hM : c.maxLen with _ | M
        · have := hhi' hM; omega
        · have := maxSeq_some hM hhi; have := h2 M hM; omega
      have hlast : F t' ∧ x.first + x.len ≤ rows p.1 ∧ (∀ m, IsMin c rows tab m → (∀ M, c.maxLen = some M → m ≤ M) → m ≤ x.len) ∧
          x.len ≤ hi' := by
        have hfr : 0 ≤ fr ∧ fr + lo' ≤ rows p.1 := by rcases q13 with ⟨a, b, d⟩ | ⟨a, b, d, e⟩ <;> omega
        refine ⟨?_, ?_, ?_, ?_⟩
        · intro i f p' hf hp'
          rw [q1.tab, ht] at hp'
          rw [q10, List.getElem?_set] at hf
          split at hf
          · rename_i hi
            subst hi
            split at hf
            · simp only [Option.some.injEq] at hf
              rw [q3] at hp'
              simp only [Option.some.injEq] at hp'
              subst hf hp'
              exact hfr
            · simp at hf
          · exact hFt i f p' hf (by rw [ht]; exact hp')
        · rw [q9]; rcases q13 with ⟨a, b, d⟩ | ⟨a, b, d, e⟩ <;> omega
        · intro m h1 h2
          have := hlohi m h1 h2
          have := hlomin m h1
          rcases q13 with ⟨a, b, d⟩ | ⟨a, b, d, e⟩ <;> omega
        · rcases q13 with ⟨a, b, d⟩ | ⟨a, b, d, e⟩ <;> omega
      refine ⟨⟨by rw [q1.tab, ht], hlast.1⟩, ?_⟩
      rw [q8]
      refine ⟨⟨p.2, hT0 p hpT⟩, by rw [q9]; exact hft.1, hlast.2.1, hlast.2.2.1, ?_⟩
      intro M hM
      have := maxSeq_some hM hhi
      omega
  refine ⟨⟨t1, ?_⟩, hbatch.2⟩
  rcases t3 with ⟨_, rfl⟩ | ⟨_, s2, h3, rfl⟩
  · exact hbatch.1
  · have hg0 : Good c rows tab s0.initTab lo hi ({ s1 with curStep := 0 } : V1St R) :=
      ⟨⟨g1.inv.perm, g1.inv.sub, g1.inv.il, g1.inv.l⟩, g1.tabT, g1.other, fun hm => by
        have q := g1.seq hm; exact ⟨q.hlo, q.hhi, q.shift, q.initNsub, q.nsub, q.frame, q.sublen⟩⟩
    have hg2 := hg0.reset h3
    have := (reset_spec hg0.inv hg0.nsub_len h3).2.2.2.2.2.2.2.2.1 hm
    exact zeroF s2 hg2 this.1

end Hyp.Gen
