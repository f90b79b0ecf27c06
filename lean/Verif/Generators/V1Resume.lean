import Verif.Generators.V1Epoch

/-! Property C45 for SequenceBatchGeneratorV1, continued: resuming, order of utterances, termination. -/

namespace Hyp.Gen

variable {R : Rng} {c : V1Cfg} {rows : String → Int} {tab T : List (String × String)} {lo hi : Int}

theorem balance_tab {e : Int} {s1 s1' : V1St R} (h : ((V1St.empty (R := R) c tab).pruneMin c rows).balanceClasses c = .ok s1)
    (h' : ((V1St.empty (R := R) { c with initEpoch := e } tab).pruneMin { c with initEpoch := e } rows).balanceClasses { c with initEpoch := e } = .ok s1') :
    s1'.tab = s1.tab := by
  have hp : ((V1St.empty (R := R) { c with initEpoch := e } tab).pruneMin { c with initEpoch := e } rows) =
      { (V1St.empty (R := R) c tab).pruneMin c rows with epoch := e } := by
    unfold V1St.pruneMin V1St.empty V1St.force
    dsimp only
    split <;> rfl
  rw [hp] at h'
  unfold V1St.balanceClasses at h h'
  dsimp only at h h'
  rcases hb : c.balance with _ | imb
  · rw [hb] at h h'
    simp only [Except.ok.injEq] at h h'
    rw [← h, ← h']
  · rw [hb] at h h'
    simp only [bind_ok] at h h'
    obtain ⟨idx, h1, t, h2, h3⟩ := h
    obtain ⟨idx', h1', t', h2', h3'⟩ := h'
    rw [h1] at h1'
    simp only [Except.ok.injEq] at h1'
    subst h1'
    rw [h2] at h2'
    simp only [Except.ok.injEq] at h2'
    subst h2'
    have e1 : s1.tab = t := by
      split at h3
      · simp only [Except.ok.injEq] at h3; rw [← h3]
      · simp only [bind_ok] at h3; obtain ⟨l, _, h3⟩ := h3; simp only [Except.ok.injEq] at h3; rw [← h3]
    have e2 : s1'.tab = t := by
      split at h3'
      · simp only [Except.ok.injEq] at h3'; rw [← h3']
      · simp only [bind_ok] at h3'; obtain ⟨l, _, h3'⟩ := h3'; simp only [Except.ok.injEq] at h3'; rw [← h3']
    rw [e1, e2]

/-- the state before the first reset, as a consistent state for the table of the run. -/
theorem pre_good (hc : CfgAligned c) {s1 u2 u3 s0 : V1St R} (v1 : ((V1St.empty (R := R) c tab).pruneMin c rows).balanceClasses c = .ok s1)
    (v2 : s1.fixTab.prepare c rows = .ok u2) (v3 : u2.autoIters c rows = .ok u3) (v4 : u3.reset c rows = .ok s0) :
    ∃ lo hi, Good c rows tab s1.tab lo hi u3 ∧ Good c rows tab s1.tab lo hi s0 ∧ u3.epoch = c.initEpoch := by
  obtain ⟨w1, w2, w3, w4, w5, w6, w7⟩ := pre_inv hc v1 v2 v3
  by_cases hm : c.method = .sequential
  · obtain ⟨lo', hi', hq⟩ := w7 hm
    have hg : Good c rows tab s1.tab lo' hi' u3 := ⟨w1, w3, fun h => absurd hm h, fun _ => hq⟩
    exact ⟨lo', hi', hg, hg.reset v4, w2⟩
  · have hg : Good c rows tab s1.tab 0 0 u3 := ⟨w1, w3, w6, fun h => absurd h hm⟩
    exact ⟨0, 0, hg, hg.reset v4, w2⟩

theorem seqLoop_cfg (e : Int) (lens nsub : List Int) (f k : Nat) (s : V1St R) :
    seqLoop { c with initEpoch := e } lo hi lens nsub f k s = seqLoop c lo hi lens nsub f k s := by
  induction f generalizing k s with
  | zero => cases k <;> rfl
  | succ f ih =>
    cases k with
    | zero => rfl
    | succ k =>
      simp only [seqLoop, ih]
      rfl

theorem body_cfg (e : Int) (fuel : Nat) (s : V1St R) : v1Body { c with initEpoch := e } rows fuel s = v1Body c rows fuel s := by
  have h3 : readSeq { c with initEpoch := e } rows fuel s = readSeq c rows fuel s := by
    unfold readSeq
    simp only [seqLoop_cfg]
    rfl
  unfold v1Body
  rw [h3]
  rfl

theorem run_cfg (e : Int) (fuel k : Nat) (s : V1St R) : v1Run { c with initEpoch := e } rows fuel k s = v1Run c rows fuel k s := by
  have : v1Read { c with initEpoch := e } rows fuel = v1Read (R := R) c rows fuel := by
    funext t
    unfold v1Read
    rw [body_cfg]
    rfl
  unfold v1Run
  rw [this]

/-- C45 (resuming): with shuffling, a generator started with `init_epoch` increased by `j` produces, in its first epoch, the batches of
epoch number `j + 1` of the original one (not of epoch number `j`), for every random generator. -/
theorem C45_v1_resume (hc : CfgAligned c) (hsh : c.shuffle = true) {s0 s0' s s' : V1St R} (h0 : v1New c rows tab = .ok s0) {st j : Nat}
    (h0' : v1New { c with initEpoch := c.initEpoch + j } rows tab = .ok s0')
    (hst : s0.steps c rows = .ok (st : Int)) (hpos : 0 < st) {fuel : Nat} {b0 b : List (List SubSeq)}
    (h1 : v1Run c rows fuel ((j + 1) * st) s0 = .ok (b0, s)) (h2 : v1Run c rows fuel st s = .ok (b, s')) :
    ∃ t, v1Run { c with initEpoch := c.initEpoch + j } rows fuel st s0' = .ok (b, t) := by
  obtain ⟨u1, u2, u3, v1, v2, v3, v4⟩ := v1New_split h0
  obtain ⟨u1', u2', u3', v1', v2', v3', v4'⟩ := v1New_split h0'
  obtain ⟨lo, hi, g3, g0, ge⟩ := pre_good hc v1 v2 v3 v4
  have hc' : CfgAligned { c with initEpoch := c.initEpoch + j } := hc
  obtain ⟨lo', hi', g3', g0', ge'⟩ := pre_good hc' v1' v2' v3' v4'
  have hT := balance_tab v1 v1'
  rw [hT] at g3' g0'
  -- the bounds are the same
  have hgood : ∀ t : V1St R, Good { c with initEpoch := c.initEpoch + j } rows tab u1.tab lo' hi' t → Good c rows tab u1.tab lo hi t := by
    intro t ht
    refine ⟨⟨ht.inv.perm, ht.inv.sub, ht.inv.il, ht.inv.l⟩, ht.tabT, ht.other, ?_⟩
    intro hm
    have q := ht.seq hm
    have q3 := g3.seq hm
    have e1 : lo' = lo := by
      have a := q.hlo; have b := q3.hlo
      rw [ht.tabT] at a; rw [g3.tabT] at b
      have : minSeq { c with initEpoch := c.initEpoch + j } (u1.tab.map (fun p => rows p.1)) = minSeq c (u1.tab.map (fun p => rows p.1)) := rfl
      rw [this, b] at a; simpa using a.symm
    have e2 : hi' = hi := by
      have a := q.hhi; have b := q3.hhi
      rw [ht.tabT] at a; rw [g3.tabT] at b
      have : maxSeq { c with initEpoch := c.initEpoch + j } (u1.tab.map (fun p => rows p.1)) = maxSeq c (u1.tab.map (fun p => rows p.1)) := rfl
      rw [this, b] at a; simpa using a.symm
    subst e1 e2
    exact ⟨q.hlo, q.hhi, q.shift, q.initNsub, q.nsub, q.frame, q.sublen⟩
  have G3' := hgood _ g3'
  have G0' := hgood _ g0'
  obtain ⟨_, p2, _, p4, _⟩ := v1New_inv hc h0
  rw [Nat.add_mul, Nat.one_mul] at h1
  obtain ⟨l1, l2, sm, r1, r2, _⟩ := repeatE_add h1
  have hposI : (0 : Int) < st := by exact_mod_cast hpos
  obtain ⟨m1, m2, m3⟩ := run_total g0 hst hposI (by rw [p4]; simpa using hposI) r1
  have hstm : sm.steps c rows = .ok (st : Int) := by rw [steps_eq m1 g0]; exact hst
  have hm : sm.epoch = c.initEpoch + j ∧ sm.curStep = 0 := by
    rw [p2, p4] at m3
    have e : (sm.epoch - (c.initEpoch + j)) * st = - sm.curStep := by
      rw [Int.sub_mul, Int.add_mul]; push_cast at m3; omega
    have h7 : sm.epoch - (c.initEpoch + j) = 0 := by
      have ha : (sm.epoch - (c.initEpoch + j)) * st < 1 * st := by omega
      have hb : (-1) * (st : Int) < (sm.epoch - (c.initEpoch + j)) * st := by omega
      have := Int.lt_of_mul_lt_mul_right ha (by omega)
      have := Int.lt_of_mul_lt_mul_right hb (by omega)
      omega
    rw [h7] at e
    omega
  obtain ⟨t, s2, e1, e2, e3, e4⟩ := epoch_end m1 hstm hposI (by rw [hm.2]; simp) hpos r2
  have v4'' : u3'.reset c rows = .ok s0' := v4'
  have e5 : s2 = s0' := reset_canon hsh e1 G3' (by rw [e2, hm.1]; exact ge'.symm) e3 v4''
  subst e5
  have hs2c : s2.curStep = 0 := (reset_spec e1.inv e1.nsub_len e3).2.2.2.2.2.1
  have hsteps : s.steps c rows = .ok (st : Int) := by
    rw [e4, steps_eq (G0'.setEpoch _) g0]; exact hst
  obtain ⟨t', ht'⟩ := epoch_batches (s := s) (by rw [e4]; exact G0'.setEpoch _) hsteps
    (by rw [e4]; show (s2.curStep : Int) + st ≤ st; rw [hs2c]; simp) s2.epoch h2
  rw [e4] at ht'
  refine ⟨t', ?_⟩
  rw [run_cfg]
  exact ht'

/-! ### order of the utterances (random method) -/

theorem random_order {lens : List Int} {n : Nat} {s s' : V1St R} {l : List SubSeq} (h : repeatE (randomOne lo hi lens) n s = .ok (l, s'))
    (hcur : s.curSeq < s.tab.length) : s'.tab = s.tab ∧ s'.curSeq = (s.curSeq + n) % s.tab.length ∧
      ∀ j x, l[j]? = some x → ∃ p, s.tab[(s.curSeq + j) % s.tab.length]? = some p ∧ x.key = p.1 := by
  induction n generalizing s l with
  | zero =>
    simp only [repeatE, Except.ok.injEq, Prod.mk.injEq] at h
    obtain ⟨rfl, rfl⟩ := h
    exact ⟨rfl, by rw [Nat.add_zero, Nat.mod_eq_of_lt hcur], by simp⟩
  | succ n ih =>
    simp only [repeatE, bind_ok] at h
    obtain ⟨⟨a, s1⟩, h1, ⟨l1, s2⟩, h2, h3⟩ := h
    simp only [Except.ok.injEq, Prod.mk.injEq] at h3
    obtain ⟨rfl, rfl⟩ := h3
    obtain ⟨q1, _, _, q2, p, full, q3, q4, q5, _⟩ := randomOne_ok h1
    have hlt : s1.curSeq < s1.tab.length := by rw [q2, q1.tab]; exact Nat.mod_lt _ (by omega)
    obtain ⟨i1, i2, i3⟩ := ih h2 hlt
    refine ⟨by rw [i1, q1.tab], ?_, ?_⟩
    · rw [i2, q1.tab, q2, Nat.mod_add_mod]; congr 1; omega
    · intro j x hx
      cases j with
      | zero =>
        simp only [List.getElem?_cons_zero, Option.some.injEq] at hx
        subst hx
        exact ⟨p, by rw [Nat.add_zero, Nat.mod_eq_of_lt hcur]; exact q3, q5⟩
      | succ j =>
        simp only [List.getElem?_cons_succ] at hx
        obtain ⟨p', hp', hk⟩ := i3 j x hx
        refine ⟨p', ?_, hk⟩
        rw [q1.tab, q2, Nat.mod_add_mod] at hp'
        rw [show s.curSeq + (j + 1) = s.curSeq + 1 + j by omega]
        exact hp'

theorem epoch_order (hm : c.method = .random) {fuel k : Nat} {s s' : V1St R} {bs : List (List SubSeq)} {st : Int} (hs : Good c rows tab T lo hi s)
    (hst : s.steps c rows = .ok st) (hk : (s.curStep : Int) + k ≤ st) (hcur : s.curSeq < s.tab.length)
    (h : v1Run c rows fuel k s = .ok (bs, s')) :
    ∀ j x, bs.flatten[j]? = some x → ∃ p, s.tab[(s.curSeq + j) % s.tab.length]? = some p ∧ x.key = p.1 := by
  unfold v1Run at h
  induction k generalizing s bs with
  | zero =>
    simp only [repeatE, Except.ok.injEq, Prod.mk.injEq] at h
    obtain ⟨rfl, _⟩ := h
    simp
  | succ k ih =>
    simp only [repeatE, bind_ok] at h
    obtain ⟨⟨b, s1⟩, h1, ⟨bs1, s2⟩, h2, h3⟩ := h
    simp only [Except.ok.injEq, Prod.mk.injEq] at h3
    obtain ⟨rfl, rfl⟩ := h3
    obtain ⟨sa, a1, a2, a3, a4, a4', a5, a6, a7, a8⟩ := read_step hs hst h1
    unfold v1Body at a1
    rw [hm] at a1
    dsimp only at a1
    unfold readRandom at a1
    simp only [bind_ok] at a1
    obtain ⟨lo', _, hi', _, a1⟩ := a1
    obtain ⟨f1, f2, f3, f4, f5, f6, f7, f8, f9, f10⟩ := force_fields (rows := rows) s
    obtain ⟨o1, o2, o3⟩ := random_order a1 (by rw [f1, f9]; exact hcur)
    rw [f1, f9] at o2 o3
    have hlen := repeatE_length a1
    intro j x hx
    rw [List.flatten_cons] at hx
    by_cases hj : j < b.length
    · rw [List.getElem?_append_left hj] at hx
      exact o3 j x hx
    · rw [List.getElem?_append_right (by omega)] at hx
      by_cases hz : ((s.curStep : Int) + 1) % st = 0
      · have hk0 : k = 0 := by
          by_contra hne
          have : ((s.curStep : Int) + 1) % st = s.curStep + 1 := Int.emod_eq_of_lt (by omega) (by omega)
          omega
        subst hk0
        simp only [repeatE, Except.ok.injEq, Prod.mk.injEq] at h2
        obtain ⟨rfl, _⟩ := h2
        simp at hx
      · rcases a8 with ⟨b1, rfl⟩ | ⟨b1, _⟩
        · have hcs : ((((s.curStep : Int) + 1) % st).toNat : Int) + k ≤ st := by
            rcases Int.lt_or_le ((s.curStep : Int) + 1) st with hlt | hge
            · rw [Int.emod_eq_of_lt (by omega) hlt]; push_cast at hk; omega
            · have : (s.curStep : Int) + 1 = st := by push_cast at hk; omega
              rw [this] at hz; simp at hz
          have := ih a5 a6 hcs (by show sa.curSeq < sa.tab.length; rw [a4', o2]; exact Nat.mod_lt _ (by omega)) h2 _ x hx
          obtain ⟨p, hp, hk'⟩ := this
          refine ⟨p, ?_, hk'⟩
          have hp : sa.tab[(sa.curSeq + (j - b.length)) % sa.tab.length]? = some p := hp
          rw [a4', o2, Nat.mod_add_mod] at hp
          rw [← hp]
          congr 2
          omega
        · exact absurd b1 hz

/-- C45, order: in random mode, item number `j` of the first epoch is taken from utterance number `j` modulo the number of utterances, in the
(shuffled) order of the table; hence as soon as an epoch has at least as many items as there are utterances, it visits all of them. -/
theorem C45_v1_random_order (hc : CfgAligned c) (hm : c.method = .random) {s0 s : V1St R} (h0 : v1New c rows tab = .ok s0) {st k : Nat}
    (hst : s0.steps c rows = .ok (st : Int)) (hne : s0.tab ≠ []) (hk : k ≤ st) {fuel : Nat} {bs : List (List SubSeq)}
    (h : v1Run c rows fuel k s0 = .ok (bs, s)) :
    s0.tab.Perm s0.initTab ∧
    (∀ j x, bs.flatten[j]? = some x → ∃ p, s0.tab[j % s0.tab.length]? = some p ∧ x.key = p.1) ∧
    (s0.tab.length ≤ k * c.batchSize → ∀ p ∈ s0.tab, ∃ x ∈ bs.flatten, x.key = p.1) := by
  obtain ⟨lo, hi, hg⟩ := new_good hc h0
  obtain ⟨_, _, p3, p4, _⟩ := v1New_inv hc h0
  have hpos : 0 < s0.tab.length := List.length_pos_of_ne_nil hne
  have ho : ∀ j x, bs.flatten[j]? = some x → ∃ p, s0.tab[j % s0.tab.length]? = some p ∧ x.key = p.1 := by
    have := epoch_order hm hg hst (by rw [p4]; simp; exact_mod_cast hk) (by rw [p3]; exact hpos) h
    simpa [p3] using this
  refine ⟨hg.inv.perm, ho, ?_⟩
  intro hlen p hp
  obtain ⟨i, hi', hpi⟩ := List.mem_iff_getElem.1 hp
  obtain ⟨e1, e2⟩ := C44_v1_random hc hm h0 h
  have hfl : bs.flatten.length = k * c.batchSize := by
    rw [List.length_flatten, List.map_congr_left (g := fun _ => c.batchSize) (fun b hb => (e2 b hb).1)]
    simp [e1]
  have hlt : i < bs.flatten.length := by omega
  obtain ⟨p', hp', hk'⟩ := ho i _ (List.getElem?_eq_getElem hlt)
  rw [Nat.mod_eq_of_lt hi', List.getElem?_eq_getElem hi'] at hp'
  simp only [Option.some.injEq] at hp'
  refine ⟨_, List.getElem_mem hlt, ?_⟩
  rw [hk', ← hp', hpi]

/-! ### no exceptions (random method) -/

theorem randomOne_total {lens : List Int} {s : V1St R} (hlen : lens.length = s.tab.length) (hnn : ∀ x ∈ lens, 0 ≤ x) (hlh : lo ≤ hi)
    (hcur : s.curSeq < s.tab.length) : ∃ r, randomOne lo hi lens s = .ok r := by
  unfold randomOne
  have hl : s.curSeq < lens.length := by omega
  have h0 := hnn lens[s.curSeq] (List.getElem_mem hl)
  obtain ⟨len, g, h1⟩ := R.randint_total s.rng (min lens[s.curSeq] lo) (min lens[s.curSeq] hi + 1) (by omega)
  have b1 := R.randint_range _ _ _ _ _ h1
  obtain ⟨first, g', h2⟩ := R.randint_total g 0 (lens[s.curSeq] - len + 1) (by omega)
  simp only [bind_ok]
  exact ⟨_, _, getE_ok.2 (List.getElem?_eq_getElem hcur), _, getE_ok.2 (List.getElem?_eq_getElem hl), _, draw_ok.2 h1, _, draw_ok.2 h2, rfl⟩

theorem repeatE_total {S A : Type} {f : S → Except GErr (A × S)} (P : S → Prop)
    (hstep : ∀ s, P s → ∃ a s', f s = .ok (a, s') ∧ P s') (n : Nat) (s : S) (hs : P s) : ∃ l s', repeatE f n s = .ok (l, s') ∧ P s' := by
  induction n generalizing s with
  | zero => exact ⟨[], s, rfl, hs⟩
  | succ n ih =>
    obtain ⟨a, s1, h1, p1⟩ := hstep s hs
    obtain ⟨l, s2, h2, p2⟩ := ih s1 p1
    refine ⟨a :: l, s2, ?_, p2⟩
    simp only [repeatE, bind_ok]
    exact ⟨_, h1, _, h2, rfl⟩

/-- C44, no exceptions: a random-mode generator with non-empty table, at least one step per epoch and minimum not above maximum delivers
any number of batches. -/
theorem C44_v1_random_total (hc : CfgAligned c) (hm : c.method = .random) (hrows : ∀ k, 0 ≤ rows k)
    (hmm : ∀ m, c.minLen = some m → ∀ M, c.maxLen = some M → m ≤ M) (hm1 : ∀ m, c.minLen = some m → c.maxLen = none → ∃ p ∈ tab, m ≤ rows p.1)
    (hM1 : ∀ M, c.maxLen = some M → c.minLen = none → ∃ p ∈ tab, rows p.1 ≤ M)
    {s0 : V1St R} (h0 : v1New c rows tab = .ok s0) (hall : ∀ p ∈ tab, p ∈ s0.initTab) (hne : s0.tab ≠ []) {st : Int}
    (hst : s0.steps c rows = .ok st) (hpos : 0 < st) (fuel k : Nat) :
    ∃ bs s, v1Run c rows fuel k s0 = .ok (bs, s) := by
  obtain ⟨lo, hi, hg⟩ := new_good hc h0
  obtain ⟨_, _, p3, p4, _⟩ := v1New_inv hc h0
  have hlens : 0 < s0.initTab.length := by
    rw [← hg.inv.perm.length_eq]; exact List.length_pos_of_ne_nil hne
  suffices h : ∃ bs s, v1Run c rows fuel k s0 = .ok (bs, s) ∧ (Good c rows tab s0.initTab lo hi s ∧ s.curSeq < s.tab.length) by
    obtain ⟨bs, s, h, _⟩ := h; exact ⟨bs, s, h⟩
  refine repeatE_total (fun s => Good c rows tab s0.initTab lo hi s ∧ s.curSeq < s.tab.length) ?_ k s0
    ⟨hg, by rw [p3]; exact List.length_pos_of_ne_nil hne⟩
  rintro s ⟨hs, hcur⟩
  have hbody : ∃ b s1, v1Body c rows fuel s = .ok (b, s1) ∧ s1.curSeq < s1.tab.length := by
    unfold v1Body
    rw [hm]
    dsimp only
    unfold readRandom
    have hT : ∀ p ∈ s.tab, p ∈ s0.initTab := fun p hp => by rw [← hs.tabT]; exact hs.inv.perm.mem_iff.1 hp
    have hT' : ∀ p ∈ s0.initTab, p ∈ s.tab := fun p hp => by rw [← hs.tabT] at hp; exact hs.inv.perm.mem_iff.2 hp
    rw [hs.inv.lensVal]
    obtain ⟨f1, f2, f3, f4, f5, f6, f7, f8, f9, f10⟩ := force_fields (rows := rows) s
    have hmin : ∃ l, minSeq c (s.tab.map (fun p => rows p.1)) = .ok l := by
      unfold minSeq
      split
      · exact ⟨_, rfl⟩
      · split
        · exact ⟨_, rfl⟩
        · rename_i hn; rw [List.min?_eq_none_iff] at hn
          have := congrArg List.length hn; simp at this; rw [this] at hcur; simp at hcur
    have hmax : ∃ l, maxSeq c (s.tab.map (fun p => rows p.1)) = .ok l := by
      unfold maxSeq
      split
      · exact ⟨_, rfl⟩
      · split
        · exact ⟨_, rfl⟩
        · rename_i hn; rw [List.max?_eq_none_iff] at hn
          have := congrArg List.length hn; simp at this; rw [this] at hcur; simp at hcur
    obtain ⟨l, hl⟩ := hmin
    obtain ⟨u, hu⟩ := hmax
    have hlu : l ≤ u := by
      rcases hml : c.minLen with _ | m <;> rcases hMl : c.maxLen with _ | M
      · unfold minSeq at hl; rw [hml] at hl; dsimp only at hl
        split at hl
        · rename_i m' hm'
          simp only [Except.ok.injEq] at hl; subst hl
          exact maxSeq_none hMl hu (List.min?_eq_some_iff.1 hm').1
        · simp at hl
      · unfold minSeq at hl; rw [hml] at hl; dsimp only at hl
        have hu' := maxSeq_some hMl hu
        split at hl
        · rename_i m' hm'
          simp only [Except.ok.injEq] at hl; subst hl
          obtain ⟨p, hp, hp'⟩ := hM1 M hMl hml
          have := (List.min?_eq_some_iff.1 hm').2 _ (List.mem_map.2 ⟨p, hT' p (hall p hp), rfl⟩)
          omega
        · simp at hl
      · have hl' : l = m := by unfold minSeq at hl; rw [hml] at hl; simpa using hl.symm
        obtain ⟨p, hp, hp'⟩ := hm1 m hml hMl
        have := maxSeq_none hMl hu (List.mem_map.2 ⟨p, hT' p (hall p hp), rfl⟩)
        omega
      · have hl' : l = m := by unfold minSeq at hl; rw [hml] at hl; simpa using hl.symm
        have hu' := maxSeq_some hMl hu
        have := hmm m hml M hMl
        omega
    obtain ⟨b, s1, hr, hq⟩ := repeatE_total (fun t : V1St R => t.tab = s.tab ∧ t.curSeq < s.tab.length) (f := randomOne l u (s.tab.map (fun p => rows p.1)))
      (by
        rintro t ⟨ht, htc⟩
        obtain ⟨⟨x, t'⟩, hx⟩ := randomOne_total (s := t) (lo := l) (hi := u) (lens := s.tab.map (fun p => rows p.1)) (by simp [ht])
          (by intro y hy; obtain ⟨p, _, rfl⟩ := List.mem_map.1 hy; exact hrows _) hlu (by rw [ht]; exact htc)
        obtain ⟨q1, _, _, q2, _⟩ := randomOne_ok hx
        exact ⟨x, t', hx, by rw [q1.tab, ht], by rw [q2, ht]; exact Nat.mod_lt _ (by omega)⟩)
      c.batchSize (s.force rows) ⟨f1, by rw [f9]; exact hcur⟩
    refine ⟨b, s1, ?_, by rw [hq.1]; exact hq.2⟩
    simp only [bind_ok]
    exact ⟨l, hl, u, hu, hr⟩
  obtain ⟨b, s1, hb, hb'⟩ := hbody
  obtain ⟨g1, g2, g3, g4⟩ := body_good hb hs
  have hst1 : s1.steps c rows = .ok st := by rw [steps_eq g1 hg]; exact hst
  have htick : ∃ s', v1Tick c rows s1 = .ok s' := by
    unfold v1Tick
    rw [hst1]
    simp only [bind_ok, Except.ok.injEq]
    by_cases hk : ((s1.curStep : Int) + 1) % st = 0
    · obtain ⟨t, ht⟩ := reset_total (g1.zero 0).inv (g1.zero 0).nsub_len
      refine ⟨{ t with epoch := t.epoch + 1 }, st, rfl, ?_⟩
      rw [if_neg (by omega), if_pos hk]
      simp only [bind_ok]
      exact ⟨t, ht, rfl⟩
    · refine ⟨{ s1 with curStep := (((s1.curStep : Int) + 1) % st).toNat }, st, rfl, ?_⟩
      rw [if_neg (by omega), if_neg hk]
  obtain ⟨s', hs'⟩ := htick
  have hread : v1Read c rows fuel s = .ok (b, s') := by
    unfold v1Read
    simp only [bind_ok]
    exact ⟨_, hb, _, hs', rfl⟩
  obtain ⟨t1, _, t3⟩ := tick_ok g1 hst1 hs'
  refine ⟨b, s', hread, t1, ?_⟩
  rcases t3 with ⟨_, rfl⟩ | ⟨_, s2, h3, rfl⟩
  · exact hb'
  · have r := reset_spec (g1.zero 0).inv (g1.zero 0).nsub_len h3
    show s2.curSeq < s2.tab.length
    rw [r.2.2.2.2.1, r.1.perm.length_eq, r.2.1]
    show 0 < s1.initTab.length
    rw [g1.tabT]; exact hlens

end Hyp.Gen
