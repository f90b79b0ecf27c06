import Verif.Generators.V1Resume

/-! Property C45 for SequenceBatchGeneratorV1, sequential method: termination of `read`; labels; negative results and examples. -/

namespace Hyp.Gen

variable {R : Rng} {c : V1Cfg} {rows : String → Int} {tab T : List (String × String)} {lo hi : Int}

theorem draw_ne_fuel {s : R.σ} {a b : Int} : draw s a b ≠ .error .fuel := by
  unfold draw; split <;> simp

theorem getE_ne_fuel {α : Type} {l : List α} {i : Nat} : getE l i ≠ .error .fuel := by
  unfold getE; split <;> simp

theorem bind_ne_fuel {α β : Type} {x : Except GErr α} {f : α → Except GErr β} (h1 : x ≠ .error .fuel) (h2 : ∀ a, x = .ok a → f a ≠ .error .fuel) :
    (x >>= f) ≠ .error .fuel := by
  cases x with
  | error e => intro h; apply h1; simpa [bind, Except.bind] using h
  | ok a => exact h2 a rfl

theorem seqTake_ne_fuel {lens nsub : List Int} {s : V1St R} : seqTake c lo hi lens nsub s ≠ .error .fuel := by
  unfold seqTake
  refine bind_ne_fuel getE_ne_fuel fun _ _ => bind_ne_fuel getE_ne_fuel fun _ _ => bind_ne_fuel getE_ne_fuel fun _ _ =>
    bind_ne_fuel getE_ne_fuel fun _ _ => bind_ne_fuel getE_ne_fuel fun _ _ => bind_ne_fuel ?_ ?_
  · split
    · simp
    · refine bind_ne_fuel draw_ne_fuel ?_
      intro a _; simp
  · intro a _; simp

theorem sum_set (l : List Int) (i : Nat) (x v : Int) (h : l[i]? = some x) : (l.set i v).sum = l.sum - x + v := by
  induction l generalizing i with
  | nil => simp at h
  | cons a l ih =>
    cases i with
    | zero => simp only [List.getElem?_cons_zero, Option.some.injEq] at h; subst h; simp only [List.set_cons_zero, List.sum_cons]; omega
    | succ i =>
      simp only [List.getElem?_cons_succ] at h
      simp only [List.set_cons_succ, List.sum_cons, ih i h]; omega

/-- if no entry is above and the sums differ, some entry is below. -/
theorem exists_lt_of_sum (l m : List Int) (hl : l.length = m.length) (hle : ∀ (i : Nat) (x y : Int), l[i]? = some x → m[i]? = some y → x ≤ y)
    (hs : l.sum < m.sum) : ∃ (i : Nat) (x y : Int), i < l.length ∧ l[i]? = some x ∧ m[i]? = some y ∧ x < y := by
  induction l generalizing m with
  | nil => cases m with
    | nil => simp at hs
    | cons => simp at hl
  | cons a l ih =>
    cases m with
    | nil => simp at hl
    | cons b m =>
      have hab : a ≤ b := hle 0 a b rfl rfl
      rcases Int.lt_or_le a b with h | h
      · exact ⟨0, a, b, by simp, rfl, rfl, h⟩
      · simp only [List.sum_cons] at hs
        obtain ⟨i, x, y, h1, h2, h3, h4⟩ := ih m (by simpa using hl) (fun i x y hx hy => hle (i + 1) x y hx hy) (by omega)
        exact ⟨i + 1, x, y, by simpa using h1, h2, h3, h4⟩

/-- the bookkeeping of unbalanced sequential reading. -/
structure Pend (nsub : List Int) (s : V1St R) : Prop where
  len : s.sub.length = nsub.length
  tab : s.tab.length = nsub.length
  cur : s.curSeq < s.tab.length
  le : ∀ (i : Nat) (x y : Int), s.sub[i]? = some x → nsub[i]? = some y → x ≤ y

theorem Pend.dist {nsub : List Int} {s : V1St R} (h : Pend nsub s) (hs : s.sub.sum < nsub.sum) :
    ∃ d, d < s.tab.length ∧ s.sub[(s.curSeq + d) % s.tab.length]? ≠ nsub[(s.curSeq + d) % s.tab.length]? := by
  obtain ⟨i, x, y, h1, h2, h3, h4⟩ := exists_lt_of_sum s.sub nsub h.len h.le hs
  have hn : 0 < s.tab.length := by have := h.cur; omega
  have hi : i < s.tab.length := by rw [h.tab, ← h.len]; exact h1
  have hc := h.cur
  rcases Nat.lt_or_ge i s.curSeq with hlt | hge
  · refine ⟨i + s.tab.length - s.curSeq, by omega, ?_⟩
    have : (s.curSeq + (i + s.tab.length - s.curSeq)) % s.tab.length = i := by
      rw [show s.curSeq + (i + s.tab.length - s.curSeq) = i + s.tab.length by omega, Nat.add_mod_right, Nat.mod_eq_of_lt hi]
    rw [this, h2, h3]; simp; omega
  · refine ⟨i - s.curSeq, by omega, ?_⟩
    have : (s.curSeq + (i - s.curSeq)) % s.tab.length = i := by
      rw [show s.curSeq + (i - s.curSeq) = i by omega, Nat.mod_eq_of_lt hi]
    rw [this, h2, h3]; simp; omega

theorem Pend.take {lens nsub : List Int} {s s' : V1St R} {x : SubSeq} (hb : c.seqBalanced = false) (h : Pend nsub s)
    (hne : s.sub[s.curSeq]? ≠ nsub[s.curSeq]?) (hx : seqTake c lo hi lens nsub s = .ok (x, s')) :
    Pend nsub s' ∧ s'.sub.sum = s.sub.sum + 1 := by
  obtain ⟨q1, q2, p, first, full, k, n, fr, k', q3, q4, q5, q6, q7, q8, q9, q10, q11, q12, q13⟩ := seqTake_ok hx
  rw [hb] at q12
  simp only [Bool.false_eq_true, if_false] at q12
  refine ⟨⟨by rw [q11]; simpa using h.len, by rw [q1.tab]; exact h.tab, by rw [q2, q1.tab]; exact Nat.mod_lt _ (by have := h.cur; omega), ?_⟩, ?_⟩
  · intro i a b ha hb'
    rw [q11, List.getElem?_set] at ha
    split at ha
    · rename_i hi
      subst hi
      split at ha
      · simp only [Option.some.injEq] at ha
        rw [q7] at hb'
        simp only [Option.some.injEq] at hb'
        have := h.le _ _ _ q6 q7
        rw [q6, q7] at hne
        have : k ≠ n := fun e => hne (by rw [e])
        omega
      · simp at ha
    · exact h.le i a b ha hb'
  · rw [q11, sum_set _ _ _ _ q6, q12]; omega

theorem Pend.skip {nsub : List Int} {s : V1St R} (h : Pend nsub s) : Pend nsub ({ s with curSeq := (s.curSeq + 1) % s.tab.length } : V1St R) :=
  ⟨h.len, h.tab, Nat.mod_lt _ (by have := h.cur; show 0 < s.tab.length; omega), h.le⟩

theorem seqLoop_fuel {lens nsub : List Int} (hb : c.seqBalanced = false) (f k : Nat) (s : V1St R) (h : Pend nsub s)
    (hk : s.sub.sum + (k + 1 : Nat) ≤ nsub.sum) (d : Nat) (hd : d < s.tab.length)
    (hdn : s.sub[(s.curSeq + d) % s.tab.length]? ≠ nsub[(s.curSeq + d) % s.tab.length]?) (hf : d + 1 + s.tab.length * k ≤ f) :
    seqLoop c lo hi lens nsub f (k + 1) s ≠ .error .fuel ∧
    (∀ l s', seqLoop c lo hi lens nsub f (k + 1) s = .ok (l, s') → Pend nsub s' ∧ s'.sub.sum = s.sub.sum + (k + 1 : Nat)) := by
  induction f generalizing k s d with
  | zero => omega
  | succ f ih =>
    have hc := h.cur
    have hj : s.curSeq < s.sub.length := by rw [h.len, ← h.tab]; exact hc
    have hn : s.curSeq < nsub.length := by rw [← h.tab]; exact hc
    simp only [seqLoop]
    have e1 : getE s.sub s.curSeq = .ok s.sub[s.curSeq] := getE_ok.2 (List.getElem?_eq_getElem hj)
    have e2 : getE nsub s.curSeq = .ok nsub[s.curSeq] := getE_ok.2 (List.getElem?_eq_getElem hn)
    rw [e1, e2]
    dsimp only [bind, Except.bind]
    by_cases heq : s.sub[s.curSeq] = nsub[s.curSeq]
    · simp only [if_pos heq]
      have hd0 : d ≠ 0 := by
        rintro rfl
        rw [Nat.add_zero, Nat.mod_eq_of_lt hc, List.getElem?_eq_getElem hj, List.getElem?_eq_getElem hn, heq] at hdn
        exact hdn rfl
      have := ih k { s with curSeq := (s.curSeq + 1) % s.tab.length } h.skip hk (d - 1) (by show d - 1 < s.tab.length; omega)
        (by
          show s.sub[((s.curSeq + 1) % s.tab.length + (d - 1)) % s.tab.length]? ≠ nsub[((s.curSeq + 1) % s.tab.length + (d - 1)) % s.tab.length]?
          rw [Nat.mod_add_mod, show s.curSeq + 1 + (d - 1) = s.curSeq + d by omega]
          exact hdn)
        (by show d - 1 + 1 + s.tab.length * k ≤ f; omega)
      exact this
    · simp only [if_neg heq]
      have hne : s.sub[s.curSeq]? ≠ nsub[s.curSeq]? := by
        rw [List.getElem?_eq_getElem hj, List.getElem?_eq_getElem hn]; simpa using heq
      cases hx : seqTake c lo hi lens nsub s with
      | error e =>
        refine ⟨?_, by simp⟩
        intro he
        simp only [Except.error.injEq] at he
        subst he
        exact seqTake_ne_fuel hx
      | ok r =>
        obtain ⟨x, s1⟩ := r
        obtain ⟨p1, p2⟩ := h.take hb hne hx
        have ht : s1.tab.length = s.tab.length := by rw [(seqTake_ok hx).1.tab]
        dsimp only
        cases k with
        | zero =>
          simp only [seqLoop]
          refine ⟨by simp, ?_⟩
          intro l s' hls
          simp only [Except.ok.injEq, Prod.mk.injEq] at hls
          obtain ⟨_, rfl⟩ := hls
          exact ⟨p1, by rw [p2]; simp⟩
        | succ k =>
          obtain ⟨d', hd', hdn'⟩ := p1.dist (by rw [p2]; push_cast at hk ⊢; omega)
          have hfuel : d' + 1 + s1.tab.length * k ≤ f := by
            rw [ht] at hd' ⊢
            have : s.tab.length * (k + 1) = s.tab.length * k + s.tab.length := by rw [Nat.mul_succ]
            omega
          obtain ⟨i1, i2⟩ := ih k s1 p1 (by rw [p2]; push_cast at hk ⊢; omega) d' hd' hdn' hfuel
          cases hl : seqLoop c lo hi lens nsub f (k + 1) s1 with
          | error e =>
            refine ⟨?_, by simp⟩
            intro he
            simp only [Except.error.injEq] at he
            subst he
            exact i1 hl
          | ok r =>
            obtain ⟨l1, s2⟩ := r
            refine ⟨by simp, ?_⟩
            intro l s' hls
            simp only [Except.ok.injEq, Prod.mk.injEq] at hls
            obtain ⟨_, rfl⟩ := hls
            obtain ⟨j1, j2⟩ := i2 _ _ hl
            exact ⟨j1, by rw [j2, p2]; push_cast; omega⟩

/-- C45, termination: in unbalanced sequential mode with one pass per epoch (the default), no sequence of `read` calls loops forever: every
call ends within (number of utterances) × (batch size) turns of its loop. -/
theorem C45_v1_sequential_terminates (hc : CfgAligned c) (hm : c.method = .sequential) (hb : c.seqBalanced = false)
    (hit : c.iters = none ∨ c.iters = some 1)
    {s0 : V1St R} (h0 : v1New c rows tab = .ok s0) (hne : s0.tab ≠ []) (hns : ∀ n, s0.nsub = some n → ∀ x ∈ n, 0 ≤ x) {st : Int} (hst0 : s0.steps c rows = .ok st) (hpos : 0 < st) (fuel k : Nat)
    (hfuel : s0.tab.length * c.batchSize ≤ fuel) : v1Run c rows fuel k s0 ≠ .error .fuel := by
  obtain ⟨lo, hi, hg⟩ := new_good hc h0
  obtain ⟨_, _, p3, p4, _, _, p7⟩ := v1New_inv hc h0
  obtain ⟨_, _, _, _, p8⟩ := p7 hm
  have hnT : ∀ p ∈ s0.initTab, 0 ≤ nsubOf c rows lo hi p := by
    intro p hp
    exact hns _ (hg.seq hm).nsub _ (List.mem_map.2 ⟨p, hg.inv.perm.mem_iff.2 hp, rfl⟩)
  have hTlen : 0 < s0.tab.length := List.length_pos_of_ne_nil hne
  set N := (s0.initTab.map (nsubOf c rows lo hi)).sum with hN
  have hsumT : ∀ s : V1St R, Good c rows tab s0.initTab lo hi s → (s.tab.map (nsubOf c rows lo hi)).sum = N := by
    intro s hs
    have : (s.tab.map (nsubOf c rows lo hi)).Perm (s0.initTab.map (nsubOf c rows lo hi)) := by
      have := hs.inv.perm; rw [hs.tabT] at this; exact this.map _
    rw [this.sum_eq]
  have hsteps : ∀ s : V1St R, Good c rows tab s0.initTab lo hi s → s.steps c rows = .ok (N / c.batchSize) := by
    intro s hs
    unfold V1St.steps V1St.itersVal
    rw [hm, hb, (hs.seq hm).nsub, Option.getD_some, hsumT s hs]
    rcases hit with h | h <;> rw [h] <;> simp [bind, Except.bind]
  have hstN : st = N / c.batchSize := by have := hsteps s0 hg; rw [hst0] at this; simpa using this
  have hbs : 0 < c.batchSize := by
    rcases Nat.eq_zero_or_pos c.batchSize with h | h
    · rw [h] at hstN; simp at hstN; omega
    · exact h
  -- invariant
  let P : V1St R → Prop := fun s => Good c rows tab s0.initTab lo hi s ∧ Pend (s.tab.map (nsubOf c rows lo hi)) s ∧
    s.sub.sum = s.curStep * c.batchSize ∧ (s.curStep : Int) < st
  have fresh : ∀ s : V1St R, Good c rows tab s0.initTab lo hi s → s.curSeq = 0 → s.curStep = 0 → (∀ x ∈ s.sub, x = 0) → P s := by
    intro s hs h1 h2 h3
    refine ⟨hs, ⟨?_, ?_, ?_, ?_⟩, ?_, by rw [h2]; simpa using hpos⟩
    · rw [(hs.seq hm).sublen]; simp
    · simp
    · rw [h1, hs.inv.perm.length_eq, hs.tabT, ← hg.inv.perm.length_eq]; exact hTlen
    · intro i x y hx hy
      have hx0 := h3 x (List.mem_of_getElem? hx)
      rw [List.getElem?_map, Option.map_eq_some_iff] at hy
      obtain ⟨p, hp, rfl⟩ := hy
      have := hnT p (by rw [← hs.tabT]; exact hs.inv.perm.mem_iff.1 (List.mem_of_getElem? hp))
      omega
    · rw [h2]
      have : s.sub = List.replicate s.sub.length 0 := List.eq_replicate_iff.2 ⟨rfl, h3⟩
      rw [this]; simp
  -- one read
  have step : ∀ s, P s → v1Read c rows fuel s ≠ .error .fuel ∧ ∀ b s', v1Read c rows fuel s = .ok (b, s') → P s' := by
    rintro s ⟨hs, hp, hsum, hcs⟩
    have hlen : s.tab.length = s0.tab.length := by rw [hs.inv.perm.length_eq, hs.tabT, ← hg.inv.perm.length_eq]
    have hst : s.steps c rows = .ok st := by rw [hsteps s hs, hstN]
    obtain ⟨f1, f2, f3, f4, f5, f6, f7, f8, f9, f10⟩ := force_fields (rows := rows) s
    have hperm : (s.tab.map (fun p => rows p.1)).Perm (s.initTab.map (fun p => rows p.1)) := hs.inv.perm.map _
    have hloS : minSeq c (s.tab.map (fun p => rows p.1)) = .ok lo := by rw [minSeq_perm hperm]; exact (hs.seq hm).hlo
    have hhiS : maxSeq c (s.tab.map (fun p => rows p.1)) = .ok hi := by rw [maxSeq_perm hperm]; exact (hs.seq hm).hhi
    have hbody : v1Body c rows fuel s = seqLoop c lo hi (s.tab.map (fun p => rows p.1)) (s.tab.map (nsubOf c rows lo hi)) fuel c.batchSize (s.force rows) := by
      unfold v1Body
      rw [hm]
      dsimp only
      unfold readSeq
      rw [hs.inv.lensVal]
      dsimp only
      rw [hloS, hhiS, (hs.seq hm).nsub]
      rfl
    have hpf : Pend (s.tab.map (nsubOf c rows lo hi)) (s.force rows) :=
      ⟨by rw [f8]; exact hp.len, by rw [f1]; exact hp.tab, by rw [f1, f9]; exact hp.cur, by rw [f8]; exact hp.le⟩
    have hroom : s.sub.sum + (c.batchSize : Int) ≤ (s.tab.map (nsubOf c rows lo hi)).sum := by
      rw [hsumT s hs, hsum]
      have h1 : st * c.batchSize ≤ N := by rw [hstN]; exact Int.ediv_mul_le _ (by omega)
      have h2 : ((s.curStep : Int) + 1) * c.batchSize ≤ st * c.batchSize := Int.mul_le_mul_of_nonneg_right (by omega) (by omega)
      rw [Int.add_mul] at h2
      omega
    obtain ⟨kk, hkk⟩ : ∃ kk, c.batchSize = kk + 1 := ⟨c.batchSize - 1, by omega⟩
    rw [hkk] at hroom
    obtain ⟨d, hd, hdn⟩ := hpf.dist (by rw [f8]; push_cast at hroom; omega)
    have hloop := seqLoop_fuel (lens := s.tab.map (fun p => rows p.1)) (lo := lo) (hi := hi) hb fuel kk (s.force rows) hpf (by rw [f8]; exact hroom) d hd hdn
      (by
        rw [f1] at hd ⊢
        rw [hlen] at hd ⊢
        rw [hkk, Nat.mul_succ] at hfuel
        omega)
    rw [← hkk, ← hbody] at hloop
    obtain ⟨l1, l2⟩ := hloop
    refine ⟨?_, ?_⟩
    · unfold v1Read
      refine bind_ne_fuel l1 ?_
      rintro ⟨b, s1⟩ hbd
      refine bind_ne_fuel ?_ (fun a _ => by simp)
      obtain ⟨g1, g2, g3, g4⟩ := body_good hbd hs
      have hst1 : s1.steps c rows = .ok st := by rw [hsteps s1 g1, hstN]
      unfold v1Tick
      rw [hst1]
      refine bind_ne_fuel (by simp) ?_
      intro st' hst'
      simp only [Except.ok.injEq] at hst'
      subst hst'
      rw [if_neg (by omega)]
      dsimp only
      split
      · obtain ⟨t, ht⟩ := reset_total (g1.zero 0).inv (g1.zero 0).nsub_len
        refine bind_ne_fuel (by rw [ht]; simp) (fun a _ => by simp)
      · simp
    · intro b s' hr
      obtain ⟨s1, a1, a2, a3, a4, a5, a6, a7, a8, a9⟩ := read_step hs hst hr
      obtain ⟨m1, m2⟩ := l2 _ _ a1
      rcases a9 with ⟨b1, rfl⟩ | ⟨b1, s2, b2, rfl⟩
      · have hmod : ((s.curStep : Int) + 1) % st = s.curStep + 1 := by
          refine Int.emod_eq_of_lt (by omega) ?_
          rcases Int.lt_or_le ((s.curStep : Int) + 1) st with h | h
          · exact h
          · have : (s.curStep : Int) + 1 = st := by omega
            rw [this] at b1; simp at b1
        refine ⟨a6, ⟨m1.len.trans (by simp [a5]), by show s1.tab.length = _; simp, m1.cur, by show ∀ _ _ _, _; rw [a5]; exact m1.le⟩, ?_, ?_⟩
        · show s1.sub.sum = ((((s.curStep : Int) + 1) % st).toNat : Int) * c.batchSize
          rw [hmod, m2, f8, hsum]
          have : (((s.curStep : Int) + 1).toNat : Int) = s.curStep + 1 := by omega
          rw [this, Int.add_mul]; omega
        · show ((((s.curStep : Int) + 1) % st).toNat : Int) < st
          have := Int.emod_lt_of_pos ((s.curStep : Int) + 1) hpos
          have := Int.emod_nonneg ((s.curStep : Int) + 1) (show st ≠ 0 by omega)
          omega
      · have r := reset_spec (a2.zero 0).inv (a2.zero 0).nsub_len b2
        exact fresh _ a6 r.2.2.2.2.1 r.2.2.2.2.2.1 (r.2.2.2.2.2.2.2.2.1 hm).2
  -- all reads
  have all : ∀ (k : Nat) (s : V1St R), P s → v1Run c rows fuel k s ≠ .error .fuel := by
    intro k
    unfold v1Run
    induction k with
    | zero => intro s _; simp [repeatE]
    | succ k ih =>
      intro s hs
      simp only [repeatE]
      refine bind_ne_fuel (step s hs).1 ?_
      rintro ⟨b, s1⟩ h1
      refine bind_ne_fuel (ih s1 ((step s hs).2 b s1 h1)) (fun a _ => by simp)
  exact all k s0 (fresh s0 hg p3 p4 p8)

/-- C45 (a defect): once every utterance has delivered all its sub-sequences, `read` in unbalanced sequential mode never returns. -/
theorem C45_v1_sequential_hangs {lens nsub : List Int} {s : V1St R} (hl : s.sub = nsub) (ht : s.tab.length = nsub.length)
    (hcur : s.curSeq < s.tab.length) (k f : Nat) : seqLoop c lo hi lens nsub f (k + 1) s = .error .fuel := by
  induction f generalizing s with
  | zero => rfl
  | succ f ih =>
    have h1 : s.curSeq < nsub.length := by omega
    have e2 : getE nsub s.curSeq = .ok nsub[s.curSeq] := getE_ok.2 (List.getElem?_eq_getElem h1)
    simp only [seqLoop]
    have e1 : getE s.sub s.curSeq = .ok nsub[s.curSeq] := by rw [hl]; exact e2
    rw [e1, e2]
    dsimp only [bind, Except.bind]
    simp only [if_true]
    exact ih (s := { s with curSeq := (s.curSeq + 1) % s.tab.length }) hl ht (Nat.mod_lt _ (by omega))

/-! ### labels -/

/-- C44, labels: the label attached to an utterance is the number of its class, when no utterance is listed with two classes. -/
theorem C44_v1_label {classes : List String} {d : List (String × Nat)} (h : key2class classes tab = .ok d)
    (hone : ∀ k a b, (k, a) ∈ tab → (k, b) ∈ tab → a = b) {k cl : String} (hk : (k, cl) ∈ tab) :
    ∃ i, dictGet d k = some i ∧ dictGet (classDict classes) cl = some i := by
  have gen : ∀ (l : List (String × String)) (d0 d : List (String × Nat)),
      l.foldlM (fun d p => match dictGet (classDict classes) p.2 with
        | some i => Except.ok (dictSet d p.1 i)
        | none => Except.error GErr.exc) d0 = .ok d →
      ∀ k, (∃ cl i, (k, cl) ∈ l ∧ dictGet d k = some i ∧ dictGet (classDict classes) cl = some i) ∨
        ((∀ cl, (k, cl) ∉ l) ∧ dictGet d k = dictGet d0 k) := by
    intro l
    induction l with
    | nil => intro d0 d h k; simp only [List.foldlM_nil, pure, Except.pure, Except.ok.injEq] at h; right; simp [h]
    | cons p l ih =>
      intro d0 d h k
      simp only [List.foldlM_cons] at h
      rw [bind_ok] at h
      obtain ⟨d1, h1, h2⟩ := h
      split at h1
      · rename_i i hi
        simp only [Except.ok.injEq] at h1
        rcases ih _ _ h2 k with ⟨cl, j, a, b, e⟩ | ⟨a, b⟩
        · exact Or.inl ⟨cl, j, List.mem_cons_of_mem _ a, b, e⟩
        · rw [← h1, dictGet_set] at b
          by_cases hp : p.1 = k
          · left
            rw [if_pos hp] at b
            refine ⟨p.2, i, ?_, b, hi⟩
            rw [← hp]; exact List.mem_cons_self
          · right
            rw [if_neg hp] at b
            refine ⟨?_, b⟩
            intro cl hcl
            rcases List.mem_cons.1 hcl with h | h
            · rw [← h] at hp; exact hp rfl
            · exact a cl h
      · simp at h1
  rcases gen tab [] d h k with ⟨cl', i, a, b, e⟩ | ⟨a, _⟩
  · rw [hone k cl cl' hk a]; exact ⟨i, b, e⟩
  · exact absurd hk (a cl)


/-! ### examples and negative results -/

/-- a generator whose draws are always the smallest allowed value. -/
def lowRng : Rng where
  σ := Unit
  seeded _ := ()
  randint _ a b := if a < b then some (a, ()) else none
  shuffle _ n := (List.range n, ())
  randint_range := by
    intro s a b v s' h
    split at h
    · simp only [Option.some.injEq, Prod.mk.injEq] at h; omega
    · simp at h
  randint_total := by intro s a b h; exact ⟨_, _, if_pos h⟩
  shuffle_perm := by intro s n; exact List.Perm.refl _

/-- a table of three utterances with 20, 7 and 5 frames. -/
def exTab : List (String × String) := [("a", "x"), ("b", "y"), ("c", "x")]
def exRows : String → Int := fun k => if k = "a" then 20 else if k = "b" then 7 else 5

/-- random method, batches of 2, lengths between 3 and 9. -/
def exCfg : V1Cfg :=
  { batchSize := 2, iters := some 2, method := .random, minLen := some 3, maxLen := some 9, overlap := 0, prune := 0, balance := none,
    seqBalanced := true, shuffle := true, initEpoch := 0, seed := 1024, resetRng := false }

def okAnd {α : Type} (x : Except GErr α) (p : α → Bool) : Bool :=
  match x with
  | .ok a => p a
  | .error _ => false

/-- the hypotheses of the theorems above are met by a non-trivial run: 3 steps per epoch, seven batches. -/
example : CfgAligned exCfg := Or.inl (by decide)
example : okAnd (v1New (R := counterRng) exCfg exRows exTab) (fun s => decide (s.curStep = 0) && okAnd (s.steps exCfg exRows) (fun st => decide (st = 3))
    && okAnd (v1Run exCfg exRows 0 7 s) (fun r => decide (r.1.length = 7) && decide (r.2.epoch = 2) && decide (r.2.curStep = 1))) = true := by decide
/-- also for the sequential method (overlap 2, one pass, not balanced). -/
def exSeq : V1Cfg := { exCfg with method := .sequential, overlap := 2, iters := none, seqBalanced := false }
example : okAnd (v1New (R := counterRng) exSeq exRows exTab) (fun s => decide (s.nsub = some [2, 2, 5]) && okAnd (s.steps exSeq exRows) (fun st => decide (st = 4))
    && okAnd (v1Run exSeq exRows 6 5 s) (fun r => decide (r.1.length = 5) && decide (r.2.epoch = 1) && decide (r.2.curStep = 1))) = true := by decide

/-- C45 (negative): with two utterances per batch and three utterances, an epoch of one pass leaves one utterance out. -/
theorem C45_v1_epoch_may_skip_utterances : ∃ c : V1Cfg, c.iters = some 1 ∧ c.method = .random ∧
    okAnd (v1New (R := counterRng) c exRows exTab) (fun s => okAnd (s.steps c exRows) (fun st => decide (st = 1)) &&
      okAnd (v1Run c exRows 0 1 s) (fun r => decide (r.2.epoch = 1) && r.1.flatten.all (fun x => x.key != "a"))) = true :=
  ⟨{ exCfg with iters := some 1 }, rfl, rfl, by decide⟩

/-- C45 (negative): the sequential method does not cover the frames of an utterance: with short draws, frames 12 to 19 of a 20-frame
utterance are in none of the sub-sequences of the epoch. -/
theorem C45_v1_sequential_may_skip_frames : ∃ c : V1Cfg, c.method = .sequential ∧ c.seqBalanced = false ∧
    okAnd (v1New (R := lowRng) c (fun _ => 20) [("a", "x")]) (fun s => okAnd (s.steps c (fun _ => 20)) (fun st => decide (st = 4)) &&
      okAnd (v1Run c (fun _ => 20) 1 4 s) (fun r => decide (r.2.epoch = 1) && r.1.flatten.all (fun x => decide (x.first + x.len ≤ 12)))) = true :=
  ⟨{ exCfg with method := .sequential, batchSize := 1, iters := none, minLen := some 1, maxLen := some 9, seqBalanced := false }, rfl, rfl, by decide⟩

/-- C44 (a defect): pruning together with an explicit number of passes leaves the lengths of the unpruned list in place: the generator
then asks for frames beyond the end of an utterance. -/
theorem C44_v1_prune_stale_lengths : ∃ c : V1Cfg, c.method = .random ∧ 0 < c.prune ∧ ¬ CfgAligned c ∧
    okAnd (v1New (R := counterRng) c (fun k => if k = "a" then 20 else if k = "b" then 1 else 5) [("b", "y"), ("a", "x"), ("c", "x")]) (fun s =>
      okAnd (v1Run c (fun k => if k = "a" then 20 else if k = "b" then 1 else 5) 0 1 s)
        (fun r => r.1.flatten.any (fun x => decide (x.first + x.len > (if x.key = "a" then 20 else if x.key = "b" then 1 else 5))))) = true :=
  ⟨{ exCfg with prune := 2, iters := some 1, minLen := some 8 }, rfl, by decide, by simp [CfgAligned, exCfg], by decide⟩

/-- one utterance of 4 frames, sub-sequences of 2 frames, two passes per epoch. -/
def hangCfg : V1Cfg :=
  { batchSize := 1, iters := some 2, method := .sequential, minLen := some 2, maxLen := some 2, overlap := 0, prune := 0, balance := none,
    seqBalanced := false, shuffle := true, initEpoch := 0, seed := 1024, resetRng := false }
/-- its state after `j` batches. -/
def hangSt (j : Nat) : V1St lowRng :=
  { initTab := [("a", "x")], tab := [("a", "x")], initLens := some [4], lens := some [4], initNsub := some [2], nsub := some [2],
    frame := [if j = 1 then 2 else 0], sub := [(j : Int)], curSeq := 0, curStep := j, epoch := 0, rng := () }

/-- C45 (a defect): with two passes per epoch, unbalanced sequential reading hangs in the second pass, whatever the bound on the loop. -/
theorem C45_v1_two_passes_hang : ∃ c : V1Cfg, c.method = .sequential ∧ c.iters = some 2 ∧ ∃ s0 : V1St lowRng,
    v1New c (fun _ => 4) [("a", "x")] = .ok s0 ∧ (∃ r, v1Run c (fun _ => 4) 1 2 s0 = .ok r) ∧
    ∀ fuel, v1Run c (fun _ => 4) fuel 3 s0 = .error .fuel := by
  refine ⟨hangCfg, rfl, rfl, hangSt 0, rfl, ⟨_, rfl⟩, ?_⟩
  intro fuel
  cases fuel with
  | zero => rfl
  | succ f =>
    have h1 : v1Read hangCfg (fun _ => 4) (f + 1) (hangSt 0) = .ok ([⟨"a", 0, 2⟩], hangSt 1) := by cases f <;> rfl
    have h2 : v1Read hangCfg (fun _ => 4) (f + 1) (hangSt 1) = .ok ([⟨"a", 2, 2⟩], hangSt 2) := by cases f <;> rfl
    have h3 : v1Read hangCfg (fun _ => 4) (f + 1) (hangSt 2) = .error .fuel := by
      have : v1Body hangCfg (fun _ => 4) (f + 1) (hangSt 2) = .error .fuel :=
        C45_v1_sequential_hangs (c := hangCfg) (lo := 2) (hi := 2) (lens := [4]) (nsub := [2]) (s := hangSt 2) rfl rfl (by decide) 0 (f + 1)
      unfold v1Read
      rw [this]
      rfl
    simp only [v1Run, repeatE, h1, h2, h3, bind, Except.bind]

end Hyp.Gen
