import Verif.Generators.V1Props

/-! Property C45 for SequenceBatchGeneratorV1: counters, order and repetition of epochs. -/

namespace Hyp.Gen

variable {R : Rng} {c : V1Cfg} {rows : String → Int} {tab T : List (String × String)} {lo hi : Int}

theorem tick_steps {s s' : V1St R} (h2 : v1Tick c rows s = .ok s') : ∃ st, s.steps c rows = .ok st := by
  unfold v1Tick at h2; simp only [bind_ok] at h2; obtain ⟨st, h, _⟩ := h2; exact ⟨st, h⟩

/-- one `read`, seen from outside the batch. -/
theorem read_step {fuel : Nat} {s s' : V1St R} {b : List SubSeq} {st : Int} (hs : Good c rows tab T lo hi s) (hst : s.steps c rows = .ok st)
    (h : v1Read c rows fuel s = .ok (b, s')) : ∃ s1 : V1St R, v1Body c rows fuel s = .ok (b, s1) ∧ Good c rows tab T lo hi s1 ∧
      s1.curStep = s.curStep ∧ s1.epoch = s.epoch ∧ s1.tab = s.tab ∧ Good c rows tab T lo hi s' ∧ s'.steps c rows = .ok st ∧ st ≠ 0 ∧
      ((((s.curStep : Int) + 1) % st ≠ 0 ∧ s' = { s1 with curStep := (((s.curStep : Int) + 1) % st).toNat }) ∨
     (((s.curStep : Int) + 1) % st = 0 ∧ ∃ s2 : V1St R, ({ s1 with curStep := 0 } : V1St R).reset c rows = .ok s2 ∧ s' = { s2 with epoch := s2.epoch + 1 })) := by
  obtain ⟨s1, h1, h2⟩ := read_split h
  obtain ⟨g1, g2, g3, g4⟩ := body_good h1 hs
  have hst1 : s1.steps c rows = .ok st := by rw [steps_eq g1 hs]; exact hst
  obtain ⟨t1, t2, t3⟩ := tick_ok g1 hst1 h2
  rw [g2] at t3
  exact ⟨s1, h1, g1, g2, g3, g4, t1, by rw [steps_eq t1 hs]; exact hst, t2, t3⟩

theorem Good.zero {s : V1St R} (g1 : Good c rows tab T lo hi s) (k : Nat) : Good c rows tab T lo hi ({ s with curStep := k } : V1St R) :=
  ⟨⟨g1.inv.perm, g1.inv.sub, g1.inv.il, g1.inv.l⟩, g1.tabT, g1.other, fun hm => by
        have q := g1.seq hm; exact ⟨q.hlo, q.hhi, q.shift, q.initNsub, q.nsub, q.frame, q.sublen⟩⟩

theorem Good.setEpoch {s : V1St R} (g1 : Good c rows tab T lo hi s) (e : Int) : Good c rows tab T lo hi ({ s with epoch := e } : V1St R) :=
  ⟨⟨g1.inv.perm, g1.inv.sub, g1.inv.il, g1.inv.l⟩, g1.tabT, g1.other, fun hm => by
        have q := g1.seq hm; exact ⟨q.hlo, q.hhi, q.shift, q.initNsub, q.nsub, q.frame, q.sublen⟩⟩

theorem run_total {fuel k : Nat} {s s' : V1St R} {bs : List (List SubSeq)} {st : Int} (hs : Good c rows tab T lo hi s)
    (hst : s.steps c rows = .ok st) (hpos : 0 < st) (hlt : (s.curStep : Int) < st) (h : v1Run c rows fuel k s = .ok (bs, s')) :
    Good c rows tab T lo hi s' ∧ (s'.curStep : Int) < st ∧ s'.epoch * st + s'.curStep = s.epoch * st + s.curStep + k := by
  unfold v1Run at h
  induction k generalizing s bs with
  | zero =>
    simp only [repeatE, Except.ok.injEq, Prod.mk.injEq] at h
    obtain ⟨_, rfl⟩ := h
    exact ⟨hs, hlt, by simp⟩
  | succ k ih =>
    simp only [repeatE, bind_ok] at h
    obtain ⟨⟨b, s1⟩, h1, ⟨bs1, s2⟩, h2, h3⟩ := h
    simp only [Except.ok.injEq, Prod.mk.injEq] at h3
    obtain ⟨_, rfl⟩ := h3
    obtain ⟨sa, a1, a2, a3, a4, _, a5, a6, a7, a8⟩ := read_step hs hst h1
    have hstep : (s1.curStep : Int) < st ∧ s1.epoch * st + s1.curStep = s.epoch * st + s.curStep + 1 := by
      by_cases he : (s.curStep : Int) + 1 = st
      · have hz : ((s.curStep : Int) + 1) % st = 0 := by rw [he]; simp
        rcases a8 with ⟨b1, _⟩ | ⟨_, s3, b2, rfl⟩
        · exact absurd hz b1
        · obtain ⟨_, _, _, r4, _, r6, _⟩ := reset_spec (a2.zero 0).inv (a2.zero 0).nsub_len b2
          have e : s3.epoch = s.epoch := by rw [r4]; exact a4
          show (s3.curStep : Int) < st ∧ (s3.epoch + 1) * st + s3.curStep = _
          rw [r6, e]
          refine ⟨by simpa using hpos, ?_⟩
          rw [Int.add_mul]; push_cast; omega
      · have hz : ((s.curStep : Int) + 1) % st = s.curStep + 1 := Int.emod_eq_of_lt (by omega) (by omega)
        rcases a8 with ⟨_, rfl⟩ | ⟨b1, _⟩
        · show ((((s.curStep : Int) + 1) % st).toNat : Int) < st ∧ sa.epoch * st + ((((s.curStep : Int) + 1) % st).toNat : Int) = _
          rw [hz, a4]
          omega
        · omega
    obtain ⟨i1, i2, i3⟩ := ih a5 a6 hstep.1 h2
    refine ⟨i1, i2, ?_⟩
    rw [i3, hstep.2]; push_cast; omega

/-- C45, counters: after any number `k` of batches, epoch and step are quotient and remainder of `k` by the number of steps per epoch. -/
theorem C45_v1_counters (hc : CfgAligned c) {s0 s : V1St R} (h0 : v1New c rows tab = .ok s0) {st : Int} (hst : s0.steps c rows = .ok st)
    (hpos : 0 < st) {fuel k : Nat} {bs : List (List SubSeq)} (h : v1Run c rows fuel k s0 = .ok (bs, s)) :
    s.epoch = c.initEpoch + k / st ∧ (s.curStep : Int) = k % st := by
  obtain ⟨lo, hi, hg⟩ := new_good hc h0
  obtain ⟨_, p2, _, p4, _⟩ := v1New_inv hc h0
  obtain ⟨_, q2, q3⟩ := run_total hg hst hpos (by rw [p4]; simpa using hpos) h
  rw [p2, p4] at q3
  have e : (k : Int) = s.curStep + (s.epoch - c.initEpoch) * st := by
    rw [Int.sub_mul]; push_cast at q3; omega
  constructor
  · rw [e, Int.add_mul_ediv_right _ _ (by omega), Int.ediv_eq_zero_of_lt (by omega) q2]; omega
  · rw [e, Int.add_mul_emod_self_right, Int.emod_eq_of_lt (by omega) q2]

/-! ### repetition of epochs -/

theorem st_ext {a b : V1St R} (h1 : a.initTab = b.initTab) (h2 : a.tab = b.tab) (h3 : a.initLens = b.initLens) (h4 : a.lens = b.lens)
    (h5 : a.initNsub = b.initNsub) (h6 : a.nsub = b.nsub) (h7 : a.frame = b.frame) (h8 : a.sub = b.sub) (h9 : a.curSeq = b.curSeq)
    (h10 : a.curStep = b.curStep) (h11 : a.epoch = b.epoch) (h12 : a.rng = b.rng) : a = b := by
  cases a; cases b; simp_all

/-- with shuffling, `reset` only depends on the table and the epoch counter. -/
theorem reset_canon {s t s' t' : V1St R} (hsh : c.shuffle = true) (hs : Good c rows tab T lo hi s) (ht : Good c rows tab T lo hi t)
    (he : s.epoch = t.epoch) (h1 : s.reset c rows = .ok s') (h2 : t.reset c rows = .ok t') : s' = t' := by
  obtain ⟨r1, r2, r3, r4, r5, r6, r7, r8, r9, r10, r11, _⟩ := reset_spec hs.inv hs.nsub_len h1
  obtain ⟨q1, q2, q3, q4, q5, q6, q7, q8, q9, q10, q11, _⟩ := reset_spec ht.inv ht.nsub_len h2
  obtain ⟨a1, a2, a3, a4, a5⟩ := r11 hsh
  obtain ⟨b1, b2, b3, b4, b5⟩ := q11 hsh
  have hT : s.initTab = t.initTab := by rw [hs.tabT, ht.tabT]
  have htab : s'.tab = t'.tab := by
    rw [hT, he] at a3; rw [a3] at b3; simpa using b3
  have hlen : ∀ u : V1St R, Good c rows tab T lo hi u → c.method = .sequential → u.frame.length = T.length ∧ u.sub.length = T.length := by
    intro u hu hm
    have : u.tab.length = T.length := by rw [hu.inv.perm.length_eq, hu.tabT]
    exact ⟨by rw [(hu.seq hm).frame, this], by rw [(hu.seq hm).sublen, this]⟩
  have zeros : ∀ (l l' : List Int), l.length = l'.length → (∀ x ∈ l, x = 0) → (∀ x ∈ l', x = 0) → l = l' := by
    intro l l' hl h h'
    rw [List.eq_replicate_iff.2 ⟨rfl, h⟩, List.eq_replicate_iff.2 ⟨rfl, h'⟩, hl]
  have hNsub : s.initNsub = t.initNsub ∧ s.frame.length = t.frame.length ∧ s.sub.length = t.sub.length ∧ s'.nsub = t'.nsub ∧ s'.frame = t'.frame ∧ s'.sub = t'.sub := by
    by_cases hm : c.method = .sequential
    · have e := hlen s hs hm
      have e' := hlen t ht hm
      have hn : s'.nsub = t'.nsub := by
        rw [(SeqInv.reset hs.inv (hs.seq hm) h1).nsub, (SeqInv.reset ht.inv (ht.seq hm) h2).nsub, htab]
      refine ⟨by rw [(hs.seq hm).initNsub, (ht.seq hm).initNsub, hT], by omega, by omega, hn, ?_, ?_⟩
      · exact zeros _ _ (by rw [r7, q7]; omega) (r9 hm).1 (q9 hm).1
      · exact zeros _ _ (by rw [r8, q8]; omega) (r9 hm).2 (q9 hm).2
    · obtain ⟨x1, x2, x3, x4⟩ := hs.other hm
      obtain ⟨y1, y2, y3, y4⟩ := ht.other hm
      refine ⟨by rw [x1, y1], by rw [x3, y3], by rw [x4, y4], ?_, by rw [(r10 hm).1, (q10 hm).1, x3, y3], by rw [(r10 hm).2, (q10 hm).2, x4, y4]⟩
      rw [((hs.reset h1).other hm).2.1, ((ht.reset h2).other hm).2.1]
  obtain ⟨e1, e2, e3, e4, e5, e6⟩ := hNsub
  refine st_ext ?_ htab ?_ ?_ ?_ e4 e5 e6 ?_ ?_ ?_ ?_
  · exact r2.trans (hT.trans q2.symm)
  · exact a1.trans (by rw [hT]; exact b1.symm)
  · rw [a4, b4, htab]
  · exact r3.trans (e1.trans q3.symm)
  · exact r5.trans q5.symm
  · exact r6.trans q6.symm
  · exact r4.trans (he.trans q4.symm)
  · rw [a2, b2, hT, he]

/-- a batch does not look at the epoch counter. -/
theorem repeatE_comm {S A : Type} {f : S → Except GErr (A × S)} (φ : S → S)
    (hf : ∀ s, f (φ s) = (f s).map (fun r => (r.1, φ r.2))) (n : Nat) (s : S) :
    repeatE f n (φ s) = (repeatE f n s).map (fun r => (r.1, φ r.2)) := by
  induction n generalizing s with
  | zero => rfl
  | succ n ih =>
    simp only [repeatE, hf]
    cases h : f s with
    | error e => rfl
    | ok r =>
      obtain ⟨a, s1⟩ := r
      show (repeatE f n (φ s1) >>= _) = _
      rw [ih]
      show _ = Except.map _ (repeatE f n s1 >>= _)
      cases repeatE f n s1 <;> rfl

theorem randomOne_epoch (lens : List Int) (e : Int) (s : V1St R) :
    randomOne lo hi lens ({ s with epoch := e } : V1St R) = (randomOne lo hi lens s).map (fun r => (r.1, { r.2 with epoch := e })) := by
  unfold randomOne
  cases h1 : getE s.tab s.curSeq with
  | error => simp only [h1]; rfl
  | ok p =>
    cases h2 : getE lens s.curSeq with
    | error => simp only [h1, h2]; rfl
    | ok full =>
      cases h3 : draw s.rng (min full lo) (min full hi + 1) with
      | error => simp only [h1, h2]; dsimp only [bind, Except.bind]; rw [h3]; rfl
      | ok r =>
        obtain ⟨len, g⟩ := r
        cases h4 : draw g 0 (full - len + 1) with
        | error => simp only [h1, h2]; dsimp only [bind, Except.bind]; rw [h3]; dsimp only; rw [h4]; rfl
        | ok r' => simp only [h1, h2]; dsimp only [bind, Except.bind]; rw [h3]; dsimp only; rw [h4]; rfl

theorem seqTake_epoch (lens nsub : List Int) (e : Int) (s : V1St R) :
    seqTake c lo hi lens nsub ({ s with epoch := e } : V1St R) = (seqTake c lo hi lens nsub s).map (fun r => (r.1, { r.2 with epoch := e })) := by
  unfold seqTake
  dsimp only
  cases h1 : getE s.tab s.curSeq with
  | error => rfl
  | ok p =>
    cases h2 : getE s.frame s.curSeq with
    | error => rfl
    | ok first =>
      cases h3 : getE lens s.curSeq with
      | error => rfl
      | ok full =>
        cases h4 : getE s.sub s.curSeq with
        | error => rfl
        | ok k =>
          cases h5 : getE nsub s.curSeq with
          | error => rfl
          | ok n =>
            dsimp only [bind, Except.bind]
            by_cases hkn : k = n - 1
            · simp only [if_pos hkn]; rfl
            · simp only [if_neg hkn]
              cases draw s.rng (min (full - first) lo) (min (max lo (full - first - lo)) hi + 1) <;> rfl

theorem seqLoop_epoch (lens nsub : List Int) (e : Int) (f k : Nat) (s : V1St R) :
    seqLoop c lo hi lens nsub f k ({ s with epoch := e } : V1St R) =
      (seqLoop c lo hi lens nsub f k s).map (fun r => (r.1, { r.2 with epoch := e })) := by
  induction f generalizing k s with
  | zero => cases k <;> rfl
  | succ f ih =>
    cases k with
    | zero => rfl
    | succ k =>
      simp only [seqLoop]
      cases h1 : getE s.sub s.curSeq with
      | error => rfl
      | ok j =>
        cases h2 : getE nsub s.curSeq with
        | error => rfl
        | ok n =>
          dsimp only [bind, Except.bind]
          by_cases hj : j = n
          · simp only [if_pos hj]
            exact ih (k + 1) { s with curSeq := (s.curSeq + 1) % s.tab.length }
          · simp only [if_neg hj]
            rw [seqTake_epoch]
            cases h3 : seqTake c lo hi lens nsub s with
            | error => rfl
            | ok r =>
              obtain ⟨a, s1⟩ := r
              dsimp only [Except.map]
              rw [ih]
              cases seqLoop c lo hi lens nsub f k s1 <;> rfl

theorem body_epoch (fuel : Nat) (e : Int) (s : V1St R) :
    v1Body c rows fuel ({ s with epoch := e } : V1St R) = (v1Body c rows fuel s).map (fun r => (r.1, { r.2 with epoch := e })) := by
  have hf : ({ s with epoch := e } : V1St R).force rows = { s.force rows with epoch := e } := by
    unfold V1St.force; dsimp only; split <;> rfl
  have hl : ({ s with epoch := e } : V1St R).lensVal rows = s.lensVal rows := rfl
  unfold v1Body
  cases c.method with
  | fullSeqs => simp only [readFull]; split <;> rfl
  | random =>
    simp only [readRandom, hf, hl]
    cases minSeq c (s.lensVal rows) with
    | error => rfl
    | ok lo =>
      cases maxSeq c (s.lensVal rows) with
      | error => rfl
      | ok hi => exact repeatE_comm (fun t : V1St R => { t with epoch := e }) (fun t => randomOne_epoch _ e t) _ _
  | sequential =>
    simp only [readSeq, hf, hl]
    cases minSeq c (s.lensVal rows) with
    | error => rfl
    | ok lo =>
      cases maxSeq c (s.lensVal rows) with
      | error => rfl
      | ok hi => exact seqLoop_epoch _ _ e _ _ _

/-- during one epoch, the batches do not depend on the value of the epoch counter. -/
theorem epoch_batches {fuel k : Nat} {s s' : V1St R} {bs : List (List SubSeq)} {st : Int} (hs : Good c rows tab T lo hi s)
    (hst : s.steps c rows = .ok st) (hk : (s.curStep : Int) + k ≤ st) (e : Int) (h : v1Run c rows fuel k s = .ok (bs, s')) :
    ∃ t' : V1St R, v1Run c rows fuel k ({ s with epoch := e } : V1St R) = .ok (bs, t') := by
  unfold v1Run at h ⊢
  induction k generalizing s bs with
  | zero =>
    simp only [repeatE, Except.ok.injEq, Prod.mk.injEq] at h
    obtain ⟨rfl, _⟩ := h
    exact ⟨_, rfl⟩
  | succ k ih =>
    simp only [repeatE, bind_ok] at h
    obtain ⟨⟨b, s1⟩, h1, ⟨bs1, s2⟩, h2, h3⟩ := h
    simp only [Except.ok.injEq, Prod.mk.injEq] at h3
    obtain ⟨rfl, rfl⟩ := h3
    obtain ⟨sa, a1, a2, a3, a4, _, a5, a6, a7, a8⟩ := read_step hs hst h1
    have hb := body_epoch (c := c) (rows := rows) fuel e s
    rw [a1] at hb
    simp only [Except.map] at hb
    have hsa : ({ sa with epoch := e } : V1St R).steps c rows = .ok st := by
      rw [steps_eq (a2.setEpoch e) hs]; exact hst
    have htk : ∃ t1 : V1St R, v1Read c rows fuel ({ s with epoch := e } : V1St R) = .ok (b, t1) ∧
        (((s.curStep : Int) + 1) % st ≠ 0 → t1 = { s1 with epoch := e }) := by
      unfold v1Read
      simp only [bind_ok]
      have : ∃ t1 : V1St R, v1Tick c rows ({ sa with epoch := e } : V1St R) = .ok t1 ∧ (((s.curStep : Int) + 1) % st ≠ 0 → t1 = { s1 with epoch := e }) := by
        unfold v1Tick
        simp only [hsa, bind_ok, Except.ok.injEq]
        rcases a8 with ⟨b1, rfl⟩ | ⟨b1, s3, b2, rfl⟩
        · refine ⟨_, ⟨st, rfl, ?_⟩, fun _ => rfl⟩
          rw [if_neg a7]
          dsimp only
          rw [a3, if_neg b1]
        · obtain ⟨t3, ht3⟩ := reset_total ((a2.setEpoch e).zero 0).inv ((a2.setEpoch e).zero 0).nsub_len
          refine ⟨{ t3 with epoch := t3.epoch + 1 }, ⟨st, rfl, ?_⟩, fun h => absurd b1 h⟩
          rw [if_neg a7]
          rw [a3, if_pos b1]
          simp only [bind_ok]
          exact ⟨t3, ht3, rfl⟩
      obtain ⟨t1, ht1, ht2⟩ := this
      exact ⟨t1, ⟨_, hb, t1, ht1, rfl⟩, ht2⟩
    obtain ⟨t1, ht1, ht2⟩ := htk
    by_cases hz : ((s.curStep : Int) + 1) % st = 0
    · -- last step of the epoch
      have hk0 : k = 0 := by
        by_contra hne
        have : ((s.curStep : Int) + 1) % st = s.curStep + 1 := Int.emod_eq_of_lt (by omega) (by omega)
        omega
      subst hk0
      simp only [repeatE, Except.ok.injEq, Prod.mk.injEq] at h2
      obtain ⟨rfl, _⟩ := h2
      refine ⟨t1, ?_⟩
      simp only [repeatE, bind_ok]
      exact ⟨_, ht1, _, rfl, rfl⟩
    · rw [ht2 hz] at ht1
      have hcs : (s1.curStep : Int) + k ≤ st := by
        rcases a8 with ⟨b1, rfl⟩ | ⟨b1, _⟩
        · show ((((s.curStep : Int) + 1) % st).toNat : Int) + k ≤ st
          rcases Int.lt_or_le ((s.curStep : Int) + 1) st with hlt | hge
          · rw [Int.emod_eq_of_lt (by omega) hlt]; push_cast at hk; omega
          · have : (s.curStep : Int) + 1 = st := by push_cast at hk; omega
            rw [this] at hz; simp at hz
        · exact absurd b1 hz
      obtain ⟨t', ht'⟩ := ih a5 a6 hcs h2
      refine ⟨t', ?_⟩
      simp only [repeatE, bind_ok]
      exact ⟨_, ht1, _, ht', rfl⟩

/-- the state at the start of an epoch. -/
theorem epoch_end {fuel k : Nat} {s s' : V1St R} {bs : List (List SubSeq)} {st : Int} (hs : Good c rows tab T lo hi s)
    (hst : s.steps c rows = .ok st) (hpos : 0 < st) (hk : (s.curStep : Int) + k = st) (hk0 : 0 < k) (h : v1Run c rows fuel k s = .ok (bs, s')) :
    ∃ t s2 : V1St R, Good c rows tab T lo hi t ∧ t.epoch = s.epoch ∧ t.reset c rows = .ok s2 ∧ s' = { s2 with epoch := s2.epoch + 1 } := by
  unfold v1Run at h
  obtain ⟨k, rfl⟩ : ∃ j, k = j + 1 := ⟨k - 1, by omega⟩
  obtain ⟨l1, l2, sm, h1, h2, _⟩ := repeatE_add h
  have hlt : (s.curStep : Int) < st := by push_cast at hk; omega
  obtain ⟨g1, g2, g3⟩ := run_total hs hst hpos hlt h1
  simp only [repeatE, bind_ok] at h2
  obtain ⟨⟨b, s1⟩, h3, ⟨bs1, s2⟩, h4, h5⟩ := h2
  simp only [Except.ok.injEq, Prod.mk.injEq] at h4 h5
  obtain ⟨_, rfl⟩ := h4
  obtain ⟨_, rfl⟩ := h5
  have hst' : sm.steps c rows = .ok st := by rw [steps_eq g1 hs]; exact hst
  obtain ⟨sa, a1, a2, a3, a4, _, a5, a6, a7, a8⟩ := read_step g1 hst' h3
  have he : sm.epoch = s.epoch ∧ (sm.curStep : Int) + 1 = st := by
    push_cast at hk
    have h6 : (sm.epoch - s.epoch) * st = s.curStep + k - sm.curStep := by rw [Int.sub_mul]; omega
    have h7 : sm.epoch - s.epoch = 0 := by
      have ha : (sm.epoch - s.epoch) * st < 1 * st := by omega
      have hb : (-1) * st < (sm.epoch - s.epoch) * st := by omega
      have := Int.lt_of_mul_lt_mul_right ha (by omega)
      have := Int.lt_of_mul_lt_mul_right hb (by omega)
      omega
    rw [h7] at h6
    omega
  rcases a8 with ⟨b1, _⟩ | ⟨_, s3, b2, rfl⟩
  · rw [he.2] at b1; simp at b1
  · exact ⟨_, s3, a2.zero 0, by rw [← he.1]; exact a4, b2, rfl⟩

/-- C45 (a defect): with shuffling, the second epoch repeats the batches of the first one, for every random generator: the generator is
re-seeded before the epoch counter is increased. -/
theorem C45_v1_second_epoch_repeats_first (hc : CfgAligned c) (hsh : c.shuffle = true) {s0 s1 s2 : V1St R} (h0 : v1New c rows tab = .ok s0) {st : Nat}
    (hst : s0.steps c rows = .ok (st : Int)) (hpos : 0 < st) {fuel : Nat} {b1 b2 : List (List SubSeq)}
    (h1 : v1Run c rows fuel st s0 = .ok (b1, s1)) (h2 : v1Run c rows fuel st s1 = .ok (b2, s2)) : b2 = b1 := by
  obtain ⟨lo, hi, hg⟩ := new_good hc h0
  obtain ⟨_, p2, p3, p4, _⟩ := v1New_inv hc h0
  obtain ⟨u1, u2, u3, v1, v2, v3, v4⟩ := v1New_split h0
  obtain ⟨w1, w2, w3, w4, w5, w6, w7⟩ := pre_inv hc v1 v2 v3
  have hg3 : Good c rows tab s0.initTab lo hi u3 := by
    by_cases hm : c.method = .sequential
    · obtain ⟨lo', hi', hq⟩ := w7 hm
      have hit := (reset_spec w1 (seqinv_nsub_len hq) v4).2.1
      have hq0 := hg.seq hm
      have e1 : lo = lo' := by have := hq0.hlo; rw [hit, hq.hlo] at this; simpa using this.symm
      have e2 : hi = hi' := by have := hq0.hhi; rw [hit, hq.hhi] at this; simpa using this.symm
      subst e1 e2
      exact ⟨w1, hit.symm, fun h => absurd hm h, fun _ => hq⟩
    · have hit := (reset_spec w1 (Or.inl (w6 hm).1) v4).2.1
      exact ⟨w1, hit.symm, w6, fun h => absurd h hm⟩
  obtain ⟨t, s2', e1, e2, e3, e4⟩ := epoch_end hg hst (by exact_mod_cast hpos) (by rw [p4]; simp) hpos h1
  have e5 : s2' = s0 := reset_canon hsh e1 hg3 (by rw [e2, p2, w2]) e3 v4
  subst e5
  obtain ⟨t', ht'⟩ := epoch_batches hg hst (by rw [p4]; simp) (s2'.epoch + 1) h1
  rw [e4] at h2
  rw [ht'] at h2
  simp only [Except.ok.injEq, Prod.mk.injEq] at h2
  exact h2.1.symm

end Hyp.Gen
