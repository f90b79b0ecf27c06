import Verif.SeqReader.Post
import Verif.SeqReader.EpochProps
import Verif.Segments.ExtSegProps

/-! C142: features, posteriors and classes read together. -/

namespace Hyp.SeqReader
open Hyp.Text

variable {κ : Type}

/-- the part of a result that `SequenceReader` returns: path and rows of the features -/
def feats (l : List (PItem κ)) : List (Item κ) := l.map (fun p => ⟨p.key, p.rows⟩)

/-- the modes that `SequencePostReader` implements -/
def Supported (cfg : Cfg) : Prop := cfg.maxLen = none ∨ (cfg.mode ≠ .randomSamples ∧ cfg.mode ≠ .samples1)

theorem pReadRandom_fst (cfg : Cfg) (h1 : cfg.mode ≠ .randomSamples) (h2 : cfg.mode ≠ .samples1) (h3 : cfg.mode ≠ .sequential)
    (rng : Rng) (call L Lp num : Nat) : (pReadRandom cfg rng call L Lp num).map Prod.fst = readRandom cfg rng call L num := by
  have : cfg.mode = .randomSlice ∨ cfg.mode = .slice1 := by
    cases h : cfg.mode <;> simp_all
  unfold pReadRandom readRandom readRandomSlice
  rw [if_pos this, if_pos this]
  split <;> rfl

theorem pLoop_feats (B : Nat) (pstep : St κ → Option (St κ × List (PItem κ))) (step : St κ → Option (St κ × List (Item κ)))
    (h : ∀ st, (pstep st).map (fun r => (r.1, feats r.2)) = step st) : ∀ (n : Nat) (st : St κ) (acc : List (PItem κ)),
    (pLoop B pstep n st acc).map (fun r => (r.1, feats r.2)) = loop B step n st (feats acc)
  | 0, st, acc => rfl
  | n + 1, st, acc => by
    unfold pLoop loop
    rw [← h st]
    cases hp : pstep st with
    | none => rfl
    | some r =>
      simp only [Option.bind_eq_bind, Option.bind_some, Option.map_some]
      have e : feats acc ++ feats r.2 = feats (acc ++ r.2) := by simp [feats]
      have el : (feats (acc ++ r.2)).length = (acc ++ r.2).length := by simp only [feats, List.length_map]
      rw [e, el]
      by_cases hB : (acc ++ r.2).length = B
      · rw [if_pos hB, if_pos hB]; rfl
      · rw [if_neg hB, if_neg hB]; exact pLoop_feats B pstep step h n r.1 (acc ++ r.2)

theorem pCheck_feats (B : Nat) (r : St κ × List (PItem κ)) :
    (pCheckBatch B r).map (fun r => (r.1, feats r.2)) = checkBatch B (r.1, feats r.2) := by
  unfold pCheckBatch checkBatch
  have el : (feats r.2).length = r.2.length := by simp only [feats, List.length_map]
  simp only [el]
  split <;> rfl

theorem bind_feats (B : Nat) (x : Option (St κ × List (PItem κ))) (y : Option (St κ × List (Item κ)))
    (h : x.map (fun r => (r.1, feats r.2)) = y) :
    (x.bind (pCheckBatch B)).map (fun r => (r.1, feats r.2)) = y.bind (checkBatch B) := by
  subst h
  cases x with
  | none => rfl
  | some r => exact pCheck_feats B r

theorem pStepSequential_feats (plen : κ → Nat) (cfg : Cfg) (m : Nat) (st : St κ) :
    (pStepSequential plen cfg m st).map (fun r => (r.1, feats r.2)) = stepSequential cfg m st := by
  unfold pStepSequential stepSequential
  cases st.seqs[st.cur]? with
  | none => rfl
  | some s =>
    simp only [Option.bind_eq_bind, Option.bind_some]
    split <;> rfl

theorem pStepRandom_feats (plen : κ → Nat) (cfg : Cfg) (h1 : cfg.mode ≠ .randomSamples) (h2 : cfg.mode ≠ .samples1)
    (h3 : cfg.mode ≠ .sequential) (rng : Rng) (m : Nat) (st : St κ) :
    (pStepRandom plen cfg rng m st).map (fun r => (r.1, feats r.2)) = stepRandom cfg rng m st := by
  unfold pStepRandom stepRandom
  cases st.seqs[st.cur]? with
  | none => rfl
  | some s =>
    simp only [Option.bind_eq_bind, Option.bind_some]
    split
    · rw [← pReadRandom_fst cfg h1 h2 h3 rng st.calls s.2 (plen s.1)]
      simp only [Option.map_map]
      rfl
    · rfl

theorem mapM_feats {α β γ : Type} (f : α → Option β) (g : α → Option γ) (t : β → γ) (h : ∀ a, (f a).map t = g a) (l : List α) :
    (l.mapM f).map (List.map t) = l.mapM g := by
  induction l with
  | nil => rfl
  | cons a l ih =>
    rw [List.mapM_cons, List.mapM_cons, ← h a, ← ih]
    cases f a with
    | none => rfl
    | some b => cases l.mapM f <;> rfl

theorem pRead1_feats (plen : κ → Nat) (cfg : Cfg) (h1 : cfg.mode ≠ .randomSamples) (h2 : cfg.mode ≠ .samples1)
    (h3 : cfg.mode ≠ .sequential) (rng : Rng) (m : Nat) (st : St κ) :
    (pRead1 plen cfg rng m st).map (fun r => (r.1, feats r.2)) = read1 cfg rng m st := by
  unfold pRead1 read1
  dsimp only
  generalize linLoop cfg.batch (fun s => decide (0 < numSubs cfg s.2)) (st.seqs.drop st.cur) st.cur [] = r
  have key := mapM_feats
    (fun (p : (κ × Nat) × Nat) => (pReadRandom cfg rng (st.calls + p.2) p.1.2 (plen p.1.1) (min m p.1.2)).map (fun rows => (⟨p.1.1, rows.1, rows.2⟩ : PItem κ)))
    (fun (p : (κ × Nat) × Nat) => (readRandom cfg rng (st.calls + p.2) p.1.2 (min m p.1.2)).map (fun rows => (⟨p.1.1, rows⟩ : Item κ)))
    (fun p => ⟨p.key, p.rows⟩) (fun p => by
      rw [← pReadRandom_fst cfg h1 h2 h3 rng _ _ (plen p.1.1)]
      simp only [Option.map_map]; rfl) r.2.zipIdx
  rw [← key]
  cases ho : r.2.zipIdx.mapM (fun (p : (κ × Nat) × Nat) => (pReadRandom cfg rng (st.calls + p.2) p.1.2 (plen p.1.1) (min m p.1.2)).map (fun rows => (⟨p.1.1, rows.1, rows.2⟩ : PItem κ))) with
  | none => rfl
  | some items => exact pCheck_feats _ _

theorem pReadFull_feats (plen : κ → Nat) (cfg : Cfg) (st : St κ) :
    (pReadFull plen cfg st).map (fun r => (r.1, feats r.2)) = readFull cfg st := by
  unfold pReadFull readFull
  split
  · simp [feats, Function.comp_def]
  · dsimp only
    rw [pCheck_feats]
    simp [feats, Function.comp_def]

theorem pReadBody_feats (plen : κ → Nat) (cfg : Cfg) (hc : Supported cfg) (rng : Rng) (st : St κ) :
    (pReadBody plen cfg rng st).map (fun r => (r.1, feats r.2)) = readBody cfg rng st := by
  unfold pReadBody readBody
  cases hm : cfg.maxLen with
  | none => exact pReadFull_feats plen cfg st
  | some m =>
    have hc' : cfg.mode ≠ .randomSamples ∧ cfg.mode ≠ .samples1 := by
      rcases hc with h | h
      · rw [hm] at h; cases h
      · exact h
    dsimp only
    cases hmode : cfg.mode with
    | sequential => exact bind_feats _ _ _ (pLoop_feats _ _ _ (pStepSequential_feats plen cfg m) _ _ [])
    | randomSlice =>
      exact bind_feats _ _ _ (pLoop_feats _ _ _ (pStepRandom_feats plen cfg hc'.1 hc'.2 (by rw [hmode]; decide) rng m) _ _ [])
    | randomSamples => exact absurd hmode hc'.1
    | slice1 => exact pRead1_feats plen cfg hc'.1 hc'.2 (by rw [hmode]; decide) rng m st
    | samples1 => exact absurd hmode hc'.2

theorem pRead_feats (plen : κ → Nat) (cfg : Cfg) (hc : Supported cfg) (rng : Rng) (shuf : List (κ × Nat) → List (κ × Nat)) (st : St κ) :
    (pRead plen cfg rng shuf st).map (fun r => (r.1, feats r.2)) = read cfg rng shuf st := by
  unfold pRead read
  rw [← pReadBody_feats plen cfg hc]
  generalize pReadBody plen cfg rng _ = o
  cases o <;> rfl

/-- **C142 (features).** In the modes it implements, a reader of features and posteriors returns at every one of its reads
the same features, in the same order and with the same keys, as the reader of features alone: C112 and C113 hold of it. -/
theorem C142_same_features (plen : κ → Nat) (cfg : Cfg) (hc : cfg.maxLen = none ∨ (cfg.mode ≠ .randomSamples ∧ cfg.mode ≠ .samples1))
    (rng : Rng) (shuf : List (κ × Nat) → List (κ × Nat)) : ∀ (n : Nat) (st : St κ),
    (pReads plen cfg rng shuf n st).map (fun r => (r.1, r.2.map (fun b => b.map (fun p => (⟨p.key, p.rows⟩ : Item κ))))) =
      reads cfg rng shuf n st
  | 0, st => rfl
  | n + 1, st => by
    unfold pReads reads
    rw [← pRead_feats plen cfg hc]
    cases pRead plen cfg rng shuf st with
    | none => rfl
    | some r =>
      simp only [Option.bind_eq_bind, Option.bind_some, Option.map_some]
      rw [← C142_same_features plen cfg hc rng shuf n r.1]
      generalize pReads plen cfg rng shuf n r.1 = o
      cases o <;> rfl

/-! ### alignment -/

/-- items whose posteriors are of the rows of the features, and states in which every sequence has as many rows of
posteriors as of features -/
def Aligned (l : List (PItem κ)) : Prop := ∀ p ∈ l, p.post = p.rows

def SameLen (plen : κ → Nat) (st : St κ) : Prop := ∀ s ∈ st.seqs, plen s.1 = s.2

theorem pReadRandom_al (cfg : Cfg) (rng : Rng) (call L num : Nat) (r : List Nat × List Nat)
    (h : pReadRandom cfg rng call L L num = some r) : r.2 = r.1 := by
  unfold pReadRandom at h
  split at h
  · split at h
    · cases h
    · injection h with h; rw [← h]
  · cases h

theorem pStepSequential_al (plen : κ → Nat) (cfg : Cfg) (m : Nat) (st : St κ) (r : St κ × List (PItem κ)) (hs : SameLen plen st)
    (h : pStepSequential plen cfg m st = some r) : r.1.seqs = st.seqs ∧ Aligned r.2 := by
  unfold pStepSequential at h
  cases he : st.seqs[st.cur]? with
  | none => rw [he] at h; cases h
  | some s =>
    have hsl := hs s (List.mem_of_getElem? he)
    simp only [he, Option.bind_eq_bind, Option.bind_some] at h
    split at h
    · injection h with h; subst h
      refine ⟨rfl, fun p hp => ?_⟩
      rw [List.mem_singleton] at hp
      rw [hp]; dsimp only; rw [hsl]
    · injection h with h; subst h
      exact ⟨rfl, fun p hp => absurd hp (by simp)⟩

theorem pStepRandom_al (plen : κ → Nat) (cfg : Cfg) (rng : Rng) (m : Nat) (st : St κ) (r : St κ × List (PItem κ)) (hs : SameLen plen st)
    (h : pStepRandom plen cfg rng m st = some r) : r.1.seqs = st.seqs ∧ Aligned r.2 := by
  unfold pStepRandom at h
  cases he : st.seqs[st.cur]? with
  | none => rw [he] at h; cases h
  | some s =>
    have hsl := hs s (List.mem_of_getElem? he)
    simp only [he, Option.bind_eq_bind, Option.bind_some] at h
    split at h
    · rw [hsl] at h
      obtain ⟨rows, hrows, hr⟩ := Option.map_eq_some_iff.1 h
      subst hr
      refine ⟨rfl, fun p hp => ?_⟩
      rw [List.mem_singleton] at hp
      rw [hp]; exact pReadRandom_al cfg rng _ _ _ rows hrows
    · injection h with h; subst h
      exact ⟨rfl, fun p hp => absurd hp (by simp)⟩

theorem pLoop_al (plen : κ → Nat) (B : Nat) (step : St κ → Option (St κ × List (PItem κ)))
    (hstep : ∀ st r, SameLen plen st → step st = some r → r.1.seqs = st.seqs ∧ Aligned r.2) :
    ∀ (n : Nat) (st : St κ) (acc : List (PItem κ)) (r : St κ × List (PItem κ)), SameLen plen st → Aligned acc →
      pLoop B step n st acc = some r → r.1.seqs = st.seqs ∧ Aligned r.2
  | 0, st, acc, r, _, ha, h => by
    injection h with h; subst h; exact ⟨rfl, ha⟩
  | n + 1, st, acc, r, hs, ha, h => by
    unfold pLoop at h
    cases hp : step st with
    | none => rw [hp] at h; cases h
    | some q =>
      obtain ⟨h1, h2⟩ := hstep st q hs hp
      have ha' : Aligned (acc ++ q.2) := fun p hp => (List.mem_append.1 hp).elim (ha p) (h2 p)
      simp only [hp, Option.bind_eq_bind, Option.bind_some] at h
      split at h
      · injection h with h; subst h; exact ⟨h1, ha'⟩
      · have := pLoop_al plen B step hstep n q.1 _ r (fun s h => hs s (h1 ▸ h)) ha' h
        exact ⟨this.1.trans h1, this.2⟩

theorem pCheck_some (B : Nat) (x r : St κ × List (PItem κ)) (h : pCheckBatch B x = some r) : r = x ∧ r.2.length = B := by
  unfold pCheckBatch at h
  split at h
  · injection h with h; subst h; exact ⟨rfl, by assumption⟩
  · cases h

theorem linLoop_mem (B : Nat) (elig : κ × Nat → Bool) : ∀ (rest : List (κ × Nat)) (cur : Nat) (acc : List (κ × Nat)) (s : κ × Nat),
    s ∈ (linLoop B elig rest cur acc).2 → s ∈ acc ∨ s ∈ rest
  | [], _, _, _, h => Or.inl h
  | a :: rest, cur, acc, s, h => by
    unfold linLoop at h
    have hsub : ∀ t, t ∈ (if elig a then acc ++ [a] else acc) → t ∈ acc ∨ t ∈ a :: rest := by
      intro t ht
      split at ht
      · rcases List.mem_append.1 ht with h1 | h1
        · exact Or.inl h1
        · rw [List.mem_singleton] at h1; subst h1; exact Or.inr List.mem_cons_self
      · exact Or.inl ht
    generalize (if elig a then acc ++ [a] else acc) = acc' at h hsub
    split at h
    · exact hsub s h
    · rcases linLoop_mem B elig rest _ _ s h with h1 | h1
      · exact hsub s h1
      · exact Or.inr (List.mem_cons_of_mem _ h1)

theorem pReadBody_al (plen : κ → Nat) (cfg : Cfg) (rng : Rng) (st : St κ) (r : St κ × List (PItem κ)) (hs : SameLen plen st)
    (h : pReadBody plen cfg rng st = some r) : r.1.seqs = st.seqs ∧ Aligned r.2 := by
  have hloop : ∀ (step : St κ → Option (St κ × List (PItem κ))),
      (∀ st r, SameLen plen st → step st = some r → r.1.seqs = st.seqs ∧ Aligned r.2) →
      (pLoop cfg.batch step (total cfg st.seqs).toNat st []).bind (pCheckBatch cfg.batch) = some r →
      r.1.seqs = st.seqs ∧ Aligned r.2 := by
    intro step hstep h
    obtain ⟨x, hx, hc⟩ := Option.bind_eq_some_iff.1 h
    obtain ⟨rfl, _⟩ := pCheck_some _ _ _ hc
    exact pLoop_al plen _ step hstep _ st [] _ hs (fun p hp => absurd hp (by simp)) hx
  have h1 : ∀ m, pRead1 plen cfg rng m st = some r → r.1.seqs = st.seqs ∧ Aligned r.2 := by
    intro m h
    unfold pRead1 at h
    dsimp only at h
    have hmem := linLoop_mem cfg.batch (fun s => decide (0 < numSubs cfg s.2)) (st.seqs.drop st.cur) st.cur []
    generalize linLoop cfg.batch (fun s => decide (0 < numSubs cfg s.2)) (st.seqs.drop st.cur) st.cur [] = l at h hmem
    obtain ⟨items, hi, hc⟩ := Option.bind_eq_some_iff.1 h
    obtain ⟨rfl, _⟩ := pCheck_some _ _ _ hc
    refine ⟨rfl, fun p hp => ?_⟩
    rw [mapM_eq_some_iff] at hi
    have : some p ∈ items.map some := List.mem_map_of_mem hp
    rw [← hi] at this
    obtain ⟨q, hq, hq2⟩ := List.mem_map.1 this
    have hqm : q.1 ∈ l.2 := by
      have := List.mem_zipIdx' (x := q.1) (i := q.2) hq
      rw [this.2]; exact List.getElem_mem _
    have hsl : plen q.1.1 = q.1.2 := hs _ ((hmem q.1 hqm).elim (fun h => absurd h (by simp)) List.mem_of_mem_drop)
    rw [hsl] at hq2
    obtain ⟨rows, hrows, he⟩ := Option.map_eq_some_iff.1 hq2
    rw [← he]; exact pReadRandom_al cfg rng _ _ _ rows hrows
  unfold pReadBody at h
  cases hm : cfg.maxLen with
  | none =>
    rw [hm] at h
    unfold pReadFull at h
    dsimp only at h
    have hmem := linLoop_mem cfg.batch (fun s => decide (cfg.minLen < s.2)) (st.seqs.drop st.cur) st.cur []
    split at h
    · injection h with h; subst h
      refine ⟨rfl, fun p hp => ?_⟩
      obtain ⟨s, hs', rfl⟩ := List.mem_map.1 hp
      dsimp only
      rw [hs s (List.mem_of_mem_drop (List.mem_of_mem_take hs'))]
    · obtain ⟨rfl, _⟩ := pCheck_some _ _ _ h
      refine ⟨rfl, fun p hp => ?_⟩
      obtain ⟨s, hs', rfl⟩ := List.mem_map.1 hp
      dsimp only
      rw [hs s ((hmem s hs').elim (fun h => absurd h (by simp)) List.mem_of_mem_drop)]
  | some m =>
    rw [hm] at h
    dsimp only at h
    cases hmode : cfg.mode with
    | sequential => rw [hmode] at h; exact hloop _ (fun st r => pStepSequential_al plen cfg m st r) h
    | randomSlice => rw [hmode] at h; exact hloop _ (fun st r => pStepRandom_al plen cfg rng m st r) h
    | randomSamples => rw [hmode] at h; exact hloop _ (fun st r => pStepRandom_al plen cfg rng m st r) h
    | slice1 => rw [hmode] at h; exact h1 m h
    | samples1 => rw [hmode] at h; exact h1 m h

/-- **C142 (alignment).** When every sequence of the list has as many rows of posteriors as of features, every
sub-sequence that any number of reads returns - in every mode, with every outcome of the random numbers and of the shuffling
- has the posteriors of exactly the rows of its features. -/
theorem C142_aligned (plen : κ → Nat) (cfg : Cfg) (rng : Rng) (shuf : List (κ × Nat) → List (κ × Nat))
    (hshuf : ∀ l, (shuf l).Perm l) : ∀ (n : Nat) (st st' : St κ) (bs : List (List (PItem κ))),
    (∀ s ∈ st.seqs, plen s.1 = s.2) → pReads plen cfg rng shuf n st = some (st', bs) →
    ∀ b ∈ bs, ∀ p ∈ b, p.post = p.rows
  | 0, st, st', bs, _, h => by
    injection h with h; injection h with _ h; subst h; intro b hb; simp at hb
  | n + 1, st, st', bs, hs, h => by
    unfold pReads at h
    obtain ⟨r, hr, h⟩ := Option.bind_eq_some_iff.1 h
    obtain ⟨rs, hrs, h⟩ := Option.bind_eq_some_iff.1 h
    injection h with h; injection h with _ h; subst h
    unfold pRead at hr
    obtain ⟨q, hq, hr⟩ := Option.bind_eq_some_iff.1 hr
    injection hr with hr
    have hs' : SameLen plen (if needsReset cfg st then reset shuf st else st) := by
      intro s hs1
      split at hs1
      · exact hs s ((hshuf st.seqs).mem_iff.1 hs1)
      · exact hs s hs1
    obtain ⟨e1, e2⟩ := pReadBody_al plen cfg rng _ q hs' hq
    subst hr
    intro b hb
    rcases List.mem_cons.1 hb with rfl | hb
    · exact e2
    · refine C142_aligned plen cfg rng shuf hshuf n _ rs.1 rs.2 ?_ hrs b hb
      intro s hs1
      exact hs' s (by rw [← e1]; exact hs1)

/-- **C142 (modes).** The two modes that read random samples are not implemented: every read of a positive number of
sub-sequences raises. -/
theorem C142_no_samples (plen : κ → Nat) (cfg : Cfg) (rng : Rng) (shuf : List (κ × Nat) → List (κ × Nat)) (st : St κ) (m : Nat)
    (hm : cfg.maxLen = some m) (hmode : cfg.mode = .randomSamples ∨ cfg.mode = .samples1) (hB : 0 < cfg.batch) :
    pRead plen cfg rng shuf st = none := by
  have hr : ∀ call L Lp num, pReadRandom cfg rng call L Lp num = none := fun call L Lp num => by
    unfold pReadRandom; rw [if_neg (by rcases hmode with h | h <;> simp [h])]
  have hbody : ∀ st, pReadBody plen cfg rng st = none := by
    intro st
    have hloop : ∀ n st x, pLoop cfg.batch (pStepRandom plen cfg rng m) n st [] = some x → x.2 = [] := by
      intro n
      induction n with
      | zero => intro st x h; injection h with h; rw [← h]
      | succ n ih =>
        intro st x h
        unfold pLoop at h
        obtain ⟨q, hq, h⟩ := Option.bind_eq_some_iff.1 h
        have hq2 : q.2 = [] := by
          unfold pStepRandom at hq
          cases he : st.seqs[st.cur]? with
          | none => rw [he] at hq; cases hq
          | some s =>
            simp only [he, Option.bind_eq_bind, Option.bind_some, hr, Option.map_none] at hq
            split at hq
            · cases hq
            · injection hq with hq; rw [← hq]
        rw [hq2, List.append_nil, if_neg (by simp; omega)] at h
        exact ih q.1 x h
    have hl : (pLoop cfg.batch (pStepRandom plen cfg rng m) (total cfg st.seqs).toNat st []).bind (pCheckBatch cfg.batch) = none := by
      rw [Option.bind_eq_none_iff]
      intro x hx
      unfold pCheckBatch
      rw [hloop _ _ _ hx, if_neg (by simp; omega)]
    have h1 : pRead1 plen cfg rng m st = none := by
      unfold pRead1
      dsimp only
      generalize linLoop cfg.batch (fun s => decide (0 < numSubs cfg s.2)) (st.seqs.drop st.cur) st.cur [] = l
      simp only [hr, Option.map_none]
      cases hz : l.2.zipIdx with
      | nil =>
        show pCheckBatch _ _ = none
        unfold pCheckBatch
        rw [if_neg (by simp; omega)]
      | cons a t => rfl
    unfold pReadBody
    rw [hm]
    dsimp only
    rcases hmode with h | h
    · rw [h]; exact hl
    · rw [h]; exact h1
  unfold pRead
  rw [hbody]; rfl

/-! ### classes -/

theorem enumDict_length {α : Type} [DecidableEq α] (l : List α) (h : l.Nodup) : (enumDict l).length = l.length := by
  unfold enumDict
  have := Segments.foldl_dictSet_new (d := []) (fun p : α × Nat => p.1) (fun p => p.2) (l := l.zipIdx) (by simpa using h)
  rw [this]; simp

/-- **C142 (classes).** With a class file whose lines begin with different names and a list in which every sequence appears
once with the name of a class of the file, the labels of any sequences of the list are rows with a one at the line of the
class of the sequence and zeros in the other columns, one column per line. -/
theorem C142_labels [DecidableEq κ] (lines : List Str) (names : List Str) (hnames : lines.map (fun l => (splitWs l).head?) = names.map some)
    (hnd : names.Nodup) (scp : List (Str × κ)) (hp : (scp.map Prod.snd).Nodup) (hc : ∀ e ∈ scp, e.1 ∈ names) :
    ∃ t, classTable lines scp = some t ∧ ∀ sel : List (Str × κ), (∀ e ∈ sel, e ∈ scp) →
      labels t (sel.map Prod.snd) = some (sel.map (fun e => names.map (fun n => if n = e.1 then 1 else 0))) := by
  have hd : classDict lines = some (enumDict names) := by
    unfold classDict
    rw [mapM_eq_some_iff.2 hnames]; rfl
  have hget : ∀ e ∈ scp, dictGet (enumDict names) e.1 = some (names.idxOf e.1) := fun e he =>
    enumDict_get_nodup hnd (by
      rw [List.getElem?_eq_getElem (List.idxOf_lt_length_of_mem (hc e he)), List.getElem_idxOf])
  let cs : List (κ × Nat) := scp.map (fun e => (e.2, names.idxOf e.1))
  have hcs : scp.mapM (fun e => (dictGet (enumDict names) e.1).map (fun c => (e.2, c))) = some cs := by
    rw [mapM_eq_some_iff, List.map_map]
    refine List.map_congr_left (fun e he => ?_)
    rw [hget e he]; rfl
  have hfold : cs.foldl (fun t e => dictSet t e.1 e.2) [] = cs := by
    have := Segments.foldl_dictSet_new (d := []) (fun p : κ × Nat => p.1) (fun p => p.2) (l := cs)
      (by rw [List.map_nil, List.nil_append, List.map_map]; exact hp)
    rw [this]; simp
  refine ⟨(names.length, cs), ?_, fun sel hsel => ?_⟩
  · unfold classTable
    rw [hd]
    simp only [Option.bind_eq_bind, Option.bind_some]
    rw [hcs]
    simp only [Option.bind_some]
    rw [hfold, enumDict_length _ hnd]; rfl
  · unfold labels
    rw [mapM_eq_some_iff, List.map_map, List.map_map]
    refine List.map_congr_left (fun e he => ?_)
    have hin := hsel e he
    have hg : dictGet cs e.2 = some (names.idxOf e.1) := by
      rw [Segments.dictGet_eq_iff (by rw [List.map_map]; exact hp)]
      exact List.mem_map.2 ⟨e, hin, rfl⟩
    have hlt := List.idxOf_lt_length_of_mem (hc e hin)
    show oneHot _ _ = some _
    unfold oneHot
    dsimp only
    rw [hg]
    dsimp only
    rw [if_pos hlt]
    congr 1
    apply List.ext_getElem
    · simp
    · intro j hj hj'
      have hjn : j < names.length := by simpa using hj'
      rw [List.getElem_map, List.getElem_set, List.getElem_replicate]
      by_cases hji : names.idxOf e.1 = j
      · subst hji; rw [if_pos rfl, List.getElem_idxOf, if_pos rfl]
      · rw [if_neg hji, if_neg]
        intro he2
        apply hji
        have := (hnd.getElem_inj_iff (hi := hlt) (hj := hjn)).1 (by rw [List.getElem_idxOf, he2])
        exact this

/-- **C142 (repeated classes).** A class file that repeats a name has fewer columns than lines: the class of the last line
is out of range. -/
theorem C142_repeated_class : ∃ t, classTable ([['a'], ['b'], ['a']] : List Str) [(['a'], 0), (['b'], 1)] = some t ∧
    labels t [1] = some [[0, 1]] ∧ labels t [0] = none := by
  exact ⟨(2, [(0, 2), (1, 1)]), by decide, by decide, by decide⟩

/-- non-vacuity: two sequences, slices of four rows with an overlap of one -/
example : pReads (fun k : Nat => if k = 0 then 9 else 6) ⟨2, 1, some 4, .sequential, 1⟩ exRng id 2 (init [(0, 9), (1, 6)]) ≠ none ∧
    ((pReads (fun k : Nat => if k = 0 then 9 else 6) ⟨2, 1, some 4, .sequential, 1⟩ exRng id 1 (init [(0, 9), (1, 6)])).map Prod.snd) =
      some [[⟨0, [0, 1, 2, 3], [0, 1, 2, 3]⟩, ⟨1, [0, 1, 2, 3], [0, 1, 2, 3]⟩]] := by
  constructor
  · intro h
    have := congrArg Option.isSome h
    revert this; decide
  · decide

/-- non-vacuity: classes -/
example : ([['a', ' ', 'x'], ['b']] : List Str).map (fun l => (splitWs l).head?) = ([['a'], ['b']] : List Str).map some ∧
    (classTable ([['a', ' ', 'x'], ['b']] : List Str) [(['b'], 0), (['a'], 1)]).bind (fun t => labels t [0, 1]) = some [[0, 1], [1, 0]] := by
  decide

end Hyp.SeqReader
