import Verif.SeqReader.EpochProps
import Mathlib.Data.List.Forall2

/-! Property C113: epochs of the linear modes (whole sequences, `random_slice_1seq`, `random_samples_1seq`). -/

namespace Hyp.SeqReader
open scoped BigOperators

variable {κ : Type} [DecidableEq κ]

theorem linLoop_eq (B : Nat) (elig : κ × Nat → Bool) (rest : List (κ × Nat)) : ∀ (cur : Nat) (acc : List (κ × Nat)), acc.length < B →
    B ≤ acc.length + (rest.filter elig).length →
    ∃ a, linLoop B elig rest cur acc = (cur + a, acc ++ (rest.filter elig).take (B - acc.length)) ∧ a ≤ rest.length ∧
      (rest.drop a).filter elig = (rest.filter elig).drop (B - acc.length) := by
  induction rest with
  | nil =>
    intro cur acc h1 h2
    simp at h2
    omega
  | cons s rest ih =>
    intro cur acc h1 h2
    unfold linLoop
    by_cases he : elig s = true
    · simp only [he, if_true]
      rw [List.filter_cons_of_pos he] at h2 ⊢
      by_cases hl : (acc ++ [s]).length = B
      · rw [if_pos hl]
        have e : B - acc.length = 1 := by
          simp at hl
          omega
        refine ⟨1, ?_, by simp, ?_⟩
        · rw [e]
          simp
        · rw [e]
          simp
      · rw [if_neg hl]
        simp only [List.length_append, List.length_cons, List.length_nil] at hl h2
        obtain ⟨a, b1, b2, b3⟩ := ih (cur + 1) (acc ++ [s]) (by simp; omega) (by simp; omega)
        refine ⟨a + 1, ?_, by simp [b2], ?_⟩
        · rw [b1]
          have e : B - acc.length = (B - (acc ++ [s]).length) + 1 := by simp; omega
          rw [e, List.take_succ_cons, List.append_assoc]
          simp
          omega
        · have e : B - acc.length = (B - (acc ++ [s]).length) + 1 := by simp; omega
          rw [e, List.drop_succ_cons, List.drop_succ_cons]
          exact b3
    · simp only [he, if_false, Bool.false_eq_true]
      rw [List.filter_cons_of_neg he] at h2 ⊢
      rw [if_neg (by omega)]
      obtain ⟨a, b1, b2, b3⟩ := ih (cur + 1) acc h1 h2
      refine ⟨a + 1, ?_, by simp [b2], ?_⟩
      · rw [b1]
        simp
        omega
      · rw [List.drop_succ_cons]
        exact b3

/-- the state before batch `j` of an epoch -/
structure Lin (S E : List (κ × Nat)) (elig : κ × Nat → Bool) (B j : Nat) (st : St κ) : Prop where
  seqs : st.seqs = S
  batch : st.batch = (j : Int)
  rest : (S.drop st.cur).filter elig = E.drop (j * B)

theorem lin_epoch (cfg : Cfg) (rng : Rng) (shuf : List (κ × Nat) → List (κ × Nat)) (hB : 0 < cfg.batch) (S E : List (κ × Nat)) (elig : κ × Nat → Bool)
    (Q : Item κ → κ × Nat → Prop) (htot : (E.length : Int) ≤ total cfg S)
    (hbody : ∀ j st, Lin S E elig cfg.batch j st → (j + 1) * cfg.batch ≤ E.length → ∃ st' items, readBody cfg rng st = some (st', items) ∧
      Lin S E elig cfg.batch (j + 1) { st' with batch := st'.batch + 1 } ∧ List.Forall₂ Q items ((E.drop (j * cfg.batch)).take cfg.batch))
    (k : Nat) : ∀ j st, Lin S E elig cfg.batch j st → (j + k) * cfg.batch ≤ E.length → ∃ st' bs, reads cfg rng shuf k st = some (st', bs) ∧
      Lin S E elig cfg.batch (j + k) st' ∧ bs.length = k ∧ (∀ b ∈ bs, b.length = cfg.batch) ∧
      List.Forall₂ Q bs.flatten ((E.drop (j * cfg.batch)).take (k * cfg.batch)) := by
  induction k with
  | zero =>
    intro j st h1 h2
    exact ⟨st, [], rfl, h1, rfl, by simp, by simp⟩
  | succ k ih =>
    intro j st h1 h2
    have hj : (j + 1) * cfg.batch ≤ E.length := le_trans (Nat.mul_le_mul_right _ (by omega)) h2
    obtain ⟨st1, items, g1, g2, g3⟩ := hbody j st h1 hj
    have hnr : needsReset cfg st = false := by
      have := numBatches_lt cfg hB S j (le_trans (by exact_mod_cast hj) htot)
      rw [← this]
      exact needsReset_congr cfg _ _ h1.seqs h1.batch
    obtain ⟨st2, bs, f1, f2, f3, f4, f5⟩ := ih (j + 1) _ g2 (by rw [show j + 1 + k = j + (k + 1) by omega]; exact h2)
    refine ⟨st2, items :: bs, ?_, by rw [show j + (k + 1) = j + 1 + k by omega]; exact f2, by simp [f3], ?_, ?_⟩
    · unfold reads read
      rw [hnr]
      simp only [Bool.false_eq_true, if_false]
      rw [g1]
      simp only [Option.bind_eq_bind, Option.bind_some]
      rw [f1]
      rfl
    · intro b hb
      rcases List.mem_cons.1 hb with rfl | hb
      · rw [g3.length_eq, List.length_take, List.length_drop]
        rw [Nat.add_mul] at hj
        omega
      · exact f4 b hb
    · rw [List.flatten_cons]
      have e : (E.drop (j * cfg.batch)).take ((k + 1) * cfg.batch) =
          (E.drop (j * cfg.batch)).take cfg.batch ++ (E.drop ((j + 1) * cfg.batch)).take (k * cfg.batch) := by
        rw [show (k + 1) * cfg.batch = cfg.batch + k * cfg.batch by ring, List.take_add, List.drop_drop,
          show j * cfg.batch + cfg.batch = (j + 1) * cfg.batch by ring]
      rw [e]
      exact List.rel_append g3 f5

theorem lin_run (cfg : Cfg) (rng : Rng) (shuf : List (κ × Nat) → List (κ × Nat)) (hB : 0 < cfg.batch) (st : St κ) (elig : κ × Nat → Bool)
    (Q : Item κ → κ × Nat → Prop) (htot : (((shuf st.seqs).filter elig).length : Int) ≤ total cfg (shuf st.seqs))
    (hbody : ∀ j s, Lin (shuf st.seqs) ((shuf st.seqs).filter elig) elig cfg.batch j s → (j + 1) * cfg.batch ≤ ((shuf st.seqs).filter elig).length →
      ∃ st' items, readBody cfg rng s = some (st', items) ∧
      Lin (shuf st.seqs) ((shuf st.seqs).filter elig) elig cfg.batch (j + 1) { st' with batch := st'.batch + 1 } ∧
      List.Forall₂ Q items ((((shuf st.seqs).filter elig).drop (j * cfg.batch)).take cfg.batch))
    (h1 : st.batch = -1 ∨ st.batch = numBatches cfg st.seqs) (k : Nat) (hk : (k + 1) * cfg.batch ≤ ((shuf st.seqs).filter elig).length) :
    ∃ st' bs, reads cfg rng shuf (k + 1) st = some (st', bs) ∧ st'.seqs = shuf st.seqs ∧ st'.batch = ((k + 1 : Nat) : Int) ∧
      bs.length = k + 1 ∧ (∀ b ∈ bs, b.length = cfg.batch) ∧ List.Forall₂ Q bs.flatten (((shuf st.seqs).filter elig).take ((k + 1) * cfg.batch)) := by
  rw [reads_reset cfg rng shuf st h1 (fresh_notReset cfg hB shuf st k (le_trans (by exact_mod_cast hk) htot))]
  obtain ⟨st', bs, a1, a2, a3, a4, a5⟩ := lin_epoch cfg rng shuf hB (shuf st.seqs) _ elig Q htot hbody (k + 1) 0 (reset shuf st)
    ⟨rfl, rfl, by simp [reset]⟩ (by rw [Nat.zero_add]; exact hk)
  refine ⟨st', bs, a1, a2.seqs, by rw [a2.batch, Nat.zero_add], a3, a4, ?_⟩
  rw [Nat.zero_mul, List.drop_zero] at a5
  exact a5

theorem total_one (cfg : Cfg) (h : cfg.maxLen = none ∨ cfg.mode = .slice1 ∨ cfg.mode = .samples1) (S : List (κ × Nat)) :
    total cfg S = ((S.filter (fun s => decide (cfg.minLen ≤ s.2))).length : Int) := by
  have hn : ∀ L, numSubs cfg L = if cfg.minLen ≤ L then 1 else 0 := by
    intro L
    unfold numSubs
    rcases hm : cfg.maxLen with _ | m
    · rfl
    · rcases h with h | h
      · rw [hm] at h
        cases h
      · simp only
        rw [if_pos h]
  unfold total
  induction S with
  | nil => simp
  | cons s S ih =>
    rw [List.map_cons, List.sum_cons, ih, hn, List.filter_cons]
    by_cases hl : cfg.minLen ≤ s.2
    · simp [hl]
      ring
    · simp [hl]

theorem numSubs_one (cfg : Cfg) (h : cfg.mode = .slice1 ∨ cfg.mode = .samples1) (L : Nat) : 0 < numSubs cfg L ↔ cfg.minLen ≤ L := by
  unfold numSubs
  rcases hm : cfg.maxLen with _ | m
  · simp
    split <;> simp_all
  · simp only
    rw [if_pos h]
    split <;> simp_all

/-- C113: one sub-sequence per sequence. From the start of an epoch, the reads of the epoch do not raise; the batches have the batch size and consist, in the order of the
list, of one sub-sequence of each sequence of at least the minimum length: of the maximum length or of the length of the sequence, inside the sequence, of consecutive rows for
slices and of increasing rows for samples. -/
theorem C113_one_per_seq (cfg : Cfg) (rng : Rng) (hr : RngOk rng) (shuf : List (κ × Nat) → List (κ × Nat)) (m : Nat) (hm : cfg.maxLen = some m) (hm0 : 0 < m)
    (hmode : cfg.mode = .slice1 ∨ cfg.mode = .samples1) (hB : 0 < cfg.batch) (st : St κ) (hpos : ∀ s ∈ shuf st.seqs, 0 < s.2)
    (h1 : st.batch = -1 ∨ st.batch = ((st.seqs.map (fun s => numSubs cfg s.2)).sum / cfg.batch))
    (k : Nat) (hk : (k + 1) * cfg.batch ≤ ((shuf st.seqs).filter (fun s => decide (cfg.minLen ≤ s.2))).length) :
    ∃ st' bs, reads cfg rng shuf (k + 1) st = some (st', bs) ∧ st'.seqs = shuf st.seqs ∧ st'.batch = ((k + 1 : Nat) : Int) ∧
      bs.length = k + 1 ∧ (∀ b ∈ bs, b.length = cfg.batch) ∧
      List.Forall₂ (fun (it : Item κ) (s : κ × Nat) => it.key = s.1 ∧ it.rows.length = min m s.2 ∧
        (cfg.mode = .slice1 → ∃ a, a + it.rows.length ≤ s.2 ∧ it.rows = List.range' a it.rows.length) ∧
        (cfg.mode = .samples1 → it.rows.Pairwise (· ≤ ·) ∧ ∀ t ∈ it.rows, t < s.2))
        bs.flatten (((shuf st.seqs).filter (fun s => decide (cfg.minLen ≤ s.2))).take ((k + 1) * cfg.batch)) := by
  apply lin_run cfg rng shuf hB st (fun s => decide (cfg.minLen ≤ s.2)) _ (by rw [total_one cfg (Or.inr hmode)]) ?_ h1 k hk
  intro j s hs hj
  obtain ⟨S, hS⟩ : ∃ S, S = shuf st.seqs := ⟨_, rfl⟩
  rw [← hS] at hs hj hpos ⊢
  have helig : (fun s : κ × Nat => decide (0 < numSubs cfg s.2)) = (fun s => decide (cfg.minLen ≤ s.2)) := by
    funext x
    simp only [numSubs_one cfg hmode]
  have hb : readBody cfg rng s = read1 cfg rng m s := by
    unfold readBody
    rw [hm]
    rcases hmode with h | h <;> rw [h]
  obtain ⟨a, l1, l2, l3⟩ := linLoop_eq cfg.batch (fun s => decide (cfg.minLen ≤ s.2)) (s.seqs.drop s.cur) s.cur [] hB (by
    rw [hs.seqs, hs.rest, List.length_drop]
    rw [Nat.add_mul] at hj
    simp
    omega)
  simp only [List.length_nil, Nat.sub_zero, List.nil_append, Nat.add_zero] at l1 l3
  rw [hs.seqs, hs.rest] at l1
  rw [hs.seqs, hs.rest, List.drop_drop, List.drop_drop] at l3
  rw [hb]
  unfold read1
  rw [helig, hs.seqs, l1]
  obtain ⟨T, hT⟩ : ∃ T, T = (List.drop (j * cfg.batch) (S.filter (fun s => decide (cfg.minLen ≤ s.2)))).take cfg.batch := ⟨_, rfl⟩
  have hTl : T.length = cfg.batch := by
    rw [hT, List.length_take, List.length_drop]
    rw [Nat.add_mul] at hj
    omega
  have hTm : ∀ x ∈ T, 0 < x.2 := by
    intro x hx
    rw [hT] at hx
    exact hpos x (List.mem_filter.1 (List.mem_of_mem_drop (List.mem_of_mem_take hx))).1
  simp only [← hT]
  have hread : ∀ c L, 0 < L → ∃ rows, readRandom cfg rng c L (min m L) = some rows ∧ rows.length = min m L ∧
      (cfg.mode = .slice1 → ∃ a, a + rows.length ≤ L ∧ rows = List.range' a rows.length) ∧
      (cfg.mode = .samples1 → rows.Pairwise (· ≤ ·) ∧ ∀ t ∈ rows, t < L) := by
    intro c L hL
    unfold readRandom
    rcases hmode with h | h
    · rw [if_pos (Or.inr h)]
      unfold readRandomSlice
      rw [if_neg (by omega)]
      have hlt := hr.slice c (L - min m L + 1) (by omega)
      have hl : (List.range' (rng.slice c (L - min m L + 1)) (min m L)).length = min m L := List.length_range'
      refine ⟨_, rfl, ?_, (fun _ => ⟨rng.slice c (L - min m L + 1), ?_, ?_⟩), (fun h' => by rw [h] at h'; cases h')⟩
      · rw [sliceRows_eq _ _ _ (by omega), hl]
      · rw [sliceRows_eq _ _ _ (by omega), hl]
        omega
      · rw [sliceRows_eq _ _ _ (by omega), hl]
    · rw [if_neg (by rw [h]; simp), readRandomSamples_eq rng hr _ _ _ hL (by omega)]
      refine ⟨_, rfl, by rw [List.length_mergeSort, hr.length _ _ _ hL], (fun h' => by rw [h] at h'; cases h'), fun _ => ⟨mergeSort_pairwise _, ?_⟩⟩
      intro t ht
      rw [List.mem_mergeSort] at ht
      exact hr.lt _ _ _ t ht
  have hmap : ∀ (T : List (κ × Nat)) (o : Nat), (∀ x ∈ T, 0 < x.2) →
      ∃ items, (T.zipIdx o).mapM (fun (p : (κ × Nat) × Nat) => (readRandom cfg rng (s.calls + p.2) p.1.2 (min m p.1.2)).map
        (fun rows => (⟨p.1.1, rows⟩ : Item κ))) = some items ∧
      List.Forall₂ (fun (it : Item κ) (s : κ × Nat) => it.key = s.1 ∧ it.rows.length = min m s.2 ∧
        (cfg.mode = .slice1 → ∃ a, a + it.rows.length ≤ s.2 ∧ it.rows = List.range' a it.rows.length) ∧
        (cfg.mode = .samples1 → it.rows.Pairwise (· ≤ ·) ∧ ∀ t ∈ it.rows, t < s.2)) items T := by
    intro T
    induction T with
    | nil => exact fun o _ => ⟨[], rfl, List.Forall₂.nil⟩
    | cons x T ih =>
      intro o hx
      obtain ⟨items, e1, e2⟩ := ih (o + 1) (fun y hy => hx y (List.mem_cons_of_mem _ hy))
      obtain ⟨rows, e3, e4⟩ := hread (s.calls + o) x.2 (hx x (by simp))
      refine ⟨⟨x.1, rows⟩ :: items, ?_, List.Forall₂.cons ⟨rfl, e4⟩ e2⟩
      rw [List.zipIdx_cons, List.mapM_cons, e1, e3]
      rfl
  obtain ⟨items, e1, e2⟩ := hmap T 0 hTm
  refine ⟨{ s with cur := s.cur + a, calls := s.calls + T.length }, items, ?_, ⟨hs.seqs, ?_, ?_⟩, e2⟩
  · rw [e1]
    simp only [Option.bind_eq_bind, Option.bind_some, checkBatch]
    rw [if_pos (by rw [e2.length_eq, hTl]), hs.seqs]
  · simp [hs.batch]
  · rw [l3]
    congr 1
    ring

/-- C113: whole sequences. From the start of an epoch, the reads that fit in the sequences longer than the minimum (in all of them when the minimum is 0) do not raise; the
batches have the batch size and consist, in the order of the list, of all rows of each of these sequences. -/
theorem C113_full (cfg : Cfg) (rng : Rng) (shuf : List (κ × Nat) → List (κ × Nat)) (hm : cfg.maxLen = none) (hB : 0 < cfg.batch) (st : St κ)
    (h1 : st.batch = -1 ∨ st.batch = ((st.seqs.map (fun s => numSubs cfg s.2)).sum / cfg.batch))
    (k : Nat) (hk : (k + 1) * cfg.batch ≤ ((shuf st.seqs).filter (fun s => decide (cfg.minLen = 0 ∨ cfg.minLen < s.2))).length) :
    ∃ st' bs, reads cfg rng shuf (k + 1) st = some (st', bs) ∧ st'.seqs = shuf st.seqs ∧ st'.batch = ((k + 1 : Nat) : Int) ∧
      bs.length = k + 1 ∧ (∀ b ∈ bs, b.length = cfg.batch) ∧
      bs.flatten = (((shuf st.seqs).filter (fun s => decide (cfg.minLen = 0 ∨ cfg.minLen < s.2))).take ((k + 1) * cfg.batch)).map
        (fun s => ⟨s.1, List.range s.2⟩) := by
  have := lin_run cfg rng shuf hB st (fun s => decide (cfg.minLen = 0 ∨ cfg.minLen < s.2)) (fun it s => it = ⟨s.1, List.range s.2⟩) (by
    rw [total_one cfg (Or.inl hm)]
    have := List.Sublist.length_le (List.monotone_filter_right (shuf st.seqs) (p := fun s => decide (cfg.minLen = 0 ∨ cfg.minLen < s.2))
      (q := fun s => decide (cfg.minLen ≤ s.2)) (by intro x; simp; omega))
    exact_mod_cast this) ?_ h1 k hk
  · obtain ⟨st', bs, a1, a2, a3, a4, a5, a6⟩ := this
    refine ⟨st', bs, a1, a2, a3, a4, a5, ?_⟩
    rw [← List.forall₂_eq_eq_eq, List.forall₂_map_right_iff]
    exact a6
  intro j s hs hj
  obtain ⟨S, hS⟩ : ∃ S, S = shuf st.seqs := ⟨_, rfl⟩
  rw [← hS] at hs hj ⊢
  have hb : readBody cfg rng s = readFull cfg s := by
    unfold readBody
    rw [hm]
  rw [hb]
  unfold readFull
  by_cases h0 : cfg.minLen = 0
  · have hall : ∀ l : List (κ × Nat), l.filter (fun s => decide (cfg.minLen = 0 ∨ cfg.minLen < s.2)) = l := by
      intro l
      apply List.filter_eq_self.2
      intro x _
      simp [h0]
    have hrest := hs.rest
    rw [hall, hall] at hrest
    rw [hall] at hj
    rw [if_pos h0]
    refine ⟨_, _, rfl, ⟨hs.seqs, ?_, ?_⟩, ?_⟩
    · simp [hs.batch]
    · simp only
      rw [hall, hall, ← List.drop_drop, hrest, List.drop_drop]
      congr 1
      ring
    · rw [hs.seqs, hrest, hall, List.forall₂_map_left_iff]
      exact List.forall₂_same.2 (fun x _ => rfl)
  · rw [if_neg h0]
    have helig : (fun s : κ × Nat => decide (cfg.minLen < s.2)) = (fun s => decide (cfg.minLen = 0 ∨ cfg.minLen < s.2)) := by
      funext x
      simp [h0]
    obtain ⟨a, l1, l2, l3⟩ := linLoop_eq cfg.batch (fun s => decide (cfg.minLen = 0 ∨ cfg.minLen < s.2)) (s.seqs.drop s.cur) s.cur [] hB (by
      rw [hs.seqs, hs.rest, List.length_drop]
      rw [Nat.add_mul] at hj
      simp only [List.length_nil]
      omega)
    simp only [List.length_nil, Nat.sub_zero, List.nil_append] at l1 l3
    rw [hs.seqs, hs.rest] at l1
    rw [hs.seqs, hs.rest, List.drop_drop, List.drop_drop] at l3
    rw [helig, hs.seqs, l1]
    refine ⟨{ s with cur := s.cur + a }, ((List.drop (j * cfg.batch) (S.filter (fun s => decide (cfg.minLen = 0 ∨ cfg.minLen < s.2)))).take cfg.batch).map
      (fun s => ⟨s.1, List.range s.2⟩), ?_, ⟨hs.seqs, ?_, ?_⟩, ?_⟩
    · simp only [checkBatch]
      rw [if_pos (by
        rw [List.length_map, List.length_take, List.length_drop]
        rw [Nat.add_mul] at hj
        omega), hs.seqs]
    · simp [hs.batch]
    · rw [l3]
      congr 1
      ring
    · rw [List.forall₂_map_left_iff]
      exact List.forall₂_same.2 (fun x _ => rfl)

/-! ### a sequence of exactly the minimum length -/

/-- whole sequences of at least 5 rows, one per batch -/
def minCfg : Cfg := ⟨1, 5, none, .sequential, 0⟩

/-- C113: with whole sequences of 7 and 5 rows and minimum length 5, the epoch counts two batches, but the second read raises: a sequence of exactly the minimum length is
counted and not read. -/
theorem C113_min_length (rng : Rng) : (([(0, 7), (1, 5)] : List (Nat × Nat)).map (fun s => numSubs minCfg s.2)).sum = 2 ∧
    (∃ r, reads minCfg rng id 1 (init [(0, 7), (1, 5)]) = some r) ∧ reads minCfg rng id 2 (init [(0, 7), (1, 5)]) = none := by
  refine ⟨by decide, ⟨_, rfl⟩, rfl⟩

/-! ### non-vacuity -/

example : ∃ st' bs, reads minCfg exRng id 2 (init [(0, 7), (1, 3), (2, 6)]) = some (st', bs) ∧
    bs.flatten = [⟨0, List.range 7⟩, ⟨2, List.range 6⟩] := by
  obtain ⟨st', bs, a1, _, _, _, _, a6⟩ := C113_full minCfg exRng id rfl (by decide) (init [(0, 7), (1, 3), (2, 6)]) (Or.inl rfl) 1 (by decide)
  exact ⟨st', bs, a1, a6⟩

example : ∃ st' bs, reads ⟨1, 5, some 6, .samples1, 0⟩ exRng id 2 (init [(0, 7), (1, 3), (2, 5)]) = some (st', bs) ∧ bs.length = 2 := by
  obtain ⟨st', bs, a1, _, _, a4, _⟩ := C113_one_per_seq ⟨1, 5, some 6, .samples1, 0⟩ exRng exRng_ok id 6 rfl (by decide) (Or.inr rfl) (by decide)
    (init [(0, 7), (1, 3), (2, 5)]) (by decide) (Or.inl rfl) 1 (by decide)
  exact ⟨st', bs, a1, a4⟩

end Hyp.SeqReader
