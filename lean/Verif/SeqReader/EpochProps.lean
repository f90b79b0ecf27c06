import Verif.SeqReader.Props
import Mathlib.Data.List.Basic

/-! Property C112: epochs of the cyclic modes (`sequential`, `random_slice`, `random_samples`). -/

namespace Hyp.SeqReader
open scoped BigOperators

variable {κ : Type} [DecidableEq κ]

theorem total_nonneg (cfg : Cfg) (m : Nat) (hm : cfg.maxLen = some m) (h1 : cfg.mode ≠ .slice1) (h2 : cfg.mode ≠ .samples1) (ho : cfg.overlap < m)
    (S : List (κ × Nat)) (hlen : ∀ s ∈ S, cfg.overlap ≤ s.2) : ∀ s ∈ S, 0 ≤ numSubs cfg s.2 := by
  intro s hs
  obtain ⟨n, hn, _⟩ := C112_slices cfg m s.2 hm h1 h2 ho (hlen s hs)
  rw [hn]
  exact Int.natCast_nonneg _

section
variable {S : List (κ × Nat)} {F : St κ → Prop} {G : Nat → Nat → Item κ → Prop} {step : St κ → Option (St κ × List (Item κ))}

theorem ne_nil_of_le (cfg : Cfg) (hB : 0 < cfg.batch) (S : List (κ × Nat)) (k : Nat) (h : ((k + 1 : Nat) : Int) * cfg.batch ≤ total cfg S) : S ≠ [] := by
  rintro rfl
  simp only [total, List.map_nil, List.sum_nil] at h
  have : (0 : Int) < ((k + 1 : Nat) : Int) * cfg.batch := by positivity
  omega

theorem fresh_notReset (cfg : Cfg) (hB : 0 < cfg.batch) (shuf : List (κ × Nat) → List (κ × Nat)) (st : St κ) (k : Nat)
    (h : ((k + 1 : Nat) : Int) * cfg.batch ≤ total cfg (shuf st.seqs)) : needsReset cfg (reset shuf st) = false := by
  have h0 : ((0 + 1 : Nat) : Int) * cfg.batch ≤ total cfg (shuf st.seqs) := by
    refine le_trans ?_ h
    exact mul_le_mul_of_nonneg_right (by push_cast; omega) (by positivity)
  have := numBatches_lt cfg hB (shuf st.seqs) 0 h0
  rw [← this]
  exact needsReset_congr cfg _ _ rfl rfl

/-- an epoch from a state at which `read` starts a new one -/
theorem epoch_run (cfg : Cfg) (rng : Rng) (shuf : List (κ × Nat) → List (κ × Nat)) (hB : 0 < cfg.batch) (st : St κ)
    (hs : StepSpec (shuf st.seqs) (subN cfg (shuf st.seqs)) F G step)
    (hk : ((shuf st.seqs).map Prod.fst).Nodup) (hG : ∀ i (h : i < (shuf st.seqs).length) j it, G i j it → it.key = (shuf st.seqs)[i].1)
    (hbody : ∀ s, s.seqs = shuf st.seqs → readBody cfg rng s = (loop cfg.batch step (total cfg (shuf st.seqs)).toNat s []).bind (checkBatch cfg.batch))
    (hF : ∀ (st : St κ) (b : Int), F st → F { st with batch := b }) (hF0 : F (reset shuf st))
    (h1 : st.batch = -1 ∨ st.batch = numBatches cfg st.seqs) (k : Nat) (hkB : ((k + 1 : Nat) : Int) * cfg.batch ≤ total cfg (shuf st.seqs))
    (st' : St κ) (bs : List (List (Item κ))) (h : reads cfg rng shuf (k + 1) st = some (st', bs)) :
    bs.length = k + 1 ∧ (∀ b ∈ bs, b.length = cfg.batch) ∧ Inv (shuf st.seqs) (subN cfg (shuf st.seqs)) F G bs.flatten st' ∧ st'.batch = ((k + 1 : Nat) : Int) := by
  have hne := ne_nil_of_le cfg hB _ k hkB
  rw [reads_reset cfg rng shuf st h1 (fresh_notReset cfg hB shuf st k hkB)] at h
  have := epoch_inv cfg rng shuf hB hs hk hG hbody hF (k + 1) 0 [] (reset shuf st) (reset_inv shuf st hne hF0) rfl (by rw [Nat.zero_add]; exact hkB) st' bs h
  rw [Nat.zero_add, List.nil_append] at this
  exact this

theorem epoch_run_total (cfg : Cfg) (rng : Rng) (shuf : List (κ × Nat) → List (κ × Nat)) (hB : 0 < cfg.batch) (st : St κ)
    (hs : StepSpec (shuf st.seqs) (subN cfg (shuf st.seqs)) F G step)
    (hk : ((shuf st.seqs).map Prod.fst).Nodup) (hG : ∀ i (h : i < (shuf st.seqs).length) j it, G i j it → it.key = (shuf st.seqs)[i].1)
    (hbody : ∀ s, s.seqs = shuf st.seqs → readBody cfg rng s = (loop cfg.batch step (total cfg (shuf st.seqs)).toNat s []).bind (checkBatch cfg.batch))
    (hF : ∀ (st : St κ) (b : Int), F st → F { st with batch := b }) (hF0 : F (reset shuf st)) (hnn : ∀ s ∈ shuf st.seqs, 0 ≤ numSubs cfg s.2)
    (hbig : ((cfg.batch * (shuf st.seqs).length : Nat) : Int) ≤ total cfg (shuf st.seqs))
    (h1 : st.batch = -1 ∨ st.batch = numBatches cfg st.seqs) (k : Nat) (hkB : (k : Int) * cfg.batch ≤ total cfg (shuf st.seqs)) :
    ∃ r, reads cfg rng shuf k st = some r := by
  cases k with
  | zero => exact ⟨_, rfl⟩
  | succ k =>
    have hne := ne_nil_of_le cfg hB _ k hkB
    rw [reads_reset cfg rng shuf st h1 (fresh_notReset cfg hB shuf st k hkB)]
    have htot := total_eq cfg _ hnn
    exact epoch_total cfg rng shuf hB hs hk hG hbody hF htot (by rw [htot] at hbig; exact_mod_cast hbig) (k + 1) 0 [] (reset shuf st)
      (reset_inv shuf st hne hF0) rfl (by simp) (by rw [Nat.zero_add]; exact hkB)

end

/-- C112: sequential mode. From the start of an epoch (a new reader, or a reader whose epoch is complete), `k` reads within the epoch that do not raise deliver `k`
batches of the batch size, and for every sequence the sub-sequences delivered are, in order and without repetition, its first ones: the `j`-th has the rows from
`j` times the shift on, as many as the maximum length or as the sequence has left. -/
theorem C112_sequential (cfg : Cfg) (rng : Rng) (shuf : List (κ × Nat) → List (κ × Nat)) (m : Nat) (hm : cfg.maxLen = some m) (hmode : cfg.mode = .sequential)
    (ho : cfg.overlap < m) (hB : 0 < cfg.batch) (st : St κ) (hlen : ∀ s ∈ shuf st.seqs, cfg.overlap ≤ s.2) (hk : ((shuf st.seqs).map Prod.fst).Nodup)
    (h1 : st.batch = -1 ∨ st.batch = ((st.seqs.map (fun s => numSubs cfg s.2)).sum / cfg.batch))
    (k : Nat) (hkB : ((k + 1 : Nat) : Int) * cfg.batch ≤ ((shuf st.seqs).map (fun s => numSubs cfg s.2)).sum)
    (st' : St κ) (bs : List (List (Item κ))) (h : reads cfg rng shuf (k + 1) st = some (st', bs)) :
    bs.length = k + 1 ∧ (∀ b ∈ bs, b.length = cfg.batch) ∧ st'.seqs = shuf st.seqs ∧ st'.batch = ((k + 1 : Nat) : Int) ∧
    ∃ c : Nat → Nat, ∑ i ∈ Finset.range (shuf st.seqs).length, c i = (k + 1) * cfg.batch ∧
      ∀ i (hi : i < (shuf st.seqs).length), (c i : Int) ≤ numSubs cfg (shuf st.seqs)[i].2 ∧
        bs.flatten.filter (fun it => decide (it.key = (shuf st.seqs)[i].1)) = (List.range (c i)).map (fun j => ⟨(shuf st.seqs)[i].1,
          List.range' (j * (m - cfg.overlap)) (min ((shuf st.seqs)[i].2 - j * (m - cfg.overlap)) m)⟩) := by
  obtain ⟨a1, a2, a3, a4⟩ := epoch_run cfg rng shuf hB st (sequential_spec cfg m hm hmode ho _ hlen) hk (by rintro i h j it ⟨_, rfl⟩; rfl)
    (by intro s hs; unfold readBody; rw [hm, hmode, ← hs]) (fun _ _ h => h) (by intro i; simp [reset]) h1 k hkB st' bs h
  refine ⟨a1, a2, a3.seqs, a4, st'.cnt, ?_, fun i hi => ⟨?_, ?_⟩⟩
  · rw [a3.sum, List.length_flatten, List.eq_replicate_of_mem (l := bs.map List.length) (a := cfg.batch) (by simpa using a2)]
    simp [a1]
  · have := a3.le i hi
    rw [subN_eq _ _ _ hi] at this
    have := total_nonneg cfg m hm (by rw [hmode]; simp) (by rw [hmode]; simp) ho _ hlen _ (List.getElem_mem hi)
    omega
  · apply List.ext_getElem
    · rw [a3.len i hi]
      simp
    · intro j h1 h2
      obtain ⟨_, hit⟩ := a3.item i hi j _ (List.getElem?_eq_getElem h1)
      rw [hit]
      simp

/-- C112: a complete epoch. When the number of sub-sequences is a multiple of the batch size, the reads of an epoch deliver all of them. -/
theorem C112_complete (cfg : Cfg) (rng : Rng) (shuf : List (κ × Nat) → List (κ × Nat)) (m : Nat) (hm : cfg.maxLen = some m) (hmode : cfg.mode = .sequential)
    (ho : cfg.overlap < m) (hB : 0 < cfg.batch) (st : St κ) (hlen : ∀ s ∈ shuf st.seqs, cfg.overlap ≤ s.2) (hk : ((shuf st.seqs).map Prod.fst).Nodup)
    (h1 : st.batch = -1 ∨ st.batch = ((st.seqs.map (fun s => numSubs cfg s.2)).sum / cfg.batch))
    (k : Nat) (hkB : ((k + 1 : Nat) : Int) * cfg.batch = ((shuf st.seqs).map (fun s => numSubs cfg s.2)).sum)
    (st' : St κ) (bs : List (List (Item κ))) (h : reads cfg rng shuf (k + 1) st = some (st', bs)) (i : Nat) (hi : i < (shuf st.seqs).length) :
    bs.flatten.filter (fun it => decide (it.key = (shuf st.seqs)[i].1)) = (List.range (numSubs cfg (shuf st.seqs)[i].2).toNat).map (fun j => ⟨(shuf st.seqs)[i].1,
          List.range' (j * (m - cfg.overlap)) (min ((shuf st.seqs)[i].2 - j * (m - cfg.overlap)) m)⟩) := by
  obtain ⟨_, _, _, _, c, c1, c2⟩ := C112_sequential cfg rng shuf m hm hmode ho hB st hlen hk h1 k hkB.le st' bs h
  rw [(c2 i hi).2]
  have hnn := total_nonneg cfg m hm (by rw [hmode]; simp) (by rw [hmode]; simp) ho _ hlen
  have htot := total_eq cfg _ hnn
  unfold total at htot
  rw [← hkB] at htot
  have hsum : ∑ i ∈ Finset.range (shuf st.seqs).length, c i = ∑ i ∈ Finset.range (shuf st.seqs).length, subN cfg (shuf st.seqs) i := by
    rw [c1]
    exact_mod_cast htot
  have hle : ∀ i ∈ Finset.range (shuf st.seqs).length, c i ≤ subN cfg (shuf st.seqs) i := by
    intro i hi
    rw [Finset.mem_range] at hi
    rw [subN_eq _ _ _ hi]
    have := (c2 i hi).1
    omega
  have := (Finset.sum_eq_sum_iff_of_le hle).1 hsum i (Finset.mem_range.2 hi)
  rw [this, subN_eq _ _ _ hi]

/-- C112: random modes. From the start of an epoch, `k` reads within the epoch that do not raise deliver `k` batches of the batch size, of every sequence at most as
many sub-sequences as it is counted for, each lying inside the sequence and of the maximum length (of the length of the sequence if that is shorter and the sequence counts
once): consecutive rows for slices, increasing rows for samples. -/
theorem C112_random (cfg : Cfg) (rng : Rng) (hr : RngOk rng) (shuf : List (κ × Nat) → List (κ × Nat)) (m : Nat) (hm : cfg.maxLen = some m)
    (hmode : cfg.mode = .randomSlice ∨ cfg.mode = .randomSamples)
    (ho : cfg.overlap < m) (hB : 0 < cfg.batch) (st : St κ) (hlen : ∀ s ∈ shuf st.seqs, cfg.overlap ≤ s.2 ∧ 0 < s.2) (hk : ((shuf st.seqs).map Prod.fst).Nodup)
    (h1 : st.batch = -1 ∨ st.batch = ((st.seqs.map (fun s => numSubs cfg s.2)).sum / cfg.batch))
    (k : Nat) (hkB : ((k + 1 : Nat) : Int) * cfg.batch ≤ ((shuf st.seqs).map (fun s => numSubs cfg s.2)).sum)
    (st' : St κ) (bs : List (List (Item κ))) (h : reads cfg rng shuf (k + 1) st = some (st', bs)) :
    bs.length = k + 1 ∧ (∀ b ∈ bs, b.length = cfg.batch) ∧ st'.seqs = shuf st.seqs ∧ st'.batch = ((k + 1 : Nat) : Int) ∧
    ∃ c : Nat → Nat, ∑ i ∈ Finset.range (shuf st.seqs).length, c i = (k + 1) * cfg.batch ∧
      ∀ i (hi : i < (shuf st.seqs).length), (c i : Int) ≤ numSubs cfg (shuf st.seqs)[i].2 ∧
        (bs.flatten.filter (fun it => decide (it.key = (shuf st.seqs)[i].1))).length = c i ∧
        ∀ it ∈ bs.flatten, it.key = (shuf st.seqs)[i].1 → it.rows.length = min m (shuf st.seqs)[i].2 ∧
          (cfg.mode = .randomSlice → ∃ a, a + it.rows.length ≤ (shuf st.seqs)[i].2 ∧ it.rows = List.range' a it.rows.length) ∧
          (cfg.mode = .randomSamples → it.rows.Pairwise (· ≤ ·) ∧ ∀ t ∈ it.rows, t < (shuf st.seqs)[i].2) := by
  have n1 : cfg.mode ≠ .slice1 := by rcases hmode with h | h <;> rw [h] <;> simp
  have n2 : cfg.mode ≠ .samples1 := by rcases hmode with h | h <;> rw [h] <;> simp
  obtain ⟨a1, a2, a3, a4⟩ := epoch_run cfg rng shuf hB st (random_spec cfg rng hr m hm hmode ho _ hlen) hk (by rintro i h j it ⟨_, h, _⟩; exact h)
    (by intro s hs; unfold readBody; rw [hm, ← hs]; rcases hmode with h | h <;> rw [h]) (fun _ _ h => h) trivial h1 k hkB st' bs h
  refine ⟨a1, a2, a3.seqs, a4, st'.cnt, ?_, fun i hi => ⟨?_, a3.len i hi, ?_⟩⟩
  · rw [a3.sum, List.length_flatten, List.eq_replicate_of_mem (l := bs.map List.length) (a := cfg.batch) (by simpa using a2)]
    simp [a1]
  · have := a3.le i hi
    rw [subN_eq _ _ _ hi] at this
    have := total_nonneg cfg m hm n1 n2 ho _ (fun s hs => (hlen s hs).1) _ (List.getElem_mem hi)
    omega
  · intro it hit hkey
    have hmem : it ∈ bs.flatten.filter (fun it => decide (it.key = (shuf st.seqs)[i].1)) := by
      rw [List.mem_filter]
      exact ⟨hit, by simp [hkey]⟩
    obtain ⟨j, hj⟩ := List.mem_iff_getElem?.1 hmem
    obtain ⟨_, _, g2, g3, g4, g5⟩ := a3.item i hi j it hj
    refine ⟨?_, g4, fun hs => ⟨(g5 hs).1, ?_⟩⟩
    · rw [g2]
      rw [g2] at g3
      split
      · rfl
      · next hne =>
        rw [if_neg hne] at g3
        omega
    · obtain ⟨c, hc⟩ := (g5 hs).2
      intro t ht
      exact hr.lt _ _ _ t (hc.mem_iff.1 ht)

/-- C112: when there are at least as many sub-sequences as the batch size times the number of sequences, no read of the epoch raises. -/
theorem C112_progress (cfg : Cfg) (rng : Rng) (hr : RngOk rng) (shuf : List (κ × Nat) → List (κ × Nat)) (m : Nat) (hm : cfg.maxLen = some m)
    (hmode : cfg.mode = .sequential ∨ cfg.mode = .randomSlice ∨ cfg.mode = .randomSamples)
    (ho : cfg.overlap < m) (hB : 0 < cfg.batch) (st : St κ) (hlen : ∀ s ∈ shuf st.seqs, cfg.overlap ≤ s.2 ∧ 0 < s.2) (hk : ((shuf st.seqs).map Prod.fst).Nodup)
    (h1 : st.batch = -1 ∨ st.batch = ((st.seqs.map (fun s => numSubs cfg s.2)).sum / cfg.batch))
    (hbig : ((cfg.batch * (shuf st.seqs).length : Nat) : Int) ≤ ((shuf st.seqs).map (fun s => numSubs cfg s.2)).sum)
    (k : Nat) (hkB : (k : Int) * cfg.batch ≤ ((shuf st.seqs).map (fun s => numSubs cfg s.2)).sum) : ∃ r, reads cfg rng shuf k st = some r := by
  have hnn := total_nonneg cfg m hm (by rcases hmode with h | h | h <;> rw [h] <;> simp) (by rcases hmode with h | h | h <;> rw [h] <;> simp) ho _
    (fun s hs => (hlen s hs).1)
  rcases hmode with hmode | hmode
  · exact epoch_run_total cfg rng shuf hB st (sequential_spec cfg m hm hmode ho _ (fun s hs => (hlen s hs).1)) hk (by rintro i h j it ⟨_, rfl⟩; rfl)
      (by intro s hs; unfold readBody; rw [hm, hmode, ← hs]) (fun _ _ h => h) (by intro i; simp [reset]) hnn hbig h1 k hkB
  · exact epoch_run_total cfg rng shuf hB st (random_spec cfg rng hr m hm hmode ho _ hlen) hk (by rintro i h j it ⟨_, h, _⟩; exact h)
      (by intro s hs; unfold readBody; rw [hm, ← hs]; rcases hmode with h | h <;> rw [h]) (fun _ _ h => h) trivial hnn hbig h1 k hkB

/-! ### the stall -/

/-- three sequences of 20, 1 and 1 rows -/
def stallSeqs : List (Nat × Nat) := [(0, 20), (1, 1), (2, 1)]

/-- sub-sequences of 10 rows, at least 5, one per batch -/
def stallCfg : Cfg := ⟨1, 5, some 10, .sequential, 0⟩

/-- C112: the epoch has two batches but the second read raises: the loop makes as many iterations as there are sub-sequences, not as many as needed to come back to the sequence
that has some left. -/
theorem C112_stall (rng : Rng) : (stallSeqs.map (fun s => numSubs stallCfg s.2)).sum = 2 ∧ (∃ r, reads stallCfg rng id 1 (init stallSeqs) = some r) ∧
    reads stallCfg rng id 2 (init stallSeqs) = none := by
  refine ⟨by decide, ⟨_, rfl⟩, rfl⟩

/-- C112: a sequence shorter than the overlap counts negatively: with sequences of 10 and 3 rows, maximum length 10 and overlap 9, there are -4 sub-sequences. -/
theorem C112_short_negative : numSubs ⟨1, 5, some 10, .sequential, 9⟩ 10 = 2 ∧ numSubs ⟨1, 5, some 10, .sequential, 9⟩ 3 = -5 := by
  decide

/-! ### non-vacuity -/

/-- sequences of 25, 10 and 20 rows -/
def exSeqs : List (Nat × Nat) := [(0, 25), (1, 10), (2, 20)]

/-- sub-sequences of 10 rows, at least 5, two per batch -/
def exCfg : Cfg := ⟨2, 5, some 10, .sequential, 0⟩

example (rng : Rng) : ∃ st', reads exCfg rng id 3 (init exSeqs) = some (st', [[⟨0, List.range' 0 10⟩, ⟨1, List.range' 0 10⟩],
    [⟨2, List.range' 0 10⟩, ⟨0, List.range' 10 10⟩], [⟨2, List.range' 10 10⟩, ⟨0, List.range' 20 5⟩]]) := ⟨_, rfl⟩

/-- a generator that always returns the first position -/
def exRng : Rng := ⟨fun _ _ => 0, fun _ L n => if L = 0 then [] else List.replicate n 0⟩

theorem exRng_ok : RngOk exRng := by
  refine ⟨fun c h hh => hh, fun c L n hL => ?_, fun c L n i hi => ?_⟩
  · simp only [exRng]
    rw [if_neg (by omega), List.length_replicate]
  · simp only [exRng] at hi
    split at hi
    · simp at hi
    · have := List.eq_of_mem_replicate hi
      omega

example (rng : Rng) (hr : RngOk rng) : ∃ r, reads exCfg rng id 3 (init exSeqs) = some r :=
  C112_progress exCfg rng hr id 10 rfl (Or.inl rfl) (by decide) (by decide) (init exSeqs) (by decide) (by decide) (Or.inl rfl) (by decide) 3 (by decide)

end Hyp.SeqReader
