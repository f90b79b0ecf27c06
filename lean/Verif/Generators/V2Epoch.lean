import Verif.Generators.V2Props
import Verif.Generators.V1Seq
import Verif.Segments.ExtSegProps
import Mathlib.Data.List.Dedup

/-! Property C45 for SequenceBatchGeneratorV2, continued: repetition of epochs, resuming, totality. -/

namespace Hyp.Gen

variable {R : Rng} {c : V2Cfg} {rows : String → Int} {tab : List (String × String)}

/-- C45: the number of steps of an epoch is the least number of batches which hold `passes * utterances` items. -/
theorem C45_v2_steps {i : V2Info} {st : Int} (hst : v2Steps c i = .ok st) :
    i.iters * i.tab.length ≤ st * c.batchSize ∧ (st - 1) * c.batchSize < i.iters * i.tab.length := by
  unfold v2Steps at hst
  split at hst
  · simp at hst
  rename_i hb
  simp only [Except.ok.injEq] at hst
  have hb' : (0 : Int) < c.batchSize := by omega
  generalize (c.batchSize : Int) = b at *
  generalize i.iters * (i.tab.length : Int) = a at *
  unfold ceilDiv at hst
  have h1 := Int.emod_nonneg (-a) (show b ≠ 0 by omega)
  have h2 := Int.emod_lt_of_pos (-a) hb'
  have h3 := Int.mul_ediv_add_emod (-a) b
  generalize (-a) / b = q at *
  subst hst
  have e : (-q) * b = -(b * q) := by ring
  have e' : (-q - 1) * b = -(b * q) - b := by ring
  omega

theorem v2Run_add {i : V2Info} {fuel m n : Nat} {s s'' : V2St R} {l : List (List V2Item)} (h : v2Run c rows i fuel (m + n) s = .ok (l, s'')) :
    ∃ l1 s' l2, v2Run c rows i fuel m s = .ok (l1, s') ∧ v2Run c rows i fuel n s' = .ok (l2, s'') ∧ l = l1 ++ l2 := by
  induction m generalizing s l with
  | zero => exact ⟨[], s, l, rfl, by simpa using h, rfl⟩
  | succ m ih =>
    rw [show m + 1 + n = (m + n) + 1 by omega] at h
    simp only [v2Run, repeatE, bind_ok, Prod.exists, Except.ok.injEq, Prod.mk.injEq] at h
    obtain ⟨b, s1, hr, bs', s2, hrest, rfl, rfl⟩ := h
    obtain ⟨l1, s3, l2, h1, h2, rfl⟩ := ih hrest
    refine ⟨b :: l1, s3, l2, ?_, h2, rfl⟩
    simp only [v2Run, repeatE, bind_ok, Prod.exists, Except.ok.injEq, Prod.mk.injEq]
    exact ⟨b, s1, hr, l1, s3, h1, rfl, rfl⟩

/-- the state at the beginning of the `m`-th epoch, `m ≥ 1`: the random generator was seeded with the number of the epoch before. -/
theorem v2_epoch_start {i : V2Info} {st : Nat} (hst : v2Steps c i = .ok (st : Int)) {s' : V2St R} {fuel m : Nat} {bs : List (List V2Item)}
    (h : v2Run c rows i fuel ((m + 1) * st) (v2Init c) = .ok (bs, s')) (hpos : 0 < st) :
    s' = ⟨0, c.initEpoch + (m + 1 : Nat), R.seeded (if c.resetRng then c.seed else c.seed + (c.initEpoch + m))⟩ := by
  have e : (m + 1) * st = (m * st + (st - 1)) + 1 := by
    have : (m + 1) * st = m * st + st := by ring
    omega
  rw [e] at h
  obtain ⟨l1, s1, l2, h1, h2, rfl⟩ := v2Run_add h
  obtain ⟨c1, c2⟩ := C45_v2_counters hst h1
  have hdiv : (m * st + (st - 1)) / st = m := by
    rw [Nat.add_comm, Nat.add_mul_div_right _ _ hpos, Nat.div_eq_of_lt (by omega)]; omega
  have hmod : (m * st + (st - 1)) % st = st - 1 := by
    rw [Nat.add_comm, Nat.add_mul_mod_self_right, Nat.mod_eq_of_lt (by omega)]
  rw [hdiv] at c1; rw [hmod] at c2
  simp only [v2Run, repeatE, bind_ok, Prod.exists, Except.ok.injEq, Prod.mk.injEq] at h2
  obtain ⟨b, s2, hr, _, _, ⟨_, rfl⟩, _, rfl⟩ := h2
  obtain ⟨g, _, ht⟩ := v2Read_split hr
  obtain ⟨hz, hcase⟩ := v2Tick_ok hst ht
  have em : (((⟨s1.curStep, s1.epoch, g⟩ : V2St R).curStep : Int) + 1) % (st : Int) = 0 := by
    dsimp only
    rw [c2]
    have : ((st - 1 : Nat) : Int) + 1 = st := by omega
    rw [this]; simp
  rcases hcase with ⟨_, hs⟩ | ⟨hne, _⟩
  · rw [hs]
    simp only [c1]
    congr 1
    push_cast; ring
  · exact absurd em hne

/-- C45 (a defect): unless the generator is built with `reset_rng`, `reset` seeds the random generator before the epoch counter is
increased. So the batches of every later epoch (number `m + 1`) are the ones of the first epoch of a generator built with `init_epoch`
increased by `m`: the second epoch (`m = 0`) repeats the first one exactly, and a run resumed at `init_epoch + m + 1` does not continue
the interrupted run. With `reset_rng` every epoch repeats the first one. -/
theorem C45_v2_epochs {i : V2Info} {st : Nat} (hst : v2Steps c i = .ok (st : Int)) (hpos : 0 < st) {s s' : V2St R} {fuel m : Nat}
    {b0 b : List (List V2Item)} (h : v2Run c rows i fuel ((m + 1) * st) (v2Init c) = .ok (b0, s)) (h2 : v2Run c rows i fuel st s = .ok (b, s')) :
    (∃ t : V2St R, v2Run { c with initEpoch := c.initEpoch + m } rows i fuel st (v2Init { c with initEpoch := c.initEpoch + m }) = .ok (b, t)) ∧
    (m = 0 ∨ c.resetRng = true → b = b0.take st) := by
  have hs := v2_epoch_start hst h hpos
  have hgen : ∀ (k : Nat) (s1 s2 t1 : V2St R) (l : List (List V2Item)), s1.rng = s2.rng → s1.curStep = s2.curStep → s1.curStep + k ≤ st →
      v2Run c rows i fuel k s1 = .ok (l, t1) → ∃ t2, v2Run c rows i fuel k s2 = .ok (l, t2) := by
    intro k
    induction k with
    | zero => intro s1 s2 t1 l _ _ _ h; simp only [v2Run, repeatE, Except.ok.injEq, Prod.mk.injEq] at h; exact ⟨s2, by simp [v2Run, repeatE, h.1]⟩
    | succ k ih =>
      intro s1 s2 t1 l e1 e2 hk h
      simp only [v2Run, repeatE, bind_ok, Prod.exists, Except.ok.injEq, Prod.mk.injEq] at h
      obtain ⟨b, u1, hr, bs', u2, hrest, rfl, rfl⟩ := h
      obtain ⟨g, hb, ht⟩ := v2Read_split hr
      obtain ⟨hz, hcase⟩ := v2Tick_ok hst ht
      have hr2 : ∀ u, v2Tick c i { s2 with rng := g } = .ok u → v2Read c rows i fuel s2 = .ok (b, u) := by
        intro u hu
        simp only [v2Read, bind_ok, Prod.exists, Except.ok.injEq, Prod.mk.injEq]
        exact ⟨b, g, by rw [← e1]; exact hb, u, hu, rfl, rfl⟩
      obtain ⟨u, hu⟩ : ∃ u, v2Tick c i { s2 with rng := g } = .ok u := by
        unfold v2Tick
        rw [hst]
        simp only [bind, Except.bind, hz, if_false]
        split
        · exact ⟨_, rfl⟩
        · exact ⟨_, rfl⟩
      obtain ⟨_, hcase2⟩ := v2Tick_ok hst hu
      dsimp only at hcase hcase2
      by_cases hk0 : k = 0
      · subst hk0
        simp only [repeatE, Except.ok.injEq, Prod.mk.injEq] at hrest
        refine ⟨u, ?_⟩
        simp only [v2Run, repeatE, bind_ok, Prod.exists, Except.ok.injEq, Prod.mk.injEq]
        exact ⟨b, u, hr2 u hu, [], u, ⟨rfl, rfl⟩, by rw [← hrest.1], rfl⟩
      · have hlt : s1.curStep + 1 < st := by omega
        have hmod : ((s1.curStep : Int) + 1) % (st : Int) = s1.curStep + 1 := Int.emod_eq_of_lt (by omega) (by omega)
        rw [hmod] at hcase
        rw [← e2, hmod] at hcase2
        have hn : ¬ ((s1.curStep : Int) + 1 = 0) := by omega
        rcases hcase with ⟨hh, _⟩ | ⟨_, rfl⟩
        · exact absurd hh hn
        rcases hcase2 with ⟨hh, _⟩ | ⟨_, rfl⟩
        · exact absurd hh hn
        obtain ⟨t2, ht2⟩ := ih ⟨((s1.curStep : Int) + 1).toNat, s1.epoch, g⟩ ⟨((s1.curStep : Int) + 1).toNat, s2.epoch, g⟩ u2 bs' rfl rfl (by dsimp only; omega) hrest
        refine ⟨t2, ?_⟩
        simp only [v2Run, repeatE, bind_ok, Prod.exists, Except.ok.injEq, Prod.mk.injEq]
        exact ⟨b, _, hr2 _ hu, bs', t2, ht2, rfl, rfl⟩
  constructor
  · have : ∀ s, v2Run { c with initEpoch := c.initEpoch + m } rows i fuel st s = v2Run (R := R) c rows i fuel st s := fun s => rfl
    rw [this]
    refine hgen st s _ s' b ?_ ?_ ?_ h2
    · rw [hs]; simp [v2Init, V2St.reset]
    · rw [hs]; simp [v2Init, V2St.reset]
    · rw [hs]; simp
  · intro hm
    obtain ⟨t, ht⟩ := hgen st s (v2Init c) s' b (by
      rw [hs]
      rcases hm with hm | hm
      · subst hm; simp [v2Init, V2St.reset]
      · simp [v2Init, V2St.reset, hm]) (by rw [hs]; simp [v2Init, V2St.reset]) (by rw [hs]; simp) h2
    rw [show (m + 1) * st = st + m * st by ring] at h
    obtain ⟨l1, u1, l2, h1, _, rfl⟩ := v2Run_add h
    rw [h1] at ht
    simp only [Except.ok.injEq, Prod.mk.injEq] at ht
    have hl := repeatE_length h1
    rw [← ht.1]
    simp [← hl]

/-! ### the call returns -/

theorem draw_total {g : R.σ} {lo hi : Int} (h : lo < hi) : ∃ v g', draw g lo hi = .ok (v, g') ∧ lo ≤ v ∧ v < hi := by
  obtain ⟨v, g', hv⟩ := R.randint_total g lo hi h
  have : draw g lo hi = .ok (v, g') := draw_ok.2 hv
  exact ⟨v, g', this, draw_range this⟩

theorem mapE_total {A B : Type} {f : A → R.σ → Except GErr (B × R.σ)} {l : List A} (h : ∀ a ∈ l, ∀ g, ∃ b g', f a g = .ok (b, g')) (g : R.σ) :
    ∃ r g', mapE f l g = .ok (r, g') := by
  induction l generalizing g with
  | nil => exact ⟨[], g, rfl⟩
  | cons a l ih =>
    obtain ⟨b, g1, h1⟩ := h a (by simp) g
    obtain ⟨r, g2, h2⟩ := ih (fun x hx => h x (by simp [hx])) g1
    exact ⟨b :: r, g2, by simp only [mapE, bind_ok, Prod.exists, Except.ok.injEq, Prod.mk.injEq]; exact ⟨b, g1, h1, r, g2, h2, rfl, rfl⟩⟩

theorem npInverse_mem {α : Type} [LinearOrder α] {l : List α} {k : Nat} (h : k < (npUnique l).length) : k ∈ npInverse l := by
  have : (npUnique l)[k] ∈ l := mem_npUnique.1 (List.getElem_mem h)
  refine List.mem_map.2 ⟨_, this, ?_⟩
  exact (npUnique_nodup l).idxOf_getElem k h

/-- C44 for the second generator, totality: without a class list, every call of `read` returns a batch (and never hangs), for every
random generator, provided the table is not empty, lengths are not negative, the limits are ordered and the numbers of examples, the batch size
and the number of passes are positive. -/
theorem C44_v2_total {i : V2Info} (h0 : v2New c rows tab = .ok i) (hcl : c.classList = none) (hne : i.tab ≠ []) (hrows : ∀ k, 0 ≤ rows k)
    (hb : 0 < c.batchSize) (hc : 0 < c.egsPerClass) (hu : 0 < c.egsPerUtt) (hit : 0 < i.iters)
    (hmm : ∀ m, c.minLen = some m → ∀ M, c.maxLen = some M → m ≤ M) (hm1 : ∀ m, c.minLen = some m → c.maxLen = none → ∃ p ∈ i.tab, m ≤ rows p.1)
    (hM1 : ∀ M, c.maxLen = some M → c.minLen = none → ∃ p ∈ i.tab, rows p.1 ≤ M) (hpos : ∀ M, c.maxLen = some M → 0 ≤ M)
    (fuel k : Nat) (s : V2St R) : ∃ bs s', v2Run c rows i fuel k s = .ok (bs, s') := by
  -- the limits
  have hlens : i.lens rows ≠ [] := by simpa [V2Info.lens] using hne
  obtain ⟨mn, hmn⟩ : ∃ m, (i.lens rows).min? = some m := by
    cases h : (i.lens rows).min? with
    | none => rw [List.min?_eq_none_iff] at h; exact absurd h hlens
    | some m => exact ⟨m, rfl⟩
  obtain ⟨mx, hmx⟩ : ∃ m, (i.lens rows).max? = some m := by
    cases h : (i.lens rows).max? with
    | none => rw [List.max?_eq_none_iff] at h; exact absurd h hlens
    | some m => exact ⟨m, rfl⟩
  have hmn' := List.min?_eq_some_iff.1 hmn
  have hmx' := List.max?_eq_some_iff.1 hmx
  obtain ⟨lo, hi, hlo, hhi, hle⟩ : ∃ lo hi, minSeq2 c (i.lens rows) = .ok lo ∧ maxSeq2 c (i.lens rows) = .ok hi ∧ lo ≤ hi := by
    unfold minSeq2 maxSeq2
    rcases h1 : c.minLen with _ | m <;> rcases h2 : c.maxLen with _ | M
    · exact ⟨mn, mx, by simp [hmn], by simp [hmx], hmx'.2 _ hmn'.1⟩
    · refine ⟨mn, M, by simp [hmn], rfl, ?_⟩
      obtain ⟨p, hp, hpM⟩ := hM1 M h2 h1
      have := hmn'.2 (rows p.1) (List.mem_map.2 ⟨p, hp, rfl⟩)
      omega
    · refine ⟨m, mx, rfl, by simp [hmx], ?_⟩
      obtain ⟨p, hp, hpM⟩ := hm1 m h1 h2
      have := hmx'.2 (rows p.1) (List.mem_map.2 ⟨p, hp, rfl⟩)
      omega
    · exact ⟨m, M, rfl, rfl, hmm m h1 M h2⟩
  -- the class numbers
  have hids : i.ids = npInverse (i.tab.map Prod.snd) ∧ i.numClasses = (npUnique (i.tab.map Prod.snd)).length := by
    unfold v2New at h0
    dsimp only at h0
    generalize (if c.prune > 0 then tab.filter (fun p => decide (rows p.1 ≥ c.prune)) else tab) = T at h0
    simp only [v2Classes, hcl, bind_ok, Prod.exists, Except.ok.injEq, Prod.mk.injEq] at h0
    obtain ⟨ids, n, ⟨rfl, rfl⟩, h⟩ := h0
    split at h
    · simp only [Except.ok.injEq] at h; rw [← h]; exact ⟨rfl, rfl⟩
    · simp only [bind_ok] at h
      obtain ⟨lo, _, hi, _, h⟩ := h
      split at h
      · simp at h
      · simp only [Except.ok.injEq] at h; rw [← h]; exact ⟨rfl, rfl⟩
  have hncl : 0 < i.numClasses := by
    rw [hids.2]
    obtain ⟨p, hp⟩ := List.exists_mem_of_ne_nil _ hne
    exact List.length_pos_of_mem (mem_npUnique.2 (List.mem_map.2 ⟨p, hp, rfl⟩))
  have hidl : i.ids.length = i.tab.length := by rw [hids.1, npInverse_length, List.length_map]
  have hfull : ∀ k, k < i.numClasses → 0 < (classRows i k).length := by
    intro k hk
    rw [hids.2] at hk
    have := npInverse_mem hk
    rw [← hids.1] at this
    obtain ⟨j, hj, hjk⟩ := List.mem_iff_getElem.1 this
    apply List.length_pos_of_mem (a := j)
    exact List.mem_filter.2 ⟨List.mem_range.2 hj, by simp [List.getElem?_eq_getElem hj, hjk]⟩
  have hall : (List.range i.numClasses).all (fun k => decide (0 < (classRows i k).length)) = true := by
    rw [List.all_eq_true]; intro k hk; simpa using hfull k (List.mem_range.1 hk)
  -- the classes
  have hdc : ∀ g : R.σ, ∃ cl g', v2DrawClasses c i fuel g = .ok (cl, g') ∧ cl.length = v2NumClasses c ∧ ∀ k ∈ cl, k < i.numClasses := by
    intro g
    unfold v2DrawClasses
    rw [if_pos hall]
    suffices h : ∀ n (g : R.σ), ∃ cl g', repeatE (drawClass i) n g = .ok (cl, g') by
      obtain ⟨cl, g', h'⟩ := h (v2NumClasses c) g
      refine ⟨cl, g', h', repeatE_length h', (repeatE_inv (fun _ => True) _ ?_ h' trivial).2⟩
      intro s b s' _ hb
      simp only [drawClass, bind_ok, Prod.exists, Except.ok.injEq, Prod.mk.injEq] at hb
      obtain ⟨v, g, hv, rfl, _⟩ := hb
      have := draw_range hv
      exact ⟨trivial, by omega⟩
    intro n
    induction n with
    | zero => intro g; exact ⟨[], g, rfl⟩
    | succ n ih =>
      intro g
      obtain ⟨v, g1, hv, _⟩ := draw_total (R := R) (g := g) (lo := 0) (hi := i.numClasses) (by omega)
      obtain ⟨cl, g2, h2⟩ := ih g1
      refine ⟨v.toNat :: cl, g2, ?_⟩
      simp only [repeatE, drawClass, bind_ok, Prod.exists, Except.ok.injEq, Prod.mk.injEq]
      exact ⟨v.toNat, g1, ⟨v, g1, hv, rfl, rfl⟩, cl, g2, h2, rfl, rfl⟩
  have hmemRep : ∀ (n : Nat) (l : List Nat) x, x ∈ npRepeat n l → x ∈ l := by
    intro n l x hx
    simp only [npRepeat, List.mem_flatten, List.mem_map] at hx
    obtain ⟨_, ⟨a, ha, rfl⟩, hx⟩ := hx
    rw [(List.mem_replicate.1 hx).2]; exact ha
  have hbatch : ∀ g : R.σ, ∃ b g', v2Batch c rows i fuel g = .ok (b, g') := by
    intro g
    obtain ⟨cl, g1, h1, hcllen, hclt⟩ := hdc g
    obtain ⟨us, g2, h2⟩ := mapE_total (R := R) (f := drawUtt i) (l := npRepeat c.egsPerClass cl) (by
      intro k hk g
      have hk' := hfull k (hclt k (hmemRep _ _ _ hk))
      obtain ⟨v, g', hv, hv1, hv2⟩ := draw_total (R := R) (g := g) (lo := 0) (hi := (classRows i k).length) (by omega)
      have hvl : v.toNat < (classRows i k).length := by omega
      exact ⟨(classRows i k)[v.toNat], g', by
        simp only [drawUtt, bind_ok, Prod.exists, Except.ok.injEq, Prod.mk.injEq]
        exact ⟨v, g', hv, _, getE_ok.2 (List.getElem?_eq_getElem hvl), rfl, rfl⟩⟩) g1
    have hps : v2Pairs c i fuel g = .ok ((npRepeat c.egsPerUtt us).zip (npRepeat c.egsPerUtt (npRepeat c.egsPerClass cl)), g2) := by
      simp only [v2Pairs, bind_ok, Prod.exists, Except.ok.injEq, Prod.mk.injEq]
      exact ⟨cl, g1, h1, us, g2, h2, rfl, rfl⟩
    generalize (npRepeat c.egsPerUtt us).zip (npRepeat c.egsPerUtt (npRepeat c.egsPerClass cl)) = ps at hps
    obtain ⟨q1, cl', us', q2⟩ := v2Pairs_spec hc hu hps
    have hlen : c.batchSize ≤ ps.length := by
      rw [q1, Nat.mul_assoc]
      unfold v2NumClasses
      generalize hp : c.egsPerClass * c.egsPerUtt = P
      have hP : 0 < P := by rw [← hp]; exact Nat.mul_pos hc hu
      have := Nat.div_add_mod (c.batchSize + P - 1) P
      have h4 := Nat.mod_lt (c.batchSize + P - 1) hP
      rw [Nat.mul_comm]
      generalize P * ((c.batchSize + P - 1) / P) = Q at *
      omega
    obtain ⟨b, g3, h3⟩ := mapE_total (R := R) (f := v2Sub rows i lo hi) (l := ps.take c.batchSize) (by
      intro p hp g
      obtain ⟨j, hj⟩ := List.mem_iff_getElem?.1 (List.mem_of_mem_take hp)
      have := (q2 j p hj).2.2
      have hlt : p.1 < i.tab.length := by rw [← hidl]; exact (List.getElem?_eq_some_iff.1 this).1
      have ht : i.tab[p.1]? = some i.tab[p.1] := List.getElem?_eq_getElem hlt
      have hf : (i.lens rows)[p.1]? = some (rows i.tab[p.1].1) := by unfold V2Info.lens; rw [List.getElem?_map, ht]; rfl
      have hr := hrows i.tab[p.1].1
      obtain ⟨len, g4, h4, h41, h42⟩ := draw_total (R := R) (g := g) (lo := min (rows i.tab[p.1].1) lo) (hi := min (rows i.tab[p.1].1) hi + 1) (by omega)
      obtain ⟨first, g5, h5, _⟩ := draw_total (R := R) (g := g4) (lo := 0) (hi := rows i.tab[p.1].1 - len + 1) (by omega)
      refine ⟨⟨⟨i.tab[p.1].1, first, len⟩, p.2, p.1⟩, g5, ?_⟩
      simp only [v2Sub, bind_ok, Except.ok.injEq, Prod.mk.injEq]
      exact ⟨i.tab[p.1], getE_ok.2 ht, _, getE_ok.2 hf, (len, g4), h4, (first, g5), h5, rfl, rfl⟩) g2
    refine ⟨b, g3, ?_⟩
    unfold v2Batch
    rw [if_neg (by omega)]
    simp only [bind_ok, Prod.exists]
    refine ⟨ps, g2, hps, lo, hlo, hi, hhi, ?_⟩
    rw [if_neg (by omega)]
    exact h3
  have hst : ∃ st : Int, v2Steps c i = .ok st ∧ st ≠ 0 := by
    refine ⟨ceilDiv (i.iters * i.tab.length) c.batchSize, by unfold v2Steps; rw [if_neg (by omega)], ?_⟩
    have := C45_v2_steps (c := c) (i := i) (st := ceilDiv (i.iters * i.tab.length) c.batchSize) (by unfold v2Steps; rw [if_neg (by omega)])
    intro h
    rw [h] at this
    have hl : 0 < i.tab.length := List.length_pos_of_ne_nil hne
    have : 0 < i.iters * i.tab.length := Int.mul_pos hit (by omega)
    omega
  obtain ⟨st, hst, hz⟩ := hst
  induction k generalizing s with
  | zero => exact ⟨[], s, rfl⟩
  | succ k ih =>
    obtain ⟨b, g, hbg⟩ := hbatch s.rng
    obtain ⟨u, hu'⟩ : ∃ u, v2Tick c i { s with rng := g } = .ok u := by
      unfold v2Tick
      rw [hst]
      simp only [bind, Except.bind, hz, if_false]
      split
      · exact ⟨_, rfl⟩
      · exact ⟨_, rfl⟩
    obtain ⟨bs, s', h⟩ := ih u
    refine ⟨b :: bs, s', ?_⟩
    simp only [v2Run, repeatE, v2Read, bind_ok, Prod.exists, Except.ok.injEq, Prod.mk.injEq]
    exact ⟨b, u, ⟨b, g, hbg, u, hu', rfl, rfl⟩, bs, s', h, rfl, rfl⟩

/-- C44 (a defect): with a class list none of whose classes has an utterance (for instance when every utterance has been pruned), `read`
never returns, for every random generator. -/
theorem C44_v2_hangs {i : V2Info} (hz : ∀ k, classRows i k = []) (hn : 0 < i.numClasses) (hb : 0 < c.batchSize)
    (hc : 0 < c.egsPerClass) (hu : 0 < c.egsPerUtt) (fuel k : Nat) (s : V2St R) : v2Run c rows i fuel (k + 1) s = .error .fuel := by
  have hcls : 0 < v2NumClasses c := by
    unfold v2NumClasses
    have : 0 < c.egsPerClass * c.egsPerUtt := Nat.mul_pos hc hu
    exact Nat.div_pos (by omega) this
  obtain ⟨n, hn'⟩ : ∃ n, v2NumClasses c = n + 1 := ⟨v2NumClasses c - 1, by omega⟩
  have key : ∀ f (g : R.σ), drawClasses i f (n + 1) g = .error .fuel := by
    intro f
    induction f with
    | zero => intro g; rfl
    | succ f ih =>
      intro g
      obtain ⟨v, g1, hv, _⟩ := draw_total (R := R) (g := g) (lo := 0) (hi := i.numClasses) (by omega)
      simp only [drawClasses, hv, bind, Except.bind, hz, List.length_nil, Nat.lt_irrefl, if_false]
      exact ih g1
  have hall : ¬ (List.range i.numClasses).all (fun k => decide (0 < (classRows i k).length)) = true := by
    rw [List.all_eq_true]
    intro h
    have := h 0 (List.mem_range.2 hn)
    simp [hz] at this
  have : v2Batch c rows i fuel s.rng = .error .fuel := by
    unfold v2Batch v2Pairs v2DrawClasses
    rw [if_neg (by omega), if_neg hall, hn', key]
    rfl
  simp only [v2Run, repeatE, v2Read, this]
  rfl

/-! ### a concrete generator -/

/-- two utterances per class in batches of four. -/
def ex2Cfg : V2Cfg :=
  { batchSize := 4, iters := some 2, egsPerClass := 2, egsPerUtt := 1, minLen := some 2, maxLen := some 4, prune := 2, classList := none,
    initEpoch := 0, seed := 1024, resetRng := false }
def ex2Rows : String → Int := fun k => if k = "a" then 20 else if k = "b" then 1 else 5
def ex2Tab : List (String × String) := [("b", "y"), ("a", "x"), ("c", "z"), ("d", "x")]

/-- the hypotheses of C44_v2, C44_v2_total and C45_v2_epochs hold for it: three utterances are left, there are two steps per epoch, and
epochs one to three can be run. -/
example : okAnd (v2New ex2Cfg ex2Rows ex2Tab) (fun i => decide (i.tab.length = 3) && decide (i.numClasses = 2) &&
    okAnd (v2Steps ex2Cfg i) (fun st => decide (st = 2)) &&
    okAnd (v2Run (R := counterRng) ex2Cfg ex2Rows i 0 6 (v2Init ex2Cfg)) (fun r => decide (r.2.epoch = 3) &&
      decide (r.1.take 2 = (r.1.drop 2).take 2) && decide (r.1.take 2 ≠ (r.1.drop 4).take 2) &&
      r.1.all (fun b => decide (b.length = 4)))) = true := by decide

/-- C44 for the second generator, labels: the number of classes, which is the length of a label, is the number of lines of the class file
(without repetitions), or of different classes of the utterances when there is none; every label has its one inside this length. -/
theorem C44_v2_num_classes {i : V2Info} (h : v2New c rows tab = .ok i) :
    (∀ names, c.classList = some names → names.Nodup → i.numClasses = names.length) ∧
    (c.classList = none → i.numClasses = (i.tab.map Prod.snd).dedup.length) ∧
    ((∀ names, c.classList = some names → names.Nodup) → ∀ k ∈ i.ids, k < i.numClasses) := by
  have hspec := v2New_spec h
  have hl : ∀ l : List String, l.Nodup → (enumDict l).length = l.length := by
    intro l h
    unfold enumDict
    have := Segments.foldl_dictSet_new (d := []) (fun p : String × Nat => p.1) (fun p => p.2) (l := l.zipIdx) (by simpa using h)
    rw [this]; simp
  have hn : v2Classes c i.tab = .ok (i.ids, i.numClasses) := by
    unfold v2New at h
    dsimp only at h
    generalize (if c.prune > 0 then tab.filter (fun p => decide (rows p.1 ≥ c.prune)) else tab) = T at h
    simp only [bind_ok, Prod.exists] at h
    obtain ⟨ids, n, h1, h⟩ := h
    split at h
    · simp only [Except.ok.injEq] at h; rw [← h]; exact h1
    · simp only [bind_ok] at h
      obtain ⟨lo, _, hi, _, h⟩ := h
      split at h
      · simp at h
      · simp only [Except.ok.injEq] at h; rw [← h]; exact h1
  have a : ∀ names, c.classList = some names → i.numClasses = (enumDict names).length ∧ i.ids.length = i.tab.length := by
    intro names hc
    unfold v2Classes at hn
    rw [hc] at hn
    dsimp only at hn
    split at hn
    · rename_i ids hm
      simp only [Except.ok.injEq, Prod.mk.injEq] at hn
      rw [← hn.1]
      exact ⟨hn.2.symm, by simpa using congrArg List.length (mapM_eq_some_iff.1 hm).symm⟩
    · simp at hn
  have b : c.classList = none → i.numClasses = (npUnique (i.tab.map Prod.snd)).length ∧ i.ids.length = i.tab.length := by
    intro hc
    unfold v2Classes at hn
    rw [hc] at hn
    simp only [Except.ok.injEq, Prod.mk.injEq] at hn
    rw [← hn.1, npInverse_length, List.length_map]
    exact ⟨hn.2.symm, rfl⟩
  refine ⟨fun names hc hd => by rw [(a names hc).1, hl _ hd], fun hc => ?_, fun hd k hk => ?_⟩
  · rw [(b hc).1]
    refine List.Perm.length_eq ((List.perm_ext_iff_of_nodup (npUnique_nodup _) (List.nodup_dedup _)).2 (fun x => ?_))
    rw [mem_npUnique, List.mem_dedup]
  · obtain ⟨j, hj, rfl⟩ := List.getElem_of_mem hk
    have hlen : i.ids.length = i.tab.length := by
      cases hc : c.classList with
      | none => exact (b hc).2
      | some names => exact (a names hc).2
    have := hspec.2 j (i.tab[j]'(hlen ▸ hj)) _ (List.getElem?_eq_getElem _) (List.getElem?_eq_getElem hj)
    have hlt := (List.getElem?_eq_some_iff.1 this).1
    cases hc : c.classList with
    | none => rw [hc] at hlt; rw [(b hc).1]; exact hlt
    | some names => rw [hc] at hlt; rw [(a names hc).1, hl _ (hd names hc)]; exact hlt

end Hyp.Gen
