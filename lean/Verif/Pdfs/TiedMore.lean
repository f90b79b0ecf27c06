import Verif.Pdfs.TiedProps

/-! C137 (when training succeeds; the floor) and C138 (splitting components). -/

namespace Hyp.Pdfs
open scoped BigOperators
open Hyp.MathUtils

variable {K d : Nat}

theorem share_pos (g : Gmm K d) (hg : g.WF) (r : XRow d) (h : 0 < r.2) (k : Fin (K + 1)) : 0 < g.share k r := by
  unfold Gmm.share
  have h1 := diagPdf_pos (g.mu k) (g.Lambda k) r.1 (hg.1 k)
  have h2 : 0 < mixPdf g.usedWeights g.mu g.Lambda r.1 :=
    Finset.sum_pos (fun j _ => mul_pos (usedWeights_pos g j) (diagPdf_pos _ _ _ (hg.1 j))) ⟨0, Finset.mem_univ _⟩
  have h3 := usedWeights_pos g k
  positivity

theorem list_sum_pos {α : Type} (l : List α) (f : α → ℝ) (h0 : ∀ x ∈ l, 0 ≤ f x) (h : ∃ x ∈ l, 0 < f x) : 0 < (l.map f).sum := by
  induction l with
  | nil => obtain ⟨x, hx, _⟩ := h; cases hx
  | cons a l ih =>
    rw [List.map_cons, List.sum_cons]
    have ha := h0 a (by simp)
    have hl : 0 ≤ (l.map f).sum := by
      apply List.sum_nonneg
      intro y hy
      obtain ⟨x, hx, rfl⟩ := List.mem_map.1 hy
      exact h0 x (List.mem_cons_of_mem _ hx)
    obtain ⟨x, hx, hp⟩ := h
    rcases List.mem_cons.1 hx with rfl | hx
    · linarith
    · have := ih (fun y hy => h0 y (List.mem_cons_of_mem _ hy)) ⟨x, hx, hp⟩
      linarith

theorem wVar_pos (rows : List (XRow d)) (r : XRow d → ℝ) (i : Fin d) (h : ∀ x ∈ rows, 0 < r x) (hd : ∃ x ∈ rows, ∃ y ∈ rows, x.1 i ≠ y.1 i) :
    0 < wVar rows r i := by
  obtain ⟨x, hx, y, hy, hne⟩ := hd
  unfold wVar
  apply div_pos
  · apply list_sum_pos _ _ (fun z hz => mul_nonneg (h z hz).le (sq_nonneg _))
    by_cases hm : x.1 i = wMean rows r i
    · refine ⟨y, hy, mul_pos (h y hy) ?_⟩
      have : y.1 i - wMean rows r i ≠ 0 := by rw [← hm]; exact sub_ne_zero.2 (Ne.symm hne)
      positivity
    · refine ⟨x, hx, mul_pos (h x hx) ?_⟩
      have : x.1 i - wMean rows r i ≠ 0 := sub_ne_zero.2 hm
      positivity
  · exact list_sum_pos _ _ (fun z hz => (h z hz).le) ⟨x, hx, h x hx⟩

/-- **C137** training succeeds: with the default `min_N = 0`, a floor that is not negative, and data with positive weights in which no
coordinate is constant, every number of epochs runs, from every model. -/
theorem C137_fit_succeeds (cfg : GmmCfg) (hm : cfg.minN = 0) (hopt : cfg.updateLambda = true → cfg.updateMu = true)
    (rows : List (XRow d)) (hne : rows ≠ []) (hw : ∀ r ∈ rows, 0 < r.2) (hd : ∀ i, ∃ x ∈ rows, ∃ y ∈ rows, x.1 i ≠ y.1 i)
    (bs : Option Nat) (hbs : bs ≠ some 0) (n : Nat) (g : TiedGmm K d) (hg : g.WF) :
    ∃ es g', TiedGmm.fit cfg rows bs n g = some (es, g') := by
  induction n generalizing g with
  | zero => exact ⟨[], g, rfl⟩
  | succ n ih =>
    obtain ⟨st, hst, -⟩ := C67_stats g.mix (xRows rows) (by simpa [xRows] using hne) bs hbs
    obtain ⟨s0, s1, s2⟩ := tied_stats g hg rows bs st hst
    have hsp : ∀ k, ∀ x ∈ rows, 0 < g.share k x := fun k x hx => share_pos g.untie (untie_wf hg) x (hw x hx) k
    have hN : ∀ k, 0 < st.1 k := by
      intro k
      rw [s0]
      obtain ⟨x, hx⟩ := List.exists_mem_of_ne_nil rows hne
      exact list_sum_pos _ _ (fun z hz => (hsp k z hz).le) ⟨x, hx, hsp k x hx⟩
    have hT : 0 < ∑ k, st.1 k := Finset.sum_pos (fun k _ => hN k) ⟨0, Finset.mem_univ _⟩
    have hf : tiedFails cfg st (newMu cfg st g.mu) = false := by
      unfold tiedFails
      have a1 : ¬ ∃ k, st.1 k = 0 := by rintro ⟨k, hk⟩; exact (hN k).ne' hk
      have a2 : ¬ ∀ k, st.1 k ≤ cfg.minN := by intro hk; have := hk 0; rw [hm] at this; exact absurd (hN 0) (not_lt.2 this)
      have a4 : ¬ ∃ k, st.1 k < cfg.minN := by rintro ⟨k, hk⟩; rw [hm] at hk; exact absurd (hN k) (not_lt.2 hk.le)
      have a3 : cfg.updateLambda = true → ¬ ∃ i, pool cfg st (newMu cfg st g.mu) i = 0 := by
        rintro hl ⟨i, hi⟩
        have hraw : ∀ k, rawVar st (newMu cfg st g.mu) k i = wVar rows (g.share k) i := by
          intro k
          rw [wVar_eq _ _ _ (by rw [← s0]; exact (hN k).ne')]
          unfold rawVar newMu wMean
          rw [if_pos (hopt hl), s0, s2, s1]
        have : 0 < pool cfg st (newMu cfg st g.mu) i := by
          unfold pool
          apply div_pos _ hT
          apply Finset.sum_pos _ ⟨0, Finset.mem_univ _⟩
          intro k _
          apply mul_pos (hN k)
          exact lt_of_lt_of_le (by rw [hraw]; exact wVar_pos rows _ i (hsp k) (hd i)) (le_max_left _ _)
        exact this.ne' hi
      cases hl : cfg.updateLambda with
      | false => simp only [a1, a4, decide_false, Bool.false_and, Bool.and_false, Bool.or_self]
      | true => simp only [a1, a2, a3 hl, a4, decide_false, Bool.or_self, Bool.and_false]
    have hep : ∃ e g1, g.epoch cfg rows bs = some (e, g1) := by
      unfold TiedGmm.epoch
      rw [hst]
      simp only [Option.bind_eq_bind, Option.bind_some]
      unfold TiedGmm.mstep
      simp only
      rw [if_neg (by rw [hf]; simp)]
      exact ⟨_, _, rfl⟩
    obtain ⟨e, g1, he⟩ := hep
    have hg1 : g1.WF := by
      obtain ⟨-, u2, -, -, u5, -⟩ := C137_update cfg g hg rows (fun r hr => (hw r hr).le) bs e g1 he
      obtain ⟨_, _, _, _, _, _, _, _, h1, h2⟩ := tied_epoch_some cfg g rows bs e g1 he
      refine ⟨fun i => ?_, h1, h2⟩
      by_cases hl : cfg.updateLambda = true
      · exact (u2 (hopt hl) hl i).1
      · rw [u5 (by simpa using hl)]; exact hg.1 i
    obtain ⟨es, g2, h2⟩ := ih g1 hg1
    refine ⟨e :: es, g2, ?_⟩
    unfold TiedGmm.fit
    rw [he]
    simp only [Option.bind_eq_bind, Option.bind_some]
    rw [h2]
    rfl

/-- for one component the tied model is the untied one -/
theorem tied_one (cfg : GmmCfg) (g : TiedGmm 0 d) (rows : List (XRow d)) (bs : Option Nat) (e : ℝ) (g' : Gmm 0 d)
    (h : g.untie.epoch cfg rows bs = some (e, g')) : ∃ g'' : TiedGmm 0 d, g.epoch cfg rows bs = some (e, g'') ∧ g''.untie = g' := by
  obtain ⟨st, hst, hf, he, hmu, hla, hpi, hlp, heta, hA⟩ := epoch_some cfg g.untie rows bs e g' h
  have hst' : g.mix.accumSuffStats (xRows rows) bs = some st := hst
  have hm : newMu cfg st g.untie.mu = newMu cfg st g.mu := rfl
  rw [hm] at hf hmu hla
  obtain ⟨f1, f2, f3⟩ := mstep_ok cfg st _ hf
  have hpool : ∀ i, pool cfg st (newMu cfg st g.mu) i = newVar cfg st (newMu cfg st g.mu) 0 i := by
    intro i
    unfold pool
    have h0 := f1 0
    have e1 : ∀ f : Fin (0 + 1) → ℝ, ∑ k, f k = f 0 := fun f => Fin.sum_univ_one f
    rw [e1, e1]
    exact mul_div_cancel_left₀ _ h0
  have hf' : tiedFails cfg st (newMu cfg st g.mu) = false := by
    unfold mstepFails at hf
    unfold tiedFails
    simp only [Bool.or_eq_false_iff, Bool.and_eq_false_iff, decide_eq_false_iff_not] at hf ⊢
    refine ⟨⟨hf.1.1, ?_⟩, hf.2⟩
    rcases hf.1.2 with h | h
    · exact Or.inl h
    · refine Or.inr ⟨h.1, ?_⟩
      rintro ⟨i, hi⟩
      exact h.2 ⟨0, i, by rw [← hpool]; exact hi⟩
  refine ⟨TiedGmm.natParams ⟨{ g.mix.touchLogPi with pi := newPi cfg st.1 g.mix.touchLogPi.pi }, newMu cfg st g.mu,
    tiedLambda cfg st (newMu cfg st g.mu) g.Lambda⟩, ?_, ?_⟩
  · unfold TiedGmm.epoch
    rw [hst']
    simp only [Option.bind_eq_bind, Option.bind_some]
    unfold TiedGmm.mstep
    simp only
    rw [if_neg (by rw [hf']; simp), he]
    rfl
  · have hL : (fun _ : Fin (0 + 1) => tiedLambda cfg st (newMu cfg st g.mu) g.Lambda) = g'.Lambda := by
      rw [hla]
      funext k i
      rw [fin1 k]
      unfold tiedLambda newLambda
      by_cases hl : cfg.updateLambda = true
      · rw [if_pos hl, if_pos hl, hpool]
      · rw [if_neg hl, if_neg hl]
        rfl
    obtain ⟨⟨gp, gl, ge, gA⟩, gm, gL⟩ := g'
    simp only at hmu hL hpi hlp heta hA
    subst hmu hpi hlp
    have hge : ge = tiedEta (newMu cfg st g.mu) (tiedLambda cfg st (newMu cfg st g.mu) g.Lambda) := by
      funext k
      rw [heta, tiedEta_eq, ← hL]
    have hgA : gA = fun k => computeANat (tiedEta (newMu cfg st g.mu) (tiedLambda cfg st (newMu cfg st g.mu) g.Lambda) k) := by
      funext k
      rw [hA, tiedEta_eq, ← hL]
    subst hge hgA hL
    rfl

/-- **C137 (negation)** a variance floor can decrease the log-likelihood: `var_floor = 2`, one component at the maximum likelihood
solution for the data 1, -1. -/
theorem C137_floor_decreases :
    ∃ (g : TiedGmm 0 1) (cfg : GmmCfg) (rows : List (XRow 1)) (e : ℝ) (g' : TiedGmm 0 1),
      TiedGmm.new (fun _ => 1) (fun _ _ => 0) (fun _ => 1) = some g ∧ cfg.updateMu = true ∧ cfg.updateLambda = true ∧
      cfg.minN = 0 ∧ g.epoch cfg rows none = some (e, g') ∧
      logLik g'.usedWeights g'.mu (fun _ => g'.Lambda) rows < logLik g.usedWeights g.mu (fun _ => g.Lambda) rows := by
  obtain ⟨g0, cfg, rows, e, g1, hnew, h1, h2, h3, h4, h5⟩ := C70_floor_decreases
  have hl : ∀ i : Fin 1, (0 : ℝ) < (fun _ => 1 : Fin 1 → ℝ) i := fun _ => one_pos
  obtain ⟨g, hg⟩ : ∃ g : TiedGmm 0 1, TiedGmm.new (fun _ => 1) (fun _ _ => 0) (fun _ => 1) = some g := ⟨_, if_pos hl⟩
  have hun : g.untie = g0 := by
    unfold TiedGmm.new at hg
    rw [if_pos hl] at hg
    unfold Gmm.new at hnew
    rw [if_pos (fun _ => hl)] at hnew
    rw [← Option.some.inj hg, ← Option.some.inj hnew]
    unfold TiedGmm.untie TiedGmm.natParams Gmm.natParams
    have he : tiedEta (K := 0) (d := 1) (fun _ _ => 0) (fun _ => 1) = fun k => computeEta ((fun _ _ => 0 : Fin (0 + 1) → Fin 1 → ℝ) k) (fun _ => 1) :=
      funext fun k => tiedEta_eq _ _ k
    simp only [he]
  subst hun
  obtain ⟨g', h6, h7⟩ := tied_one cfg g rows none e g1 h4
  subst h7
  exact ⟨g, cfg, rows, e, g', hg, h1, h2, h3, h6, h5⟩

/-- C137: a case with two components to which the theorems apply: it trains for any number of epochs. -/
example (n : Nat) : ∃ (g g' : TiedGmm 1 1) (es : List ℝ), TiedGmm.new (fun _ => 1 / 2) (fun k _ => if k = 0 then 1 else -1) (fun _ => 1) = some g ∧
    TiedGmm.fit ⟨0, 0, true, true, true⟩ [(fun _ => 2, 1), (fun _ => -1, 3), (fun _ => 0, 1)] (some 2) n g = some (es, g') := by
  obtain ⟨g, hg⟩ : ∃ g : TiedGmm 1 1, TiedGmm.new (fun _ => 1 / 2) (fun k _ => if k = 0 then 1 else -1) (fun _ => 1) = some g :=
    ⟨_, if_pos (fun _ => one_pos)⟩
  obtain ⟨es, g', h⟩ := C137_fit_succeeds ⟨0, 0, true, true, true⟩ rfl (fun _ => rfl) [(fun _ => 2, 1), (fun _ => -1, 3), (fun _ => 0, 1)] (by simp)
    (by intro r hr; simp at hr; rcases hr with rfl | rfl | rfl <;> norm_num)
    (by intro i; exact ⟨_, List.mem_cons_self .., _, List.mem_cons_of_mem _ (List.mem_cons_self ..), by norm_num⟩) (some 2) (by simp) n g (new_tied_wf hg).1
  exact ⟨g, g', es, hg, h⟩

/-! ## C138: splitting components -/

/-- the new component `r` of the old component `k`. -/
def newComp (K s : Nat) (hs : 0 < s) (k : Fin (K + 1)) (r : Fin s) : Fin (((K + 1) * s - 1) + 1) :=
  ⟨k.1 * s + r.1, by
    rw [split_card K s hs]
    calc k.1 * s + r.1 < k.1 * s + s := Nat.add_lt_add_left r.2 _
      _ = (k.1 + 1) * s := by ring
      _ ≤ (K + 1) * s := Nat.mul_le_mul_right _ k.2⟩

theorem oldComp_new (K s : Nat) (hs : 0 < s) (k : Fin (K + 1)) (r : Fin s) :
    oldComp K s hs ((newComp K s hs k r).cast (split_card K s hs)) = k := by
  apply Fin.ext
  show (k.1 * s + r.1) / s = k.1
  rw [Nat.mul_comm, Nat.mul_add_div hs, Nat.div_eq_of_lt r.2, Nat.add_zero]

theorem newComp_mod (K s : Nat) (hs : 0 < s) (k : Fin (K + 1)) (r : Fin s) : (newComp K s hs k r).1 % s = r.1 := by
  show (k.1 * s + r.1) % s = r.1
  rw [Nat.mul_comm, Nat.mul_add_mod, Nat.mod_eq_of_lt r.2]

/-- a sum over the new components, grouped by the old ones. -/
theorem sum_newComp (K s : Nat) (hs : 0 < s) (f : Fin (((K + 1) * s - 1) + 1) → ℝ) :
    ∑ j, f j = ∑ k, ∑ r, f (newComp K s hs k r) := by
  rw [← Fintype.sum_prod_type' (f := fun k r => f (newComp K s hs k r))]
  symm
  apply Fintype.sum_bijective (fun p : Fin (K + 1) × Fin s => newComp K s hs p.1 p.2)
  · constructor
    · rintro ⟨k, r⟩ ⟨k', r'⟩ h
      have h1 := oldComp_new K s hs k r
      have h2 := oldComp_new K s hs k' r'
      have h3 := newComp_mod K s hs k r
      have h4 := newComp_mod K s hs k' r'
      simp only at h
      rw [h] at h1 h3
      exact Prod.ext (h1.symm.trans h2) (Fin.ext (h3.symm.trans h4))
    · intro j
      have hj : j.1 < (K + 1) * s := lt_of_lt_of_eq j.2 (split_card K s hs)
      refine ⟨(⟨j.1 / s, by rw [Nat.div_lt_iff_lt_mul hs]; exact hj⟩, ⟨j.1 % s, Nat.mod_lt _ hs⟩), Fin.ext ?_⟩
      show j.1 / s * s + j.1 % s = j.1
      rw [Nat.mul_comm]
      exact Nat.div_add_mod _ _
  · intro p; rfl

/-- **C138** `split_comp(s)` of a diagonal mixture always succeeds and replaces component k by the components k·s, …, k·s+s-1, each with 1/s of its
weight, a standard deviation s times smaller, and a mean one (old) standard deviation away in every coordinate; for s = 2 one goes up and
the other down. -/
theorem C138_split (g : Gmm K d) (hg : ∀ k i, 0 < g.Lambda k i) (s : Nat) (hs : 0 < s) (rnd : Nat → Fin (K + 1) → Fin d → Bool) :
    ∃ g', g.split s hs rnd = some g' ∧ ∀ (k : Fin (K + 1)) (r : Fin s) (j : Fin (((K + 1) * s - 1) + 1)), j.1 = k.1 * s + r.1 →
      g'.mix.pi j = g.mix.pi k / s ∧ ∀ i, Real.sqrt (1 / g'.Lambda j i) = Real.sqrt (1 / g.Lambda k i) / s ∧
        |g'.mu j i - g.mu k i| = Real.sqrt (1 / g.Lambda k i) ∧
        (s = 2 → g'.mu j i = g.mu k i + (if r.1 = 0 then 1 else -1) * Real.sqrt (1 / g.Lambda k i)) := by
  have hpos : ∀ (j : Fin (((K + 1) * s - 1) + 1)) (i : Fin d), 0 < g.Lambda (oldComp K s hs (j.cast (split_card K s hs))) i * (s : ℝ) ^ 2 := by
    intro j i
    have := hg (oldComp K s hs (j.cast (split_card K s hs))) i
    have : (0 : ℝ) < s := Nat.cast_pos.2 hs
    positivity
  refine ⟨_, if_pos hpos, ?_⟩
  intro k r j hj
  have hj' : j = newComp K s hs k r := Fin.ext hj
  have hold : oldComp K s hs (j.cast (split_card K s hs)) = k := by rw [hj']; exact oldComp_new K s hs k r
  have hmod : j.1 % s = r.1 := by rw [hj']; exact newComp_mod K s hs k r
  refine ⟨?_, fun i => ⟨?_, ?_, ?_⟩⟩
  · show g.mix.pi (oldComp K s hs (j.cast (split_card K s hs))) / s = _
    rw [hold]
  · show Real.sqrt (1 / (g.Lambda (oldComp K s hs (j.cast (split_card K s hs))) i * (s : ℝ) ^ 2)) = _
    rw [hold, one_div, one_div, mul_inv, Real.sqrt_mul (by have := hg k i; positivity), ← inv_pow, Real.sqrt_sq (by positivity)]
    rfl
  · show |g.mu (oldComp K s hs (j.cast (split_card K s hs))) i + splitSign s rnd j.1 (oldComp K s hs (j.cast (split_card K s hs))) i *
      (1 / Real.sqrt (g.Lambda (oldComp K s hs (j.cast (split_card K s hs))) i)) - g.mu k i| = _
    rw [hold, add_sub_cancel_left, abs_mul, one_div, one_div, Real.sqrt_inv, abs_of_nonneg (a := (Real.sqrt (g.Lambda k i))⁻¹) (by positivity)]
    have : |splitSign s rnd j.1 k i| = 1 := by
      unfold splitSign
      split_ifs <;> simp
    rw [this, one_mul]
  · rintro rfl
    show g.mu (oldComp K 2 hs (j.cast (split_card K 2 hs))) i + splitSign 2 rnd j.1 (oldComp K 2 hs (j.cast (split_card K 2 hs))) i *
      (1 / Real.sqrt (g.Lambda (oldComp K 2 hs (j.cast (split_card K 2 hs))) i)) = _
    rw [hold]
    unfold splitSign
    rw [if_pos rfl, hmod, one_div, one_div, Real.sqrt_inv]

/-- **C138** the same for a shared covariance, which stays as it is. -/
theorem C138_split_tied (g : TiedGmm K d) (hg : ∀ i, 0 < g.Lambda i) (s : Nat) (hs : 0 < s) (rnd : Nat → Fin d → Bool) :
    ∃ g', g.split s hs rnd = some g' ∧ g'.Lambda = g.Lambda ∧ ∀ (k : Fin (K + 1)) (r : Fin s) (j : Fin (((K + 1) * s - 1) + 1)), j.1 = k.1 * s + r.1 →
      g'.mix.pi j = g.mix.pi k / s ∧ ∀ i, |g'.mu j i - g.mu k i| = Real.sqrt (1 / g.Lambda i) ∧
        (s = 2 → g'.mu j i = g.mu k i + (if r.1 = 0 then 1 else -1) * Real.sqrt (1 / g.Lambda i)) := by
  refine ⟨_, if_pos hg, rfl, ?_⟩
  intro k r j hj
  have hj' : j = newComp K s hs k r := Fin.ext hj
  have hold : oldComp K s hs (j.cast (split_card K s hs)) = k := by rw [hj']; exact oldComp_new K s hs k r
  have hmod : j.1 % s = r.1 := by rw [hj']; exact newComp_mod K s hs k r
  refine ⟨?_, fun i => ⟨?_, ?_⟩⟩
  · show g.mix.pi (oldComp K s hs (j.cast (split_card K s hs))) / s = _
    rw [hold]
  · show |g.mu (oldComp K s hs (j.cast (split_card K s hs))) i + splitSign s _ j.1 (oldComp K s hs (j.cast (split_card K s hs))) i *
      (1 / Real.sqrt (g.Lambda i)) - g.mu k i| = _
    rw [hold, add_sub_cancel_left, abs_mul, one_div, one_div, Real.sqrt_inv, abs_of_nonneg (a := (Real.sqrt (g.Lambda i))⁻¹) (by positivity)]
    have : ∀ f : Nat → Fin (K + 1) → Fin d → Bool, |splitSign s f j.1 k i| = 1 := by
      intro f
      unfold splitSign
      split_ifs <;> simp
    rw [this, one_mul]
  · rintro rfl
    show g.mu (oldComp K 2 hs (j.cast (split_card K 2 hs))) i + splitSign 2 _ j.1 (oldComp K 2 hs (j.cast (split_card K 2 hs))) i *
      (1 / Real.sqrt (g.Lambda i)) = _
    rw [hold]
    unfold splitSign
    rw [if_pos rfl, hmod, one_div, one_div, Real.sqrt_inv]

/-- **C138** splitting keeps the total weight; splitting in two keeps the mean of the mixture. -/
theorem C138_mass_and_mean (g : Gmm K d) (hg : ∀ k i, 0 < g.Lambda k i) (s : Nat) (hs : 0 < s) (rnd : Nat → Fin (K + 1) → Fin d → Bool)
    (g' : Gmm ((K + 1) * s - 1) d) (h : g.split s hs rnd = some g') :
    ∑ j, g'.mix.pi j = ∑ k, g.mix.pi k ∧ (s = 2 → ∀ i, ∑ j, g'.mix.pi j * g'.mu j i = ∑ k, g.mix.pi k * g.mu k i) := by
  obtain ⟨g2, h2, hc⟩ := C138_split g hg s hs rnd
  rw [h] at h2
  have := Option.some.inj h2
  subst this
  have hs' : (s : ℝ) ≠ 0 := Nat.cast_ne_zero.2 hs.ne'
  constructor
  · rw [sum_newComp K s hs]
    refine Finset.sum_congr rfl (fun k _ => ?_)
    have : ∀ r : Fin s, g'.mix.pi (newComp K s hs k r) = g.mix.pi k / s := fun r => (hc k r _ rfl).1
    simp only [this, Finset.sum_const, Finset.card_univ, Fintype.card_fin, nsmul_eq_mul]
    field_simp
  · rintro rfl i
    rw [sum_newComp K 2 hs]
    refine Finset.sum_congr rfl (fun k _ => ?_)
    rw [Fin.sum_univ_two, (hc k 0 _ rfl).1, (hc k 1 _ rfl).1, ((hc k 0 _ rfl).2 i).2.2 rfl, ((hc k 1 _ rfl).2 i).2.2 rfl]
    simp
    ring

/-- **C138** the same for a shared covariance. -/
theorem C138_mass_and_mean_tied (g : TiedGmm K d) (hg : ∀ i, 0 < g.Lambda i) (s : Nat) (hs : 0 < s) (rnd : Nat → Fin d → Bool)
    (g' : TiedGmm ((K + 1) * s - 1) d) (h : g.split s hs rnd = some g') :
    ∑ j, g'.mix.pi j = ∑ k, g.mix.pi k ∧ (s = 2 → ∀ i, ∑ j, g'.mix.pi j * g'.mu j i = ∑ k, g.mix.pi k * g.mu k i) := by
  obtain ⟨g2, h2, _, hc⟩ := C138_split_tied g hg s hs rnd
  rw [h] at h2
  have := Option.some.inj h2
  subst this
  have hs' : (s : ℝ) ≠ 0 := Nat.cast_ne_zero.2 hs.ne'
  constructor
  · rw [sum_newComp K s hs]
    refine Finset.sum_congr rfl (fun k _ => ?_)
    have : ∀ r : Fin s, g'.mix.pi (newComp K s hs k r) = g.mix.pi k / s := fun r => (hc k r _ rfl).1
    simp only [this, Finset.sum_const, Finset.card_univ, Fintype.card_fin, nsmul_eq_mul]
    field_simp
  · rintro rfl i
    rw [sum_newComp K 2 hs]
    refine Finset.sum_congr rfl (fun k _ => ?_)
    rw [Fin.sum_univ_two, (hc k 0 _ rfl).1, (hc k 1 _ rfl).1, ((hc k 0 _ rfl).2 i).2 rfl, ((hc k 1 _ rfl).2 i).2 rfl]
    simp
    ring

/-- **C138, defect** splitting into more than two parts can move the mean of the mixture: the signs are drawn independently. One standard
Gaussian split in three, all signs up: the mean moves by one. -/
theorem C138_mean_moves : ∃ (g : Gmm 0 1) (g' : Gmm ((0 + 1) * 3 - 1) 1), Gmm.new (fun _ => 1) (fun _ _ => 0) (fun _ _ => 1) = some g ∧
    g.split 3 (by norm_num) (fun _ _ _ => true) = some g' ∧ ∑ k, g.mix.pi k * g.mu k 0 = 0 ∧ ∑ j, g'.mix.pi j * g'.mu j 0 = 1 := by
  obtain ⟨g, hg⟩ : ∃ g : Gmm 0 1, Gmm.new (fun _ => 1) (fun _ _ => 0) (fun _ _ => 1) = some g := ⟨_, if_pos (fun _ _ => one_pos)⟩
  have hgd : g.mu = (fun _ _ => 0) ∧ g.Lambda = (fun _ _ => 1) ∧ g.mix.pi = fun _ => 1 := by
    unfold Gmm.new at hg
    rw [if_pos (fun _ _ => one_pos)] at hg
    rw [← Option.some.inj hg]
    exact ⟨rfl, rfl, rfl⟩
  obtain ⟨h1, h2, h3⟩ := hgd
  have hp : ∀ (j : Fin (((0 + 1) * 3 - 1) + 1)) (i : Fin 1), 0 < g.Lambda (oldComp 0 3 (by norm_num) (j.cast (split_card 0 3 (by norm_num)))) i * ((3 : Nat) : ℝ) ^ 2 := by
    intro j i
    rw [h2]; norm_num
  refine ⟨g, _, hg, if_pos hp, ?_, ?_⟩
  · rw [h1]; simp
  · show ∑ j : Fin (((0 + 1) * 3 - 1) + 1), g.mix.pi (oldComp 0 3 _ (j.cast _)) / ((3 : Nat) : ℝ) *
      (g.mu (oldComp 0 3 _ (j.cast _)) 0 + splitSign 3 (fun _ _ _ => true) j.1 _ 0 * (1 / Real.sqrt (g.Lambda (oldComp 0 3 _ (j.cast _)) 0))) = 1
    rw [h1, h2, h3]
    simp [splitSign]

/-- **C138, defect** of the options, `min_N` and `update_Lambda` do not survive a split: they are 0 and `True` afterwards. -/
theorem C138_options (cfg : GmmCfg) : (splitCfg cfg).varFloor = cfg.varFloor ∧ (splitCfg cfg).updatePi = cfg.updatePi ∧
    (splitCfg cfg).updateMu = cfg.updateMu ∧ (splitCfg cfg = cfg ↔ cfg.minN = 0 ∧ cfg.updateLambda = true) := by
  refine ⟨rfl, rfl, rfl, ?_⟩
  obtain ⟨a, b, c, e, f⟩ := cfg
  simp [splitCfg, eq_comm]

end Hyp.Pdfs
