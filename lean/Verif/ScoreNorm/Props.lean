import Verif.ScoreNorm.Model
import Mathlib.Data.Fin.Tuple.Sort
import Mathlib.Tactic.FieldSimp
import Mathlib.Tactic.Ring
import Mathlib.Tactic.Linarith
import Mathlib.Tactic.Positivity

/-! # C39: score normalisation -/

namespace Hyp.ScoreNorm

open scoped BigOperators

/-! ## specification -/

/-- mean of the values of `x` over the set `S`. -/
noncomputable def meanOver {c : Nat} (S : Finset (Fin c)) (x : Fin c → ℝ) : ℝ := (∑ k ∈ S, x k) / S.card

/-- (population) standard deviation of the values of `x` over the set `S`. -/
noncomputable def stdOver {c : Nat} (S : Finset (Fin c)) (x : Fin c → ℝ) : ℝ :=
  Real.sqrt ((∑ k ∈ S, (x k - meanOver S x) ^ 2) / S.card)

/-- the cohort members which are valid for a row or column: all without a mask. -/
def valid {c : Nat} (mask : Option (Fin c → Bool)) : Finset (Fin c) :=
  match mask with
  | none => Finset.univ
  | some mk => Finset.univ.filter (fun k => mk k = true)

/-! ## lemmas -/

theorem sum_zeroMasked {c : Nat} (x : Fin c → ℝ) (mk : Fin c → Bool) (f : ℝ → ℝ) (h0 : f 0 = 0) :
    ∑ k, f (zeroMasked x (some mk) k) = ∑ k ∈ valid (some mk), f (x k) := by
  unfold valid
  simp only
  rw [Finset.sum_filter]
  apply Finset.sum_congr rfl
  intro k _
  unfold zeroMasked
  simp only
  split
  · rfl
  · exact h0

theorem npMeanMask_eq {c : Nat} (mk : Fin c → Bool) : npMeanMask mk = ((valid (some mk)).card : ℝ) / c := by
  unfold npMeanMask npMean valid
  congr 1
  rw [← Finset.sum_filter, Finset.sum_const, nsmul_eq_mul, mul_one]

/-- the two formulas for the variance. -/
theorem var_two_ways {c : Nat} (S : Finset (Fin c)) (hS : S.Nonempty) (x : Fin c → ℝ) :
    (∑ k ∈ S, x k ^ 2) / S.card - meanOver S x ^ 2 = (∑ k ∈ S, (x k - meanOver S x) ^ 2) / S.card := by
  have hc : (S.card : ℝ) ≠ 0 := by
    have := hS.card_pos
    positivity
  have e : ∑ k ∈ S, (x k - meanOver S x) ^ 2 = ∑ k ∈ S, x k ^ 2 - 2 * meanOver S x * ∑ k ∈ S, x k + S.card * meanOver S x ^ 2 := by
    have : ∀ k ∈ S, (x k - meanOver S x) ^ 2 = x k ^ 2 - 2 * meanOver S x * x k + meanOver S x ^ 2 := by
      intro k _; ring
    rw [Finset.sum_congr rfl this, Finset.sum_add_distrib, Finset.sum_sub_distrib, ← Finset.mul_sum, Finset.sum_const, nsmul_eq_mul]
  have hm : ∑ k ∈ S, x k = S.card * meanOver S x := by
    unfold meanOver
    field_simp
  rw [e, hm]
  field_simp
  ring

theorem meanOver_univ {c : Nat} (x : Fin c → ℝ) : meanOver Finset.univ x = npMean x := by
  unfold meanOver npMean; simp

theorem stdOver_univ {c : Nat} (x : Fin c → ℝ) : stdOver Finset.univ x = npStd x := by
  unfold stdOver npStd npMean
  rw [meanOver_univ]
  simp [npMean]

/-- the mean over the zeroed array divided by the fraction of valid entries. -/
theorem mean_masked {c : Nat} (x : Fin c → ℝ) (mk : Fin c → Bool) (h : (valid (some mk)).Nonempty) (f : ℝ → ℝ) (h0 : f 0 = 0) :
    npMean (fun k => f (zeroMasked x (some mk) k)) / npMeanMask mk = (∑ k ∈ valid (some mk), f (x k)) / (valid (some mk)).card := by
  rw [npMeanMask_eq]
  unfold npMean
  rw [sum_zeroMasked x mk f h0]
  have h1 : ((valid (some mk)).card : ℝ) ≠ 0 := by
    have := h.card_pos
    positivity
  have h2 : (c : ℝ) ≠ 0 := by
    obtain ⟨k, _⟩ := h
    have := k.2
    have : 0 < c := by omega
    positivity
  field_simp

theorem stats_eq {c : Nat} (x : Fin c → ℝ) (mask : Option (Fin c → Bool)) (h : (valid mask).Nonempty) :
    stats x mask = (meanOver (valid mask) x, stdOver (valid mask) x) := by
  cases mask with
  | none =>
    show (npMean x, npStd x) = (meanOver Finset.univ x, stdOver Finset.univ x)
    rw [meanOver_univ, stdOver_univ]
  | some mk =>
    have h1 := mean_masked x mk h (fun y => y) rfl
    have h2 := mean_masked x mk h (fun y => y ^ 2) (by simp)
    unfold stats
    simp only
    rw [h1, h2]
    have := var_two_ways _ h x
    unfold meanOver at this
    rw [this]
    rfl

theorem normOne_eq (floor : ℝ) (st : ℝ × ℝ) (s : ℝ) : normOne floor st s = (s - st.1) / max st.2 floor := by
  unfold normOne
  congr 1
  split
  · rw [max_eq_right (by linarith)]
  · rw [max_eq_left (by linarith)]

/-! ## theorems -/

/-- Z-norm: each score is centred and scaled with the mean and standard deviation (floored) of the valid cohort scores of
its row. -/
theorem C39_znorm {m n c : Nat} (floor : ℝ) (scores : Fin m → Fin n → ℝ) (coh : Fin m → Fin c → ℝ)
    (mask : Option (Fin m → Fin c → Bool)) (i : Fin m) (j : Fin n) (h : (valid (mask.map (fun mk => mk i))).Nonempty) :
    let V := valid (mask.map (fun mk => mk i))
    (zNorm floor scores coh mask).1 i j = (scores i j - meanOver V (coh i)) / max (stdOver V (coh i)) floor := by
  intro V
  unfold zNorm
  simp only
  rw [normOne_eq, stats_eq _ _ h]

/-- T-norm: the same over the columns. -/
theorem C39_tnorm {m n c : Nat} (floor : ℝ) (scores : Fin m → Fin n → ℝ) (coh : Fin c → Fin n → ℝ)
    (mask : Option (Fin c → Fin n → Bool)) (i : Fin m) (j : Fin n) (h : (valid (mask.map (fun mk k => mk k j))).Nonempty) :
    let V := valid (mask.map (fun mk k => mk k j))
    (tNorm floor scores coh mask).1 i j =
      (scores i j - meanOver V (fun k => coh k j)) / max (stdOver V (fun k => coh k j)) floor := by
  intro V
  unfold tNorm
  simp only
  rw [normOne_eq, stats_eq _ _ h]

/-- Masked cohort scores have no influence on Z-norm (nor on T-norm, `C39_tnorm_masked`), whatever the mask. -/
theorem C39_znorm_masked {m n c : Nat} (floor : ℝ) (scores : Fin m → Fin n → ℝ) (coh coh' : Fin m → Fin c → ℝ)
    (mask : Fin m → Fin c → Bool) (h : ∀ i k, mask i k = true → coh i k = coh' i k) :
    (zNorm floor scores coh (some mask)).1 = (zNorm floor scores coh' (some mask)).1 := by
  have e : ∀ i, zeroMasked (coh i) (some (mask i)) = zeroMasked (coh' i) (some (mask i)) := by
    intro i
    funext k
    unfold zeroMasked
    simp only
    split
    · rename_i hk; exact h i k hk
    · rfl
  unfold zNorm stats
  funext i j
  simp only [Option.map_some, e i]

theorem C39_tnorm_masked {m n c : Nat} (floor : ℝ) (scores : Fin m → Fin n → ℝ) (coh coh' : Fin c → Fin n → ℝ)
    (mask : Fin c → Fin n → Bool) (h : ∀ k j, mask k j = true → coh k j = coh' k j) :
    (tNorm floor scores coh (some mask)).1 = (tNorm floor scores coh' (some mask)).1 := by
  have e : ∀ j, zeroMasked (fun k => coh k j) (some (fun k => mask k j)) = zeroMasked (fun k => coh' k j) (some (fun k => mask k j)) := by
    intro j
    funext k
    unfold zeroMasked
    simp only
    split
    · rename_i hk; exact h k j hk
    · rfl
  unfold tNorm stats
  funext i j
  simp only [Option.map_some, e j]

/-- An all-true mask gives the same normalised scores as no mask. -/
theorem C39_full_mask {m n c : Nat} (hc : 0 < c) (floor : ℝ) (scores : Fin m → Fin n → ℝ) (coh : Fin m → Fin c → ℝ) :
    (zNorm floor scores coh (some (fun _ _ => true))).1 = (zNorm floor scores coh none).1 := by
  have hne : (Finset.univ : Finset (Fin c)).Nonempty := ⟨⟨0, hc⟩, Finset.mem_univ _⟩
  have hv : valid (some (fun _ : Fin c => true)) = Finset.univ := by simp [valid]
  funext i j
  have h1 := C39_znorm floor scores coh (some (fun _ _ => true)) i j (by simpa [hv] using hne)
  have h2 := C39_znorm floor scores coh none i j (by simpa [valid] using hne)
  simp only [Option.map_some, Option.map_none, hv] at h1 h2
  rw [h1, h2]
  rfl

theorem meanOver_affine {c : Nat} (S : Finset (Fin c)) (hS : S.Nonempty) (x : Fin c → ℝ) (a b : ℝ) :
    meanOver S (fun k => a * x k + b) = a * meanOver S x + b := by
  have : (S.card : ℝ) ≠ 0 := by
    have := hS.card_pos
    positivity
  unfold meanOver
  rw [Finset.sum_add_distrib, ← Finset.mul_sum, Finset.sum_const, nsmul_eq_mul]
  field_simp

theorem stdOver_affine {c : Nat} (S : Finset (Fin c)) (hS : S.Nonempty) (x : Fin c → ℝ) (a b : ℝ) (ha : 0 ≤ a) :
    stdOver S (fun k => a * x k + b) = a * stdOver S x := by
  unfold stdOver
  rw [meanOver_affine S hS]
  have : ∀ k ∈ S, (a * x k + b - (a * meanOver S x + b)) ^ 2 = a ^ 2 * (x k - meanOver S x) ^ 2 := by
    intro k _; ring
  rw [Finset.sum_congr rfl this, ← Finset.mul_sum, mul_div_assoc, Real.sqrt_mul (by positivity), Real.sqrt_sq ha]

/-- Z-norm does not change when all scores (also those of the cohort) go through the same increasing affine function, as
long as no standard deviation is below the floor. -/
theorem C39_affine_invariant {m n c : Nat} (floor : ℝ) (scores : Fin m → Fin n → ℝ) (coh : Fin m → Fin c → ℝ)
    (mask : Option (Fin m → Fin c → Bool)) (a b : ℝ) (ha : 0 < a) (i : Fin m) (j : Fin n)
    (h : (valid (mask.map (fun mk => mk i))).Nonempty)
    (hf : floor ≤ stdOver (valid (mask.map (fun mk => mk i))) (coh i))
    (hf' : floor ≤ a * stdOver (valid (mask.map (fun mk => mk i))) (coh i)) :
    (zNorm floor (fun i j => a * scores i j + b) (fun i k => a * coh i k + b) mask).1 i j = (zNorm floor scores coh mask).1 i j := by
  have h1 := C39_znorm floor (fun i j => a * scores i j + b) (fun i k => a * coh i k + b) mask i j h
  have h2 := C39_znorm floor scores coh mask i j h
  simp only at h1 h2
  rw [h1, h2, meanOver_affine _ h, stdOver_affine _ h _ _ _ ha.le, max_eq_left hf, max_eq_left hf']
  rw [show a * scores i j + b - (a * meanOver (valid (mask.map (fun mk => mk i))) (coh i) + b) =
    a * (scores i j - meanOver (valid (mask.map (fun mk => mk i))) (coh i)) by ring]
  exact mul_div_mul_left _ _ ha.ne'

/-- Normalised cohort: applied to its own cohort Z-norm gives mean 0 and, if the deviation is not floored, deviation 1. -/
theorem C39_standardised {m c : Nat} (floor : ℝ) (hfl : 0 < floor) (coh : Fin m → Fin c → ℝ) (hc : 0 < c) (i : Fin m)
    (hf : floor ≤ stdOver Finset.univ (coh i)) :
    meanOver Finset.univ ((zNorm floor coh coh none).1 i) = 0 ∧ stdOver Finset.univ ((zNorm floor coh coh none).1 i) = 1 := by
  have hne : (Finset.univ : Finset (Fin c)).Nonempty := ⟨⟨0, hc⟩, Finset.mem_univ _⟩
  set mu := meanOver Finset.univ (coh i) with hmu
  set sd := stdOver Finset.univ (coh i) with hsd
  have hpos : 0 < sd := lt_of_lt_of_le hfl hf
  have e : (zNorm floor coh coh none).1 i = fun j => (1 / sd) * coh i j + (- mu / sd) := by
    funext j
    have := C39_znorm floor coh coh none i j (by simpa [valid] using hne)
    simp only [Option.map_none, valid] at this
    rw [this, max_eq_left hf]
    ring
  rw [e, meanOver_affine _ hne, stdOver_affine _ hne _ _ _ (by positivity)]
  rw [← hmu, ← hsd]
  constructor
  · ring
  · field_simp

/-- S-norm is the sum of the Z- and the T-normalised scores over the square root of two; exchanging the roles of
enrolment and test (transposing everything) transposes the result. -/
theorem C39_snorm {m n c d : Nat} (floor : ℝ) (scores : Fin m → Fin n → ℝ) (ct : Fin c → Fin n → ℝ) (ec : Fin m → Fin d → ℝ)
    (mct : Option (Fin c → Fin n → Bool)) (mec : Option (Fin m → Fin d → Bool)) (i : Fin m) (j : Fin n) :
    sNorm floor scores ct ec mct mec i j =
        ((zNorm floor scores ec mec).1 i j + (tNorm floor scores ct mct).1 i j) / Real.sqrt 2 ∧
      sNorm floor (fun j i => scores i j) (fun k i => ec i k) (fun j k => ct k j) (mec.map (fun mk k i => mk i k))
        (mct.map (fun mk j k => mk k j)) j i = sNorm floor scores ct ec mct mec i j := by
  refine ⟨rfl, ?_⟩
  unfold sNorm zNorm tNorm
  simp only [Option.map_map, Function.comp_def]
  rw [add_comm]

/-- The cohort array of the caller is changed: masked entries become zero. So a later call without the mask gives another
result than a first call without the mask. -/
theorem C39_caller_array_changed {m n c : Nat} (floor : ℝ) (scores : Fin m → Fin n → ℝ) (coh : Fin m → Fin c → ℝ)
    (mask : Fin m → Fin c → Bool) (i : Fin m) (k : Fin c) :
    (zNorm floor scores coh (some mask)).2 i k = if mask i k then coh i k else 0 := rfl

/-! ## adaptive S-norm -/

/-- Specification: `B` are `b` cohort members which are the best ones of `x` after `d` even better ones. -/
def IsBest {c : Nat} (x : Fin c → ℝ) (d b : Nat) (B : Finset (Fin c)) : Prop :=
  B.card = b ∧ ∃ D : Finset (Fin c), D.card = d ∧ Disjoint D B ∧
    (∀ k ∈ B, ∀ l ∈ D, x k ≤ x l) ∧ ∀ k ∈ B, ∀ l, l ∉ B → l ∉ D → x l ≤ x k

theorem bestIdx_inj {c : Nat} (σ : (Fin c → ℝ) → Equiv.Perm (Fin c)) (x : Fin c → ℝ) (nbest discard : Nat) (h : discard < c) :
    Function.Injective (bestIdx σ x nbest discard h) := by
  intro r s hrs
  unfold bestIdx at hrs
  have := Fin.rev_injective ((σ x).injective hrs)
  have := congrArg Fin.val this
  simp only at this
  exact Fin.ext (by omega)

theorem bestIdx_isBest {c : Nat} (σ : (Fin c → ℝ) → Equiv.Perm (Fin c)) (hσ : IsArgsort σ) (x : Fin c → ℝ) (nbest discard : Nat)
    (h : discard < c) :
    IsBest x discard (min nbest (c - discard)) (Finset.univ.image (bestIdx σ x nbest discard h)) := by
  have hle := nBest_le c nbest discard
  have hn : nBest c nbest discard = min nbest (c - discard) := by unfold nBest; split <;> omega
  refine ⟨?_, ?_⟩
  · rw [Finset.card_image_of_injective _ (bestIdx_inj σ x nbest discard h), Finset.card_univ, Fintype.card_fin, hn]
  · let g : Fin discard → Fin c := fun r => σ x (Fin.rev ⟨r.1, by omega⟩)
    have hg : Function.Injective g := by
      intro r s hrs
      have := Fin.rev_injective ((σ x).injective hrs)
      have := congrArg Fin.val this
      exact Fin.ext this
    have hmono : ∀ a b : Fin c, a.1 ≤ b.1 → x (σ x (Fin.rev b)) ≤ x (σ x (Fin.rev a)) := by
      intro a b hab
      apply hσ x
      exact Fin.rev_le_rev.2 hab
    refine ⟨Finset.univ.image g, ?_, ?_, ?_, ?_⟩
    · rw [Finset.card_image_of_injective _ hg, Finset.card_univ, Fintype.card_fin]
    · rw [Finset.disjoint_left]
      rintro k hk hk'
      obtain ⟨r, _, rfl⟩ := Finset.mem_image.1 hk
      obtain ⟨s, _, hs⟩ := Finset.mem_image.1 hk'
      unfold bestIdx at hs
      have := congrArg Fin.val (Fin.rev_injective ((σ x).injective hs))
      simp only at this
      have := r.2
      omega
    · intro k hk l hl
      obtain ⟨r, _, rfl⟩ := Finset.mem_image.1 hl
      obtain ⟨s, _, rfl⟩ := Finset.mem_image.1 hk
      apply hmono
      simp only
      have := r.2
      omega
    · intro k hk l hl1 hl2
      obtain ⟨s, _, rfl⟩ := Finset.mem_image.1 hk
      obtain ⟨q, rfl⟩ : ∃ q : Fin c, l = σ x (Fin.rev q) := ⟨Fin.rev ((σ x).symm l), by simp⟩
      apply hmono
      simp only
      by_contra hlt
      rcases Nat.lt_or_ge q.1 discard with hq | hq
      · exact hl2 (Finset.mem_image.2 ⟨⟨q.1, hq⟩, Finset.mem_univ _, rfl⟩)
      · apply hl1
        refine Finset.mem_image.2 ⟨⟨q.1 - discard, by have := s.2; omega⟩, Finset.mem_univ _, ?_⟩
        unfold bestIdx
        congr 2
        apply Fin.ext
        simp only
        omega

theorem adaptStats_eq {b c : Nat} (x : Fin c → ℝ) (mask : Option (Fin c → Bool)) (g : Fin b → Fin c) (hg : Function.Injective g)
    (h : (valid mask ∩ Finset.univ.image g).Nonempty) :
    adaptStats (fun r => zeroMasked x mask (g r)) (mask.map (fun mk r => mk (g r))) =
      (meanOver (valid mask ∩ Finset.univ.image g) x, stdOver (valid mask ∩ Finset.univ.image g) x) := by
  have hsum : ∀ (f : Fin c → ℝ) (S : Finset (Fin b)), ∑ k ∈ S.image g, f k = ∑ r ∈ S, f (g r) := fun f S =>
    Finset.sum_image (fun a _ b _ hab => hg hab)
  have hkey : stats (fun r => x (g r)) (mask.map (fun mk r => mk (g r))) =
      adaptStats (fun r => zeroMasked x mask (g r)) (mask.map (fun mk r => mk (g r))) := by
    cases mask with
    | none => rfl
    | some mk => rfl
  have himg : valid mask ∩ Finset.univ.image g = (valid (mask.map (fun mk r => mk (g r)))).image g := by
    ext k
    cases mask with
    | none => simp [valid]
    | some mk =>
      simp only [valid, Option.map_some, Finset.mem_inter, Finset.mem_filter, Finset.mem_univ, true_and, Finset.mem_image]
      constructor
      · rintro ⟨hk, r, rfl⟩; exact ⟨r, hk, rfl⟩
      · rintro ⟨r, hr, rfl⟩; exact ⟨hr, r, rfl⟩
  have hne : (valid (mask.map (fun mk r => mk (g r)))).Nonempty := by
    rw [himg] at h
    exact Finset.image_nonempty.1 h
  rw [← hkey, stats_eq _ _ hne, himg]
  have hmean : meanOver ((valid (mask.map (fun mk r => mk (g r)))).image g) x = meanOver (valid (mask.map (fun mk r => mk (g r)))) (fun r => x (g r)) := by
    unfold meanOver
    rw [hsum, Finset.card_image_of_injective _ hg]
  unfold stdOver
  rw [hmean, hsum, Finset.card_image_of_injective _ hg]

/-- Adaptive S-norm: score (i, j) is normalised with the valid scores of model i against a set of cohort members which are
the `nbest` best ones for test j (after discarding the `discard` very best), and with the valid scores of test j against
the best cohort members of model i. The ranking is done on scores where the masked ones have been set to zero. -/
theorem C39_adapt_snorm {m n c : Nat} (σ : (Fin c → ℝ) → Equiv.Perm (Fin c)) (hσ : IsArgsort σ) (nbest discard : Nat) (h : discard < c)
    (scores : Fin m → Fin n → ℝ) (ct : Fin c → Fin n → ℝ) (ec : Fin m → Fin c → ℝ)
    (mct : Option (Fin c → Fin n → Bool)) (mec : Option (Fin m → Fin c → Bool)) (i : Fin m) (j : Fin n) :
    ∃ Bz Bt : Finset (Fin c),
      IsBest (zeroMasked (fun k => ct k j) (mct.map (fun mk k => mk k j))) discard (min nbest (c - discard)) Bz ∧
      IsBest (zeroMasked (ec i) (mec.map (fun mk => mk i))) discard (min nbest (c - discard)) Bt ∧
      ∀ Vz Vt : Finset (Fin c), Vz = valid (mec.map (fun mk => mk i)) ∩ Bz → Vt = valid (mct.map (fun mk k => mk k j)) ∩ Bt →
      (Vz.Nonempty → Vt.Nonempty →
        adaptSNorm σ nbest discard h scores ct ec mct mec i j =
          ((scores i j - meanOver Vz (ec i)) / stdOver Vz (ec i) +
            (scores i j - meanOver Vt (fun k => ct k j)) / stdOver Vt (fun k => ct k j)) / Real.sqrt 2) := by
  set x := zeroMasked (fun k => ct k j) (mct.map (fun mk k => mk k j)) with hx
  set y := zeroMasked (ec i) (mec.map (fun mk => mk i)) with hy
  refine ⟨Finset.univ.image (bestIdx σ x nbest discard h), Finset.univ.image (bestIdx σ y nbest discard h),
    bestIdx_isBest σ hσ x nbest discard h, bestIdx_isBest σ hσ y nbest discard h, ?_⟩
  intro Vz Vt hVz hVt hz ht
  rw [hVz] at hz
  rw [hVt] at ht
  have e1 := adaptStats_eq (ec i) (mec.map (fun mk => mk i)) (bestIdx σ x nbest discard h) (bestIdx_inj _ _ _ _ h) hz
  have e2 := adaptStats_eq (fun k => ct k j) (mct.map (fun mk k => mk k j)) (bestIdx σ y nbest discard h) (bestIdx_inj _ _ _ _ h) ht
  rw [Option.map_map, ← hVz] at e1
  rw [Option.map_map, ← hVt] at e2
  have e : adaptSNorm σ nbest discard h scores ct ec mct mec i j =
    ((scores i j - (adaptStats (fun r => zeroMasked (ec i) (mec.map (fun mk => mk i)) (bestIdx σ x nbest discard h r))
        (mec.map ((fun mk r => mk (bestIdx σ x nbest discard h r)) ∘ (fun mk => mk i)))).1) /
        (adaptStats (fun r => zeroMasked (ec i) (mec.map (fun mk => mk i)) (bestIdx σ x nbest discard h r))
        (mec.map ((fun mk r => mk (bestIdx σ x nbest discard h r)) ∘ (fun mk => mk i)))).2 +
      (scores i j - (adaptStats (fun r => zeroMasked (fun k => ct k j) (mct.map (fun mk k => mk k j)) (bestIdx σ y nbest discard h r))
        (mct.map ((fun mk r => mk (bestIdx σ y nbest discard h r)) ∘ (fun mk k => mk k j)))).1) /
        (adaptStats (fun r => zeroMasked (fun k => ct k j) (mct.map (fun mk k => mk k j)) (bestIdx σ y nbest discard h r))
        (mct.map ((fun mk r => mk (bestIdx σ y nbest discard h r)) ∘ (fun mk k => mk k j)))).2) / Real.sqrt 2 := by
    rfl
  rw [e, e1, e2]

/-- Without masks: no condition but a non-empty choice. -/
theorem C39_adapt_snorm_nomask {m n c : Nat} (σ : (Fin c → ℝ) → Equiv.Perm (Fin c)) (hσ : IsArgsort σ) (nbest discard : Nat)
    (h : discard < c) (hb : 1 ≤ nbest)
    (scores : Fin m → Fin n → ℝ) (ct : Fin c → Fin n → ℝ) (ec : Fin m → Fin c → ℝ) (i : Fin m) (j : Fin n) :
    ∃ Bz Bt : Finset (Fin c),
      IsBest (fun k => ct k j) discard (min nbest (c - discard)) Bz ∧ IsBest (ec i) discard (min nbest (c - discard)) Bt ∧
      adaptSNorm σ nbest discard h scores ct ec none none i j =
        ((scores i j - meanOver Bz (ec i)) / stdOver Bz (ec i) +
          (scores i j - meanOver Bt (fun k => ct k j)) / stdOver Bt (fun k => ct k j)) / Real.sqrt 2 := by
  obtain ⟨Bz, Bt, h1, h2, h3⟩ := C39_adapt_snorm σ hσ nbest discard h scores ct ec none none i j
  refine ⟨Bz, Bt, h1, h2, ?_⟩
  have c1 : Bz.Nonempty := Finset.card_pos.1 (by rw [h1.1]; omega)
  have c2 : Bt.Nonempty := Finset.card_pos.1 (by rw [h2.1]; omega)
  refine h3 Bz Bt ?_ ?_ c1 c2 <;> simp [valid]

/-- The statement that masked scores have no influence fails for adaptive S-norm: a masked cohort member is ranked with
score 0, so with negative cohort scores it is chosen as the best one. Here the test has scores -2 and -1 against cohort
members 0 and 1, member 1 is masked, and the best (nbest = 1) cohort member is the masked one for any sort. -/
theorem C39_adapt_masked_chosen (σ : (Fin 2 → ℝ) → Equiv.Perm (Fin 2)) (hσ : IsArgsort σ) :
    bestIdx σ (zeroMasked ![-2, -1] (some ![true, false])) 1 0 (by omega) ⟨0, by decide⟩ = 1 := by
  set x : Fin 2 → ℝ := zeroMasked ![-2, -1] (some ![true, false]) with hx
  have x0 : x 0 = -2 := by simp [hx, zeroMasked]
  have x1 : x 1 = 0 := by simp [hx, zeroMasked]
  have hm := hσ x (show (0 : Fin 2) ≤ 1 by decide)
  simp only [Function.comp_apply] at hm
  unfold bestIdx
  have hrev : Fin.rev (⟨0 + 0, by omega⟩ : Fin 2) = 1 := by decide
  show (σ x) (Fin.rev (⟨0 + 0, _⟩ : Fin 2)) = 1
  rw [hrev]
  by_contra hne
  have h1 : (σ x) 1 = 0 := by
    have := (σ x 1).2
    apply Fin.ext
    have h2 : (σ x 1).1 ≠ 1 := fun hh => hne (Fin.ext hh)
    show (σ x 1).1 = 0
    omega
  have h0 : (σ x) 0 = 1 := by
    have h2 : (σ x) 0 ≠ (σ x) 1 := fun hh => absurd ((σ x).injective hh) (by decide)
    rw [h1] at h2
    apply Fin.ext
    have := (σ x 0).2
    have h3 : (σ x 0).1 ≠ 0 := fun hh => h2 (Fin.ext hh)
    show (σ x 0).1 = 1
    omega
  rw [h0, h1, x0, x1] at hm
  linarith

/-- a sort exists (the stable one of Mathlib). -/
example : ∃ σ : (Fin 5 → ℝ) → Equiv.Perm (Fin 5), IsArgsort σ := ⟨fun x => Tuple.sort x, fun x => Tuple.monotone_sort x⟩

/-- a mask with valid and masked entries meets the hypothesis. -/
example : (valid ((some (fun (_ : Fin 2) (k : Fin 3) => decide (k.1 ≠ 1))).map (fun mk => mk 0))).Nonempty :=
  ⟨0, by simp [valid]⟩

end Hyp.ScoreNorm
