import Verif.Transforms.Whiten
import Mathlib.Data.Finset.Max
import Mathlib.Algebra.Order.BigOperators.Group.Finset
import Mathlib.Data.Fin.VecNotation

namespace Hyp.Transforms
open scoped BigOperators
open Matrix

variable {n : Nat}

/-! ### unweighted data as weighted data -/

/-- every row with weight one -/
def unw (rows : List (Vec n)) : List (WRow n) := rows.map (fun x => (x, (1 : ℝ)))

theorem unw_weights (rows : List (Vec n)) : ((unw rows).map (fun r => r.2)).sum = rows.length := by
  unfold unw
  rw [List.map_map]
  induction rows with
  | nil => simp
  | cons a l ih =>
    rw [List.map_cons, List.sum_cons, ih]; simp [add_comm]

theorem avg_unw (rows : List (Vec n)) (f : Vec n → ℝ) : avg (unw rows) f = (rows.map f).sum / rows.length := by
  unfold avg
  rw [unw_weights]
  congr 1
  unfold unw
  rw [List.map_map]
  congr 1
  apply List.map_congr_left
  intro x _
  simp

theorem unw_ne {rows : List (Vec n)} (h : rows ≠ []) : ((unw rows).map (fun r => r.2)).sum ≠ 0 := by
  rw [unw_weights]
  exact_mod_cast (List.length_pos_iff.mpr h).ne'

theorem pcaMu_unw (rows : List (Vec n)) : pcaMu rows = gaussMu (unw rows) := by
  funext i
  unfold pcaMu gaussMu
  rw [avg_unw]

theorem pcaCov_unw {rows : List (Vec n)} (h : rows ≠ []) : pcaCov rows = gaussSigma (unw rows) := by
  ext i j
  rw [← avg_cov (unw rows) (unw_ne h) i j, avg_unw, ← pcaMu_unw]
  rfl

/-! ### optimality of the leading eigenvectors -/

/-- Bessel's inequality for one coordinate -/
theorem bessel {k : Nat} (c : Fin k → Vec n) (ho : ∀ a b, c a ⬝ᵥ c b = if a = b then 1 else 0) (j : Fin n) :
    ∑ a, c a j ^ 2 ≤ 1 := by
  have h0 : 0 ≤ (Pi.single j (1 : ℝ) - ∑ a, c a j • c a) ⬝ᵥ (Pi.single j (1 : ℝ) - ∑ a, c a j • c a) := by
    unfold dotProduct
    exact Finset.sum_nonneg (fun i _ => mul_self_nonneg _)
  have e1 : (Pi.single j (1 : ℝ) : Vec n) ⬝ᵥ (∑ a, c a j • c a) = ∑ a, c a j ^ 2 := by
    rw [single_one_dotProduct, Finset.sum_apply]
    simp [pow_two]
  have e2 : (∑ a, c a j • c a) ⬝ᵥ (∑ a, c a j • c a) = ∑ a, c a j ^ 2 := by
    rw [sum_dotProduct]
    apply Finset.sum_congr rfl
    intro a _
    rw [dotProduct_sum]
    simp only [smul_dotProduct, dotProduct_smul, ho, smul_eq_mul, mul_ite, mul_one, mul_zero]
    rw [Finset.sum_ite_eq]
    simp [pow_two]
  have e3 : (∑ a, c a j • c a) ⬝ᵥ (Pi.single j (1 : ℝ) : Vec n) = ∑ a, c a j ^ 2 := by
    rw [dotProduct_comm, e1]
  rw [sub_dotProduct, dotProduct_sub, dotProduct_sub, e1, e2, e3, single_one_dotProduct] at h0
  simp only [Pi.single_eq_same] at h0
  linarith

/-- weights between 0 and 1 with the right total give at most the sum of the largest values -/
theorem top_weights (S : Finset (Fin n)) (d p : Vec n) (hS : ∀ i ∈ S, ∀ j, j ∉ S → d j ≤ d i)
    (h0 : ∀ j, 0 ≤ p j) (h1 : ∀ j, p j ≤ 1) (hs : ∑ j, p j = S.card) : ∑ j, d j * p j ≤ ∑ j ∈ S, d j := by
  classical
  by_cases hne : S.Nonempty
  · obtain ⟨m, hm, hmin⟩ := S.exists_min_image d hne
    have key : ∑ j, (d j - d m) * p j ≤ ∑ j ∈ S, (d j - d m) := by
      have hsplit : ∑ j ∈ S, (d j - d m) = ∑ j, (if j ∈ S then d j - d m else 0) := by
        rw [Finset.sum_ite_mem, Finset.univ_inter]
      rw [hsplit]
      apply Finset.sum_le_sum
      intro j _
      split
      · next hj =>
        have := hmin j hj
        nlinarith [h0 j, h1 j]
      · next hj =>
        have := hS m hm j hj
        nlinarith [h0 j, h1 j]
    have e : ∑ j, (d j - d m) * p j = ∑ j, d j * p j - d m * S.card := by
      simp only [sub_mul, Finset.sum_sub_distrib]
      rw [← Finset.mul_sum, hs]
    rw [e, Finset.sum_sub_distrib, Finset.sum_const, nsmul_eq_mul] at key
    linarith
  · rw [Finset.not_nonempty_iff_eq_empty] at hne
    subst hne
    simp only [Finset.card_empty, Nat.cast_zero] at hs
    have : ∀ j, p j = 0 := fun j => (Finset.sum_eq_zero_iff_of_nonneg (fun j _ => h0 j)).mp hs j (Finset.mem_univ j)
    simp [this]

theorem IsEigh.gen {C : Matrix (Fin n) (Fin n) ℝ} {d : Vec n} {V : Matrix (Fin n) (Fin n) ℝ} (h : IsEigh C d V) :
    IsEighGen C 1 d V := ⟨h.asc, by rw [Matrix.mul_one]; exact h.orth, by rw [Matrix.one_mul]; exact h.eig⟩

/-- the last `k` indexes -/
def lastIdx (n k : Nat) : Finset (Fin n) := Finset.univ.filter (fun j => n - k ≤ j.val)

theorem flipped_take (n k : Nat) (hk : k ≤ n) : ((flipped n).take k).toFinset = lastIdx n k ∧ ((flipped n).take k).Nodup ∧
    ((flipped n).take k).length = k := by
  have hnd : ((flipped n).take k).Nodup := (flipped_nodup n).sublist (List.take_sublist _ _)
  refine ⟨?_, hnd, by simp [flipped, hk]⟩
  ext j
  rw [List.mem_toFinset, lastIdx, Finset.mem_filter]
  simp only [Finset.mem_univ, true_and]
  unfold flipped
  rw [List.take_reverse, List.mem_reverse, List.length_finRange, List.mem_drop_iff_getElem]
  constructor
  · rintro ⟨i, hi, e⟩
    rw [← e]; simp
  · intro h
    refine ⟨j.val - (n - k), by simp; omega, ?_⟩
    apply Fin.ext
    simp; omega

theorem sum_take (n k : Nat) (hk : k ≤ n) (f : Fin n → ℝ) : (((flipped n).take k).map f).sum = ∑ j ∈ lastIdx n k, f j := by
  obtain ⟨h1, h2, _⟩ := flipped_take n k hk
  rw [← h1, List.sum_toFinset _ h2]

theorem lastIdx_card (n k : Nat) (hk : k ≤ n) : (lastIdx n k).card = k := by
  obtain ⟨h1, h2, h3⟩ := flipped_take n k hk
  rw [← h1, List.toFinset_card_of_nodup h2, h3]

/-- coordinates in the eigenvector basis -/
theorem IsEighGen.coords {B W : Matrix (Fin n) (Fin n) ℝ} {d : Vec n} {V : Matrix (Fin n) (Fin n) ℝ} (h : IsEighGen B W d V)
    (t u : Vec n) : t ⬝ᵥ (W *ᵥ u) = ((Vᵀ * W) *ᵥ t) ⬝ᵥ ((Vᵀ * W) *ᵥ u) ∧
      t ⬝ᵥ (B *ᵥ u) = ∑ j, d j * (((Vᵀ * W) *ᵥ t) j * ((Vᵀ * W) *ᵥ u) j) := by
  have hinv : V * (Vᵀ * W) = 1 := mul_eq_one_comm.mp h.orth
  set c := (Vᵀ * W) *ᵥ t with hc
  set e := (Vᵀ * W) *ᵥ u with he
  have ht : t = V *ᵥ c := by rw [hc, Matrix.mulVec_mulVec, hinv, Matrix.one_mulVec]
  have hu : u = V *ᵥ e := by rw [he, Matrix.mulVec_mulVec, hinv, Matrix.one_mulVec]
  have step : ∀ M : Matrix (Fin n) (Fin n) ℝ, t ⬝ᵥ (M *ᵥ u) = c ⬝ᵥ ((Vᵀ * (M * V)) *ᵥ e) := by
    intro M
    rw [ht, hu, ← Matrix.mulVec_mulVec, ← Matrix.mulVec_mulVec, Matrix.dotProduct_mulVec c, Matrix.vecMul_transpose]
  constructor
  · rw [step, ← Matrix.mul_assoc, h.orth, Matrix.one_mulVec]
  · rw [step, h.eig, ← Matrix.mul_assoc, ← Matrix.mul_assoc, h.orth, Matrix.one_mul]
    simp only [dotProduct, Matrix.mulVec_diagonal]
    apply Finset.sum_congr rfl
    intro j _; ring

/-- the leading generalised eigenvectors maximise the sum of quadratic forms over all `W`-orthonormal families -/
theorem IsEighGen.kyFan {B W : Matrix (Fin n) (Fin n) ℝ} {d : Vec n} {V : Matrix (Fin n) (Fin n) ℝ} (h : IsEighGen B W d V)
    (k : Nat) (hk : k ≤ n) (u : Fin k → Vec n) (hu : ∀ a b, u a ⬝ᵥ (W *ᵥ u b) = if a = b then 1 else 0) :
    ∑ a, u a ⬝ᵥ (B *ᵥ u a) ≤ ∑ j ∈ lastIdx n k, d j := by
  have ho : ∀ a b, ((Vᵀ * W) *ᵥ u a) ⬝ᵥ ((Vᵀ * W) *ᵥ u b) = if a = b then 1 else 0 := by
    intro a b; rw [← (h.coords (u a) (u b)).1, hu]
  have e1 : ∑ a, u a ⬝ᵥ (B *ᵥ u a) = ∑ j, d j * ∑ a, ((Vᵀ * W) *ᵥ u a) j ^ 2 := by
    simp only [Finset.mul_sum]
    rw [Finset.sum_comm]
    apply Finset.sum_congr rfl
    intro a _
    rw [(h.coords (u a) (u a)).2]
    apply Finset.sum_congr rfl
    intro j _; ring
  rw [e1]
  apply top_weights
  · intro i hi j hj
    apply h.asc
    unfold lastIdx at hi hj
    simp only [Finset.mem_filter, Finset.mem_univ, true_and] at hi hj
    exact Fin.le_iff_val_le_val.mpr (by omega)
  · intro j; exact Finset.sum_nonneg (fun a _ => sq_nonneg _)
  · intro j; exact bessel _ ho j
  · rw [Finset.sum_comm, lastIdx_card n k hk]
    have : ∀ a, ∑ j, ((Vᵀ * W) *ᵥ u a) j ^ 2 = 1 := by
      intro a
      have := ho a a
      rw [if_pos rfl] at this
      rw [← this]
      unfold dotProduct
      apply Finset.sum_congr rfl
      intro j _; ring
    simp [this]

/-- quadratic forms of two eigenvectors after the sign change -/
theorem IsEighGen.pair {B W : Matrix (Fin (n + 1)) (Fin (n + 1)) ℝ} {d : Vec (n + 1)} {V : Matrix (Fin (n + 1)) (Fin (n + 1)) ℝ}
    (h : IsEighGen B W d V) (j k : Fin (n + 1)) :
    signFix (fun i => V i j) ⬝ᵥ (W *ᵥ signFix (fun i => V i k)) = (if j = k then 1 else 0) ∧
    signFix (fun i => V i j) ⬝ᵥ (B *ᵥ signFix (fun i => V i k)) = if j = k then d j else 0 := by
  have q1 : (fun i => V i j) ⬝ᵥ (W *ᵥ (fun i => V i k)) = if j = k then 1 else 0 := by
    rw [quad_entry, ← Matrix.mul_assoc, h.orth, Matrix.one_apply]
  have q2 : (fun i => V i j) ⬝ᵥ (B *ᵥ (fun i => V i k)) = if j = k then d j else 0 := by
    rw [quad_entry, h.eig, ← Matrix.mul_assoc, ← Matrix.mul_assoc, h.orth, Matrix.one_mul, Matrix.diagonal_apply]
  by_cases hjk : j = k
  · subst hjk
    obtain ⟨s, hs, e⟩ := signFix_eq (fun i => V i j)
    rw [e]
    simp only [smul_dotProduct, mulVec_smul, dotProduct_smul, smul_eq_mul, q1, q2, if_true]
    exact ⟨by linarith, by rw [← mul_assoc, hs, one_mul]⟩
  · obtain ⟨s, hs, e⟩ := signFix_eq (fun i => V i j)
    obtain ⟨s', hs', e'⟩ := signFix_eq (fun i => V i k)
    rw [e, e']
    simp only [smul_dotProduct, mulVec_smul, dotProduct_smul, smul_eq_mul, q1, q2, if_neg hjk]
    simp

theorem pcaCols_eq {V : Matrix (Fin (n + 1)) (Fin (n + 1)) ℝ} {pcaDim : Option Nat} {T : List (Vec (n + 1))}
    (h : pcaCols V pcaDim = some T) : ∃ k, k ≤ n + 1 ∧ T = ((flipped (n + 1)).take k).map (fun j => signFix (fun i => V i j)) ∧
      T.length = k ∧ k = pcaDim.getD (n + 1) := by
  cases pcaDim with
  | none =>
    simp only [pcaCols, Option.some.injEq] at h
    refine ⟨n + 1, le_refl _, ?_, ?_, rfl⟩
    · rw [← h, List.take_of_length_le (by simp [flipped])]
    · rw [← h]; simp [flipped]
  | some k =>
    simp only [pcaCols] at h
    split at h
    · next hk =>
      simp only [Option.some.injEq] at h
      refine ⟨k, hk, ?_, ?_, rfl⟩
      · rw [← h, List.map_take]
      · rw [← h]; simp [flipped, hk]
    · cases h

theorem flipped_get (N a : Nat) (h : a < N) (hl : a < (flipped N).length := by simp [flipped]; omega) :
    ((flipped N)[a]'hl).val = N - 1 - a := by
  simp [flipped]

/-- entries of the matrices of inner products of the columns -/
theorem pcaCols_pair {B W : Matrix (Fin (n + 1)) (Fin (n + 1)) ℝ} {d : Vec (n + 1)} {V : Matrix (Fin (n + 1)) (Fin (n + 1)) ℝ}
    (hE : IsEighGen B W d V) {pcaDim : Option Nat} {T : List (Vec (n + 1))} (hT : pcaCols V pcaDim = some T)
    (a b : Nat) (ha : a < T.length) (hb : b < T.length) :
    T[a] ⬝ᵥ (W *ᵥ T[b]) = (if a = b then 1 else 0) ∧
    ∃ hd : n - a < n + 1, T[a] ⬝ᵥ (B *ᵥ T[b]) = if a = b then d ⟨n - a, hd⟩ else 0 := by
  obtain ⟨k, hk, rfl, hlen, _⟩ := pcaCols_eq hT
  rw [hlen] at ha hb
  have ha' : a < (flipped (n + 1)).length := by simp [flipped]; omega
  have hb' : b < (flipped (n + 1)).length := by simp [flipped]; omega
  have hp := hE.pair ((flipped (n + 1))[a]) ((flipped (n + 1))[b])
  have hij : ((flipped (n + 1))[a] = (flipped (n + 1))[b]) ↔ a = b := (flipped_nodup (n + 1)).getElem_inj_iff
  simp only [List.getElem_map, List.getElem_take]
  refine ⟨?_, by omega, ?_⟩
  · rw [hp.1]; simp only [hij]
  · rw [hp.2]; simp only [hij]
    have : (flipped (n + 1))[a] = ⟨n - a, by omega⟩ := by
      apply Fin.ext
      rw [flipped_get (n + 1) a (by omega)]
      simp
    rw [this]

/-! ### C74 -/

/-- C74: `fit` of a PCA succeeds unless more output dimensions than input dimensions are asked for. -/
theorem C74_dim (V : Matrix (Fin (n + 1)) (Fin (n + 1)) ℝ) (pcaDim : Option Nat) :
    (∃ T, pcaCols V pcaDim = some T ∧ T.length = pcaDim.getD (n + 1)) ↔ pcaDim.getD (n + 1) ≤ n + 1 := by
  constructor
  · rintro ⟨T, h, hl⟩
    obtain ⟨k, hk, _, _, e⟩ := pcaCols_eq h
    omega
  · intro h
    have hs : ∃ T, pcaCols V pcaDim = some T := by
      cases pcaDim with
      | none => exact ⟨_, rfl⟩
      | some k =>
        simp only [Option.getD_some] at h
        exact ⟨_, by simp only [pcaCols]; exact if_pos h⟩
    obtain ⟨T, hT⟩ := hs
    obtain ⟨k, _, _, hl, e⟩ := pcaCols_eq hT
    exact ⟨T, hT, by omega⟩

theorem project_get (mu : Vec n) (T : List (Vec n)) (x : Vec n) (c : Nat) (hc : c < T.length) :
    (project mu T x).getD c 0 = (x - mu) ⬝ᵥ T[c] := by
  simp [project, List.getD_eq_getElem?_getD, List.getElem?_eq_getElem hc]

/-- C74: the columns of the transformation are orthonormal; the transformed training data have mean zero and uncorrelated
coordinates, whose variances are the largest eigenvalues of the covariance, in descending order. -/
theorem C74_uncorrelated (rows : List (Vec (n + 1))) (hN : rows ≠ []) (d : Vec (n + 1)) (V : Matrix (Fin (n + 1)) (Fin (n + 1)) ℝ)
    (hE : IsEigh (pcaCov rows) d V) (pcaDim : Option Nat) (T : List (Vec (n + 1))) (hT : pcaCols V pcaDim = some T)
    (a b : Nat) (ha : a < T.length) (hb : b < T.length) :
    T[a] ⬝ᵥ T[b] = (if a = b then 1 else 0) ∧
    (rows.map (fun x => (project (pcaMu rows) T x).getD a 0)).sum = 0 ∧
    ∃ hd : n - a < n + 1, (rows.map (fun x => (project (pcaMu rows) T x).getD a 0 * (project (pcaMu rows) T x).getD b 0)).sum / rows.length =
      if a = b then d ⟨n - a, hd⟩ else 0 := by
  obtain ⟨h1, hd, h2⟩ := pcaCols_pair hE.gen hT a b ha hb
  rw [Matrix.one_mulVec] at h1
  refine ⟨h1, ?_, hd, ?_⟩
  · have e := avg_proj (unw rows) (unw_ne hN) T[a]
    rw [avg_unw, ← pcaMu_unw, div_eq_zero_iff] at e
    rcases e with e | e
    · simp only [project_get _ _ _ a ha]; exact e
    · exfalso
      have : (rows.length : ℝ) ≠ 0 := by exact_mod_cast (List.length_pos_iff.mpr hN).ne'
      exact this e
  · rw [← h2, pcaCov_unw hN, ← avg_proj2 (unw rows) (unw_ne hN), avg_unw, ← pcaMu_unw]
    simp only [project_get _ _ _ a ha, project_get _ _ _ b hb]

/-- C74: the variances do not increase along the output coordinates. -/
theorem C74_descending (rows : List (Vec (n + 1))) (hN : rows ≠ []) (d : Vec (n + 1)) (V : Matrix (Fin (n + 1)) (Fin (n + 1)) ℝ)
    (hE : IsEigh (pcaCov rows) d V) (pcaDim : Option Nat) (T : List (Vec (n + 1))) (hT : pcaCols V pcaDim = some T)
    (a b : Nat) (hab : a ≤ b) (hb : b < T.length) :
    (rows.map (fun x => (project (pcaMu rows) T x).getD b 0 ^ 2)).sum ≤
      (rows.map (fun x => (project (pcaMu rows) T x).getD a 0 ^ 2)).sum := by
  obtain ⟨_, _, hd, e1⟩ := C74_uncorrelated rows hN d V hE pcaDim T hT a a (by omega) (by omega)
  obtain ⟨_, _, hd', e2⟩ := C74_uncorrelated rows hN d V hE pcaDim T hT b b (by omega) (by omega)
  rw [if_pos rfl] at e1 e2
  have hpos : (0 : ℝ) < rows.length := by exact_mod_cast List.length_pos_iff.mpr hN
  rw [div_eq_iff hpos.ne'] at e1 e2
  simp only [pow_two]
  rw [e1, e2]
  apply mul_le_mul_of_nonneg_right _ hpos.le
  apply hE.asc
  simp only [Fin.mk_le_mk]; omega

theorem sum_swap {α β : Type} (f : List β) (rows : List α) (g : β → α → ℝ) :
    (rows.map (fun x => (f.map (fun t => g t x)).sum)).sum = (f.map (fun t => (rows.map (fun x => g t x)).sum)).sum := by
  induction rows with
  | nil => simp
  | cons a l ih => simp only [List.map_cons, List.sum_cons, ih, List.sum_map_add]

/-- C74: no other set of the same number of orthonormal directions keeps more of the (centred) energy of the training data
than the output of the PCA does. -/
theorem C74_optimal (rows : List (Vec (n + 1))) (d : Vec (n + 1)) (V : Matrix (Fin (n + 1)) (Fin (n + 1)) ℝ)
    (hE : IsEigh (pcaCov rows) d V) (pcaDim : Option Nat) (T : List (Vec (n + 1))) (hT : pcaCols V pcaDim = some T)
    (u : Fin T.length → Vec (n + 1)) (hu : ∀ a b, u a ⬝ᵥ u b = if a = b then 1 else 0) :
    (rows.map (fun x => ∑ a, ((x - pcaMu rows) ⬝ᵥ u a) ^ 2)).sum ≤
      (rows.map (fun x => ((project (pcaMu rows) T x).map (fun v => v ^ 2)).sum)).sum := by
  by_cases hN : rows = []
  · subst hN; simp
  have hpos : (0 : ℝ) < rows.length := by exact_mod_cast List.length_pos_iff.mpr hN
  have quad : ∀ t : Vec (n + 1), (rows.map (fun x => ((x - pcaMu rows) ⬝ᵥ t) ^ 2)).sum = (t ⬝ᵥ (pcaCov rows *ᵥ t)) * rows.length := by
    intro t
    rw [pcaCov_unw hN, ← avg_proj2 (unw rows) (unw_ne hN), avg_unw, ← pcaMu_unw, div_mul_cancel₀ _ hpos.ne']
    simp only [pow_two]
  have eL : (rows.map (fun x => ∑ a, ((x - pcaMu rows) ⬝ᵥ u a) ^ 2)).sum = (∑ a, u a ⬝ᵥ (pcaCov rows *ᵥ u a)) * rows.length := by
    have : ∀ x : Vec (n + 1), ∑ a, ((x - pcaMu rows) ⬝ᵥ u a) ^ 2 =
        ((List.finRange T.length).map (fun a => ((x - pcaMu rows) ⬝ᵥ u a) ^ 2)).sum := by
      intro x; rw [← List.ofFn_eq_map, List.sum_ofFn]
    simp only [this]
    rw [sum_swap]
    simp only [quad]
    rw [← List.ofFn_eq_map, List.sum_ofFn, ← Finset.sum_mul]
  have eR : (rows.map (fun x => ((project (pcaMu rows) T x).map (fun v => v ^ 2)).sum)).sum =
      ((T.map (fun t => t ⬝ᵥ (pcaCov rows *ᵥ t))).sum) * rows.length := by
    simp only [project, List.map_map, Function.comp_def]
    rw [sum_swap]
    simp only [quad]
    rw [List.sum_map_mul_right]
  rw [eL, eR]
  apply mul_le_mul_of_nonneg_right _ hpos.le
  obtain ⟨k, hk, e, hl, _⟩ := pcaCols_eq hT
  have hTs : (T.map (fun t => t ⬝ᵥ (pcaCov rows *ᵥ t))).sum = ∑ j ∈ lastIdx (n + 1) k, d j := by
    rw [e, List.map_map, ← sum_take (n + 1) k hk]
    congr 1
    apply List.map_congr_left
    intro j _
    simp only [Function.comp_apply]
    rw [(hE.gen.pair j j).2, if_pos rfl]
  rw [hTs]
  have := hE.gen.kyFan T.length (by omega) u (by intro a b; rw [Matrix.one_mulVec]; exact hu a b)
  rw [← hl]
  exact this

/-- C74: the direction of the axes is fixed: the first element of every column is not negative. -/
theorem C74_sign (V : Matrix (Fin (n + 1)) (Fin (n + 1)) ℝ) (pcaDim : Option Nat) (T : List (Vec (n + 1)))
    (hT : pcaCols V pcaDim = some T) (t : Vec (n + 1)) (ht : t ∈ T) : 0 ≤ t 0 := by
  obtain ⟨k, _, rfl, _, _⟩ := pcaCols_eq hT
  obtain ⟨j, _, rfl⟩ := List.mem_map.mp ht
  exact signFix_first _

/-- two rows in two dimensions on the second axis, one output dimension -/
example : ∃ (rows : List (Vec 2)) (d : Vec 2) (V : Matrix (Fin 2) (Fin 2) ℝ) (T : List (Vec 2)), rows ≠ [] ∧
    IsEigh (pcaCov rows) d V ∧ pcaCols V (some 1) = some T ∧ T.length = 1 ∧ d 1 = 1 := by
  refine ⟨[![0, 1], ![0, -1]], ![0, 1], 1, _, by simp, ⟨?_, by simp, ?_⟩, rfl, rfl, rfl⟩
  · intro i j h
    fin_cases i <;> fin_cases j <;> simp_all
  · ext i j
    fin_cases i <;> fin_cases j <;> simp [pcaCov, pcaMu, Matrix.diagonal_apply]

/-! ### C75 -/

/-- C75: for an LDA trained from matrices `Sb`, `Sw`: the transformed within-class matrix is the identity and the
transformed between-class matrix is diagonal. -/
theorem C75_diagonal (Sb Sw : Matrix (Fin (n + 1)) (Fin (n + 1)) ℝ) (d : Vec (n + 1)) (V : Matrix (Fin (n + 1)) (Fin (n + 1)) ℝ)
    (hE : IsEighGen Sb Sw d V) (ldaDim : Option Nat) (T : List (Vec (n + 1))) (hT : ldaCols V ldaDim = some T)
    (a b : Nat) (ha : a < T.length) (hb : b < T.length) :
    T[a] ⬝ᵥ (Sw *ᵥ T[b]) = (if a = b then 1 else 0) ∧
    (a ≠ b → T[a] ⬝ᵥ (Sb *ᵥ T[b]) = 0) ∧ (a ≤ b → T[b] ⬝ᵥ (Sb *ᵥ T[b]) ≤ T[a] ⬝ᵥ (Sb *ᵥ T[a])) := by
  obtain ⟨h1, _, h2⟩ := pcaCols_pair hE hT a b ha hb
  obtain ⟨_, ha', h3⟩ := pcaCols_pair hE hT a a ha ha
  obtain ⟨_, hb', h4⟩ := pcaCols_pair hE hT b b hb hb
  refine ⟨h1, fun h => by rw [h2, if_neg h], fun h => ?_⟩
  rw [h3, h4, if_pos rfl, if_pos rfl]
  apply hE.asc
  simp only [Fin.mk_le_mk]; omega

/-- C75: no other family of the same number of directions, normalised in the same way, has a larger between-class
variance. -/
theorem C75_optimal (Sb Sw : Matrix (Fin (n + 1)) (Fin (n + 1)) ℝ) (d : Vec (n + 1)) (V : Matrix (Fin (n + 1)) (Fin (n + 1)) ℝ)
    (hE : IsEighGen Sb Sw d V) (ldaDim : Option Nat) (T : List (Vec (n + 1))) (hT : ldaCols V ldaDim = some T)
    (u : Fin T.length → Vec (n + 1)) (hu : ∀ a b, u a ⬝ᵥ (Sw *ᵥ u b) = if a = b then 1 else 0) :
    ∑ a, u a ⬝ᵥ (Sb *ᵥ u a) ≤ (T.map (fun t => t ⬝ᵥ (Sb *ᵥ t))).sum := by
  obtain ⟨k, hk, e, hl, _⟩ := pcaCols_eq hT
  have hTs : (T.map (fun t => t ⬝ᵥ (Sb *ᵥ t))).sum = ∑ j ∈ lastIdx (n + 1) k, d j := by
    rw [e, List.map_map, ← sum_take (n + 1) k hk]
    congr 1
    apply List.map_congr_left
    intro j _
    simp only [Function.comp_apply]
    rw [(hE.pair j j).2, if_pos rfl]
  rw [hTs]
  have := hE.kyFan T.length (by omega) u hu
  rw [← hl]
  exact this

/-- C75: `fit` succeeds unless more output dimensions than input dimensions are asked for. -/
theorem C75_dim (V : Matrix (Fin (n + 1)) (Fin (n + 1)) ℝ) (ldaDim : Option Nat) :
    (∃ T, ldaCols V ldaDim = some T ∧ T.length = ldaDim.getD (n + 1)) ↔ ldaDim.getD (n + 1) ≤ n + 1 := C74_dim V ldaDim

end Hyp.Transforms
