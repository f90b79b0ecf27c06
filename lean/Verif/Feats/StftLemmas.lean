import Verif.Feats.Stft
import Verif.NpLemmas
import Mathlib.Tactic.Ring
import Mathlib.Tactic.Linarith
import Mathlib.Tactic.FieldSimp

namespace Hyp.Stft

theorem frameLoop_eq {α : Type} (f : List ℝ → Option α) (x : List ℝ) (L S : Nat) :
    ∀ (k j : Nat), frameLoop f x L S k j = (List.range k).mapM (fun i : Nat => f ((x.drop (j + i * S)).take L))
  | 0, j => rfl
  | k + 1, j => by
    rw [frameLoop, frameLoop_eq f x L S k (j + S), List.range_succ_eq_map, List.mapM_cons, List.mapM_map]
    have h : (fun i : Nat => f ((x.drop (j + S + i * S)).take L)) =
        (fun i : Nat => f ((x.drop (j + i * S)).take L)) ∘ Nat.succ := by
      funext i
      have : j + S + i * S = j + (i + 1) * S := by ring
      simp [Function.comp, this]
    rw [h]
    simp only [Nat.zero_mul, Nat.add_zero, Option.pure_def]

/-- Number of frames when there is at least one. -/
theorem numFrames_of_le {len L S : Nat} (hS : 0 < S) (h : L ≤ len) :
    numFrames len L S = some (((len - L) / S + 1 : Nat) : Int) := by
  have hS' : (S : Int) ≠ 0 := by omega
  simp only [numFrames, if_neg (Nat.pos_iff_ne_zero.1 hS)]
  congr 1
  have : ((len : Int) - L + S) = ((len - L : Nat) : Int) + 1 * (S : Int) := by omega
  rw [this, Int.add_mul_ediv_right _ _ hS']
  push_cast
  rfl

theorem frameMap_of_le {α : Type} (f : List ℝ → Option α) (x : List ℝ) {L S : Nat} (hS : 0 < S) (h : L ≤ x.length) :
    frameMap f x L S = (List.range ((x.length - L) / S + 1)).mapM (fun i : Nat => f ((x.drop (i * S)).take L)) := by
  rw [frameMap, numFrames_of_le hS h]
  show (if ((((x.length - L) / S + 1 : Nat) : Int)) < 0 then none
    else frameLoop f x L S ((((x.length - L) / S + 1 : Nat) : Int)).toNat 0) = _
  rw [if_neg (by exact Int.not_lt.2 (Int.natCast_nonneg _)), frameLoop_eq, Int.toNat_natCast]
  simp only [Nat.zero_add]

theorem frameMap_short {α : Type} (f : List ℝ → Option α) (x : List ℝ) {L S : Nat} (hS : 0 < S) (h : x.length < L)
    (h2 : L ≤ x.length + S) : frameMap f x L S = some [] := by
  have h0 : (((x.length : Int) - L + S) / S) = 0 := Int.ediv_eq_zero_of_lt (by omega) (by omega)
  simp only [frameMap, numFrames, if_neg (Nat.pos_iff_ne_zero.1 hS), Option.bind_eq_bind, Option.bind_some, h0]
  rfl

theorem frameMap_too_short {α : Type} (f : List ℝ → Option α) (x : List ℝ) {L S : Nat} (hS : 0 < S)
    (h : x.length + S < L) : frameMap f x L S = none := by
  have h0 : (((x.length : Int) - L + S) / S) < 0 := Int.ediv_neg_of_neg_of_pos (by omega) (by omega)
  simp only [frameMap, numFrames, if_neg (Nat.pos_iff_ne_zero.1 hS), Option.bind_eq_bind, Option.bind_some]
  rw [if_pos h0]

/-! ### Discrete Fourier transform -/

theorem root_add (n : Nat) (a b : ℤ) : root n (a + b) = root n a * root n b := by
  simp only [root, ← Complex.exp_add]
  congr 1
  push_cast
  ring

theorem root_zero (n : Nat) : root n 0 = 1 := by simp [root]

theorem root_mul_nat (n : Nat) (m : ℤ) (k : Nat) : root n (m * k) = root n m ^ k := by
  simp only [root, ← Complex.exp_nat_mul]
  congr 1
  push_cast
  ring

theorem root_eq_one_iff {n : Nat} (hn : n ≠ 0) (m : ℤ) : root n m = 1 ↔ (n : ℤ) ∣ m := by
  have hn' : (n : ℂ) ≠ 0 := by exact_mod_cast hn
  have h2 : (2 * Real.pi * Complex.I : ℂ) ≠ 0 := Complex.two_pi_I_ne_zero
  rw [root, Complex.exp_eq_one_iff]
  constructor
  · rintro ⟨k, hk⟩
    refine ⟨k, ?_⟩
    have h3 : (2 * Real.pi * Complex.I) * (m : ℂ) = (2 * Real.pi * Complex.I) * ((n : ℂ) * k) := by
      field_simp at hk
      rw [hk]
    have h4 := mul_left_cancel₀ h2 h3
    exact_mod_cast h4
  · rintro ⟨k, hk⟩
    refine ⟨k, ?_⟩
    rw [hk]
    push_cast
    field_simp

theorem root_sum {n : Nat} (hn : n ≠ 0) (m : ℤ) :
    ((List.range n).map (fun k : Nat => root n (m * k))).sum = if (n : ℤ) ∣ m then (n : ℂ) else 0 := by
  have h0 : ((List.range n).map (fun k : Nat => root n (m * k))).sum = ∑ k ∈ Finset.range n, root n m ^ k := by
    rw [Finset.sum_range]
    simp only [root_mul_nat]
    rw [← List.sum_ofFn]
    congr 1
    exact List.ext_getElem (by simp) (fun i h1 h2 => by simp)
  rw [h0]
  split_ifs with h
  · rw [(root_eq_one_iff hn m).2 h]
    simp
  · have hne : root n m ≠ 1 := fun h' => h ((root_eq_one_iff hn m).1 h')
    rw [geom_sum_eq hne]
    have : root n m ^ n = 1 := by
      rw [← root_mul_nat]
      exact (root_eq_one_iff hn _).2 (Dvd.intro_left _ rfl)
    simp [this]

theorem sum_range_list {K : Type} [AddCommMonoid K] (n : Nat) (f : Nat → K) :
    ((List.range n).map f).sum = ∑ k ∈ Finset.range n, f k := by
  induction n with
  | zero => simp
  | succ n ih => rw [List.range_succ, List.map_append, List.sum_append, ih, Finset.sum_range_succ]; simp

theorem dft_inv {n : Nat} (a : Nat → ℂ) {t : Nat} (ht : t < n) :
    (∑ k ∈ Finset.range n, (∑ j ∈ Finset.range n, a j * root n (-((j : ℤ) * k))) * root n ((k : ℤ) * t)) / (n : ℂ)
      = a t := by
  have hn : n ≠ 0 := by omega
  have hn' : (n : ℂ) ≠ 0 := by exact_mod_cast hn
  have h : (∑ k ∈ Finset.range n, (∑ j ∈ Finset.range n, a j * root n (-((j : ℤ) * k))) * root n ((k : ℤ) * t)) =
      ∑ j ∈ Finset.range n, a j * (if j = t then (n : ℂ) else 0) := by
    simp only [Finset.sum_mul]
    rw [Finset.sum_comm]
    refine Finset.sum_congr rfl (fun j hj => ?_)
    have h1 : ∀ k ∈ Finset.range n, a j * root n (-((j : ℤ) * k)) * root n ((k : ℤ) * t) =
        a j * root n (((t : ℤ) - j) * k) := by
      intro k _
      rw [mul_assoc, ← root_add]
      congr 2
      ring
    rw [Finset.sum_congr rfl h1, ← Finset.mul_sum, ← sum_range_list, root_sum hn]
    congr 1
    have hj' := Finset.mem_range.1 hj
    by_cases hjt : j = t
    · simp [hjt]
    · rw [if_neg hjt, if_neg]
      intro hd
      have := Int.eq_zero_of_abs_lt_dvd hd (by rw [abs_lt]; omega)
      omega
  rw [h]
  simp [Finset.mem_range.2 ht, hn', ht]

theorem fft_getD {a A : List ℂ} {n : Nat} (h : fft a n = some A) :
    A.length = n ∧ n ≠ 0 ∧ ∀ k < n, A.getD k 0 = ∑ j ∈ Finset.range n, a.getD j 0 * root n (-((j : ℤ) * k)) := by
  rw [fft] at h
  split_ifs at h with hn
  injection h with h
  subst h
  refine ⟨by simp, hn, fun k hk => ?_⟩
  simp [List.getD_eq_getElem?_getD, hk, sum_range_list]

/-- The inverse transform of the transform is the (cropped or padded) signal. -/
theorem ifft_fft (a : List ℂ) {n : Nat} (hn : n ≠ 0) :
    ∃ A, fft a n = some A ∧ ifft A = some ((List.range n).map (fun t => a.getD t 0)) := by
  obtain ⟨A, hA⟩ : ∃ A, fft a n = some A := by rw [fft, if_neg hn]; exact ⟨_, rfl⟩
  obtain ⟨hl, _, hv⟩ := fft_getD hA
  refine ⟨A, hA, ?_⟩
  rw [ifft, if_neg (by omega), hl]
  congr 1
  refine List.map_congr_left (fun t ht => ?_)
  rw [sum_range_list]
  rw [Finset.sum_congr rfl (fun k hk => by rw [hv k (Finset.mem_range.1 hk)])]
  exact dft_inv (fun j => a.getD j 0) (List.mem_range.1 ht)

theorem root_conj (n : Nat) (m : ℤ) : (starRingEnd ℂ) (root n m) = root n (-m) := by
  simp only [root, ← Complex.exp_conj]
  congr 1
  have h2 : (starRingEnd ℂ) 2 = 2 := Complex.conj_ofNat 2
  simp [Complex.conj_I, Complex.conj_ofReal, h2]

theorem root_period {n : Nat} (hn : n ≠ 0) (a b : ℤ) (h : (n : ℤ) ∣ a - b) : root n a = root n b := by
  have : a = (a - b) + b := by ring
  rw [this, root_add, (root_eq_one_iff hn _).2 h, one_mul]

/-- The spectrum of a real signal is Hermitian. -/
theorem rfft_hermitian {a : List ℝ} {n : Nat} {A : List ℂ} (hn : n ≠ 0) (he : n % 2 = 0) (h : rfft a n = some A)
    {k : Nat} (hk : k < n) :
    A.length = n / 2 + 1 ∧
      hermitian A n k = ∑ j ∈ Finset.range n, ((a.getD j 0 : ℝ) : ℂ) * root n (-((j : ℤ) * k)) := by
  rw [rfft] at h
  obtain ⟨B, hB, hBA⟩ := Option.map_eq_some_iff.1 h
  obtain ⟨hl, _, hv⟩ := fft_getD hB
  subst hBA
  have hlen : (B.take (n / 2 + 1)).length = n / 2 + 1 := by
    rw [List.length_take, hl]; omega
  have hcast : ∀ j, (a.map Complex.ofReal).getD j 0 = ((a.getD j 0 : ℝ) : ℂ) := by
    intro j
    simp only [List.getD_eq_getElem?_getD, List.getElem?_map]
    cases a[j]? <;> simp
  refine ⟨hlen, ?_⟩
  rw [hermitian, hlen]
  have htk : ∀ i < n / 2 + 1, (B.take (n / 2 + 1)).getD i 0 = B.getD i 0 := by
    intro i hi
    simp [List.getD_eq_getElem?_getD, List.getElem?_take, hi]
  split_ifs with hk2
  · rw [htk k hk2, hv k hk]
    simp only [hcast]
  · rw [htk (n - k) (by omega), hv (n - k) (by omega), map_sum]
    refine Finset.sum_congr rfl (fun j _ => ?_)
    rw [hcast, map_mul, Complex.conj_ofReal, root_conj]
    congr 1
    apply root_period hn
    refine ⟨j, ?_⟩
    have : ((n - k : Nat) : ℤ) = (n : ℤ) - k := by omega
    rw [this]
    ring

/-- For an even FFT length the inverse real transform returns the signal. -/
theorem irfft_rfft (a : List ℝ) {n : Nat} (hn : n ≠ 0) (he : n % 2 = 0) :
    ∃ A, rfft a n = some A ∧ irfft A = some ((List.range n).map (fun t => a.getD t 0)) := by
  obtain ⟨A, hA⟩ : ∃ A, rfft a n = some A := by rw [rfft, fft, if_neg hn]; exact ⟨_, rfl⟩
  have hl := (rfft_hermitian hn he hA (k := 0) (by omega)).1
  refine ⟨A, hA, ?_⟩
  have h2 : 2 * (A.length - 1) = n := by omega
  rw [irfft, if_neg (by omega)]
  dsimp only
  rw [h2]
  congr 1
  refine List.map_congr_left (fun t ht => ?_)
  rw [sum_range_list, Finset.sum_congr rfl
    (fun k hk => by rw [(rfft_hermitian hn he hA (Finset.mem_range.1 hk)).2]),
    dft_inv (fun j => ((a.getD j 0 : ℝ) : ℂ)) (List.mem_range.1 ht), Complex.ofReal_re]

/-! ### Overlap-add -/

/-- What the frames `vs` (of length `L`, the first at `j`) add to sample `t`. -/
def contrib {K : Type} [AddCommMonoid K] (L S : Nat) (vs : List (List K)) (j t : Nat) : K :=
  ∑ i ∈ Finset.range vs.length, if j + i * S ≤ t ∧ t < j + i * S + L then (vs.getD i []).getD (t - (j + i * S)) 0 else 0

theorem contrib_cons {K : Type} [AddCommMonoid K] (L S : Nat) (v : List K) (vs : List (List K)) (j t : Nat) :
    contrib L S (v :: vs) j t =
      (if j ≤ t ∧ t < j + L then v.getD (t - j) 0 else 0) + contrib L S vs (j + S) t := by
  rw [contrib, contrib, List.length_cons, Finset.sum_range_succ', add_comm]
  congr 1
  · simp
  · refine Finset.sum_congr rfl (fun i _ => ?_)
    have : j + (i + 1) * S = j + S + i * S := by ring
    rw [this]
    simp

theorem addSlice_spec {K : Type} [AddCommMonoid K] (acc : List K) {j L : Nat} {v : List K} (hv : v.length = L)
    (hj : j + L ≤ acc.length) : ∃ acc', addSlice acc j L v = some acc' ∧ acc'.length = acc.length ∧
      ∀ t, acc'.getD t 0 = acc.getD t 0 + (if j ≤ t ∧ t < j + L then v.getD (t - j) 0 else 0) := by
  have hseg : ((acc.drop j).take L).length = L := by simp; omega
  rw [addSlice]
  rw [if_pos (by rw [hseg, hv])]
  refine ⟨_, rfl, by simp; omega, fun t => ?_⟩
  simp only [List.getD_eq_getElem?_getD]
  by_cases h1 : t < j
  · rw [if_neg (by omega), List.append_assoc, List.getElem?_append_left (by simp; omega), List.getElem?_take]
    simp [h1]
  · by_cases h2 : t < j + L
    · rw [if_pos ⟨by omega, h2⟩, List.getElem?_append_left (by simp; omega),
        List.getElem?_append_right (by simp; omega)]
      have hlt : (acc.take j).length = j := by simp; omega
      rw [hlt, List.getElem?_zipWith]
      have e1 : ((acc.drop j).take L)[t - j]? = acc[t]? := by
        rw [List.getElem?_take, if_pos (by omega), List.getElem?_drop]
        congr 1
        omega
      rw [e1]
      have h3 : t < acc.length := by omega
      have h4 : t - j < v.length := by omega
      simp [h3, h4]
    · rw [if_neg (by omega), List.getElem?_append_right (by simp; omega)]
      simp only [List.getElem?_drop, List.length_append, List.length_zipWith, List.length_take, List.length_drop,
        add_zero]
      congr 2
      omega

theorem overlapLoop_spec {K : Type} [AddCommMonoid K] (L S : Nat) (w : List ℝ) (hw : w.length = L) :
    ∀ (vs : List (List K)) (j : Nat) (xo : List K) (wo : List ℝ), (∀ v ∈ vs, v.length = L) →
      xo.length = wo.length → (vs ≠ [] → j + (vs.length - 1) * S + L ≤ xo.length) →
      ∃ xo' wo', overlapLoop L S w vs j xo wo = some (xo', wo') ∧ xo'.length = xo.length ∧ wo'.length = xo.length ∧
        (∀ t, xo'.getD t 0 = xo.getD t 0 + contrib L S vs j t) ∧
        (∀ t, wo'.getD t 0 = wo.getD t 0 + contrib L S (List.replicate vs.length w) j t)
  | [], j, xo, wo, _, hlen, _ => ⟨xo, wo, rfl, rfl, hlen.symm, by simp [contrib], by simp [contrib]⟩
  | v :: vs, j, xo, wo, hvs, hlen, hfit => by
    have hf := hfit (by simp)
    simp only [List.length_cons, Nat.add_sub_cancel] at hf
    have hj : j + L ≤ xo.length := by
      have : 0 ≤ vs.length * S := Nat.zero_le _
      omega
    obtain ⟨x1, hx1, hl1, hg1⟩ := addSlice_spec xo (hvs v (by simp)) hj
    obtain ⟨w1, hw1, hl2, hg2⟩ := addSlice_spec wo hw (by omega : j + L ≤ wo.length)
    obtain ⟨xo', wo', hr, hlx, hlw, hgx, hgw⟩ := overlapLoop_spec L S w hw vs (j + S) x1 w1
      (fun u hu => hvs u (by simp [hu])) (by omega) (by
        intro hne
        have : vs.length ≠ 0 := by simpa using hne
        have e : vs.length * S = (vs.length - 1) * S + S := by
          conv_lhs => rw [show vs.length = (vs.length - 1) + 1 by omega]
          ring
        omega)
    refine ⟨xo', wo', ?_, by omega, by omega, fun t => ?_, fun t => ?_⟩
    · rw [overlapLoop]
      simp only [hx1, hw1, Option.bind_eq_bind, Option.bind_some]
      exact hr
    · rw [hgx, hg1, contrib_cons, add_assoc]
    · rw [hgw, hg2, List.length_cons, List.replicate_succ, contrib_cons, add_assoc]

end Hyp.Stft
