import Verif.Feats.FrontendProps
import Verif.Feats.MfccMore

/-!
C89: what the padding contains. C88, C94: dither.
-/

namespace Hyp.Frontend
open Hyp.Stft

theorem emod_pair {a b M : Int} (hM : 0 < M) (h : M ∣ a + b) : (a % M = 0 ∧ b % M = 0) ∨ a % M + b % M = M := by
  have h1 := Int.emod_nonneg a hM.ne'
  have h2 := Int.emod_nonneg b hM.ne'
  have h3 := Int.emod_lt_of_pos a hM
  have h4 := Int.emod_lt_of_pos b hM
  have hd : M ∣ a % M + b % M := by
    rw [Int.dvd_iff_emod_eq_zero] at h ⊢
    rw [← Int.add_emod]
    exact h
  obtain ⟨k, hk⟩ := hd
  have hk0 : 0 ≤ k := by
    by_contra hc
    have : M * k ≤ M * (-1) := mul_le_mul_of_nonneg_left (by omega) hM.le
    omega
  have hk1 : k ≤ 1 := by
    by_contra hc
    have : M * 2 ≤ M * k := mul_le_mul_of_nonneg_left (by omega) hM.le
    omega
  rcases (show k = 0 ∨ k = 1 by omega) with rfl | rfl
  · left; constructor <;> omega
  · right; omega

theorem reflectIdx_pair {n : Nat} {a b : Int} (h : ((2 * (n - 1) : Nat) : Int) ∣ a + b) : reflectIdx n a = reflectIdx n b := by
  unfold reflectIdx
  by_cases h1 : n ≤ 1
  · rw [if_pos h1, if_pos h1]
  · rw [if_neg h1, if_neg h1]
    dsimp only
    have hp := emod_pair (by omega) h
    have h2 := Int.emod_nonneg a (b := ((2 * (n - 1) : Nat) : Int)) (by omega)
    have h3 := Int.emod_nonneg b (b := ((2 * (n - 1) : Nat) : Int)) (by omega)
    generalize a % ((2 * (n - 1) : Nat) : Int) = u at *
    generalize b % ((2 * (n - 1) : Nat) : Int) = v at *
    split_ifs <;> omega

/-- **C89** (what the padding contains): the padded signal is a section of the signal mirrored at its first and at its last sample
(without repeating them) over and over again, starting half of `frame - shift` samples before the signal. -/
theorem C89_mirror (L S : Nat) (x p : List ℝ) (hS : 0 < S) (hx : x ≠ []) (h : padEdges false L S x = some p) :
    ∃ e : Int → ℝ, (∀ t < x.length, e t = x.getD t 0) ∧ (∀ t, e (-t) = e t) ∧ (∀ t, e (2 * ((x.length : Int) - 1) - t) = e t) ∧
      ∀ t < p.length, p.getD t 0 = e ((t : Int) - ((L : Int) - S) / 2) := by
  have hl : 0 < x.length := List.length_pos_iff.2 hx
  rw [padEdges_eq L S x hS, padReflect] at h
  split_ifs at h with h1 h2
  obtain rfl := Option.some.inj h
  refine ⟨fun t => x.getD (reflectIdx x.length t) 0, fun t ht => ?_, fun t => ?_, fun t => ?_, fun t ht => ?_⟩
  · show x.getD (reflectIdx x.length t) 0 = _
    rw [reflectIdx_inside ht]
  · show x.getD (reflectIdx x.length (-t)) 0 = _
    rw [reflectIdx_pair (n := x.length) (a := -t) (b := t) ⟨0, by omega⟩]
  · show x.getD (reflectIdx x.length _) 0 = _
    rw [reflectIdx_pair (n := x.length) (a := 2 * ((x.length : Int) - 1) - t) (b := t) ⟨1, by omega⟩]
  · rw [List.length_map, List.length_range] at ht
    rw [List.getD_eq_getElem?_getD, List.getElem?_map, List.getElem?_range ht]
    rfl

/-- **C89** (empty signal): with padding an empty signal raises unless frame and shift have the same length. -/
theorem C89_empty (L S : Nat) (hS : 0 < S) : padEdges false L S [] = none ↔ L ≠ S := by
  rw [padEdges_eq L S [] hS]
  have h0 : roundEven (((([] : List ℝ).length : Nat) : ℚ) / (S : ℚ)) = 0 := by simp [roundEven]
  rw [h0, padReflect]
  have e : ((0 : Int) - 1) * S = -S := by omega
  rw [e]
  simp only [List.length_nil]
  constructor
  · intro h hc
    subst hc
    split_ifs at h with h1 h2 <;> omega
  · intro h
    by_cases h1 : (((L : Int) - S) / 2 < 0 ∨ (-(S : Int) + L - ((0 : Nat) : Int) - ((L : Int) - S) / 2) < 0)
    · rw [if_pos h1]
    · rw [if_neg h1, if_pos]
      refine ⟨trivial, ?_⟩
      by_cases h2 : (0 : Int) < ((L : Int) - S) / 2
      · exact Or.inl h2
      · right; push_cast; omega

/-- **C88** (dither): with dither the energies and the filter state are those of the signal with `dither` times the noise added,
computed without dither. -/
theorem C88_vad_dither (c : VadCfg) (noise : Nat → List ℝ) (z : ℝ) (x : List ℝ) (hs : c.snip = true) (hS : 0 < c.S) (hd : 0 < c.dither) :
    logE c noise z (.wave x) = logE { c with dither := 0 } noise z (.wave (List.zipWith (fun a n => a + c.dither * n) x (noise x.length))) := by
  simp only [logE]
  rw [hs, C89_snip _ _ _ hS, C89_snip _ _ _ hS]
  dsimp only
  rw [addDither, if_pos hd, addDither, if_neg (lt_irrefl _)]

end Hyp.Frontend

namespace Hyp.Mfcc
open Hyp.Frontend

/-- **C94** (dither): with dither, features and filter states are those of the signal with `dither` times the noise added, computed
without dither. -/
theorem C94_dither (c : Cfg) (noise : Nat → List ℝ) (st : St) (x : List ℝ) (hs : c.snip = true) (hS : 0 < c.S) (hd : 0 < c.dither) :
    prepare c noise st (.wave x) = prepare { c with dither := 0 } noise st (.wave (List.zipWith (fun a n => a + c.dither * n) x (noise x.length))) := by
  simp only [prepare, prepWave]
  rw [hs, C89_snip _ _ _ hS, C89_snip _ _ _ hS]
  dsimp only
  rw [addDither, if_pos hd, addDither, if_neg (lt_irrefl _)]
  rfl

end Hyp.Mfcc

namespace Hyp.Frontend

/-- three samples, frame of four, shift of one: the padded signal and its mirror images -/
example : padEdges false 4 1 [1, 2, 3] = some [2, 1, 2, 3, 2, 1] := by
  rw [padEdges_eq _ _ _ (by decide)]
  have h : roundEven (((3 : Nat) : ℚ) / ((1 : Nat) : ℚ)) = 3 := by
    have hf : ⌊(3 : ℚ)⌋ = 3 := by rw [Int.floor_eq_iff]; norm_num
    simp only [roundEven]
    norm_num
  simp only [List.length_cons, List.length_nil] at h ⊢
  norm_num at h ⊢
  rw [h]
  show padReflect [1, 2, 3] 1 2 = _
  unfold padReflect
  rw [if_neg (by decide), if_neg (by simp)]
  simp [reflectIdx, List.range_succ]

end Hyp.Frontend
