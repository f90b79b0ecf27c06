import Verif.Torch.PlateauProps
import Verif.Torch.TrainerProps
import Verif.Utt2Info.Props
import Verif.Folds.Props
import Verif.Generators.V1Resume
import Verif.Generators.V2Epoch
import Verif.Segments.SegmentListProps
import Verif.Segments.RttmProps

/-! Theorems that close gaps found by editing the model (see seeded/LOG.jsonl). -/

namespace Hyp
open Hyp.Text

/-- a number below `10^k` is printed with at most `k` digits -/
theorem printNat_length_le (n k : Nat) (hk : 0 < k) (h : n < 10 ^ k) : (printNat n).length ≤ k := by
  induction k generalizing n with
  | zero => omega
  | succ k ih =>
    rw [printNat]
    split
    · simp
    · rename_i hn
      rw [List.length_append, List.length_singleton]
      have hk' : 0 < k := by
        rcases Nat.eq_zero_or_pos k with h0 | h0
        · subst h0; omega
        · exact h0
      have : n / 10 < 10 ^ k := by
        rw [Nat.div_lt_iff_lt_mul (by norm_num)]
        rw [pow_succ] at h
        exact h
      have := ih (n / 10) hk' this
      omega

end Hyp

namespace Hyp.Torch

variable {g : Nat} (c : PlateauCfg g)

/-- C42: what counts as an improvement over the best metric so far: in absolute mode the metric must be better by more than
the threshold; in relative mode, for a positive best value, the ratio must be -/
theorem C42_improvement (a b : ℝ) :
    (c.rel = false → (isBetter c (some a) (some b) ↔ c.threshold < if c.modeMin then b - a else a - b)) ∧
    (c.rel = true → 0 < b → (isBetter c (some a) (some b) ↔ c.threshold < if c.modeMin then 1 - a / b else a / b - 1)) ∧
    isBetter c (some a) none ∧ ¬ isBetter c none (some b) := by
  refine ⟨?_, ?_, trivial, fun h => h⟩
  · intro hr
    unfold isBetter
    simp only [hr, Bool.false_eq_true, if_false]
    cases c.modeMin <;> simp <;> constructor <;> intro h <;> linarith
  · intro hr hb
    unfold isBetter
    simp only [hr, if_true]
    cases c.modeMin
    · simp only [Bool.false_eq_true, if_false, gt_iff_lt]
      rw [lt_sub_iff_add_lt, lt_div_iff₀ hb, mul_comm]
    · simp only [if_true]
      rw [lt_sub_comm, div_lt_iff₀ hb, mul_comm]

namespace Trainer

/-- C63: up to epoch 9999 the epoch number takes four characters in the names of checkpoint files -/
theorem C63_name_width (n : Nat) (h : n < 10000) : (pad4 n).length = 4 := by
  have := printNat_length_le n 4 (by norm_num) (by simpa using h)
  unfold pad4
  rw [List.length_append, List.length_replicate]
  omega

example : (42 : Nat) < 10000 := by norm_num

end Trainer

end Hyp.Torch

namespace Hyp.U2I

/-- C52: indexing with 0, 1, ... enumerates the rows in order, and any other index raises -/
theorem C52_index (t : Tab) : (List.range t.rows.length).map (getIdx t) = t.rows.map some ∧ ∀ i, t.rows.length ≤ i → getIdx t i = none := by
  constructor
  · apply List.ext_getElem?
    intro i
    rw [List.getElem?_map, List.getElem?_map]
    by_cases h : i < t.rows.length
    · rw [List.getElem?_range h, List.getElem?_eq_getElem h]
      simp [getIdx, h]
    · rw [List.getElem?_eq_none (by simpa using h), List.getElem?_eq_none (by simpa using h)]
      rfl
  · intro i h
    exact List.getElem?_eq_none h

end Hyp.U2I

namespace Hyp.Folds

/-- C18: the flags that `get_part` computes mark exactly the rows of that part which are not masked out -/
theorem C18_part_flags (parts : List Int) (mask : Option (List Bool)) (part : Int) (hl : ∀ m, mask = some m → m.length = parts.length) :
    (getPartIdx parts mask part).length = parts.length ∧
    ∀ i f, parts[i]? = some f → (getPartIdx parts mask part)[i]? = some (decide (f = part) && ((mask.map (fun m => m.getD i false)).getD true)) := by
  unfold getPartIdx
  cases mask with
  | none => exact ⟨by simp, fun i f hf => by simp [hf]⟩
  | some m =>
    have := hl m rfl
    refine ⟨by simp [this], fun i f hf => ?_⟩
    obtain ⟨hi, he⟩ := List.getElem?_eq_some_iff.mp hf
    simp only [List.getElem?_zipWith, List.getElem?_map, hf, Option.map_some, Option.getD_some]
    rw [List.getElem?_eq_getElem (by omega), List.getD_eq_getElem?_getD, List.getElem?_eq_getElem (by omega), Option.getD_some]

example : getPartIdx [0, 1, 1] (some [true, false, true]) 1 = [false, false, true] := by decide

end Hyp.Folds

namespace Hyp.Gen

section V1
variable {R : Rng} {c : V1Cfg} {rows : String → Int} {tab : List (String × String)}

theorem full_run (hm : c.method = .fullSeqs) {st : Nat} {fuel k : Nat} {s s' : V1St R} {bs : List (List SubSeq)}
    (hst : s.steps c rows = .ok (st : Int)) (hk : s.curStep + k ≤ st) (h : v1Run c rows fuel k s = .ok (bs, s')) :
    bs.length = k ∧ (∀ b ∈ bs, b.length = c.batchSize) ∧
      bs.flatten = ((s.tab.drop s.curSeq).take (k * c.batchSize)).map (fun p => ⟨p.1, 0, 0⟩) := by
  unfold v1Run at h
  induction k generalizing s bs with
  | zero =>
    simp only [repeatE, Except.ok.injEq, Prod.mk.injEq] at h
    obtain ⟨rfl, -⟩ := h
    simp
  | succ k ih =>
    simp only [repeatE, bind_ok] at h
    obtain ⟨⟨b, s1⟩, h1, ⟨bs1, s2⟩, h2, h3⟩ := h
    simp only [Except.ok.injEq, Prod.mk.injEq] at h3
    obtain ⟨rfl, rfl⟩ := h3
    unfold v1Read v1Body at h1
    rw [hm] at h1
    simp only [bind_ok] at h1
    obtain ⟨⟨b', t⟩, g1, s1', g2, g3⟩ := h1
    simp only [Except.ok.injEq, Prod.mk.injEq] at g3
    obtain ⟨rfl, rfl⟩ := g3
    unfold readFull at g1
    dsimp only at g1
    split at g1
    · cases g1
    rename_i hlen
    simp only [Except.ok.injEq, Prod.mk.injEq] at g1
    obtain ⟨rfl, rfl⟩ := g1
    rw [List.length_take, List.length_drop] at hlen
    rcases Nat.eq_zero_or_pos k with hk0 | hk0
    · subst hk0
      simp only [repeatE, Except.ok.injEq, Prod.mk.injEq] at h2
      obtain ⟨rfl, -⟩ := h2
      refine ⟨rfl, ?_, ?_⟩
      · intro b hb
        rw [List.mem_singleton] at hb
        rw [hb, List.length_map, List.length_take, List.length_drop]
        omega
      · simp
    · have hst' : ({ s with curSeq := s.curSeq + c.batchSize } : V1St R).steps c rows = .ok (st : Int) := hst
      unfold v1Tick at g2
      simp only [bind_ok] at g2
      obtain ⟨st2, e1, e2⟩ := g2
      rw [hst'] at e1
      simp only [Except.ok.injEq] at e1
      subst e1
      rw [if_neg (by omega)] at e2
      have hmod : ((s.curStep : Int) + 1) % (st : Int) = s.curStep + 1 := Int.emod_eq_of_lt (by omega) (by omega)
      rw [hmod, if_neg (by omega)] at e2
      simp only [Except.ok.injEq] at e2
      subst e2
      have e3 : ((s.curStep : Int) + 1).toNat = s.curStep + 1 := by omega
      obtain ⟨i1, i2, i3⟩ := ih (s := { s with curSeq := s.curSeq + c.batchSize, curStep := ((s.curStep : Int) + 1).toNat }) hst (by dsimp only; omega) h2
      refine ⟨by rw [List.length_cons, i1], ?_, ?_⟩
      · intro b hb
        rcases List.mem_cons.mp hb with rfl | hb
        · rw [List.length_map, List.length_take, List.length_drop]; omega
        · exact i2 b hb
      · rw [List.flatten_cons, i3]
        dsimp only
        rw [← List.map_append, ← List.drop_drop, ← List.take_add]
        congr 2
        ring

/-- C44: with full sequences the batches of an epoch are consecutive slices of the (shuffled) table, so no utterance comes
twice -/
theorem C44_v1_full (hc : CfgAligned c) (hm : c.method = .fullSeqs) {s0 s : V1St R} (h0 : v1New c rows tab = .ok s0) {st k : Nat}
    (hst : s0.steps c rows = .ok (st : Int)) (hk : k ≤ st) {fuel : Nat} {bs : List (List SubSeq)}
    (h : v1Run c rows fuel k s0 = .ok (bs, s)) :
    s0.tab.Perm s0.initTab ∧ bs.length = k ∧ (∀ b ∈ bs, b.length = c.batchSize) ∧
      bs.flatten.map SubSeq.key = (s0.tab.take (k * c.batchSize)).map Prod.fst := by
  obtain ⟨lo, hi, hg⟩ := new_good hc h0
  obtain ⟨_, _, p3, p4, _⟩ := v1New_inv hc h0
  obtain ⟨q1, q2, q3⟩ := full_run hm hst (by omega) h
  refine ⟨hg.inv.perm, q1, q2, ?_⟩
  rw [q3, p3, List.drop_zero, List.map_map]
  rfl

/-- C45: 'auto' passes of the random generator: the number of reads per epoch is `it` times the number of utterances over the batch
size, rounded down, where `it` is the least number for which passes of average-length chunks cover as many frames as the utterances
have; the constructor raises when the average length is zero or there are no utterances. -/
theorem C45_v1_auto (hc : CfgAligned c) (hm : c.method = .random) (hit : c.iters = none) {s0 : V1St R} (h0 : v1New c rows tab = .ok s0) :
    ∃ lo hi it : Int, minSeq c (s0.tab.map (fun p => rows p.1)) = .ok lo ∧ maxSeq c (s0.tab.map (fun p => rows p.1)) = .ok hi ∧ s0.tab ≠ [] ∧
      (hi + lo).tdiv 2 ≠ 0 ∧ s0.steps c rows = .ok (it * s0.tab.length / c.batchSize) ∧
      (0 < (hi + lo).tdiv 2 → (it - 1) * (s0.tab.length * (hi + lo).tdiv 2) < (s0.tab.map (fun p => rows p.1)).sum ∧
        (s0.tab.map (fun p => rows p.1)).sum ≤ it * (s0.tab.length * (hi + lo).tdiv 2)) := by
  obtain ⟨s1, s2, s3, h1, h2, h3, h4⟩ := v1New_split h0
  obtain ⟨p1, -, -, -, -, p6, -⟩ := pre_inv hc h1 h2 h3
  have hns : c.method ≠ .sequential := by rw [hm]; simp
  obtain ⟨r1, r2, -⟩ := reset_spec p1 (Or.inl (p6 hns).1) h4
  have hperm : (s3.tab.map (fun p => rows p.1)).Perm (s0.tab.map (fun p => rows p.1)) := by
    refine (p1.perm.trans ?_).map _
    rw [← r2]
    exact r1.perm.symm
  unfold V1St.autoIters at h3
  rw [hit, hm] at h3
  simp only [bind_ok] at h3
  obtain ⟨lo, e1, hi, e2, h3⟩ := h3
  split at h3
  · cases h3
  rename_i hne
  rw [not_or] at hne
  simp only [Except.ok.injEq] at h3
  have hl3 : s3.lensVal rows = s2.lensVal rows := by
    rw [← h3]
    unfold V1St.lensVal V1St.force
    cases hl : s2.lens <;> simp [hl]
  rw [p1.lensVal] at hl3
  rw [← hl3] at e1 e2 hne
  rw [minSeq_perm hperm] at e1
  rw [maxSeq_perm hperm] at e2
  have hn0 : s0.tab ≠ [] := fun hn => hne.2 (by rw [hn] at hperm; exact hperm.eq_nil)
  refine ⟨lo, hi, ceilDiv (s0.tab.map (fun p => rows p.1)).sum (s0.tab.length * (hi + lo).tdiv 2), e1, e2, hn0, hne.1, ?_, ?_⟩
  · have hv : s0.itersVal c rows = .ok (ceilDiv (s0.tab.map (fun p => rows p.1)).sum (s0.tab.length * (hi + lo).tdiv 2)) := by
      unfold V1St.itersVal
      rw [hit, hm, r1.lensVal]
      dsimp only
      rw [e1, e2, List.length_map]
      rfl
    unfold V1St.steps
    rw [hv, hm]
    rfl
  · intro hpos
    have hl : 0 < s0.tab.length := List.length_pos_iff.mpr hn0
    have hd : 0 < (s0.tab.length : Int) * (hi + lo).tdiv 2 := Int.mul_pos (by omega) hpos
    generalize (s0.tab.length : Int) * (hi + lo).tdiv 2 = d at hd
    generalize (s0.tab.map (fun p => rows p.1)).sum = a
    unfold ceilDiv
    have e1 := Int.emod_add_mul_ediv (-a) d
    have e2 := Int.emod_nonneg (-a) hd.ne'
    have e3 := Int.emod_lt_of_pos (-a) hd
    have e4 : d * (-a / d) = (-a / d) * d := mul_comm _ _
    constructor
    · have : (-(-a / d) - 1) * d = -((-a / d) * d) - d := by ring
      rw [this]; omega
    · have : -(-a / d) * d = -((-a / d) * d) := by ring
      rw [this]; omega

end V1

section V2
variable {c : V2Cfg} {rows : String → Int} {tab : List (String × String)}

/-- C45: 'auto' passes of the balanced generator: the least number for which passes of average-length chunks cover as many
frames as the utterances have on average -/
theorem C45_v2_auto {i : V2Info} (h : v2New c rows tab = .ok i) (hc : c.iters = none) :
    ∃ lo hi, minSeq2 c (i.tab.map (fun p => rows p.1)) = .ok lo ∧ maxSeq2 c (i.tab.map (fun p => rows p.1)) = .ok hi ∧ i.tab ≠ [] ∧
      (0 < (hi + lo).tdiv 2 → (i.iters - 1) * (i.tab.length * (hi + lo).tdiv 2) < (i.tab.map (fun p => rows p.1)).sum ∧
        (i.tab.map (fun p => rows p.1)).sum ≤ i.iters * (i.tab.length * (hi + lo).tdiv 2)) := by
  unfold v2New at h
  dsimp only at h
  set T := (if c.prune > 0 then tab.filter (fun p => decide (rows p.1 ≥ c.prune)) else tab) with hT
  clear_value T
  simp only [bind_ok] at h
  obtain ⟨⟨ids, n⟩, -, h⟩ := h
  rw [hc] at h
  simp only [bind_ok] at h
  obtain ⟨lo, h1, hi, h2, h3⟩ := h
  split at h3
  · cases h3
  rename_i hne
  rw [not_or] at hne
  simp only [Except.ok.injEq] at h3
  subst h3
  refine ⟨lo, hi, h1, h2, fun hn => hne.2 (by dsimp only at hn; rw [hn]; rfl), ?_⟩
  intro hpos
  dsimp only
  rw [List.length_map]
  have hl : 0 < T.length := List.length_pos_iff.mpr (fun hn => hne.2 (by rw [hn]; rfl))
  have hd : 0 < (T.length : Int) * (hi + lo).tdiv 2 := Int.mul_pos (by omega) hpos
  generalize (T.length : Int) * (hi + lo).tdiv 2 = d at hd
  generalize (T.map (fun p => rows p.1)).sum = a
  unfold ceilDiv
  have e1 := Int.emod_add_mul_ediv (-a) d
  have e2 := Int.emod_nonneg (-a) hd.ne'
  have e3 := Int.emod_lt_of_pos (-a) hd
  have e4 : d * (-a / d) = (-a / d) * d := mul_comm _ _
  constructor
  · have : (-(-a / d) - 1) * d = -((-a / d) * d) - d := by ring
    rw [this]; omega
  · have : -(-a / d) * d = -((-a / d) * d) := by ring
    rw [this]; omega

end V2
end Hyp.Gen

namespace Hyp.Segments

section
variable {K : Type} [Field K] [LinearOrder K]

theorem intercalate_two (a b : String) : "_".intercalate [a, b] = a ++ "_" ++ b := by
  simp

/-- C49: prepending the file id changes only the names of the segments of the given type, to "file_name" -/
theorem C49_prepend (rows : List (Row K)) (stype : String) :
    (prependFileId rows stype).length = rows.length ∧
    ∀ (i : Nat) (r : Row K), rows[i]? = some r → ∃ r' : Row K, (prependFileId rows stype)[i]? = some r' ∧
      r'.name = (if r.stype = stype then r.file ++ "_" ++ r.name else r.name) ∧ { r' with name := r.name } = r := by
  unfold prependFileId
  refine ⟨by simp, fun i r hr => ?_⟩
  rw [List.getElem?_map, hr, Option.map_some]
  by_cases h : r.stype = stype
  · rw [if_pos h, if_pos h]
    exact ⟨_, rfl, intercalate_two r.file r.name, rfl⟩
  · rw [if_neg h, if_neg h]
    exact ⟨r, rfl, rfl, rfl⟩
end

variable {K : Type} [Field K] [LinearOrder K] [IsStrictOrderedRing K] [FloorRing K]

/-- C58: times below ten million seconds take seven characters in segment ids -/
theorem C58_width (t : K) (h0 : 0 ≤ t) (h : t < 10000000) : (fmt07 t).length = 7 := by
  have h1 : ⌊t⌋₊ < 10 ^ 7 := by
    rw [Nat.floor_lt h0]
    simpa using h
  have := printNat_length_le _ 7 (by norm_num) h1
  unfold fmt07
  rw [List.length_append, List.length_replicate]
  omega

end Hyp.Segments
