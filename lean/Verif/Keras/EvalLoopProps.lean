import Verif.Keras.EvalLoop
import Verif.Keras.SeqEmbedProps
import Verif.NpLemmas
import Mathlib.Algebra.BigOperators.Ring.List
import Mathlib.Algebra.BigOperators.Group.List.Basic
import Mathlib.Tactic.FieldSimp

/-!
C151: evaluation of a loss in batches.
-/

namespace Hyp.Keras

/-- **C151 (batches).** The batches are consecutive, start at 0, end at `size`, are not empty and have at most `batch` samples; all
but the last have exactly `batch`. A batch size of zero raises. -/
theorem C151_batches (size batch : Nat) : (makeBatches size batch = none ↔ batch = 0) ∧
    ∀ bs, makeBatches size batch = some bs →
      (∀ (i : Nat) (p : Nat × Nat), bs[i]? = some p → p.1 = i * batch ∧ p.1 < p.2 ∧ p.2 ≤ p.1 + batch ∧ p.2 ≤ size ∧ (p.2 < size → p.2 = (i + 1) * batch ∧ i + 1 < bs.length)) ∧
      (∀ k < size, ∃ (i : Nat) (p : Nat × Nat), bs[i]? = some p ∧ p.1 ≤ k ∧ k < p.2) := by
  unfold makeBatches
  by_cases hb : batch = 0
  · simp [hb]
  · rw [if_neg hb]
    refine ⟨by simp [hb], ?_⟩
    rintro bs ⟨⟩
    have hb' : 0 < batch := Nat.pos_of_ne_zero hb
    have hlt : ∀ i, i < (size + (batch - 1)) / batch ↔ i * batch < size := by
      intro i
      rw [Nat.lt_iff_add_one_le, Nat.le_div_iff_mul_le hb', Nat.add_mul, Nat.one_mul]
      omega
    constructor
    · intro i p hp
      rw [List.getElem?_map] at hp
      rcases Nat.lt_or_ge i ((size + (batch - 1)) / batch) with hi | hi
      · rw [List.getElem?_range hi] at hp
        simp only [Option.map_some, Option.some.injEq] at hp
        subst hp
        have := (hlt i).1 hi
        have e : (i + 1) * batch = i * batch + batch := by rw [Nat.add_mul, Nat.one_mul]
        refine ⟨rfl, ?_, ?_, ?_, ?_⟩
        · show i * batch < min size ((i + 1) * batch); omega
        · show min size ((i + 1) * batch) ≤ i * batch + batch; omega
        · show min size ((i + 1) * batch) ≤ size; omega
        · intro h
          have h : min size ((i + 1) * batch) < size := h
          refine ⟨?_, ?_⟩
          · show min size ((i + 1) * batch) = (i + 1) * batch; omega
          · rw [List.length_map, List.length_range, hlt]; omega
      · rw [List.getElem?_eq_none (by simpa using hi)] at hp
        cases hp
    · intro k hk
      refine ⟨k / batch, (k / batch * batch, min size ((k / batch + 1) * batch)), ?_, Nat.div_mul_le_self k batch, ?_⟩
      · rw [List.getElem?_map, List.getElem?_range ((hlt _).2 (lt_of_le_of_lt (Nat.div_mul_le_self k batch) hk))]
        rfl
      · have : k < (k / batch + 1) * batch := by
          rw [Nat.mul_comm]; exact Nat.lt_mul_div_succ k hb'
        show k < min size ((k / batch + 1) * batch)
        omega

variable {ξ γ : Type}

theorem mapM_store (os rs : List (List γ)) (j k : Nat) (h : os.length = rs.length) (hr : ∀ r ∈ rs, r.length = k - j) :
    (os.zip rs).mapM (fun (p : List γ × List γ) => storeIds p.1 j k p.2) = some ((os.zip rs).map (fun p => p.1.take j ++ p.2 ++ p.1.drop k)) := by
  rw [mapM_eq_some_iff, List.map_map]
  refine List.map_congr_left (fun p hp => ?_)
  unfold storeIds
  rw [if_pos (hr _ (List.of_mem_zip hp).2)]
  rfl

/-- after `n` batches: the first samples are done, the others are still zero -/
theorem eval_prefix (fs : List (ξ → γ)) (zero : γ) (x : List ξ) (batch : Nat) (hb : 0 < batch) (bs : List (Nat × Nat)) (hbs : makeBatches x.length batch = some bs) :
    ∀ n, 0 < n → n ≤ bs.length →
      (((List.range bs.length).zip bs).take n).foldlM (evalStep (fun l => fs.map (fun g => l.map g)) zero x) [] =
        some (fs.map (fun g => (x.take (n * batch)).map g ++ List.replicate (x.length - n * batch) zero)) := by
  have hget : ∀ i, i < bs.length → bs[i]? = some (i * batch, min x.length ((i + 1) * batch)) ∧ i * batch < x.length := by
    intro i hi
    have hp := List.getElem?_eq_getElem hi
    have h := ((C151_batches x.length batch).2 bs hbs).1 i _ hp
    unfold makeBatches at hbs
    rw [if_neg (by omega)] at hbs
    obtain rfl := Option.some.inj hbs
    rw [List.length_map, List.length_range] at hi
    constructor
    · rw [List.getElem?_map, List.getElem?_range hi]; rfl
    · rw [← h.1]; exact lt_of_lt_of_le h.2.1 h.2.2.2.1
  intro n
  induction n with
  | zero => intro h; omega
  | succ n ih =>
    intro _ hn
    obtain ⟨g1, g2⟩ := hget n (by omega)
    have e : (n + 1) * batch = n * batch + batch := by rw [Nat.add_mul, Nat.one_mul]
    have htake : ((List.range bs.length).zip bs).take (n + 1) = ((List.range bs.length).zip bs).take n ++ [(n, (n * batch, min x.length ((n + 1) * batch)))] := by
      rw [List.take_add_one]
      congr 1
      have hz : ((List.range bs.length).zip bs)[n]? = some (n, (n * batch, min x.length ((n + 1) * batch))) :=
        List.getElem?_zip_eq_some.2 ⟨List.getElem?_range (by omega), g1⟩
      rw [hz]
      rfl
    rw [htake, List.foldlM_append]
    have hstep : ∀ outs : List (List γ), outs = (if n = 0 then [] else fs.map (fun g => (x.take (n * batch)).map g ++ List.replicate (x.length - n * batch) zero)) →
        evalStep (fun l => fs.map (fun g => l.map g)) zero x outs (n, (n * batch, min x.length ((n + 1) * batch))) =
          some (fs.map (fun g => (x.take ((n + 1) * batch)).map g ++ List.replicate (x.length - (n + 1) * batch) zero)) := by
      intro outs ho
      unfold evalStep
      have hO : (if n = 0 then outs ++ List.replicate fs.length (List.replicate x.length zero) else outs) =
          fs.map (fun g => (x.take (n * batch)).map g ++ List.replicate (x.length - n * batch) zero) := by
        by_cases h0 : n = 0
        · rw [if_pos h0] at ho
          rw [if_pos h0, ho, h0]
          simp
        · rw [if_neg h0] at ho
          rw [if_neg h0, ho]
      simp only [List.length_map]
      rw [hO]
      have hl : ∀ r ∈ fs.map (fun g => ((x.drop (n * batch)).take (min x.length ((n + 1) * batch) - n * batch)).map g), r.length = min x.length ((n + 1) * batch) - n * batch := by
        intro r hr
        obtain ⟨g, -, rfl⟩ := List.mem_map.1 hr
        rw [List.length_map, List.length_take, List.length_drop]; omega
      rw [mapM_store _ _ _ _ (by simp) hl]
      simp only [guard, List.length_map, le_refl, if_pos, Option.pure_def, Option.bind_eq_bind, Option.bind_some]
      rw [List.drop_of_length_le (l := fs.map (fun g => (x.take (n * batch)).map g ++ List.replicate (x.length - n * batch) zero)) (by simp), List.append_nil, List.zip_map', List.map_map]
      congr 1
      refine List.map_congr_left (fun g _ => ?_)
      simp only [Function.comp_apply]
      have t1 : ((x.take (n * batch)).map g).length = n * batch := by simp; omega
      rw [List.take_append_of_le_length (by omega), List.take_of_length_le (by omega)]
      have t2 : x.take ((n + 1) * batch) = x.take (n * batch) ++ (x.drop (n * batch)).take (min x.length ((n + 1) * batch) - n * batch) := by
        rw [e, List.take_add]
        congr 1
        rcases Nat.le_total x.length (n * batch + batch) with h | h
        · rw [Nat.min_eq_left h, List.take_of_length_le (by simp; omega), List.take_of_length_le (by simp)]
        · rw [Nat.min_eq_right h]; congr 1; omega
      rw [t2, List.map_append]
      congr 1
      rw [List.drop_append, List.drop_of_length_le (by rw [t1]; omega), List.nil_append, t1, List.drop_replicate]
      congr 1
      omega
    by_cases h0 : n = 0
    · subst h0
      simp only [List.take_zero, List.foldlM_nil, Option.pure_def, Option.bind_eq_bind, Option.bind_some, List.foldlM_cons]
      rw [hstep [] (by simp)]
      rfl
    · rw [ih (by omega) (by omega)]
      simp only [Option.bind_eq_bind, Option.bind_some, List.foldlM_cons]
      rw [hstep _ (by rw [if_neg h0])]
      rfl

/-- **C151 (batches do not show).** When every output of the function is computed sample by sample, the loop returns for every
batch size and every number of samples the values of the samples, in order, one array per output. -/
theorem C151_eval_loop (fs : List (ξ → γ)) (zero : γ) (x : List ξ) (batch : Nat) (hb : 0 < batch) (hx : x ≠ []) :
    evalLoop (fun l => fs.map (fun g => l.map g)) zero x batch = some (fs.map (fun g => x.map g)) := by
  have hne : makeBatches x.length batch ≠ none := fun h => by
    have := (C151_batches x.length batch).1.1 h
    omega
  obtain ⟨bs, hbs⟩ := Option.ne_none_iff_exists'.1 hne
  have hcov := (C151_batches x.length batch).2 bs hbs
  have hpos : 0 < x.length := List.length_pos_iff.2 hx
  obtain ⟨i, p, hip, h1, h2⟩ := hcov.2 (x.length - 1) (by omega)
  have hi : i < bs.length := by
    by_contra hc
    rw [List.getElem?_eq_none (by omega)] at hip; cases hip
  obtain ⟨q1, q2, q3, q4, q5⟩ := hcov.1 i p hip
  have hend : x.length ≤ bs.length * batch := by
    have : (i + 1) * batch ≤ bs.length * batch := Nat.mul_le_mul_right _ hi
    have : p.2 ≤ (i + 1) * batch := by rw [Nat.add_mul, Nat.one_mul, ← q1]; exact q3
    omega
  have key := eval_prefix fs zero x batch hb bs hbs bs.length (by omega) (le_refl _)
  unfold evalLoop
  rw [hbs]
  simp only [Option.bind_eq_bind, Option.bind_some]
  rw [List.take_of_length_le (by simp)] at key
  rw [key, List.take_of_length_le hend]
  congr 1
  refine List.map_congr_left (fun g _ => ?_)
  rw [Nat.sub_eq_zero_of_le hend]
  simp

/-- no samples: an empty list, whatever the function -/
theorem C151_empty (f : List ξ → List (List γ)) (zero : γ) (batch : Nat) (hb : 0 < batch) : evalLoop f zero [] batch = some [] := by
  unfold evalLoop makeBatches
  have : (0 + (batch - 1)) / batch = 0 := Nat.div_eq_of_lt (by omega)
  simp [if_neg (show ¬ batch = 0 by omega), Nat.div_eq_of_lt (show batch - 1 < batch by omega)]

/-- one output is returned itself, several as a list -/
theorem C151_unwrap (o : List γ) (os : List (List γ)) : evalUnwrap [o] = .inl o ∧ (os.length ≠ 1 → evalUnwrap os = .inr os) := by
  refine ⟨rfl, fun h => ?_⟩
  match os with
  | [] => rfl
  | [_] => simp at h
  | _ :: _ :: _ => rfl

/-- **C151 (defect).** A function that returns a single array instead of a list raises for every batch size as soon as there
is a sample. -/
theorem C151_array_raises (f : List ξ → List γ) (x : List ξ) (batch : Nat) (hx : x ≠ []) : evalLoopArray f x batch = none := by
  unfold evalLoopArray
  cases hb : makeBatches x.length batch with
  | none => rfl
  | some bs =>
    have hpos : 0 < x.length := List.length_pos_iff.2 hx
    obtain ⟨i, p, hip, -⟩ := ((C151_batches x.length batch).2 bs hb).2 0 hpos
    cases bs with
    | nil => simp at hip
    | cons b bs => rfl

/-- **C151 (weighted loss).** The loss of a sequence is the weighted mean of the losses of its frames: frames of weight zero do not
count, a common factor of the weights neither. -/
theorem C151_weighted (score w : List ℝ) (h : score.length = w.length) (hw : w.sum ≠ 0) :
    weightedSeq score w = ((score.zip w).map (fun p => p.2 * p.1)).sum / w.sum := by
  unfold weightedSeq
  have hl : w.length ≠ 0 := fun h0 => hw (by rw [List.length_eq_zero_iff.1 h0]; rfl)
  have hl' : (w.length : ℝ) ≠ 0 := Nat.cast_ne_zero.2 hl
  simp only [div_eq_mul_inv, List.sum_map_mul_right]
  rw [List.length_map, List.length_zip, h, Nat.min_self]
  simp only [List.map_id', mul_inv, inv_inv]
  have : ((score.zip w).map (fun p => p.1 * p.2)).sum = ((score.zip w).map (fun p => p.2 * p.1)).sum := by
    simp only [mul_comm]
  rw [this]
  field_simp

/-- **C151 (defect).** With one weight per sample the weights cancel: every weight but zero gives the same loss. -/
theorem C151_sample_weight_cancels (score w : ℝ) (hw : w ≠ 0) : weightedSample score w = score := by
  unfold weightedSample
  field_simp

/-- five samples in batches of two, two outputs -/
example : evalLoop (fun l => [l.map (fun n => n + 1), l.map (fun n => n * n)]) 0 [1, 2, 3, 4, 5] 2 = some [[2, 3, 4, 5, 6], [1, 4, 9, 16, 25]] := by decide
example : makeBatches 5 2 = some [(0, 2), (2, 4), (4, 5)] := by decide

/-- frames with losses 1, 3, 100 and weights 1, 3, 0 -/
example : weightedSeq [1, 3, 100] [1, 3, 0] = 5 / 2 := by
  rw [C151_weighted [1, 3, 100] [1, 3, 0] rfl (by norm_num)]
  norm_num

end Hyp.Keras
