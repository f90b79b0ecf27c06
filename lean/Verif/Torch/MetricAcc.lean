import Mathlib.Algebra.Order.Field.Basic
import Mathlib.Algebra.BigOperators.Group.List.Basic
import Mathlib.Data.List.Nodup
import Mathlib.Tactic.FieldSimp
import Mathlib.Tactic.Ring
import Mathlib.Tactic.Linarith
import Mathlib.Tactic.Positivity
import Mathlib.Tactic.NormNum

/-!
Model of /repo/hyperion/torch/utils/metric_acc.py and C40.

A metrics dictionary is the list of its (key, value) pairs in order. `self.keys` is a live view of the keys of the first
dictionary in the code; here it is a snapshot (the trainer never adds keys to that dictionary later). Exact arithmetic.
-/

namespace Hyp.Torch

structure MetricAcc (K : Type) where
  keys : Option (List String)
  acc : List K
  count : Nat
  deriving DecidableEq

variable {K : Type} [Field K]

/-- metric_acc.py:16-19 -/
def MetricAcc.init : MetricAcc K := ⟨none, [], 0⟩

/-- metric_acc.py:22-27 `reset` -/
def MetricAcc.reset (s : MetricAcc K) : MetricAcc K := { s with count := 0, acc := s.acc.map (fun _ => 0) }

/-- metric_acc.py:53-54: the loop over the keys. `none` is a KeyError. -/
def updLoop (r : K) (m : List (String × K)) : List String → List K → Option (List K)
  | k :: ks, a :: as =>
    (m.lookup k).bind (fun x => (updLoop r m ks as).map (fun t => (a + r * (x - a)) :: t))
  | _, _ => some []

/-- metric_acc.py:30-54 `update`. `none` is an exception: ZeroDivisionError or KeyError. -/
def MetricAcc.update (s : MetricAcc K) (m : List (String × K)) (n : Nat) : Option (MetricAcc K) :=
  let keys := s.keys.getD (m.map Prod.fst)
  let acc := if s.keys = none then keys.map (fun _ => 0) else s.acc
  let count := s.count + n
  if count = 0 then none
  else (updLoop ((n : K) / (count : K)) m keys acc).map (fun acc' => ⟨some keys, acc', count⟩)

/-- metric_acc.py:58-66 `metrics`. `none`: TypeError before the first update. -/
def MetricAcc.metrics (s : MetricAcc K) : Option (List (String × K)) := s.keys.map (fun ks => ks.zip s.acc)

/-- what a user does with the accumulator. -/
inductive AccOp (K : Type) where
  | update (m : List (String × K)) (n : Nat)
  | reset

def MetricAcc.step (s : MetricAcc K) : AccOp K → Option (MetricAcc K)
  | .update m n => s.update m n
  | .reset => some s.reset

def MetricAcc.run (s : MetricAcc K) : List (AccOp K) → Option (MetricAcc K)
  | [] => some s
  | op :: ops => (s.step op).bind (fun s' => s'.run ops)

/-! ## specification -/

/-- the updates after the last reset. -/
def sinceReset : List (AccOp K) → List (List (String × K) × Nat) → List (List (String × K) × Nat)
  | [], cur => cur
  | .update m n :: ops, cur => sinceReset ops (cur ++ [(m, n)])
  | .reset :: ops, _ => sinceReset ops []

/-- the keys of the first update. -/
def firstKeys : List (AccOp K) → Option (List String)
  | [] => none
  | .update m _ :: _ => some (m.map Prod.fst)
  | .reset :: ops => firstKeys ops

/-- number of samples. -/
def totalSamples (us : List (List (String × K) × Nat)) : Nat := (us.map Prod.snd).sum

/-- sum of value * num_samples of metric `k`. -/
def weightedSum (k : String) (us : List (List (String × K) × Nat)) : K :=
  (us.map (fun u => (u.2 : K) * (u.1.lookup k).getD 0)).sum

/-! ## proofs -/

/-- the accumulator holds the weighted means of `us`. -/
structure Holds (s : MetricAcc K) (us : List (List (String × K) × Nat)) : Prop where
  count : s.count = totalSamples us
  len : ∀ ks, s.keys = some ks → s.acc.length = ks.length
  fresh : s.keys = none → us = []
  val : ∀ ks, s.keys = some ks → ∀ i (hi : i < ks.length), ∀ a, s.acc[i]? = some a → a * (totalSamples us : K) = weightedSum ks[i] us ∧ (totalSamples us = 0 → a = 0)

theorem updLoop_spec (r : K) (m : List (String × K)) : ∀ (ks : List String) (as : List K), as.length = ks.length →
    ∀ out, updLoop r m ks as = some out → out.length = ks.length ∧
      ∀ i (hi : i < ks.length), ∃ x a, m.lookup ks[i] = some x ∧ as[i]? = some a ∧ out[i]? = some (a + r * (x - a)) := by
  intro ks
  induction ks with
  | nil =>
    intro as h out ho
    cases as with
    | nil => simp only [updLoop, Option.some.injEq] at ho; subst ho; exact ⟨rfl, fun i hi => by simp at hi⟩
    | cons a as => simp at h
  | cons k ks ih =>
    intro as h out ho
    cases as with
    | nil => simp at h
    | cons a as =>
      rw [updLoop] at ho
      cases hx : m.lookup k with
      | none => rw [hx] at ho; simp at ho
      | some x =>
        rw [hx, Option.bind_some, Option.map_eq_some_iff] at ho
        obtain ⟨t, ht, rfl⟩ := ho
        obtain ⟨h1, h2⟩ := ih as (by simpa using h) t ht
        refine ⟨by simp [h1], ?_⟩
        intro i hi
        cases i with
        | zero => exact ⟨x, a, hx, rfl, rfl⟩
        | succ i =>
          obtain ⟨x', a', e1, e2, e3⟩ := h2 i (by simpa using hi)
          exact ⟨x', a', e1, e2, e3⟩

theorem holds_init : Holds (MetricAcc.init : MetricAcc K) [] :=
  ⟨rfl, fun ks h => by simp [MetricAcc.init] at h, fun _ => rfl, fun ks h => by simp [MetricAcc.init] at h⟩

theorem holds_reset {s : MetricAcc K} {us} (h : Holds s us) : Holds s.reset [] := by
  refine ⟨rfl, ?_, fun _ => rfl, ?_⟩
  · intro ks hk
    simp only [MetricAcc.reset, List.length_map] at *
    exact h.len ks hk
  · intro ks hk i hi a ha
    simp only [MetricAcc.reset] at ha
    rw [List.getElem?_map, Option.map_eq_some_iff] at ha
    obtain ⟨_, _, rfl⟩ := ha
    simp [weightedSum]

theorem totalSamples_append (us : List (List (String × K) × Nat)) (m : List (String × K)) (n : Nat) :
    totalSamples (us ++ [(m, n)]) = totalSamples us + n := by
  simp [totalSamples]

theorem weightedSum_append (k : String) (us : List (List (String × K) × Nat)) (m : List (String × K)) (n : Nat) :
    weightedSum k (us ++ [(m, n)]) = weightedSum k us + n * (m.lookup k).getD 0 := by
  simp [weightedSum]

theorem holds_update [CharZero K] {s s' : MetricAcc K} {us} (h : Holds s us) {m : List (String × K)} {n : Nat} (hs : s.update m n = some s') :
    Holds s' (us ++ [(m, n)]) ∧ s'.keys = some (s.keys.getD (m.map Prod.fst)) := by
  unfold MetricAcc.update at hs
  simp only at hs
  split at hs
  · exact absurd hs (by simp)
  · rename_i hc
    rw [Option.map_eq_some_iff] at hs
    obtain ⟨acc', hl, rfl⟩ := hs
    have hlen : (if s.keys = none then List.map (fun _ => (0 : K)) (s.keys.getD (m.map Prod.fst)) else s.acc).length = (s.keys.getD (m.map Prod.fst)).length := by
      cases hk : s.keys with
      | none => simp
      | some ks => simpa using h.len ks hk
    obtain ⟨h1, h2⟩ := updLoop_spec _ _ _ _ hlen _ hl
    refine ⟨⟨?_, ?_, ?_, ?_⟩, rfl⟩
    · show s.count + n = _
      rw [totalSamples_append, h.count]
    · intro ks hk
      simp only [Option.some.injEq] at hk
      subst hk
      exact h1
    · intro hk; simp at hk
    · intro ks hk i hi a ha
      simp only [Option.some.injEq] at hk
      subst hk
      obtain ⟨x, a0, e1, e2, e3⟩ := h2 i hi
      simp only at ha
      rw [e3, Option.some.injEq] at ha
      have hcast : (s.count : K) + (n : K) ≠ 0 := by
        have : ((s.count + n : Nat) : K) ≠ 0 := Nat.cast_ne_zero.2 hc
        push_cast at this
        exact this
      have hold : a0 * (totalSamples us : K) = weightedSum (s.keys.getD (m.map Prod.fst))[i] us := by
        rcases Option.eq_none_or_eq_some s.keys with hk | ⟨ks, hk⟩
        · have hus := h.fresh hk
          subst hus
          simp [totalSamples, weightedSum]
        · simp only [hk] at e2
          have hi' : i < ks.length := by simpa [hk] using hi
          have := (h.val ks hk i hi' a0 (by simpa using e2)).1
          simpa [hk] using this
      rw [totalSamples_append, weightedSum_append, e1, Option.getD_some, ← hold, ← ha]
      have htot : (totalSamples us : K) = s.count := by rw [h.count]
      refine ⟨?_, ?_⟩
      · push_cast
        rw [htot]
        field_simp
        ring
      · intro h0
        rw [← h.count] at h0
        exact absurd h0 hc

theorem run_holds [CharZero K] : ∀ (ops : List (AccOp K)) (s : MetricAcc K) (us) (st : MetricAcc K), Holds s us → s.run ops = some st →
    Holds st (sinceReset ops us) ∧ st.keys = (s.keys <|> firstKeys ops) := by
  intro ops
  induction ops with
  | nil =>
    intro s us st h hr
    simp only [MetricAcc.run, Option.some.injEq] at hr
    subst hr
    refine ⟨h, ?_⟩
    cases s.keys <;> rfl
  | cons op ops ih =>
    intro s us st h hr
    rw [MetricAcc.run, Option.bind_eq_some_iff] at hr
    obtain ⟨s', hs', hr⟩ := hr
    cases op with
    | update m n =>
      obtain ⟨h', hk'⟩ := holds_update h hs'
      obtain ⟨g1, g2⟩ := ih s' _ st h' hr
      refine ⟨g1, ?_⟩
      rw [g2, hk', firstKeys]
      cases s.keys <;> rfl
    | reset =>
      simp only [MetricAcc.step, Option.some.injEq] at hs'
      subst hs'
      obtain ⟨g1, g2⟩ := ih _ [] st (holds_reset h) hr
      refine ⟨g1, ?_⟩
      rw [g2, firstKeys]
      rfl

theorem lookup_zip : ∀ (ks : List String) (as : List K), ks.Nodup → as.length = ks.length → ∀ i (hi : i < ks.length),
    (ks.zip as).lookup ks[i] = as[i]? := by
  intro ks
  induction ks with
  | nil => intro as _ _ i hi; simp at hi
  | cons k ks ih =>
    intro as hn hl i hi
    cases as with
    | nil => simp at hl
    | cons a as =>
      obtain ⟨hk, hn⟩ := List.nodup_cons.1 hn
      cases i with
      | zero => simp [List.lookup]
      | succ i =>
        have hi' : i < ks.length := by simpa using hi
        have hne : ks[i] ≠ k := fun he => hk (he ▸ List.getElem_mem hi')
        simp only [List.getElem_cons_succ, List.zip_cons_cons, List.getElem?_cons_succ]
        rw [List.lookup_cons, beq_false_of_ne hne]
        exact ih as hn (by simpa using hl) i hi'

/-- C40: after any sequence of updates and resets that did not raise and that has at least one update, `metrics` has one
entry per key of the first update (ever), and its value is the sum of value * num_samples over the updates since the last
reset divided by the number of samples in them (0 if there is none). -/
theorem C40_weighted_mean [CharZero K] (ops : List (AccOp K)) (st : MetricAcc K) (ks : List String)
    (hr : (MetricAcc.init : MetricAcc K).run ops = some st) (hks : firstKeys ops = some ks) (hn : ks.Nodup) :
    ∃ d, st.metrics = some d ∧ d.map Prod.fst = ks ∧ ∀ k ∈ ks,
      d.lookup k = some (if totalSamples (sinceReset ops []) = 0 then 0
        else weightedSum k (sinceReset ops []) / (totalSamples (sinceReset ops []) : K)) := by
  obtain ⟨h, hk⟩ := run_holds ops _ [] st holds_init hr
  rw [hks] at hk
  have hk : st.keys = some ks := hk
  have hl := h.len ks hk
  refine ⟨ks.zip st.acc, by rw [MetricAcc.metrics, hk]; rfl, ?_, ?_⟩
  · rw [List.map_fst_zip (by omega)]
  · intro k hkm
    obtain ⟨i, hi, rfl⟩ := List.getElem_of_mem hkm
    rw [lookup_zip ks _ hn hl i hi, List.getElem?_eq_getElem (by omega)]
    obtain ⟨hv, hz⟩ := h.val ks hk i hi _ (List.getElem?_eq_getElem (by omega))
    congr 1
    split
    · rename_i h0; exact hz h0
    · rename_i h0
      rw [eq_div_iff (Nat.cast_ne_zero.2 h0)]
      exact hv

/-- All samples of an epoch count the same, however they are put into batches: two accumulators that saw the same
(value, count) totals agree. Two batches of the same mean can be joined. -/
theorem C40_batching [CharZero K] (k : String) (x : K) (n1 n2 : Nat) (h1 : 0 < n1) :
    ((MetricAcc.init : MetricAcc K).run [.update [(k, x)] n1, .update [(k, x)] n2]).bind MetricAcc.metrics =
      ((MetricAcc.init : MetricAcc K).run [.update [(k, x)] (n1 + n2)]).bind MetricAcc.metrics := by
  have hn1 : (n1 : K) ≠ 0 := Nat.cast_ne_zero.2 (by omega)
  have e1 : n1 ≠ 0 := by omega
  have e3 : (n1 : K) + (n2 : K) ≠ 0 := by
    have : ((n1 + n2 : Nat) : K) ≠ 0 := Nat.cast_ne_zero.2 (by omega)
    push_cast at this
    exact this
  simp [MetricAcc.run, MetricAcc.step, MetricAcc.update, MetricAcc.init, MetricAcc.metrics, updLoop, List.lookup, e1, hn1, e3]

/-- When it raises: never, if every update has at least one sample and all the keys of the first update. -/
theorem C40_no_raise (ops : List (AccOp K)) (ks : List String)
    (h : ∀ m n, AccOp.update m n ∈ ops → 0 < n ∧ m.map Prod.fst = ks) : ∃ st, (MetricAcc.init : MetricAcc K).run ops = some st := by
  have hlk : ∀ (m : List (String × K)) k, k ∈ m.map Prod.fst → ∃ x, m.lookup k = some x := by
    intro m
    induction m with
    | nil => intro k hk; simp at hk
    | cons p m ih =>
      intro k hk
      rw [List.lookup_cons]
      by_cases he : k == p.1
      · rw [he]; exact ⟨p.2, rfl⟩
      · rw [Bool.not_eq_true] at he
        rw [he]
        apply ih
        rcases List.mem_cons.1 hk with rfl | hk'
        · simp at he
        · exact hk'
  have hloop : ∀ (r : K) (m : List (String × K)) (ks' : List String) (as : List K), (∀ k ∈ ks', k ∈ m.map Prod.fst) →
      ∃ o, updLoop r m ks' as = some o := by
    intro r m ks'
    induction ks' with
    | nil => intro as _; cases as <;> exact ⟨_, rfl⟩
    | cons k ks' ih =>
      intro as hall
      cases as with
      | nil => exact ⟨_, rfl⟩
      | cons a as =>
        obtain ⟨x, hx⟩ := hlk m k (hall k List.mem_cons_self)
        obtain ⟨o, ho⟩ := ih as (fun k' hk' => hall k' (List.mem_cons_of_mem _ hk'))
        exact ⟨_, by rw [updLoop, hx, ho]; rfl⟩
  have key : ∀ (ops : List (AccOp K)) (s : MetricAcc K), (s.keys = none ∨ s.keys = some ks) →
      (∀ m n, AccOp.update m n ∈ ops → 0 < n ∧ m.map Prod.fst = ks) → ∃ st, s.run ops = some st := by
    intro ops
    induction ops with
    | nil => intro s _ _; exact ⟨s, rfl⟩
    | cons op ops ih =>
      intro s hs hall
      cases op with
      | update m n =>
        obtain ⟨hn, hm⟩ := hall m n List.mem_cons_self
        have hkeys : s.keys.getD (m.map Prod.fst) = ks := by
          rcases hs with hs | hs <;> rw [hs]
          · exact hm
          · rfl
        obtain ⟨o, ho⟩ := hloop ((n : K) / ((s.count + n : Nat) : K)) m ks
          (if s.keys = none then ks.map (fun _ => 0) else s.acc) (fun k hk => hm ▸ hk)
        have hu : s.update m n = some ⟨some ks, o, s.count + n⟩ := by
          unfold MetricAcc.update
          simp only [hkeys]
          rw [if_neg (by omega), ho]
          rfl
        obtain ⟨st, hst⟩ := ih ⟨some ks, o, s.count + n⟩ (Or.inr rfl) (fun m' n' h' => hall m' n' (List.mem_cons_of_mem _ h'))
        exact ⟨st, by rw [MetricAcc.run, MetricAcc.step, hu, Option.bind_some, hst]⟩
      | reset =>
        obtain ⟨st, hst⟩ := ih s.reset hs (fun m' n' h' => hall m' n' (List.mem_cons_of_mem _ h'))
        exact ⟨st, by rw [MetricAcc.run, MetricAcc.step, Option.bind_some, hst]⟩
  exact key ops _ (Or.inl rfl) h

/-- instance: loss 1 over 2 samples, reset, loss 4 over 1 sample and 1 over 3 samples give 7/4. -/
example : ((MetricAcc.init : MetricAcc ℚ).run [.update [("loss", 1)] 2, .reset, .update [("loss", 4)] 1, .update [("loss", 1)] 3]).bind MetricAcc.metrics
    = some [("loss", 7 / 4)] := by
  simp [MetricAcc.run, MetricAcc.step, MetricAcc.update, MetricAcc.init, MetricAcc.metrics, MetricAcc.reset, updLoop, List.lookup]
  norm_num

end Hyp.Torch
