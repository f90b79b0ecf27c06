import Verif.Queues.OrderedQueue
import Mathlib.Data.List.Range
import Mathlib.Data.List.Basic

/-!
C158: `OrderedQueue` for all schedules.
-/

namespace Hyp.OQ

variable {V : Type}

/-! ### Specification -/

/-- the item that task `t` of the configuration delivers, if any -/
def Cfg.delivers (c : Cfg V) (t : Nat) : Option V :=
  match c.f (c.index t) with
  | .item v => some v
  | _ => none

/-- the task raises -/
def Cfg.raises (c : Cfg V) (t : Nat) : Prop := c.f (c.index t) = .fail

/-- `stop` is not called by anybody else -/
def NoStop (es : List Ev) : Prop := ∀ e ∈ es, e ≠ .signal ∧ e ≠ .clear ∧ e ≠ .close

/-! ### Invariants -/

def pend (s : St V) : List Nat :=
  (match s.cons with | .wait t => [t] | _ => []) ++ s.queue ++ (match s.prod with | .put t => [t] | _ => [])

/-- everything so far is in order and complete -/
def Exact (c : Cfg V) (s : St V) : Prop :=
  ∃ ids : List Nat, s.out = ids.filterMap c.delivers ∧ (∀ t ∈ ids, ¬ c.raises t) ∧ ids ++ pend s = List.range s.k ∧ s.stopped = false ∧ s.closed = false ∧
    s.cons ≠ .done ∧ (∀ t, s.cons ≠ .failed t) ∧ (c.names = true → s.prod ≠ .dead)

/-- the generator was ended by a task that raised -/
def Failed (c : Cfg V) (s : St V) : Prop :=
  ∃ t, s.cons = .failed t ∧ s.out = (List.range t).filterMap c.delivers ∧ (∀ u < t, ¬ c.raises u) ∧ c.raises t ∧ s.stopped = true

theorem exact_start {c : Cfg V} {s : St V} (h : start c = some s) : Exact c s := by
  unfold start at h
  split at h
  · simp only [Option.some.injEq] at h; subst h
    exact ⟨[], rfl, by simp, rfl, rfl, rfl, by simp, by simp, by simp⟩
  · cases h

theorem range_split {ids l : List Nat} {t k : Nat} (h : ids ++ t :: l = List.range k) : ids = List.range t := by
  have hl : ids.length < k := by have := congrArg List.length h; simp at this; omega
  have ht : t = ids.length := by
    have := congrArg (fun l => l[ids.length]?) h
    simp [hl] at this
    omega
  have := congrArg (List.take ids.length) h
  rw [List.take_left, List.take_range] at this
  rw [this, ht, Nat.min_eq_left (by omega)]

theorem exact_step {c : Cfg V} {s : St V} (h : Exact c s ∨ Failed c s) {e : Ev} (he : e ≠ .signal ∧ e ≠ .clear ∧ e ≠ .close) :
    Exact c (step c s e) ∨ Failed c (step c s e) := by
  rcases h with h | h
  · obtain ⟨ids, h1, h2, h3, h4, h5, h6, h7, h8⟩ := h
    unfold pend at h3
    cases e with
    | signal => exact absurd rfl he.1
    | clear => exact absurd rfl he.2.1
    | close => exact absurd rfl he.2.2
    | finish t =>
      left
      unfold step
      dsimp only
      split
      · exact ⟨ids, h1, h2, h3, h4, h5, h6, h7, h8⟩
      · exact ⟨ids, h1, h2, h3, h4, h5, h6, h7, h8⟩
    | produce =>
      left
      show Exact c (produce c s)
      unfold produce
      cases hp : s.prod with
      | dead => exact ⟨ids, h1, h2, h3, h4, h5, h6, h7, h8⟩
      | check =>
        rw [hp] at h3
        dsimp only
        split
        · rename_i hs
          exact ⟨ids, h1, h2, h3, h4, h5, h6, h7, fun hn => by rw [hn] at hs; simp at hs⟩
        · split
          · exact ⟨ids, h1, h2, by unfold pend; rw [hp]; exact h3, h4, h5, h6, h7, h8⟩
          · split
            · rename_i hs; rw [h4] at hs; cases hs
            · split
              · rename_i hs
                exact ⟨ids, h1, h2, h3, h4, h5, h6, h7, fun hn => by rw [hn, h5] at hs; simp at hs⟩
              · refine ⟨ids, h1, h2, ?_, h4, h5, h6, h7, fun _ => by simp⟩
                unfold pend
                dsimp only
                simp only [List.append_nil] at h3
                rw [List.range_succ, ← h3]
                simp only [List.append_assoc]
      | put t =>
        rw [hp] at h3
        dsimp only
        split
        · refine ⟨ids, h1, h2, ?_, h4, h5, h6, h7, fun _ => by simp⟩
          unfold pend
          dsimp only
          rw [← h3]
          simp only [List.append_assoc, List.append_nil]
        · exact ⟨ids, h1, h2, by unfold pend; rw [hp]; exact h3, h4, h5, h6, h7, h8⟩
    | consume =>
      show Exact c (consume c s) ∨ Failed c (consume c s)
      unfold consume
      cases hc : s.cons with
      | done => exact absurd hc h6
      | failed t => exact absurd hc (h7 t)
      | check =>
        left
        rw [hc] at h3
        dsimp only
        rw [h4]
        exact ⟨ids, h1, h2, h3, by simpa using h4, h5, by simp, by simp, h8⟩
      | take =>
        left
        rw [hc] at h3
        dsimp only
        cases hq : s.queue with
        | nil => exact ⟨ids, h1, h2, by unfold pend; rw [hc]; exact h3, h4, h5, h6, h7, h8⟩
        | cons t q =>
          rw [hq] at h3
          exact ⟨ids, h1, h2, h3, h4, h5, by simp, by simp, h8⟩
      | wait t =>
        rw [hc] at h3
        dsimp only at h3 ⊢
        split
        · cases hf : c.f (c.index t) with
          | item v =>
            left
            refine ⟨ids ++ [t], ?_, ?_, ?_, h4, h5, by simp, by simp, h8⟩
            · simp [List.filterMap_append, h1, Cfg.delivers, hf]
            · intro u hu
              rcases List.mem_append.1 hu with hu | hu
              · exact h2 u hu
              · rw [List.mem_singleton.1 hu]; unfold Cfg.raises; rw [hf]; simp
            · unfold pend; dsimp only; rw [← h3]; simp
          | skip =>
            left
            refine ⟨ids ++ [t], ?_, ?_, ?_, h4, h5, by simp, by simp, h8⟩
            · simp [List.filterMap_append, h1, Cfg.delivers, hf]
            · intro u hu
              rcases List.mem_append.1 hu with hu | hu
              · exact h2 u hu
              · rw [List.mem_singleton.1 hu]; unfold Cfg.raises; rw [hf]; simp
            · unfold pend; dsimp only; rw [← h3]; simp
          | fail =>
            right
            have hr : ids = List.range t := range_split (l := s.queue ++ (match s.prod with | .put t => [t] | _ => [])) (k := s.k) (by rw [← h3]; simp)
            refine ⟨t, rfl, by rw [← hr]; exact h1, ?_, hf, rfl⟩
            intro u hu
            exact h2 u (by rw [hr]; simpa using hu)
        · left
          exact ⟨ids, h1, h2, by unfold pend; rw [hc]; exact h3, h4, h5, h6, h7, h8⟩
  · right
    obtain ⟨t, h1, h2, h3, h4, h5⟩ := h
    cases e with
    | signal => exact absurd rfl he.1
    | clear => exact absurd rfl he.2.1
    | close => exact absurd rfl he.2.2
    | finish u =>
      unfold step
      dsimp only
      split
      · exact ⟨t, h1, h2, h3, h4, h5⟩
      · exact ⟨t, h1, h2, h3, h4, h5⟩
    | produce =>
      show Failed c (produce c s)
      unfold produce
      split
      · exact ⟨t, h1, h2, h3, h4, h5⟩
      · repeat' split
        all_goals exact ⟨t, h1, h2, h3, h4, h5⟩
      · split
        all_goals exact ⟨t, h1, h2, h3, h4, h5⟩
    | consume =>
      show Failed c (consume c s)
      unfold consume
      rw [h1]
      exact ⟨t, h1, h2, h3, h4, h5⟩

theorem exact_run {c : Cfg V} {s : St V} (h : Exact c s ∨ Failed c s) {es : List Ev} (he : NoStop es) : Exact c (run c s es) ∨ Failed c (run c s es) := by
  induction es generalizing s with
  | nil => exact h
  | cons e es ih =>
    exact ih (exact_step h (he e List.mem_cons_self)) (fun e' h' => he e' (List.mem_cons_of_mem _ h'))

theorem range_pre {ids l : List Nat} {k : Nat} (h : ids ++ l = List.range k) : ids = List.range ids.length ∧ ids.length ≤ k := by
  have hl : ids.length ≤ k := by have := congrArg List.length h; simp at this; omega
  have := congrArg (List.take ids.length) h
  rw [List.take_left, List.take_range, Nat.min_eq_left hl] at this
  exact ⟨this, hl⟩

/-- **C158** (whether the missing names are defined or not): until `stop` is called the generator delivers the items of the tasks 0, 1, 2, ... in
this order, without gap or repetition, whatever the order in which the workers complete them; a task that raises ends it, after the items before it -/
theorem C158_order (c : Cfg V) (s0 : St V) (h0 : start c = some s0) (es : List Ev) (he : NoStop es) :
    ∃ m, (run c s0 es).out = (List.range m).filterMap c.delivers ∧ (∀ t < m, ¬ c.raises t) ∧
      ∀ t, (run c s0 es).cons = .failed t → t = m ∧ c.raises t := by
  rcases exact_run (.inl (exact_start h0)) he with h | h
  · obtain ⟨ids, h1, h2, h3, h4, h5, h6, h7, -⟩ := h
    refine ⟨ids.length, by rw [← (range_pre h3).1]; exact h1, fun t ht => h2 t ?_, fun t ht => absurd ht (h7 t)⟩
    rw [(range_pre h3).1]; simpa using ht
  · obtain ⟨t, h1, h2, h3, h4, h5⟩ := h
    exact ⟨t, h2, h3, fun u hu => by rw [h1] at hu; cases hu; exact ⟨rfl, h4⟩⟩

/-- **C158**: the tasks of one round are the indices of the sequence, each once, in order or shuffled -/
theorem C158_round (c : Cfg V) (e : Nat) (hs : c.sequential = false → ((List.range c.n).map (c.shuf e)).Perm (List.range c.n)) :
    ((List.range c.n).map (fun i => c.index (e * c.n + i))).Perm (List.range c.n) ∧
    (c.sequential = true → (List.range c.n).map (fun i => c.index (e * c.n + i)) = List.range c.n) := by
  have h1 : ∀ i, i < c.n → (e * c.n + i) % c.n = i := fun i hi => by rw [Nat.mul_comm, Nat.mul_add_mod, Nat.mod_eq_of_lt hi]
  have h2 : ∀ i, i < c.n → (e * c.n + i) / c.n = e := fun i hi => by
    rw [Nat.mul_comm, Nat.mul_add_div (by omega), Nat.div_eq_of_lt hi, Nat.add_zero]
  have hq : c.sequential = true → (List.range c.n).map (fun i => c.index (e * c.n + i)) = List.range c.n := by
    intro hc
    refine (List.map_congr_left fun i hi => ?_).trans (List.map_id _)
    unfold Cfg.index
    rw [if_pos hc, h1 i (by simpa using hi)]; rfl
  refine ⟨?_, hq⟩
  cases hc : c.sequential with
  | true => rw [hq hc]
  | false =>
    refine List.Perm.trans ?_ (hs hc)
    refine List.Perm.of_eq (List.map_congr_left fun i hi => ?_)
    have hi' : i < c.n := by simpa using hi
    unfold Cfg.index
    rw [hc, h1 i hi', h2 i hi']; rfl

theorem queue_step {c : Cfg V} {s : St V} (hc : c.cap ≠ 0) (h : s.queue.length ≤ c.cap) (e : Ev) : (step c s e).queue.length ≤ c.cap := by
  cases e with
  | produce =>
    show (produce c s).queue.length ≤ _
    unfold produce
    split
    · exact h
    · repeat' split
      all_goals exact h
    · split
      · rename_i hl
        rcases hl with hl | hl
        · exact absurd hl hc
        · simp; omega
      · exact h
  | finish t => unfold step; dsimp only; split <;> exact h
  | consume =>
    show (consume c s).queue.length ≤ _
    unfold consume
    split
    · split <;> exact h
    · split
      · exact h
      · rename_i hq; rw [hq] at h; simp at h ⊢; omega
    · split
      · split
        · exact h
        · exact h
        · simp
      · exact h
    · exact h
    · exact h
  | signal => exact h
  | clear => simp [step]
  | close => exact h

/-- **C158**: never more pending results than `max_queue_size`, also when `stop` is called -/
theorem C158_capacity (c : Cfg V) (hc : c.cap ≠ 0) (s0 : St V) (h0 : start c = some s0) (es : List Ev) : (run c s0 es).queue.length ≤ c.cap := by
  have : ∀ (s : St V), s.queue.length ≤ c.cap → (run c s es).queue.length ≤ c.cap := by
    induction es with
    | nil => intro s h; exact h
    | cons e es ih => intro s h; exact ih _ (queue_step hc h e)
  refine this s0 ?_
  unfold start at h0
  split at h0
  · simp only [Option.some.injEq] at h0; subst h0; simp
  · cases h0

/-! ### The code as it is -/

/-- **C158** (defect): with threads, which is the default, `start` raises for every sequence: `ThreadPool` is not defined -/
theorem C158_threads_never_start (c : Cfg V) (hn : c.names = false) (hp : c.procs = false) : start c = none := by
  unfold start; rw [hn, hp]; rfl

/-- **C158** (defect): with processes the submitting thread ends with a NameError before the first task; in every schedule the generator delivers
nothing, and without a call of `stop` it never ends -/
theorem C158_processes_never_deliver (c : Cfg V) (hn : c.names = false) (s0 : St V) (h0 : start c = some s0) (es : List Ev) :
    (run c s0 es).out = [] ∧ (run c s0 es).queue = [] ∧ (.signal ∉ es → (run c s0 es).cons ≠ .done ∧ ∀ t, (run c s0 es).cons ≠ .failed t) := by
  have key : ∀ (es : List Ev) (s : St V), s.out = [] ∧ s.queue = [] ∧ (∀ t, s.prod ≠ .put t) ∧ (∀ t, s.cons ≠ .wait t ∧ s.cons ≠ .failed t) →
      (run c s es).out = [] ∧ (run c s es).queue = [] ∧ (.signal ∉ es → s.stopped = false → s.cons ≠ .done →
        (run c s es).cons ≠ .done ∧ ∀ t, (run c s es).cons ≠ .failed t) := by
    intro es
    induction es with
    | nil => intro s h; exact ⟨h.1, h.2.1, fun _ _ hd => ⟨hd, fun t => (h.2.2.2 t).2⟩⟩
    | cons e es ih =>
      intro s h
      obtain ⟨h1, h2, h3, h4⟩ := h
      have hs : ((step c s e).out = [] ∧ (step c s e).queue = [] ∧ (∀ t, (step c s e).prod ≠ .put t) ∧
          (∀ t, (step c s e).cons ≠ .wait t ∧ (step c s e).cons ≠ .failed t)) ∧
          (e ≠ .signal → s.stopped = false → s.cons ≠ .done → (step c s e).stopped = false ∧ (step c s e).cons ≠ .done) := by
        cases e with
        | produce =>
          have : step c s .produce = produce c s := rfl
          rw [this]
          unfold produce
          cases hp : s.prod with
          | put t => exact absurd hp (h3 t)
          | dead => exact ⟨⟨h1, h2, h3, h4⟩, fun _ a b => ⟨a, b⟩⟩
          | check =>
            dsimp only
            rw [hn]
            repeat' split
            · exact ⟨⟨h1, h2, by simp, h4⟩, fun _ a b => ⟨a, b⟩⟩
            · exact ⟨⟨h1, h2, by rw [hp]; simp, h4⟩, fun _ a b => ⟨a, b⟩⟩
            · exact ⟨⟨h1, h2, by simp, h4⟩, fun _ a b => ⟨a, b⟩⟩
            · exact ⟨⟨h1, h2, by simp, h4⟩, fun _ a b => ⟨a, b⟩⟩
            · rename_i hx; exact absurd (Or.inl rfl) hx
        | finish t =>
          unfold step; dsimp only
          split <;> exact ⟨⟨h1, h2, h3, h4⟩, fun _ a b => ⟨a, b⟩⟩
        | consume =>
          have : step c s .consume = consume c s := rfl
          rw [this]
          unfold consume
          cases hc : s.cons with
          | wait t => exact absurd hc (h4 t).1
          | failed t => exact absurd hc (h4 t).2
          | done => exact ⟨⟨h1, h2, h3, h4⟩, fun _ a b => absurd rfl b⟩
          | check =>
            dsimp only
            split
            · rename_i hst; exact ⟨⟨h1, h2, h3, by simp⟩, fun _ a _ => by rw [a] at hst; cases hst⟩
            · exact ⟨⟨h1, h2, h3, by simp⟩, fun _ a _ => ⟨a, by simp⟩⟩
          | take =>
            dsimp only
            rw [h2]
            exact ⟨⟨h1, h2, h3, h4⟩, fun _ a _ => ⟨a, by rw [hc]; simp⟩⟩
        | signal => exact ⟨⟨h1, h2, h3, h4⟩, fun a => absurd rfl a⟩
        | clear => exact ⟨⟨h1, rfl, h3, h4⟩, fun _ a b => ⟨a, b⟩⟩
        | close => exact ⟨⟨h1, h2, h3, h4⟩, fun _ a b => ⟨a, b⟩⟩
      obtain ⟨r1, r2, r3⟩ := ih _ hs.1
      refine ⟨r1, r2, fun hsig hst hd => ?_⟩
      have he : e ≠ .signal := fun h => hsig (h ▸ List.mem_cons_self)
      exact r3 (fun h => hsig (List.mem_cons_of_mem _ h)) (hs.2 he hst hd).1 (hs.2 he hst hd).2
  unfold start at h0
  split at h0
  · simp only [Option.some.injEq] at h0; subst h0
    have k0 := key es { prod := .check, k := 0, finished := fun _ => false, queue := [], cons := .check, out := [], stopped := false, closed := false }
      ⟨rfl, rfl, by simp, by simp⟩
    exact ⟨k0.1, k0.2.1, fun h => k0.2.2 h rfl (by simp)⟩
  · cases h0

/-! ### No deadlock -/

/-- how many results the generator has used -/
def taken (s : St V) : Nat := s.k - (pend s).length

theorem run_append (c : Cfg V) (s : St V) (a b : List Ev) : run c s (a ++ b) = run c (run c s a) b := by
  unfold run; rw [List.foldl_append]

theorem noStop_append {a b : List Ev} (h1 : NoStop a) (h2 : NoStop b) : NoStop (a ++ b) := fun e he =>
  (List.mem_append.1 he).elim (h1 e) (h2 e)

theorem fill {c : Cfg V} {s : St V} (hn : c.names = true) (h0 : 0 < c.n) (h : Exact c s) (ht : s.cons = .take) :
    ∃ es, NoStop es ∧ (run c s es).cons = .take ∧ (run c s es).queue ≠ [] ∧ taken (run c s es) = taken s ∧ (run c s es).out = s.out := by
  obtain ⟨ids, h1, h2, h3, h4, h5, h6, h7, h8⟩ := h
  by_cases hq : s.queue = []
  · have hput : ∀ (s : St V) (t : Nat), s.cons = .take → s.queue = [] → s.prod = .put t →
        (step c s .produce).cons = .take ∧ (step c s .produce).queue ≠ [] ∧ taken (step c s .produce) = taken s ∧ (step c s .produce).out = s.out := by
      intro s t hc hq hp
      have e : step c s .produce = { s with prod := .check, queue := [t] } := by
        show produce c s = _
        unfold produce
        rw [hp]
        dsimp only
        rw [hq, if_pos (by simp only [List.length_nil]; omega)]; rfl
      rw [e]
      refine ⟨hc, by simp, ?_, rfl⟩
      unfold taken pend
      dsimp only
      rw [hc, hq, hp]; rfl
    cases hp : s.prod with
    | dead => exact absurd hp (h8 hn)
    | put t =>
      have := hput s t ht hq hp
      exact ⟨[.produce], by intro e he; simp at he; subst he; simp, this.1, this.2.1, this.2.2.1, this.2.2.2⟩
    | check =>
      have e : step c s .produce = { s with prod := .put s.k, k := s.k + 1 } := by
        show produce c s = _
        unfold produce
        rw [hp]
        dsimp only
        rw [if_neg (by rw [hn]; simp), if_neg (by omega), if_neg (by rw [h4]; simp), if_neg (by rw [hn, h5]; simp)]
      have := hput (step c s .produce) s.k (by rw [e]; exact ht) (by rw [e]; exact hq) (by rw [e])
      refine ⟨[.produce, .produce], by intro e he; simp at he; subst he; simp, this.1, this.2.1, this.2.2.1.trans ?_, this.2.2.2.trans (by rw [e])⟩
      rw [e]
      unfold taken pend
      dsimp only
      rw [ht, hq, hp]
      simp
  · exact ⟨[], by intro e he; simp at he, ht, hq, rfl, rfl⟩

theorem one {c : Cfg V} {s : St V} (hn : c.names = true) (h0 : 0 < c.n) (h : Exact c s) :
    ∃ es, NoStop es ∧ ((∃ t, (run c s es).cons = .failed t) ∨
      (Exact c (run c s es) ∧ taken (run c s es) = taken s + 1 ∧ (run c s es).out = s.out ++ (c.delivers (taken s)).toList)) := by
  have hex : ∀ es, NoStop es → (∃ t, (run c s es).cons = .failed t) ∨ Exact c (run c s es) := by
    intro es he
    rcases exact_run (.inl h) he with h | h
    · exact .inr h
    · obtain ⟨t, h1, -⟩ := h; exact .inl ⟨t, h1⟩
  -- reach the waiting state
  have hwait : ∃ es, NoStop es ∧ ((∃ t, (run c s es).cons = .failed t) ∨
      (Exact c (run c s es) ∧ (∃ t, (run c s es).cons = .wait t) ∧ taken (run c s es) = taken s ∧ (run c s es).out = s.out)) := by
    have hpop : ∀ s : St V, s.cons = .take → s.queue ≠ [] → (∃ t, (step c s .consume).cons = .wait t) ∧ taken (step c s .consume) = taken s ∧
        (step c s .consume).out = s.out := by
      intro s hc hq
      obtain ⟨t, q, hq⟩ := List.exists_cons_of_ne_nil hq
      have e : step c s .consume = { s with queue := q, cons := .wait t } := by
        show consume c s = _
        unfold consume
        rw [hc, hq]
      rw [e]
      refine ⟨⟨t, rfl⟩, ?_, rfl⟩
      unfold taken pend
      dsimp only
      rw [hc, hq]
      simp
    have htake : ∀ (es : List Ev), NoStop es → Exact c (run c s es) → (run c s es).cons = .take → taken (run c s es) = taken s → (run c s es).out = s.out →
        ∃ es, NoStop es ∧ ((∃ t, (run c s es).cons = .failed t) ∨
          (Exact c (run c s es) ∧ (∃ t, (run c s es).cons = .wait t) ∧ taken (run c s es) = taken s ∧ (run c s es).out = s.out)) := by
      intro es he hx hc htk ho
      obtain ⟨es', he', f1, f2, f3, f4⟩ := fill hn h0 hx hc
      have hno : NoStop (es ++ es' ++ [.consume]) := noStop_append (noStop_append he he') (by intro e he; simp at he; subst he; simp)
      refine ⟨_, hno, ?_⟩
      rcases hex _ hno with hf | hf
      · exact .inl hf
      · right
        have e : run c s (es ++ es' ++ [.consume]) = step c (run c (run c s es) es') .consume := by rw [run_append, run_append]; rfl
        obtain ⟨g1, g2, g3⟩ := hpop _ f1 f2
        rw [e] at hf ⊢
        exact ⟨hf, g1, g2.trans (f3.trans htk), g3.trans (f4.trans ho)⟩
    have hh := h
    obtain ⟨ids, h1, h2, h3, h4, h5, h6, h7, h8⟩ := h
    cases hc : s.cons with
    | done => exact absurd hc h6
    | failed t => exact absurd hc (h7 t)
    | wait t => exact ⟨[], by intro e he; simp at he, .inr ⟨hh, ⟨t, hc⟩, rfl, rfl⟩⟩
    | take => exact htake [] (by intro e he; simp at he) hh hc rfl rfl
    | check =>
      have e : run c s [.consume] = { s with cons := .take } := by
        show consume c s = _
        unfold consume
        rw [hc]
        dsimp only
        rw [h4]; rfl
      have hno : NoStop [.consume] := by intro e he; simp at he; subst he; simp
      have hx : Exact c (run c s [.consume]) := by
        rcases hex _ hno with hf | hf
        · rw [e] at hf; obtain ⟨t, ht⟩ := hf; cases ht
        · exact hf
      refine htake [.consume] hno hx (by rw [e]) ?_ (by rw [e])
      rw [e]
      unfold taken pend
      dsimp only
      rw [hc]
  obtain ⟨es, hno, hw⟩ := hwait
  rcases hw with hw | ⟨hx, ⟨t, ht⟩, htk, ho⟩
  · exact ⟨es, hno, .inl hw⟩
  · have hno2 : NoStop (es ++ [.finish t, .consume]) := noStop_append hno (by intro e he; simp at he; rcases he with rfl | rfl <;> simp)
    refine ⟨_, hno2, ?_⟩
    rcases hex _ hno2 with hf | hf
    · exact .inl hf
    right
    have e : run c s (es ++ [.finish t, .consume]) = step c (step c (run c s es) (.finish t)) .consume := by rw [run_append]; rfl
    rw [e] at hf ⊢
    generalize run c s es = r at *
    obtain ⟨ids, h1, h2, h3, h4, h5, h6, h7, h8⟩ := hx
    have h3' := h3
    unfold pend at h3'
    rw [ht] at h3'
    simp only [List.singleton_append, List.cons_append] at h3'
    have hid := range_split h3'
    have hk : t < r.k := by
      have := congrArg List.length h3'
      rw [hid] at this
      simp at this; omega
    have hidl : ids.length = t := by rw [hid]; simp
    have htt : taken r = t := by
      have := congrArg List.length h3
      unfold taken
      simp at this; omega
    have e2 : step c r (.finish t) = { r with finished := Function.update r.finished t true } := by
      unfold step; dsimp only; rw [if_pos hk]
    have e3 : step c (step c r (.finish t)) .consume = (match c.f (c.index t) with
      | .item v => { step c r (.finish t) with cons := .check, out := r.out ++ [v] }
      | .skip => { step c r (.finish t) with cons := .check }
      | .fail => { step c r (.finish t) with cons := .failed t, stopped := true, queue := [], closed := true }) := by
      rw [e2]
      show consume c _ = _
      unfold consume
      dsimp only
      rw [ht]
      dsimp only
      refine (if_pos (by simp)).trans rfl
    have hlen : (pend r).length ≤ r.k := by
      have := congrArg List.length h3
      simp at this; omega
    have hpl : 1 ≤ (pend r).length := by unfold pend; rw [ht]; simp
    have htk' : ∀ o : List V, taken ({ step c r (.finish t) with cons := .check, out := o } : St V) = taken r + 1 := by
      intro o
      rw [e2]
      unfold taken pend at *
      dsimp only at *
      rw [ht] at *
      simp only [List.singleton_append, List.cons_append, List.length_cons, List.nil_append] at *
      omega
    cases hf' : c.f (c.index t) with
    | item v =>
      rw [e3, hf'] at hf ⊢
      refine ⟨hf, (htk' _).trans (by rw [htk]), ?_⟩
      dsimp only
      rw [ho, ← htk, htt]
      unfold Cfg.delivers
      rw [hf']; rfl
    | skip =>
      rw [e3, hf'] at hf ⊢
      refine ⟨hf, (htk' (step c r (.finish t)).out).trans (by rw [htk]), ?_⟩
      dsimp only
      rw [e2]
      dsimp only
      rw [ho, ← htk, htt]
      unfold Cfg.delivers
      rw [hf']; simp
    | fail =>
      rw [e3, hf'] at hf
      obtain ⟨_, _, _, _, hst, _⟩ := hf
      cases hst

/-- **C158** (with the missing names defined): no deadlock. As long as nobody calls `stop` and no task has raised, whatever has happened so far
there is a continuation in which the next item is delivered (or a task raises), provided that items remain to come -/
theorem C158_no_deadlock_partial (c : Cfg V) (hn : c.names = true) (h0 : 0 < c.n) (s0 : St V) (hs : start c = some s0) (es : List Ev) (he : NoStop es)
    (hmore : ∀ m, ∃ t, m ≤ t ∧ c.f (c.index t) ≠ .skip) (hnf : ∀ t, (run c s0 es).cons ≠ .failed t) :
    ∃ es', NoStop es' ∧ ((∃ t, (run c s0 (es ++ es')).cons = .failed t) ∨
      ∃ v, (run c s0 (es ++ es')).out = (run c s0 es).out ++ [v]) := by
  have hx : Exact c (run c s0 es) := by
    rcases exact_run (.inl (exact_start hs)) he with h | h
    · exact h
    · obtain ⟨t, h1, -⟩ := h; exact absurd h1 (hnf t)
  have key : ∀ (d : Nat) (s : St V), Exact c s → (∃ t, taken s ≤ t ∧ t < taken s + d ∧ c.f (c.index t) ≠ .skip) →
      ∃ es', NoStop es' ∧ ((∃ t, (run c s es').cons = .failed t) ∨ ∃ v, (run c s es').out = s.out ++ [v]) := by
    intro d
    induction d with
    | zero => rintro s _ ⟨t, a, b, -⟩; omega
    | succ d ih =>
      rintro s hx ⟨t, h1, h2, h3⟩
      obtain ⟨e1, n1, hr⟩ := one hn h0 hx
      rcases hr with hr | ⟨hx', htk, ho⟩
      · exact ⟨e1, n1, .inl hr⟩
      · cases hd : c.delivers (taken s) with
        | some v => exact ⟨e1, n1, .inr ⟨v, by rw [ho, hd]; rfl⟩⟩
        | none =>
          have hsk : c.f (c.index (taken s)) ≠ .skip → ∃ es', NoStop es' ∧ ((∃ t, (run c s es').cons = .failed t) ∨ ∃ v, (run c s es').out = s.out ++ [v]) := by
            intro hne
            exfalso
            obtain ⟨ids, g1, g2, g3, -⟩ := hx'
            have hl : ids.length = taken s + 1 := by
              rw [← htk]
              have := congrArg List.length g3
              unfold taken
              simp at this; omega
            refine g2 (taken s) (by rw [(range_pre g3).1]; simp; omega) ?_
            unfold Cfg.delivers at hd
            unfold Cfg.raises
            cases hf : c.f (c.index (taken s)) with
            | item v => rw [hf] at hd; cases hd
            | skip => exact absurd hf hne
            | fail => rfl
          by_cases htt : t = taken s
          · subst htt; exact hsk h3
          · obtain ⟨e2, n2, hr2⟩ := ih (run c s e1) hx' ⟨t, by omega, by omega, h3⟩
            refine ⟨e1 ++ e2, noStop_append n1 n2, ?_⟩
            rw [run_append]
            rcases hr2 with hr2 | ⟨v, hv⟩
            · exact .inl hr2
            · refine .inr ⟨v, ?_⟩
              rw [hv, ho, hd]; simp
  obtain ⟨t, h1, h2⟩ := hmore (taken (run c s0 es))
  obtain ⟨es', n', hr⟩ := key (t - taken (run c s0 es) + 1) _ hx ⟨t, h1, by omega, h2⟩
  refine ⟨es', n', ?_⟩
  rw [run_append]
  exact hr

/-! ### With calls of `stop` anywhere -/

/-- what came out are results of submitted tasks in the order of submission -/
def Sub (c : Cfg V) (s : St V) : Prop :=
  ∃ ids : List Nat, s.out = ids.filterMap c.delivers ∧ (ids ++ pend s).Sublist (List.range s.k)

theorem sub_step {c : Cfg V} {s : St V} (h : Sub c s) (e : Ev) : Sub c (step c s e) := by
  obtain ⟨ids, h1, h2⟩ := h
  unfold pend at h2
  have keep : ∀ {l : List Nat} {k : Nat}, l.Sublist (List.range k) → (l ++ [k]).Sublist (List.range (k + 1)) := by
    intro l k hl
    rw [List.range_succ]
    exact hl.append (List.Sublist.refl _)
  cases e with
  | signal => exact ⟨ids, h1, h2⟩
  | close => exact ⟨ids, h1, h2⟩
  | clear =>
    refine ⟨ids, h1, List.Sublist.trans ?_ h2⟩
    unfold pend step
    dsimp only
    refine (List.Sublist.refl ids).append ?_
    refine List.Sublist.append (List.Sublist.append (List.Sublist.refl _) (List.nil_sublist _)) (List.Sublist.refl _)
  | finish t =>
    unfold step
    dsimp only
    split
    · exact ⟨ids, h1, h2⟩
    · exact ⟨ids, h1, h2⟩
  | produce =>
    show Sub c (produce c s)
    unfold produce
    cases hp : s.prod with
    | dead => exact ⟨ids, h1, h2⟩
    | check =>
      rw [hp] at h2
      dsimp only
      split
      · exact ⟨ids, h1, h2⟩
      · split
        · exact ⟨ids, h1, by unfold pend; rw [hp]; exact h2⟩
        · split
          · exact ⟨ids, h1, h2⟩
          · split
            · exact ⟨ids, h1, h2⟩
            · refine ⟨ids, h1, ?_⟩
              have := keep h2
              unfold pend
              dsimp only
              simpa [List.append_assoc] using this
    | put t =>
      rw [hp] at h2
      dsimp only
      split
      · refine ⟨ids, h1, ?_⟩
        unfold pend
        dsimp only
        simpa [List.append_assoc] using h2
      · exact ⟨ids, h1, by unfold pend; rw [hp]; exact h2⟩
  | consume =>
    show Sub c (consume c s)
    unfold consume
    cases hc : s.cons with
    | done => exact ⟨ids, h1, by unfold pend; rw [hc]; rw [hc] at h2; exact h2⟩
    | failed t => exact ⟨ids, h1, by unfold pend; rw [hc]; rw [hc] at h2; exact h2⟩
    | check =>
      rw [hc] at h2
      dsimp only
      split
      · exact ⟨ids, h1, h2⟩
      · exact ⟨ids, h1, h2⟩
    | take =>
      rw [hc] at h2
      dsimp only
      cases hq : s.queue with
      | nil => exact ⟨ids, h1, by unfold pend; rw [hc]; exact h2⟩
      | cons t q =>
        rw [hq] at h2
        exact ⟨ids, h1, h2⟩
    | wait t =>
      rw [hc] at h2
      dsimp only at h2 ⊢
      split
      · cases hf : c.f (c.index t) with
        | item v =>
          refine ⟨ids ++ [t], ?_, ?_⟩
          · simp [List.filterMap_append, h1, Cfg.delivers, hf]
          · unfold pend
            dsimp only
            simpa [List.append_assoc] using h2
        | skip =>
          refine ⟨ids ++ [t], ?_, ?_⟩
          · simp [List.filterMap_append, h1, Cfg.delivers, hf]
          · unfold pend
            dsimp only
            simpa [List.append_assoc] using h2
        | fail =>
          refine ⟨ids, h1, List.Sublist.trans ?_ h2⟩
          unfold pend
          dsimp only
          refine (List.Sublist.refl ids).append ?_
          refine List.Sublist.append (List.Sublist.append (List.nil_sublist _) (List.nil_sublist _)) (List.Sublist.refl _)
      · exact ⟨ids, h1, by unfold pend; rw [hc]; exact h2⟩

/-- C158: whatever happens, `stop` called at any point included, what the generator has delivered are items of submitted tasks, each at most once
and in the order of submission -/
theorem C158_subsequence (c : Cfg V) (s0 : St V) (h0 : start c = some s0) (es : List Ev) :
    ∃ ids : List Nat, ids.Pairwise (· < ·) ∧ (∀ t ∈ ids, t < (run c s0 es).k) ∧ (run c s0 es).out = ids.filterMap c.delivers := by
  have key : ∀ (es : List Ev) (s : St V), Sub c s → Sub c (run c s es) := by
    intro es
    induction es with
    | nil => exact fun s h => h
    | cons e es ih => exact fun s h => ih _ (sub_step h e)
  have h0' : Sub c s0 := by
    obtain ⟨ids, g1, -, g3, -⟩ := exact_start h0
    exact ⟨ids, g1, by rw [g3]⟩
  obtain ⟨ids, h1, h2⟩ := key es s0 h0'
  have h3 : ids.Sublist (List.range (run c s0 es).k) := (List.sublist_append_left _ _).trans h2
  refine ⟨ids, List.Pairwise.sublist h3 List.pairwise_lt_range, ?_, h1⟩
  exact fun t ht => List.mem_range.1 (h3.subset ht)

theorem dead_run (c : Cfg V) (s : St V) (h : s.prod = .dead) (es : List Ev) : (run c s es).prod = .dead ∧ (run c s es).k = s.k := by
  induction es generalizing s with
  | nil => exact ⟨h, rfl⟩
  | cons e es ih =>
    have hs : (step c s e).prod = .dead ∧ (step c s e).k = s.k := by
      cases e with
      | signal => exact ⟨h, rfl⟩
      | clear => exact ⟨h, rfl⟩
      | close => exact ⟨h, rfl⟩
      | finish t => unfold step; dsimp only; split <;> exact ⟨h, rfl⟩
      | produce => show (produce c s).prod = _ ∧ (produce c s).k = _; unfold produce; rw [h]; exact ⟨h, rfl⟩
      | consume =>
        show (consume c s).prod = _ ∧ (consume c s).k = _
        unfold consume
        split
        · split <;> exact ⟨h, rfl⟩
        · split <;> exact ⟨h, rfl⟩
        · split
          · split <;> exact ⟨h, rfl⟩
          · exact ⟨h, rfl⟩
        · exact ⟨h, rfl⟩
        · exact ⟨h, rfl⟩
    have := ih _ hs.1
    exact ⟨this.1, this.2.trans hs.2⟩

/-- C158: for a sequence with items `stop` ends the submitting thread: once the signal is set and the queue was cleared, two steps of the
thread are enough, wherever it was, and it submits nothing more and stays ended -/
theorem C158_stop_ends_producer (c : Cfg V) (hn : 0 < c.n) (s0 : St V) (h0 : start c = some s0) (es es' : List Ev) :
    (run c s0 (es ++ [.signal, .clear, .produce, .produce] ++ es')).prod = .dead ∧
      (run c s0 (es ++ [.signal, .clear, .produce, .produce] ++ es')).k = (run c s0 es).k := by
  have hd : ∀ s : St V, (run c s [.signal, .clear, .produce, .produce]).prod = .dead ∧ (run c s [.signal, .clear, .produce, .produce]).k = s.k := by
    intro s
    have hcap : c.cap = 0 ∨ 0 < c.cap := by omega
    have hn0 : c.n ≠ 0 := by omega
    have hb : ∀ r : St V, r.prod = .check → r.stopped = true → (produce c r).prod = .dead ∧ (produce c r).k = r.k := by
      intro r hr hs
      unfold produce
      rw [hr]
      dsimp only
      rw [if_neg hn0, if_pos hs]
      split
      · exact ⟨rfl, rfl⟩
      · exact ⟨rfl, rfl⟩
    have hdd : ∀ r : St V, r.prod = .dead → produce c r = r := by
      intro r hr; unfold produce; rw [hr]
    have main : ∀ r : St V, r.stopped = true → r.queue = [] → (produce c (produce c r)).prod = .dead ∧ (produce c (produce c r)).k = r.k := by
      intro r hs hq
      cases hp : r.prod with
      | dead => rw [hdd r hp, hdd r hp]; exact ⟨hp, rfl⟩
      | check => rw [hdd _ (hb r hp hs).1]; exact hb r hp hs
      | put t =>
        have e1 : produce c r = { r with prod := .check, queue := r.queue ++ [t] } := by
          unfold produce
          rw [hp]
          dsimp only
          refine (if_pos ?_).trans rfl
          rw [hq]; exact hcap
        rw [e1]
        exact hb _ rfl hs
    exact main { s with stopped := true, queue := [] } rfl rfl
  rw [run_append, run_append]
  have h1 := hd (run c s0 es)
  have h2 := dead_run c _ h1.1 es'
  exact ⟨h2.1, h2.2.trans h1.2⟩

/-- C158 (defect): over an empty sequence the submitting thread never looks at the stop signal: it is still running after any history, so the
`join` of `stop()` does not return -/
theorem C158_empty_sequence (c : Cfg V) (hn : c.n = 0) (hs : c.sequential = true ∨ c.names = true) (s0 : St V) (h0 : start c = some s0) (es : List Ev) :
    (run c s0 es).prod ≠ .dead ∧ (run c s0 es).k = 0 := by
  have key : ∀ (es : List Ev) (s : St V), s.prod = .check ∧ s.k = 0 → (run c s es).prod = .check ∧ (run c s es).k = 0 := by
    intro es
    induction es with
    | nil => exact fun s h => h
    | cons e es ih =>
      intro s h
      refine ih _ ?_
      cases e with
      | signal => exact h
      | clear => exact h
      | close => exact h
      | finish t => unfold step; dsimp only; split <;> exact h
      | produce =>
        have e1 : produce c s = s := by
          unfold produce
          rw [h.1]
          dsimp only
          rw [if_neg (by rintro ⟨a, b⟩; rw [a, b] at hs; simp at hs), if_pos hn]
        show (produce c s).prod = _ ∧ (produce c s).k = _
        rw [e1]; exact h
      | consume =>
        show (consume c s).prod = _ ∧ (consume c s).k = _
        unfold consume
        split
        · split <;> exact h
        · split <;> exact h
        · split
          · split <;> exact h
          · exact h
        · exact h
        · exact h
  have hs0 : s0.prod = .check ∧ s0.k = 0 := by
    unfold start at h0
    split at h0
    · cases h0; exact ⟨rfl, rfl⟩
    · cases h0
  have := key es s0 hs0
  exact ⟨by rw [this.1]; simp, this.2⟩

/-- C158 (defect): a consumer that is waiting for a task when `stop` comes waits forever: the queue looks at the signal only before it
begins to wait -/
theorem C158_stop_leaves_consumer_blocked (c : Cfg V) (hn : 0 < c.n) (s0 : St V) (h0 : start c = some s0) (es : List Ev) :
    (run c s0 ([.consume, .signal, .clear, .produce, .close] ++ es)).cons = .take := by
  have hs0 : s0.prod = .check ∧ s0.queue = [] ∧ s0.cons = .check ∧ s0.stopped = false := by
    unfold start at h0
    split at h0
    · cases h0; exact ⟨rfl, rfl, rfl, rfl⟩
    · cases h0
  obtain ⟨a1, a2, a3, a4⟩ := hs0
  have hn0 : c.n ≠ 0 := by omega
  have h1 : (run c s0 [.consume, .signal, .clear, .produce, .close]).prod = .dead ∧ (run c s0 [.consume, .signal, .clear, .produce, .close]).queue = [] ∧
      (run c s0 [.consume, .signal, .clear, .produce, .close]).cons = .take := by
    have e1 : step c s0 .consume = { s0 with cons := .take } := by
      show consume c s0 = _
      unfold consume
      rw [a3]
      dsimp only
      rw [a4]
      rfl
    show (step c (produce c (step c (step c (step c s0 .consume) .signal) .clear)) .close).prod = _ ∧ _ ∧ _
    have e2 : step c (produce c (step c (step c (step c s0 .consume) .signal) .clear)) .close =
        { s0 with cons := .take, stopped := true, queue := [], prod := .dead, closed := true } := by
      rw [e1]
      unfold produce step
      dsimp only
      rw [a1]
      dsimp only
      rw [if_neg hn0]
      split
      · rfl
      · rfl
    refine ⟨by rw [e2], ?_, ?_⟩
    · show (step c (produce c (step c (step c (step c s0 .consume) .signal) .clear)) .close).queue = _
      rw [e2]
    · show (step c (produce c (step c (step c (step c s0 .consume) .signal) .clear)) .close).cons = _
      rw [e2]
  rw [run_append]
  generalize run c s0 [.consume, .signal, .clear, .produce, .close] = s at h1
  induction es generalizing s with
  | nil => exact h1.2.2
  | cons e es ih =>
    refine ih (step c s e) ?_
    cases e with
    | signal => exact h1
    | clear => exact ⟨h1.1, rfl, h1.2.2⟩
    | close => exact h1
    | finish t => unfold step; dsimp only; split <;> exact h1
    | produce =>
      have e1 : produce c s = s := by unfold produce; rw [h1.1]
      show (produce c s).prod = _ ∧ (produce c s).queue = _ ∧ (produce c s).cons = _
      rw [e1]; exact h1
    | consume =>
      have e1 : consume c s = s := by unfold consume; rw [h1.2.2]; dsimp only; rw [h1.2.1]
      show (consume c s).prod = _ ∧ (consume c s).queue = _ ∧ (consume c s).cons = _
      rw [e1]; exact h1

/-! ### Non-vacuity: three indices, workers that finish out of order; the second index gives `None`, the third raises in another configuration -/

private def exC (last : Res Nat) : Cfg Nat :=
  { n := 3, f := fun i => if i = 0 then .item 10 else if i = 1 then .skip else last, cap := 2, names := true, procs := false, sequential := true, shuf := fun _ i => i }

private def exEs : List Ev :=
  [.produce, .produce, .produce, .produce, .produce, .finish 1, .finish 2, .consume, .consume, .finish 0, .consume, .produce, .consume, .consume, .consume,
    .consume, .consume, .consume]

example : NoStop exEs := by unfold NoStop; decide
example : ((start (exC (.item 12))).map fun s => (run (exC (.item 12)) s exEs).out) = some [10, 12] := by decide
example : ((start (exC .fail)).map fun s => ((run (exC .fail) s exEs).out, (run (exC .fail) s exEs).cons)) = some ([10], .failed 2) := by decide
example : ∀ t, ∃ u ≥ t, (exC (.item 12)).f ((exC (.item 12)).index u) ≠ .skip := fun t => ⟨3 * t, by omega, by
  show (exC (.item 12)).f (if true then 3 * t % 3 else _) ≠ _
  simp [exC]⟩

end Hyp.OQ
