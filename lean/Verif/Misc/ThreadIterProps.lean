import Verif.Misc.ThreadIter

/-!
C149: threads share an iterator through `ThreadSafeIter`.
-/

namespace Hyp.Misc

variable {σ ε α : Type}

/-- Specification: results of `n` calls, one after the other. -/
def alone (nxt : σ → Except ε α × σ) : σ → Nat → List (Except ε α)
  | _, 0 => []
  | s, n + 1 => (nxt s).1 :: alone nxt (nxt s).2 n

/-- Specification: state after `n` calls, one after the other. -/
def after (nxt : σ → Except ε α × σ) : σ → Nat → σ
  | s, 0 => s
  | s, n + 1 => after nxt (nxt s).2 n

theorem alone_succ (nxt : σ → Except ε α × σ) : ∀ (n : Nat) (s : σ), alone nxt s (n + 1) = alone nxt s n ++ [(nxt (after nxt s n)).1]
  | 0, s => rfl
  | n + 1, s => by
    show (nxt s).1 :: alone nxt (nxt s).2 (n + 1) = _
    rw [alone_succ nxt n]; rfl

theorem after_succ (nxt : σ → Except ε α × σ) : ∀ (n : Nat) (s : σ), after nxt s (n + 1) = (nxt (after nxt s n)).2
  | 0, s => rfl
  | n + 1, s => by
    show after nxt (nxt s).2 (n + 1) = _
    rw [after_succ nxt n]; rfl

/-- results of the `next(it)` calls, in order of completion -/
def results (out : List (Done ε α)) : List (Except ε α) := (out.filter (fun d => decide (d.call = .dunder))).map Done.result

/-- invariant -/
structure Inv (nxt : σ → Except ε α × σ) (attr : ε) (s0 : σ) (w : World σ ε α) : Prop where
  seq : results w.out = alone nxt s0 (results w.out).length
  st : w.st = after nxt s0 (results w.out).length
  leg : ∀ d ∈ w.out, d.call = .legacy → d.result = .error attr
  owner : ∀ t, (∃ c, w.pc t = .hold c) ∨ (∃ s, w.pc t = .inside s) → w.lock = some t
  held : ∀ t, w.lock = some t → (∃ c, w.pc t = .hold c) ∨ (∃ s, w.pc t = .inside s)
  snap : ∀ t s, w.pc t = .inside s → s = w.st

theorem inv_step (nxt : σ → Except ε α × σ) (attr : ε) (s0 : σ) (w : World σ ε α) (h : Inv nxt attr s0 w) (e : Ev) :
    Inv nxt attr s0 (step true nxt attr w e) := by
  have others : ∀ t, w.lock = some t → ∀ u, u ≠ t → (∀ c, w.pc u ≠ .hold c) ∧ ∀ s, w.pc u ≠ .inside s := by
    intro t ht u hu
    constructor
    · intro c hc
      have := h.owner u (Or.inl ⟨c, hc⟩)
      rw [ht] at this; exact hu (Option.some.inj this).symm
    · intro s hc
      have := h.owner u (Or.inr ⟨s, hc⟩)
      rw [ht] at this; exact hu (Option.some.inj this).symm
  have free : w.lock = none → ∀ u, (∀ c, w.pc u ≠ .hold c) ∧ ∀ s, w.pc u ≠ .inside s := by
    intro ht u
    constructor
    · intro c hc
      have := h.owner u (Or.inl ⟨c, hc⟩)
      rw [ht] at this; cases this
    · intro s hc
      have := h.owner u (Or.inr ⟨s, hc⟩)
      rw [ht] at this; cases this
  cases e with
  | call t c =>
    simp only [step]
    cases hp : w.pc t with
    | want _ => exact h
    | hold _ => exact h
    | inside _ => exact h
    | idle =>
      refine ⟨h.seq, h.st, h.leg, ?_, ?_, ?_⟩
      · intro u hu
        by_cases hut : u = t
        · subst hut; simp at hu
        · simp only [Function.update_of_ne hut] at hu; exact h.owner u hu
      · intro u hu
        by_cases hut : u = t
        · subst hut
          have := h.held u hu
          rw [hp] at this; simp at this
        · simp only [Function.update_of_ne hut]; exact h.held u hu
      · intro u s hu
        by_cases hut : u = t
        · subst hut; simp at hu
        · simp only [Function.update_of_ne hut] at hu; exact h.snap u s hu
  | run t =>
    simp only [step]
    cases hp : w.pc t with
    | idle => exact h
    | want c =>
      dsimp only
      by_cases hl : w.lock = none
      · rw [if_pos (Or.inl hl)]
        refine ⟨h.seq, h.st, h.leg, ?_, ?_, ?_⟩
        · intro u hu
          by_cases hut : u = t
          · subst hut; rfl
          · simp only [Function.update_of_ne hut] at hu
            rcases hu with ⟨c, hc⟩ | ⟨s, hs⟩
            · exact absurd hc ((free hl u).1 c)
            · exact absurd hs ((free hl u).2 s)
        · intro u hu
          obtain rfl := Option.some.inj hu
          left; exact ⟨c, by simp⟩
        · intro u s hu
          by_cases hut : u = t
          · subst hut; simp at hu
          · simp only [Function.update_of_ne hut] at hu; exact h.snap u s hu
      · rw [if_neg (by simp [hl])]; exact h
    | hold c =>
      have hlk : w.lock = some t := h.owner t (Or.inl ⟨c, hp⟩)
      cases c with
      | legacy =>
        dsimp only
        have hr : results (w.out ++ [(⟨t, .legacy, .error attr⟩ : Done ε α)]) = results w.out := by
          simp [results]
        refine ⟨by rw [hr]; exact h.seq, by rw [hr]; exact h.st, ?_, ?_, ?_, ?_⟩
        · intro d hd hc
          rcases List.mem_append.1 hd with hd | hd
          · exact h.leg d hd hc
          · rw [List.mem_singleton] at hd; subst hd; rfl
        · intro u hu
          by_cases hut : u = t
          · subst hut; simp at hu
          · simp only [Function.update_of_ne hut] at hu
            rcases hu with ⟨c, hc⟩ | ⟨s, hs⟩
            · exact absurd hc ((others t hlk u hut).1 c)
            · exact absurd hs ((others t hlk u hut).2 s)
        · intro u hu; cases hu
        · intro u s hu
          by_cases hut : u = t
          · subst hut; simp at hu
          · simp only [Function.update_of_ne hut] at hu; exact h.snap u s hu
      | dunder =>
        dsimp only
        refine ⟨h.seq, h.st, h.leg, ?_, ?_, ?_⟩
        · intro u hu
          by_cases hut : u = t
          · subst hut; exact hlk
          · simp only [Function.update_of_ne hut] at hu; exact h.owner u hu
        · intro u hu
          by_cases hut : u = t
          · subst hut; right; exact ⟨w.st, by simp⟩
          · simp only [Function.update_of_ne hut]; exact h.held u hu
        · intro u s hu
          by_cases hut : u = t
          · subst hut; simp at hu; exact hu.symm
          · simp only [Function.update_of_ne hut] at hu; exact h.snap u s hu
    | inside s =>
      have hlk : w.lock = some t := h.owner t (Or.inr ⟨s, hp⟩)
      have hs := h.snap t s hp
      dsimp only
      have hr : results (w.out ++ [(⟨t, .dunder, (nxt s).1⟩ : Done ε α)]) = results w.out ++ [(nxt s).1] := by
        simp [results]
      have hs' : s = after nxt s0 (results w.out).length := hs.trans h.st
      refine ⟨?_, ?_, ?_, ?_, ?_, ?_⟩
      · show results (w.out ++ [(⟨t, .dunder, (nxt s).1⟩ : Done ε α)]) = _
        rw [hr, List.length_append, List.length_singleton, alone_succ, ← h.seq, ← hs']
      · show (nxt s).2 = after nxt s0 (results (w.out ++ [(⟨t, .dunder, (nxt s).1⟩ : Done ε α)])).length
        rw [hr, List.length_append, List.length_singleton, after_succ, ← hs']
      · intro d hd hc
        rcases List.mem_append.1 hd with hd | hd
        · exact h.leg d hd hc
        · rw [List.mem_singleton] at hd; subst hd; cases hc
      · intro u hu
        by_cases hut : u = t
        · subst hut; simp at hu
        · simp only [Function.update_of_ne hut] at hu
          rcases hu with ⟨c, hc⟩ | ⟨s, hs⟩
          · exact absurd hc ((others t hlk u hut).1 c)
          · exact absurd hs ((others t hlk u hut).2 s)
      · intro u hu; cases hu
      · intro u s' hu
        by_cases hut : u = t
        · subst hut; simp at hu
        · simp only [Function.update_of_ne hut] at hu
          exact absurd hu ((others t hlk u hut).2 s')

theorem inv_run (nxt : σ → Except ε α × σ) (attr : ε) (s0 : σ) (es : List Ev) : Inv nxt attr s0 (runEvs true nxt attr s0 es) := by
  unfold runEvs
  have h0 : Inv nxt attr s0 (start s0 : World σ ε α) := by
    refine ⟨rfl, rfl, ?_, ?_, ?_, ?_⟩
    · intro d hd; cases hd
    · intro t ht; simp [start] at ht
    · intro t ht; cases ht
    · intro t s hs; cases hs
  generalize (start s0 : World σ ε α) = w at h0 ⊢
  induction es generalizing w with
  | nil => exact h0
  | cons e es ih => exact ih _ (inv_step nxt attr s0 w h0 e)

/-- **C149 (one after the other).** For every iterator, any number of threads and every schedule: the results of all `next(it)`
calls, in order of completion, are those of the same number of calls by a single thread — no item is lost, delivered twice or
reordered, exceptions occur where they would occur alone. `it.next()` always raises and takes nothing. -/
theorem C149_serial (nxt : σ → Except ε α × σ) (attr : ε) (s0 : σ) (es : List Ev) :
    let out := (runEvs true nxt attr s0 es).out
    ((out.filter (fun d => decide (d.call = .dunder))).map Done.result = alone nxt s0 (out.filter (fun d => decide (d.call = .dunder))).length) ∧
    ∀ d ∈ out, d.call = .legacy → d.result = .error attr := by
  have h := inv_run nxt attr s0 es
  refine ⟨?_, h.leg⟩
  have := h.seq
  unfold results at this
  rw [List.length_map] at this
  exact this

/-- an iterator over a list: `StopIteration` (`stop`) at the end, again and again -/
def listNext (stop : ε) : List α → Except ε α × List α
  | [] => (.error stop, [])
  | a :: l => (.ok a, l)

theorem alone_list (stop : ε) : ∀ (n : Nat) (l : List α),
    alone (listNext stop) l n = (l.take n).map Except.ok ++ List.replicate (n - l.length) (.error stop)
  | 0, l => by simp [alone]
  | n + 1, [] => by
    show (Except.error stop) :: alone (listNext stop) [] n = _
    rw [alone_list stop n]
    simp [List.replicate_succ]
  | n + 1, a :: l => by
    show (Except.ok a) :: alone (listNext stop) l n = _
    rw [alone_list stop n]
    simp

/-- **C149 (exactly once).** Threads that share an iterator over a list: all items together, in order of completion, are the first
items of the list, each once, and then `StopIteration` for all further calls; every thread gets its items in the order of the
list. -/
theorem C149_exactly_once (stop attr : ε) (l : List α) (es : List Ev) :
    let out := (runEvs true (listNext stop) attr l es).out
    let n := (out.filter (fun d => decide (d.call = .dunder))).length
    (out.filter (fun d => decide (d.call = .dunder))).map Done.result = (l.take n).map Except.ok ++ List.replicate (n - l.length) (.error stop) ∧
    ∀ t, ((out.filter (fun d => decide (d.call = .dunder ∧ d.thread = t))).map Done.result).Sublist
      ((l.take n).map Except.ok ++ List.replicate (n - l.length) (.error stop)) := by
  intro out n
  have h := (C149_serial (listNext stop) attr l es).1
  rw [alone_list] at h
  refine ⟨h, fun t => ?_⟩
  rw [← h]
  refine List.Sublist.map _ ?_
  have : out.filter (fun d => decide (d.call = .dunder ∧ d.thread = t)) = (out.filter (fun d => decide (d.call = .dunder))).filter (fun d => decide (d.thread = t)) := by
    rw [List.filter_filter]
    refine List.filter_congr (fun d _ => ?_)
    rw [Bool.decide_and, Bool.and_comm]
  rw [this]
  exact List.filter_sublist

theorem finish (nxt : σ → Except ε α × σ) (attr : ε) (w : World σ ε α) (t : Nat) (h : (∃ c, w.pc t = .hold c) ∨ ∃ s, w.pc t = .inside s) :
    ∃ n : Nat, let w' := (List.replicate n (Ev.run t)).foldl (step true nxt attr) w
      w'.pc = Function.update w.pc t .idle ∧ w'.lock = none ∧ w'.out.length = w.out.length + 1 ∧ ∃ d, w'.out = w.out ++ [d] ∧ d.thread = t := by
  have hin : ∀ (w : World σ ε α) s, w.pc t = .inside s →
      (step true nxt attr w (.run t)).pc = Function.update w.pc t .idle ∧ (step true nxt attr w (.run t)).lock = none ∧
      ∃ d, (step true nxt attr w (.run t)).out = w.out ++ [d] ∧ d.thread = t := by
    intro w s hp
    simp only [step, hp]
    exact ⟨trivial, trivial, _, rfl, rfl⟩
  rcases h with ⟨c, hp⟩ | ⟨s, hp⟩
  · cases c with
    | legacy =>
      refine ⟨1, ?_⟩
      simp only [List.replicate, List.foldl, step, hp]
      exact ⟨trivial, trivial, by simp, _, rfl, rfl⟩
    | dunder =>
      refine ⟨2, ?_⟩
      simp only [List.replicate, List.foldl]
      have e1 : step true nxt attr w (.run t) = { w with pc := Function.update w.pc t (.inside w.st) } := by
        simp only [step, hp]
      obtain ⟨h1, h2, d, h3, h4⟩ := hin (step true nxt attr w (.run t)) w.st (by rw [e1]; simp)
      rw [h1, h2, h3, e1]
      exact ⟨by simp, rfl, by simp, _, rfl, h4⟩
  · refine ⟨1, ?_⟩
    simp only [List.replicate, List.foldl]
    obtain ⟨h1, h2, d, h3, h4⟩ := hin w s hp
    exact ⟨h1, h2, by rw [h3]; simp, d, h3, h4⟩

/-- **C149 (no deadlock).** After every schedule, every call that has begun can be completed by letting threads run that have
begun calls — also after calls that raised: an exception does not leave the iterator locked. -/
theorem C149_no_deadlock (nxt : σ → Except ε α × σ) (attr : ε) (s0 : σ) (es : List Ev) (t : Nat)
    (ht : (runEvs true nxt attr s0 es).pc t ≠ .idle) :
    ∃ more : List Nat, ∃ d, (runEvs true nxt attr s0 (es ++ more.map Ev.run)).out.getLast? = some d ∧ d.thread = t ∧
      (runEvs true nxt attr s0 (es ++ more.map Ev.run)).pc t = .idle ∧
      (runEvs true nxt attr s0 es).out.length < (runEvs true nxt attr s0 (es ++ more.map Ev.run)).out.length := by
  have hI := inv_run nxt attr s0 es
  have split : ∀ more : List Nat, runEvs true nxt attr s0 (es ++ more.map Ev.run) = (more.map Ev.run).foldl (step true nxt attr) (runEvs true nxt attr s0 es) := by
    intro more; unfold runEvs; rw [List.foldl_append]
  simp only [split]
  generalize runEvs true nxt attr s0 es = w at hI ht
  have own : ∀ w : World σ ε α, ((∃ c, w.pc t = .hold c) ∨ ∃ s, w.pc t = .inside s) → ∃ more : List Nat, ∃ d,
      ((more.map Ev.run).foldl (step true nxt attr) w).out.getLast? = some d ∧ d.thread = t ∧
      ((more.map Ev.run).foldl (step true nxt attr) w).pc t = .idle ∧
      w.out.length < ((more.map Ev.run).foldl (step true nxt attr) w).out.length := by
    intro w hw
    obtain ⟨n, h1, h2, h3, d, h4, h5⟩ := finish nxt attr w t hw
    refine ⟨List.replicate n t, d, ?_⟩
    rw [List.map_replicate]
    refine ⟨by rw [h4]; simp, h5, by rw [h1]; simp, by rw [h3]; omega⟩
  -- when the lock is free, `t` takes it and finishes
  have free : ∀ w : World σ ε α, w.lock = none → (∃ c, w.pc t = .want c) → ∃ more : List Nat, ∃ d,
      ((more.map Ev.run).foldl (step true nxt attr) w).out.getLast? = some d ∧ d.thread = t ∧
      ((more.map Ev.run).foldl (step true nxt attr) w).pc t = .idle ∧
      w.out.length < ((more.map Ev.run).foldl (step true nxt attr) w).out.length := by
    rintro w hl ⟨c, hc⟩
    have e1 : step true nxt attr w (.run t) = { w with lock := some t, pc := Function.update w.pc t (.hold c) } := by
      simp only [step, hc, hl]; simp
    obtain ⟨more, d, h1, h2, h3, h4⟩ := own (step true nxt attr w (.run t)) (Or.inl ⟨c, by rw [e1]; simp⟩)
    refine ⟨t :: more, d, h1, h2, h3, ?_⟩
    rw [e1] at h4
    rw [List.map_cons, List.foldl_cons, e1]
    exact h4
  cases hp : w.pc t with
  | idle => exact absurd hp ht
  | hold c => exact own w (Or.inl ⟨c, hp⟩)
  | inside s => exact own w (Or.inr ⟨s, hp⟩)
  | want c =>
    cases hl : w.lock with
    | none => exact free w hl ⟨c, hp⟩
    | some u =>
      obtain ⟨n, h1, h2, h3, -⟩ := finish nxt attr w u (hI.held u hl)
      have hut : t ≠ u := by
        rintro rfl
        rcases hI.held t hl with ⟨c', hc⟩ | ⟨s, hs⟩
        · rw [hp] at hc; cases hc
        · rw [hp] at hs; cases hs
      obtain ⟨more, d, g1, g2, g3, g4⟩ := free _ h2 ⟨c, by rw [h1, Function.update_of_ne hut]; exact hp⟩
      refine ⟨List.replicate n u ++ more, d, ?_⟩
      rw [List.map_append, List.map_replicate, List.foldl_append]
      exact ⟨g1, g2, g3, by omega⟩

/-- without the lock two threads can receive the same item -/
theorem C149_unprotected : ∃ es : List Ev, ((runEvs false (listNext "StopIteration") "AttributeError" [1, 2] es).out.map (fun d => (d.thread, d.result.toOption))) =
    [(0, some 1), (1, some (1 : Nat))] := by
  refine ⟨[.call 0 .dunder, .call 1 .dunder, .run 0, .run 0, .run 1, .run 1, .run 0, .run 1], ?_⟩
  decide +kernel

/-- two threads and a list of two items; the same schedule as above and further calls: the second thread waits, the third call
raises `StopIteration`, `it.next()` raises and takes nothing -/
example : ((runEvs true (listNext "StopIteration") "AttributeError" [1, 2]
      [.call 0 .dunder, .call 1 .dunder, .run 0, .run 0, .run 1, .run 1, .run 0, .run 1, .call 0 .legacy, .run 0, .run 1, .run 1, .run 0, .run 0,
       .call 1 .dunder, .run 1, .run 1, .run 1]).out.map (fun d => (d.thread, d.result.toOption))) =
    [(0, some 1), (1, some (2 : Nat)), (0, none), (1, none)] := by
  decide +kernel

/-- the hypothesis of `C149_no_deadlock` is met: thread 1 waits for thread 0 -/
example : ∃ c, (runEvs true (listNext "StopIteration") "AttributeError" [1, 2] [.call 0 .dunder, .call 1 .dunder, .run 0, .run 1]).pc 1 = .want c ∧
    (runEvs true (listNext "StopIteration") "AttributeError" [1, 2] [.call 0 .dunder, .call 1 .dunder, .run 0, .run 1]).lock = some 0 :=
  ⟨.dunder, rfl, rfl⟩

end Hyp.Misc
