import Verif.Queues.Model

/-! # C43: the generator queue -/

namespace Hyp.Queues

variable {α : Type} {gen : Nat → Option (Option α)} {maxQ w : Nat}

/-- Specification: the first `n` items of the generator. -/
def firstItems (gen : Nat → Option (Option α)) (n : Nat) : List (Option α) := (List.range n).filterMap gen

/-- Specification: the first `n` items without the `None`s, which is what the user of the queue wants. -/
def firstValues (gen : Nat → Option (Option α)) (n : Nat) : List α := (firstItems gen n).filterMap id

/-- items a worker has taken from the generator and not yet put. -/
def inflight (ws : List (WPc α)) : List (Option α) :=
  ws.filterMap (fun p => match p with | .put x => some x | _ => none)

/-- workers past the size test. -/
def past (ws : List (WPc α)) : Nat := ws.countP (fun p => match p with | .next => true | .put _ => true | _ => false)

theorem inflight_append (l1 l2 : List (WPc α)) : inflight (l1 ++ l2) = inflight l1 ++ inflight l2 := List.filterMap_append

theorem firstItems_succ {n : Nat} {x : Option α} (h : gen n = some x) : firstItems gen (n + 1) = firstItems gen n ++ [x] := by
  unfold firstItems
  rw [List.range_succ, List.filterMap_append]
  simp [h]

/-- the invariant for any number of workers. -/
structure Inv (gen : Nat → Option (Option α)) (maxQ w : Nat) (s : QSt α) : Prop where
  numWorkers : s.workers.length = w
  perm : List.Perm (s.taken ++ (s.q ++ inflight s.workers)) (firstItems gen s.pos)
  defd : ∀ n < s.pos, (gen n).isSome
  bound : maxQ = 0 ∧ s.q = [] ∧ past s.workers = 0 ∨ 1 ≤ maxQ ∧ s.q.length + past s.workers ≤ maxQ + w - 1
  running : s.stop = false → s.cons ≠ .done ∧ ∀ p ∈ s.workers, p ≠ .done
  getOk : s.cons = .get → s.q ≠ []

theorem past_le (ws : List (WPc α)) : past ws ≤ ws.length := List.countP_le_length

theorem past_mid (l1 l2 : List (WPc α)) (p : WPc α) : past (l1 ++ p :: l2) = past (p :: (l1 ++ l2)) := by
  unfold past
  rw [List.countP_append, List.countP_cons, List.countP_cons, List.countP_append]
  omega

theorem inflight_mid (l1 l2 : List (WPc α)) (p : WPc α) : List.Perm (inflight (l1 ++ p :: l2)) (inflight (p :: (l1 ++ l2))) := by
  unfold inflight
  exact List.Perm.filterMap _ List.perm_middle

theorem inv_step {s s' : QSt α} (h : Inv gen maxQ w s) (hs : Step gen maxQ s s') : Inv gen maxQ w s' := by
  obtain ⟨h1, h2, h3, h4, h5, h6⟩ := h
  -- a worker goes on without an item
  have silent : ∀ (l1 l2 : List (WPc α)) (p p' : WPc α), s.workers = l1 ++ p :: l2 → inflight [p] = [] → inflight [p'] = [] →
      List.Perm (s.taken ++ (s.q ++ inflight (l1 ++ p' :: l2))) (firstItems gen s.pos) := by
    intro l1 l2 p p' hw hp hp'
    rw [hw] at h2
    have e : inflight (l1 ++ p' :: l2) = inflight (l1 ++ p :: l2) := by
      rw [inflight_append, inflight_append]
      congr 1
      show inflight ([p'] ++ l2) = inflight ([p] ++ l2)
      rw [inflight_append, inflight_append, hp, hp']
    rw [e]
    exact h2
  cases hs with
  | wStop l1 l2 hw hst =>
    refine ⟨?_, silent l1 l2 _ _ hw rfl rfl, h3, ?_, ?_, h6⟩
    · rw [hw] at h1; simpa using h1
    · rw [hw, past_mid] at h4; rw [past_mid]; exact h4
    · intro hst'; simp only at hst'; rw [hst] at hst'; exact absurd hst' (by simp)
  | wGo l1 l2 hw hst =>
    refine ⟨?_, silent l1 l2 _ _ hw rfl rfl, h3, ?_, ?_, h6⟩
    · rw [hw] at h1; simpa using h1
    · rw [hw, past_mid] at h4; rw [past_mid]; exact h4
    · intro _
      refine ⟨(h5 hst).1, ?_⟩
      intro p hp
      have := (h5 hst).2
      rw [hw] at this
      rcases List.mem_append.1 hp with hp | hp
      · exact this p (List.mem_append_left _ hp)
      · rcases List.mem_cons.1 hp with rfl | hp
        · simp
        · exact this p (List.mem_append_right _ (List.mem_cons_of_mem _ hp))
  | wRoom l1 l2 hw hroom =>
    refine ⟨?_, silent l1 l2 _ _ hw rfl rfl, h3, ?_, ?_, h6⟩
    · rw [hw] at h1; simpa using h1
    · have hle : past (.next :: (l1 ++ l2) : List (WPc α)) ≤ w := by
        have := past_le (.next :: (l1 ++ l2) : List (WPc α))
        rw [hw] at h1
        simp only [List.length_append, List.length_cons] at h1 this
        omega
      rw [past_mid]
      right
      simp only
      omega
    · intro hst
      refine ⟨(h5 hst).1, ?_⟩
      intro p hp
      have := (h5 hst).2
      rw [hw] at this
      rcases List.mem_append.1 hp with hp | hp
      · exact this p (List.mem_append_left _ hp)
      · rcases List.mem_cons.1 hp with rfl | hp
        · simp
        · exact this p (List.mem_append_right _ (List.mem_cons_of_mem _ hp))
  | wFull l1 l2 hw hroom =>
    refine ⟨?_, silent l1 l2 _ _ hw rfl rfl, h3, ?_, ?_, h6⟩
    · rw [hw] at h1; simpa using h1
    · rw [hw, past_mid] at h4; rw [past_mid]; exact h4
    · intro hst
      refine ⟨(h5 hst).1, ?_⟩
      intro p hp
      have := (h5 hst).2
      rw [hw] at this
      rcases List.mem_append.1 hp with hp | hp
      · exact this p (List.mem_append_left _ hp)
      · rcases List.mem_cons.1 hp with rfl | hp
        · simp
        · exact this p (List.mem_append_right _ (List.mem_cons_of_mem _ hp))
  | wNext l1 l2 x hw hx =>
    refine ⟨?_, ?_, ?_, ?_, ?_, h6⟩
    · rw [hw] at h1; simpa using h1
    · simp only
      rw [firstItems_succ hx]
      rw [hw] at h2
      have p1 : List.Perm (inflight (l1 ++ .put x :: l2)) (inflight (l1 ++ .next :: l2) ++ [x]) := by
        refine (inflight_mid l1 l2 _).trans ?_
        refine List.Perm.trans ?_ ((inflight_mid l1 l2 (.next)).symm.append_right [x])
        show List.Perm (x :: inflight (l1 ++ l2)) (inflight (l1 ++ l2) ++ [x])
        exact (List.perm_append_singleton x _).symm
      refine List.Perm.trans ?_ (h2.append_right [x])
      rw [List.append_assoc, List.append_assoc]
      exact (p1.append_left _).append_left _
    · intro n hn
      simp only at hn
      rcases Nat.lt_or_ge n s.pos with h | h
      · exact h3 n h
      · have : n = s.pos := by omega
        subst this
        rw [hx]; rfl
    · rw [hw, past_mid] at h4; rw [past_mid]; exact h4
    · intro hst
      refine ⟨(h5 hst).1, ?_⟩
      intro p hp
      have := (h5 hst).2
      rw [hw] at this
      rcases List.mem_append.1 hp with hp | hp
      · exact this p (List.mem_append_left _ hp)
      · rcases List.mem_cons.1 hp with rfl | hp
        · simp
        · exact this p (List.mem_append_right _ (List.mem_cons_of_mem _ hp))
  | wRaise l1 l2 hw hx =>
    refine ⟨?_, silent l1 l2 _ _ hw rfl rfl, h3, ?_, ?_, h6⟩
    · rw [hw] at h1; simpa using h1
    · rw [hw, past_mid] at h4
      rw [past_mid]
      have e1 : past (.next :: (l1 ++ l2) : List (WPc α)) = past (l1 ++ l2) + 1 := by simp [past]
      have e2 : past (.done :: (l1 ++ l2) : List (WPc α)) = past (l1 ++ l2) := by simp [past]
      simp only
      rw [e1] at h4
      rw [e2]
      omega
    · intro hst; simp only at hst; exact absurd hst (by simp)
  | wPut l1 l2 x hw =>
    refine ⟨?_, ?_, h3, ?_, ?_, ?_⟩
    · rw [hw] at h1; simpa using h1
    · simp only
      rw [hw] at h2
      refine List.Perm.trans ?_ h2
      rw [List.append_assoc]
      refine (List.Perm.append_left _ ?_).append_left _
      refine List.Perm.trans ?_ (inflight_mid l1 l2 _).symm
      show List.Perm (x :: inflight (l1 ++ .loop :: l2)) (x :: inflight (l1 ++ l2))
      exact (inflight_mid l1 l2 .loop).cons x
    · rw [hw, past_mid] at h4
      rw [past_mid]
      have e1 : past (.put x :: (l1 ++ l2) : List (WPc α)) = past (l1 ++ l2) + 1 := by simp [past]
      have e2 : past (.loop :: (l1 ++ l2) : List (WPc α)) = past (l1 ++ l2) := by simp [past]
      simp only [List.length_append, List.length_singleton]
      rw [e1] at h4
      rw [e2]
      omega
    · intro hst
      refine ⟨(h5 hst).1, ?_⟩
      intro p hp
      have := (h5 hst).2
      rw [hw] at this
      rcases List.mem_append.1 hp with hp | hp
      · exact this p (List.mem_append_left _ hp)
      · rcases List.mem_cons.1 hp with rfl | hp
        · simp
        · exact this p (List.mem_append_right _ (List.mem_cons_of_mem _ hp))
    · intro _; simp
  | cStop hc hst =>
    refine ⟨h1, h2, h3, h4, ?_, ?_⟩
    · intro hst'; simp only at hst'; rw [hst] at hst'; exact absurd hst' (by simp)
    · intro hh; exact absurd hh (by simp)
  | cGo hc hst => exact ⟨h1, h2, h3, h4, fun hh => ⟨by simp, (h5 hh).2⟩, fun hh => absurd hh (by simp)⟩
  | cSome hc hq => exact ⟨h1, h2, h3, h4, fun hh => ⟨by simp, (h5 hh).2⟩, fun _ => hq⟩
  | cWait hc hq => exact ⟨h1, h2, h3, h4, fun hh => ⟨by simp, (h5 hh).2⟩, fun hh => absurd hh (by simp)⟩
  | cGet x q hc hq =>
    refine ⟨h1, ?_, h3, ?_, fun hh => ⟨by simp, (h5 hh).2⟩, fun hh => absurd hh (by simp)⟩
    · simp only
      rw [hq] at h2
      simpa using h2
    · simp only
      rw [hq] at h4
      simp only [List.length_cons] at h4
      rcases h4 with h4 | h4
      · simp at h4
      · right; omega
  | stop =>
    exact ⟨h1, h2, h3, h4, fun hh => absurd hh (by simp), h6⟩

theorem inv_reach {s : QSt α} (h : Reach gen maxQ w s) : Inv gen maxQ w s := by
  induction h with
  | refl =>
    refine ⟨by simp [QSt.init], ?_, ?_, ?_, ?_, ?_⟩
    · have : inflight (List.replicate w (WPc.loop : WPc α)) = [] := by simp [inflight]
      simp [QSt.init, this, firstItems]
    · intro n hn; simp [QSt.init] at hn
    · have : past (List.replicate w (WPc.loop : WPc α)) = 0 := by simp [past]
      simp only [QSt.init, this, List.length_nil]
      rcases Nat.eq_zero_or_pos maxQ with h | h
      · exact Or.inl ⟨h, by simp⟩
      · right; omega
    · intro _; refine ⟨by simp [QSt.init], ?_⟩
      intro p hp
      simp only [QSt.init, List.mem_replicate] at hp
      rw [hp.2]; simp
    · intro h; simp [QSt.init] at h
  | tail _ hs ih => exact inv_step ih hs

/-- C43: with one worker, in every reachable state of every interleaving: what the consumer took, then what is in the
queue, then what the worker holds, are exactly the items the generator gave so far, in order. So what was delivered is a
prefix of the generator's values: nothing twice, nothing left out, nothing out of order. -/
theorem C43_in_order {s : QSt α} (h : Reach gen maxQ 1 s) :
    s.taken ++ s.q ++ inflight s.workers = firstItems gen s.pos ∧ s.delivered <+: firstValues gen s.pos := by
  have hinv : ∀ s, Reach gen maxQ 1 s → ∃ p, s.workers = [p] := by
    intro s h
    have := (inv_reach h).numWorkers
    exact List.length_eq_one_iff.1 this
  have hmain : s.taken ++ s.q ++ inflight s.workers = firstItems gen s.pos := by
    induction h with
    | refl => simp [QSt.init, inflight, firstItems]
    | @tail s s' hr hs ih =>
      obtain ⟨p0, hp0⟩ := hinv s hr
      have hl : ∀ (l1 l2 : List (WPc α)) (p : WPc α), s.workers = l1 ++ p :: l2 → l1 = [] ∧ l2 = [] ∧ p = p0 := by
        intro l1 l2 p hw
        rw [hp0] at hw
        cases l1 with
        | nil => simp at hw; exact ⟨rfl, hw.2, hw.1.symm⟩
        | cons a l1 => simp at hw
      rw [hp0] at ih
      cases hs with
      | wStop l1 l2 hw hst => obtain ⟨rfl, rfl, rfl⟩ := hl _ _ _ hw; simpa [inflight] using ih
      | wGo l1 l2 hw hst => obtain ⟨rfl, rfl, rfl⟩ := hl _ _ _ hw; simpa [inflight] using ih
      | wRoom l1 l2 hw hst => obtain ⟨rfl, rfl, rfl⟩ := hl _ _ _ hw; simpa [inflight] using ih
      | wFull l1 l2 hw hst => obtain ⟨rfl, rfl, rfl⟩ := hl _ _ _ hw; simpa [inflight] using ih
      | wNext l1 l2 x hw hx =>
        obtain ⟨rfl, rfl, rfl⟩ := hl _ _ _ hw
        simp only
        rw [firstItems_succ hx, ← ih]
        simp [inflight]
      | wRaise l1 l2 hw hx => obtain ⟨rfl, rfl, rfl⟩ := hl _ _ _ hw; simpa [inflight] using ih
      | wPut l1 l2 x hw =>
        obtain ⟨rfl, rfl, rfl⟩ := hl _ _ _ hw
        rw [← ih]
        simp [inflight]
      | cStop hc hst => rw [← ih, hp0]
      | cGo hc hst => rw [← ih, hp0]
      | cSome hc hq => rw [← ih, hp0]
      | cWait hc hq => rw [← ih, hp0]
      | cGet x q hc hq => rw [← ih, hp0, hq]; simp
      | stop => rw [← ih, hp0]
  refine ⟨hmain, ?_⟩
  unfold QSt.delivered firstValues
  rw [← hmain, List.append_assoc, List.filterMap_append]
  exact List.prefix_append _ _

/-- C43: with any number of workers no item is lost or doubled: taken, queued and held items are a permutation of the
items the generator gave; and what was delivered can be found among the generator's values, each at most as often. -/
theorem C43_no_loss_no_dup {s : QSt α} (h : Reach gen maxQ w s) :
    List.Perm (s.taken ++ s.q ++ inflight s.workers) (firstItems gen s.pos) ∧
      List.Subperm s.delivered (firstValues gen s.pos) := by
  have := (inv_reach h).perm
  rw [List.append_assoc]
  refine ⟨this, ?_⟩
  have p := this.filterMap id
  rw [List.filterMap_append] at p
  exact (List.sublist_append_left _ _).subperm.trans p.subperm

/-- C43: the queue never holds more than `max_queue_size` items with one worker, and no more than
`max_queue_size + workers - 1` with several. -/
theorem C43_bounded {s : QSt α} (h : Reach gen maxQ w s) (hm : 1 ≤ maxQ) : s.q.length ≤ maxQ + w - 1 := by
  have := (inv_reach h).bound
  omega

theorem C43_bounded_one {s : QSt α} (h : Reach gen maxQ 1 s) : s.q.length ≤ maxQ := by
  rcases (inv_reach h).bound with ⟨h0, hq, _⟩ | ⟨h1, h2⟩
  · simp [hq]
  · omega

/-- the consumer can always take the next item when the queue is not empty. -/
theorem consume_one {s : QSt α} (h : Inv gen maxQ w s) (hst : s.stop = false) (hq : s.q ≠ []) :
    ∃ s', Relation.ReflTransGen (Step gen maxQ) s s' ∧ s'.stop = false ∧ s'.taken.length = s.taken.length + 1 := by
  obtain ⟨x, q, hxq⟩ := List.exists_cons_of_ne_nil hq
  have fin : ∀ t : QSt α, t.q = x :: q → t.stop = false → t.cons = .get → t.taken = s.taken →
      ∃ s', Relation.ReflTransGen (Step gen maxQ) t s' ∧ s'.stop = false ∧ s'.taken.length = s.taken.length + 1 := by
    intro t h1 h2 h3 h4
    refine ⟨_, Relation.ReflTransGen.single (Step.cGet t x q h3 h1), h2, ?_⟩
    simp [h4]
  have mid : ∀ t : QSt α, t.q = x :: q → t.stop = false → t.cons = .empty → t.taken = s.taken →
      ∃ s', Relation.ReflTransGen (Step gen maxQ) t s' ∧ s'.stop = false ∧ s'.taken.length = s.taken.length + 1 := by
    intro t h1 h2 h3 h4
    obtain ⟨s', r, e1, e2⟩ := fin { t with cons := .get } h1 h2 rfl h4
    exact ⟨s', Relation.ReflTransGen.head (Step.cSome t h3 (by rw [h1]; simp)) r, e1, e2⟩
  cases hc : s.cons with
  | loop =>
    obtain ⟨s', r, e1, e2⟩ := mid { s with cons := .empty } hxq hst rfl rfl
    exact ⟨s', Relation.ReflTransGen.head (Step.cGo s hc hst) r, e1, e2⟩
  | empty => exact mid s hxq hst hc rfl
  | get => exact fin s hxq hst hc rfl
  | done => exact absurd hc (h.running hst).1

/-- a worker can fill the empty queue. -/
theorem produce_one {s : QSt α} (hw : 1 ≤ w) (hm : 1 ≤ maxQ) (h : Inv gen maxQ w s) (hst : s.stop = false) (hq : s.q = [])
    (hg : (gen s.taken.length).isSome) :
    ∃ s', Relation.ReflTransGen (Step gen maxQ) s s' ∧ s'.stop = false ∧ s'.taken = s.taken ∧ s'.q ≠ [] := by
  have hput : ∀ (t : QSt α) (l1 l2 : List (WPc α)) (x : Option α), t.workers = l1 ++ .put x :: l2 → t.stop = false → t.taken = s.taken →
      ∃ s', Relation.ReflTransGen (Step gen maxQ) t s' ∧ s'.stop = false ∧ s'.taken = s.taken ∧ s'.q ≠ [] := by
    intro t l1 l2 x h1 h2 h3
    exact ⟨_, Relation.ReflTransGen.single (Step.wPut t l1 l2 x h1), h2, h3, by simp⟩
  by_cases hf : inflight s.workers = []
  · -- no worker holds an item: the generator gave exactly the items taken
    have hpos : s.pos = s.taken.length := by
      have h1 := h.perm.length_eq
      rw [hq, hf] at h1
      have h2 : (firstItems gen s.pos).length = s.pos := by
        have : ∀ n, n ≤ s.pos → (firstItems gen n).length = n := by
          intro n
          induction n with
          | zero => intro _; simp [firstItems]
          | succ n ih =>
            intro hn
            obtain ⟨x, hx⟩ := Option.isSome_iff_exists.1 (h.defd n (by omega))
            rw [firstItems_succ hx]
            simp [ih (by omega)]
        exact this s.pos (Nat.le_refl _)
      simp only [List.append_nil] at h1
      omega
    obtain ⟨x, hx⟩ := Option.isSome_iff_exists.1 hg
    rw [← hpos] at hx
    obtain ⟨p, ws, hws⟩ : ∃ p ws, s.workers = p :: ws := by
      cases hws : s.workers with
      | nil => have := h.numWorkers; rw [hws] at this; simp at this; omega
      | cons p ws => exact ⟨p, ws, rfl⟩
    have s3 : ∀ t : QSt α, t.workers = .next :: ws → t.stop = false → t.taken = s.taken → t.pos = s.pos →
        ∃ s', Relation.ReflTransGen (Step gen maxQ) t s' ∧ s'.stop = false ∧ s'.taken = s.taken ∧ s'.q ≠ [] := by
      intro t h1 h2 h3 h4
      obtain ⟨s', r, e⟩ := hput { t with pos := t.pos + 1, workers := [] ++ .put x :: ws } [] ws x rfl h2 h3
      exact ⟨s', Relation.ReflTransGen.head (Step.wNext t [] ws x h1 (by rw [h4]; exact hx)) r, e⟩
    have s2 : ∀ t : QSt α, t.workers = .size :: ws → t.stop = false → t.taken = s.taken → t.pos = s.pos → t.q = [] →
        ∃ s', Relation.ReflTransGen (Step gen maxQ) t s' ∧ s'.stop = false ∧ s'.taken = s.taken ∧ s'.q ≠ [] := by
      intro t h1 h2 h3 h4 h5
      obtain ⟨s', r, e⟩ := s3 { t with workers := [] ++ .next :: ws } rfl h2 h3 h4
      exact ⟨s', Relation.ReflTransGen.head (Step.wRoom t [] ws h1 (by rw [h5]; show 0 < maxQ; omega)) r, e⟩
    cases p with
    | loop =>
      obtain ⟨s', r, e⟩ := s2 { s with workers := [] ++ .size :: ws } rfl hst rfl rfl hq
      exact ⟨s', Relation.ReflTransGen.head (Step.wGo s [] ws hws hst) r, e⟩
    | size => exact s2 s hws hst rfl rfl hq
    | next => exact s3 s hws hst rfl rfl
    | put y => rw [hws] at hf; simp [inflight] at hf
    | done => exact absurd rfl ((h.running hst).2 .done (by rw [hws]; simp))
  · obtain ⟨l1, x, l2, hx⟩ : ∃ l1 x l2, s.workers = l1 ++ .put x :: l2 := by
      obtain ⟨y, hy⟩ := List.exists_mem_of_ne_nil _ hf
      unfold inflight at hy
      rw [List.mem_filterMap] at hy
      obtain ⟨p, hp, hpy⟩ := hy
      cases p with
      | put z =>
        obtain ⟨l1, l2, hl⟩ := List.append_of_mem hp
        exact ⟨l1, z, l2, hl⟩
      | loop => simp at hpy
      | size => simp at hpy
      | next => simp at hpy
      | done => simp at hpy
    exact hput s l1 l2 x hx hst rfl

/-- C43: no deadlock: in every reachable state in which the queue has not been stopped, if the generator has an item for
the place after the ones already taken, the threads can go on such that the consumer takes one more item. -/
theorem C43_progress {s : QSt α} (hw : 1 ≤ w) (hm : 1 ≤ maxQ) (h : Reach gen maxQ w s) (hst : s.stop = false)
    (hg : (gen s.taken.length).isSome) :
    ∃ s', Relation.ReflTransGen (Step gen maxQ) s s' ∧ s'.stop = false ∧ s'.taken.length = s.taken.length + 1 := by
  by_cases hq : s.q = []
  · obtain ⟨s1, r1, e1, e2, e3⟩ := produce_one hw hm (inv_reach h) hst hq hg
    have h1 : Reach gen maxQ w s1 := Relation.ReflTransGen.trans h r1
    obtain ⟨s2, r2, e4, e5⟩ := consume_one (inv_reach h1) e1 e3
    exact ⟨s2, r1.trans r2, e4, by rw [e5, e2]⟩
  · exact consume_one (inv_reach h) hst hq

/-- With an endless generator and no stop, any number of items can be taken; with one worker they are then its first items. -/
theorem C43_all_delivered (hm : 1 ≤ maxQ) (hg : ∀ n, (gen n).isSome) (n : Nat) :
    ∃ s, Reach gen maxQ 1 s ∧ s.stop = false ∧ s.taken = firstItems gen n := by
  have key : ∀ n, ∃ s, Reach gen maxQ 1 s ∧ s.stop = false ∧ s.taken.length = n := by
    intro n
    induction n with
    | zero => exact ⟨_, Relation.ReflTransGen.refl, rfl, rfl⟩
    | succ n ih =>
      obtain ⟨s, h1, h2, h3⟩ := ih
      obtain ⟨s', r, e1, e2⟩ := C43_progress (Nat.le_refl _) hm h1 h2 (hg _)
      exact ⟨s', h1.trans r, e1, by omega⟩
  obtain ⟨s, h1, h2, h3⟩ := key n
  refine ⟨s, h1, h2, ?_⟩
  have ho := (C43_in_order h1).1
  have hlen : ∀ k, (firstItems gen k).length = k := by
    intro k
    induction k with
    | zero => simp [firstItems]
    | succ k ih =>
      obtain ⟨x, hx⟩ := Option.isSome_iff_exists.1 (hg k)
      rw [firstItems_succ hx]
      simp [ih]
  have hle : n ≤ s.pos := by
    have := congrArg List.length ho
    rw [hlen] at this
    simp only [List.length_append] at this
    omega
  have htake : ∀ k m, (firstItems gen (k + m)).take k = firstItems gen k := by
    intro k m
    induction m with
    | zero => rw [Nat.add_zero, List.take_of_length_le (by rw [hlen]; exact Nat.le_refl _)]
    | succ m ih =>
      obtain ⟨x, hx⟩ := Option.isSome_iff_exists.1 (hg (k + m))
      rw [← Nat.add_assoc, firstItems_succ hx, List.take_append_of_le_length (by rw [hlen]; omega), ih]
  obtain ⟨d, hd⟩ := Nat.exists_eq_add_of_le hle
  have := htake n d
  rw [← hd, ← ho, List.append_assoc, List.take_left' h3] at this
  exact this

/-! ## where the claim fails -/

/-- A finite generator loses its last items: the exception at its end stops the consumer although the queue still holds
items. Here the only item, 7, is never delivered: the consumer has ended. -/
theorem C43_exhausted_loses : ∃ s : QSt Nat, Reach (fun n => if n = 0 then some (some 7) else none) 10 1 s ∧
    s.cons = .done ∧ s.delivered = [] ∧ s.q = [some 7] := by
  refine ⟨⟨1, [some 7], true, [.done], .done, []⟩, ?_, rfl, rfl, rfl⟩
  unfold Reach
  let g : Nat → Option (Option Nat) := fun n => if n = 0 then some (some 7) else none
  have a1 : Step g 10 ⟨0, [], false, [.loop], .loop, []⟩ ⟨0, [], false, [.size], .loop, []⟩ := Step.wGo _ [] [] rfl rfl
  have a2 : Step g 10 ⟨0, [], false, [.size], .loop, []⟩ ⟨0, [], false, [.next], .loop, []⟩ := Step.wRoom _ [] [] rfl (by decide)
  have a3 : Step g 10 ⟨0, [], false, [.next], .loop, []⟩ ⟨1, [], false, [.put (some 7)], .loop, []⟩ := Step.wNext _ [] [] (some 7) rfl rfl
  have a4 : Step g 10 ⟨1, [], false, [.put (some 7)], .loop, []⟩ ⟨1, [some 7], false, [.loop], .loop, []⟩ := Step.wPut _ [] [] _ rfl
  have a5 : Step g 10 ⟨1, [some 7], false, [.loop], .loop, []⟩ ⟨1, [some 7], false, [.size], .loop, []⟩ := Step.wGo _ [] [] rfl rfl
  have a6 : Step g 10 ⟨1, [some 7], false, [.size], .loop, []⟩ ⟨1, [some 7], false, [.next], .loop, []⟩ := Step.wRoom _ [] [] rfl (by decide)
  have a7 : Step g 10 ⟨1, [some 7], false, [.next], .loop, []⟩ ⟨1, [some 7], true, [.done], .loop, []⟩ := Step.wRaise _ [] [] rfl rfl
  have a8 : Step g 10 ⟨1, [some 7], true, [.done], .loop, []⟩ ⟨1, [some 7], true, [.done], .done, []⟩ := Step.cStop _ rfl rfl
  exact ((((((((Relation.ReflTransGen.refl).tail a1).tail a2).tail a3).tail a4).tail a5).tail a6).tail a7).tail a8

/-- With two workers the queue can exceed `max_queue_size` (here 1): both pass the size test before either puts; and the
items can come out of order. -/
theorem C43_two_workers : ∃ s : QSt Nat, Reach (fun n => some (some n)) 1 2 s ∧ s.q = [some 1, some 0] := by
  refine ⟨⟨2, [some 1, some 0], false, [.loop, .loop], .loop, []⟩, ?_, rfl⟩
  unfold Reach
  let g : Nat → Option (Option Nat) := fun n => some (some n)
  have a1 : Step g 1 ⟨0, [], false, [.loop, .loop], .loop, []⟩ ⟨0, [], false, [.size, .loop], .loop, []⟩ := Step.wGo _ [] [.loop] rfl rfl
  have a2 : Step g 1 ⟨0, [], false, [.size, .loop], .loop, []⟩ ⟨0, [], false, [.size, .size], .loop, []⟩ := Step.wGo _ [.size] [] rfl rfl
  have a3 : Step g 1 ⟨0, [], false, [.size, .size], .loop, []⟩ ⟨0, [], false, [.next, .size], .loop, []⟩ := Step.wRoom _ [] [.size] rfl (by decide)
  have a4 : Step g 1 ⟨0, [], false, [.next, .size], .loop, []⟩ ⟨0, [], false, [.next, .next], .loop, []⟩ := Step.wRoom _ [.next] [] rfl (by decide)
  have a5 : Step g 1 ⟨0, [], false, [.next, .next], .loop, []⟩ ⟨1, [], false, [.put (some 0), .next], .loop, []⟩ := Step.wNext _ [] [.next] (some 0) rfl rfl
  have a6 : Step g 1 ⟨1, [], false, [.put (some 0), .next], .loop, []⟩ ⟨2, [], false, [.put (some 0), .put (some 1)], .loop, []⟩ :=
    Step.wNext _ [.put (some 0)] [] (some 1) rfl rfl
  have a7 : Step g 1 ⟨2, [], false, [.put (some 0), .put (some 1)], .loop, []⟩ ⟨2, [some 1], false, [.put (some 0), .loop], .loop, []⟩ :=
    Step.wPut _ [.put (some 0)] [] (some 1) rfl
  have a8 : Step g 1 ⟨2, [some 1], false, [.put (some 0), .loop], .loop, []⟩ ⟨2, [some 1, some 0], false, [.loop, .loop], .loop, []⟩ :=
    Step.wPut _ [] [.loop] (some 0) rfl
  exact ((((((((Relation.ReflTransGen.refl).tail a1).tail a2).tail a3).tail a4).tail a5).tail a6).tail a7).tail a8

end Hyp.Queues
