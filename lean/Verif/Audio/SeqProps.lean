import Verif.Audio.SpecProps
import Verif.Scp.EqProps
import Verif.Segments.SegOpsProps
import Verif.Copy.Parts

/-! C129, C130: the sequential audio reader. -/

namespace Hyp.Audio
open Hyp.Text Hyp.Segments

variable {K : Type} [Field K] [LinearOrder K] [IsStrictOrderedRing K] [FloorRing K]

/-- all the records of a reader, each with the exception it may raise. -/
def recs (w : World K) (r : Reader K) : List (Option (Str × Wave K)) :=
  match r.segs with
  | some l => l.rows.map (fun s => (readSegment w r.scale r.scp s).map (fun x => (s.id, x)))
  | none => r.scp.entries.map (fun e => (readSpec w r.scale e.2.1).map (fun x => (e.1, x)))

theorem recs_cur (w : World K) (r : Reader K) (c : Nat) : recs w { r with cur := c } = recs w r := rfl

theorem eof_iff (w : World K) {r : Reader K} (hx : r.scp.WF) : r.eof = true ↔ r.cur = (recs w r).length := by
  unfold Reader.eof recs
  cases r.segs with
  | some l => simp
  | none => simp [Scp.entries_length hx]

theorem readOne_eq (w : World K) {r : Reader K} (hx : r.scp.WF) (hc : r.cur < (recs w r).length) :
    r.readOne w = ((recs w r)[r.cur]).map (fun y => (y, { r with cur := r.cur + 1 })) := by
  obtain ⟨x, segs, scale, cur⟩ := r
  cases segs with
  | some l =>
    have hc' : cur < l.rows.length := by simpa [recs] using hc
    unfold Reader.readOne
    simp only [recs, List.getElem_map, List.getElem?_eq_getElem hc', Option.bind_some, Option.map_map]
    rfl
  | none =>
    have hc' : cur < x.entries.length := by simpa [recs] using hc
    unfold Reader.readOne
    simp only [recs, List.getElem_map, Scp.C05_getitem_position x hx, List.getElem?_eq_getElem hc', Option.bind_some, Option.map_map]
    rfl

theorem loop_eq (w : World K) (k : Nat) (r : Reader K) (hx : r.scp.WF) (hc : r.cur ≤ (recs w r).length) :
    r.loop w k = ((((recs w r).drop r.cur).take k).mapM id).map (fun xs => (xs, { r with cur := min (r.cur + k) (recs w r).length })) := by
  induction k generalizing r with
  | zero => simp [Reader.loop, Nat.min_eq_left hc]
  | succ k ih =>
    unfold Reader.loop
    by_cases he : r.cur = (recs w r).length
    · rw [if_pos ((eof_iff w hx).2 he)]
      rw [he, List.drop_length]
      simp only [List.take_nil, List.mapM_nil, Option.pure_def, Option.map_some]
      rw [Nat.min_eq_right (by omega), ← he]
    · have hlt : r.cur < (recs w r).length := by omega
      rw [if_neg (by rw [eof_iff w hx]; exact he), readOne_eq w hx hlt, List.drop_eq_getElem_cons hlt, List.take_succ_cons, List.mapM_cons]
      cases hh : (recs w r)[r.cur] with
      | none => rfl
      | some y =>
        have hcur : ({ r with cur := r.cur + 1 } : Reader K).cur = r.cur + 1 := rfl
        simp only [Option.map_some, Option.bind_some, id]
        rw [ih { r with cur := r.cur + 1 } hx (by rw [recs_cur]; exact hlt)]
        rw [recs_cur, hcur]
        simp only [Option.map_map]
        rcases ((recs w r).drop (r.cur + 1)).take k |>.mapM id with _ | ys
        · rfl
        · simp [Nat.add_assoc, Nat.add_comm 1 k]

/-- a history of reads, with the numbers of records asked for: everything that came out, and the reader. -/
def runReads (w : World K) : List Nat → Reader K → Option (List (Str × Wave K) × Reader K)
  | [], r => some ([], r)
  | k :: ks, r => (r.read w k).bind (fun p => (runReads w ks p.2).map (fun q => (p.1 ++ q.1, q.2)))

theorem mapM_append_id {α : Type} (a b : List (Option α)) :
    (a ++ b).mapM id = (a.mapM id).bind (fun x => (b.mapM id).map (fun y => x ++ y)) := by
  rw [List.mapM_append]
  rcases a.mapM id with _ | x
  · rfl
  · rcases b.mapM id with _ | y <;> rfl

theorem runReads_eq (w : World K) (ks : List Nat) (hk : ∀ k ∈ ks, 0 < k) (r : Reader K) (hx : r.scp.WF) (hc : r.cur ≤ (recs w r).length) :
    runReads w ks r =
      ((((recs w r).drop r.cur).take ks.sum).mapM id).map (fun xs => (xs, { r with cur := min (r.cur + ks.sum) (recs w r).length })) := by
  induction ks generalizing r with
  | nil => simp [runReads, Nat.min_eq_left hc]
  | cons k ks ih =>
    have hk0 := hk k (by simp)
    unfold runReads Reader.read Reader.turns
    rw [if_neg (by omega), loop_eq w k r hx hc]
    rw [List.sum_cons, List.take_add, mapM_append_id]
    rcases (((recs w r).drop r.cur).take k).mapM id with _ | xs
    · rfl
    · simp only [Option.map_some, Option.bind_some]
      rw [ih (fun k hk' => hk k (by simp [hk'])) { r with cur := min (r.cur + k) (recs w r).length } hx
        (by rw [recs_cur]; exact Nat.min_le_right _ _)]
      have e1 : ({ r with cur := min (r.cur + k) (recs w r).length } : Reader K).cur = min (r.cur + k) (recs w r).length := rfl
      rw [recs_cur w r (min (r.cur + k) (recs w r).length), e1]
      have e2 : (recs w r).drop (min (r.cur + k) (recs w r).length) = ((recs w r).drop r.cur).drop k := by
        rw [List.drop_drop]
        by_cases h : r.cur + k ≤ (recs w r).length
        · rw [Nat.min_eq_left h]
        · rw [Nat.min_eq_right (by omega), List.drop_length, List.drop_eq_nil_of_le (by omega)]
      have e3 : min (min (r.cur + k) (recs w r).length + ks.sum) (recs w r).length = min (r.cur + (k + ks.sum)) (recs w r).length := by omega
      rw [e2, e3]
      simp only [Option.map_map]
      rfl

theorem read_zero (w : World K) (r : Reader K) : r.read w 0 = r.loop w (r.scp.key.length - r.cur) := rfl

theorem iter_eq (w : World K) (r : Reader K) (hx : r.scp.WF) (fuel : Nat) (hc : r.cur ≤ (recs w r).length)
    (hf : (recs w r).length - r.cur < fuel) :
    r.iter w fuel = (((recs w r).drop r.cur).mapM id).map (fun xs => (xs, { r with cur := (recs w r).length })) := by
  induction fuel generalizing r with
  | zero => omega
  | succ fuel ih =>
    unfold Reader.iter Reader.read Reader.turns
    rw [if_neg (by decide), loop_eq w 1 r hx hc]
    by_cases he : r.cur = (recs w r).length
    · rw [he, List.drop_length]
      simp only [List.take_nil, List.mapM_nil, Option.pure_def, Option.map_some]
      rw [Nat.min_eq_right (by omega)]
    · have hlt : r.cur < (recs w r).length := by omega
      rw [List.drop_eq_getElem_cons hlt, List.take_succ_cons, List.take_zero, List.mapM_cons, List.mapM_cons]
      cases hh : (recs w r)[r.cur] with
      | none => rfl
      | some y =>
        simp only [id, List.mapM_nil, Option.pure_def, Option.bind_eq_bind, Option.bind_some, Option.map_some]
        rw [Nat.min_eq_left hlt, ih { r with cur := r.cur + 1 } hx (by rw [recs_cur]; exact hlt) (by
          rw [recs_cur]
          show (recs w r).length - (r.cur + 1) < fuel
          omega)]
        rw [recs_cur]
        have hcur : ({ r with cur := r.cur + 1 } : Reader K).cur = r.cur + 1 := rfl
        rw [hcur]
        rcases ((recs w r).drop (r.cur + 1)).mapM id with _ | ys <;> rfl

theorem mapM_id_map {α β : Type} (l : List α) (f : α → Option β) : (l.map f).mapM id = l.mapM f := by
  induction l with
  | nil => rfl
  | cons a l ih => rw [List.map_cons, List.mapM_cons, List.mapM_cons, ih]; rfl

theorem map_fst {α β : Type} (o : Option α) (b : α → β) : o.map ((fun p : α × β => p.1) ∘ fun a => (a, b a)) = o := by cases o <;> rfl

theorem load_ne {sep off : Char} {t : Str} {x : Scp.Scp Str Str} (h : Scp.load sep off t = some x) : x.key ≠ [] := by
  intro h0
  unfold Scp.load at h
  simp only [Option.bind_eq_bind, Option.bind_eq_some_iff] at h
  obtain ⟨f, _, p, hp, h⟩ := h
  have hk : x.key = f.map (·.1) := by
    obtain ⟨_, _, _, rfl⟩ := Scp.create_iff.1 h
    rfl
  rw [h0] at hk
  have : f = [] := by
    cases f with
    | nil => rfl
    | cons a f => simp at hk
  subst this
  simp [Scp.parseScript, Scp.parseOffsets] at hp

theorem split_wf {x y : Scp.Scp Str Str} {i P : Nat} {b : Bool} (h : x.split i P b = some y) : y.WF ∧ y.cache = none := by
  unfold Scp.Scp.split at h
  cases b <;>
  · simp only [Bool.false_eq_true, if_true, if_false, Option.bind_eq_bind, Option.bind_eq_some_iff] at h
    obtain ⟨p, _, h⟩ := h
    exact ⟨(Scp.select_some h).1, (Scp.select_some h).2.1⟩

/-- **C129.** A sequential reader of recordings, after any history of reads of `k₁, k₂, ...` records (none of them 0): what came out is the first
`k₁ + k₂ + ...` entries of the script, in order, each read from its specifier, and the history raises iff one of those raises; the reader is at the
end iff all entries were read; a final `read()` gives all the others, and `reset()` starts again. -/
theorem C129_history (w : World K) (text : Str) (x : Scp.Scp Str Str) (hl : Scp.load ' ' ':' text = some x) (scale : K) :
    ∃ r : Reader K, openSeq text none scale 1 1 = some r ∧
      ∀ ks : List Nat, (∀ k ∈ ks, 0 < k) → ∀ out r',
        (runReads w ks r = some (out, r') ↔
          (x.entries.take ks.sum).mapM (fun e => (readSpec w scale e.2.1).map (fun y => (e.1, y))) = some out ∧
          r' = { r with cur := min ks.sum x.entries.length }) ∧
        (runReads w ks r = some (out, r') →
          (r'.eof = true ↔ x.entries.length ≤ ks.sum) ∧ r'.reset = r ∧
          (r'.read w 0).map (fun p => p.1) =
            (x.entries.drop ks.sum).mapM (fun e => (readSpec w scale e.2.1).map (fun y => (e.1, y)))) := by
  have hx : x.WF := Copy.load_wf hl
  have ho : openSeq (K := K) text none scale 1 1 = some ⟨x, none, scale, 0⟩ := by
    unfold openSeq openBase takePart
    rw [hl]; rfl
  refine ⟨_, ho, ?_⟩
  intro ks hk out r'
  have hr : recs w (⟨x, none, scale, 0⟩ : Reader K) = x.entries.map (fun e => (readSpec w scale e.2.1).map (fun y => (e.1, y))) := rfl
  have hrun := runReads_eq w ks hk ⟨x, none, scale, 0⟩ hx (Nat.zero_le _)
  rw [hr] at hrun
  simp only [List.drop_zero, List.length_map, Nat.zero_add, ← List.map_take, mapM_id_map] at hrun
  have hiff : runReads w ks (⟨x, none, scale, 0⟩ : Reader K) = some (out, r') ↔
      (x.entries.take ks.sum).mapM (fun e => (readSpec w scale e.2.1).map (fun y => (e.1, y))) = some out ∧
      r' = { (⟨x, none, scale, 0⟩ : Reader K) with cur := min ks.sum x.entries.length } := by
    rw [hrun, Option.map_eq_some_iff]
    constructor
    · rintro ⟨xs, h1, h2⟩
      simp only [Prod.mk.injEq] at h2
      exact ⟨by rw [h1, h2.1], h2.2.symm⟩
    · rintro ⟨h1, h2⟩
      exact ⟨out, h1, by rw [h2]⟩
  refine ⟨hiff, ?_⟩
  intro h
  obtain ⟨-, rfl⟩ := hiff.1 h
  refine ⟨?_, rfl, ?_⟩
  · show decide (min ks.sum x.entries.length = x.key.length) = true ↔ _
    rw [decide_eq_true_eq, ← Scp.entries_length hx]
    omega
  · rw [read_zero, loop_eq w _ _ hx (by
      show min ks.sum x.entries.length ≤ (recs w (⟨x, none, scale, 0⟩ : Reader K)).length
      rw [hr, List.length_map]; omega)]
    rw [recs_cur w (⟨x, none, scale, 0⟩ : Reader K), hr]
    simp only [Option.map_map, ← List.map_drop, ← List.map_take, mapM_id_map]
    have e : (x.entries.drop (min ks.sum x.entries.length)).take (x.key.length - min ks.sum x.entries.length) = x.entries.drop ks.sum := by
      rw [← Scp.entries_length hx]
      by_cases h : ks.sum ≤ x.entries.length
      · rw [Nat.min_eq_left h, List.take_of_length_le (by simp)]
      · rw [Nat.min_eq_right (by omega), List.drop_length, List.drop_eq_nil_of_le (by omega), List.take_nil]
    rw [e]
    exact map_fst _ _

/-- **C129 (iteration).** A `for` loop over the reader gives all the entries of the script, in order. -/
theorem C129_iteration (w : World K) (text : Str) (x : Scp.Scp Str Str) (hl : Scp.load ' ' ':' text = some x) (scale : K) :
    ((openSeq text none scale 1 1).bind (fun r => r.iter w r.fuel)).map (fun p => p.1) =
      x.entries.mapM (fun e => (readSpec w scale e.2.1).map (fun y => (e.1, y))) := by
  have hx : x.WF := Copy.load_wf hl
  have ho : openSeq (K := K) text none scale 1 1 = some ⟨x, none, scale, 0⟩ := by
    unfold openSeq openBase takePart
    rw [hl]; rfl
  have hr : recs w (⟨x, none, scale, 0⟩ : Reader K) = x.entries.map (fun e => (readSpec w scale e.2.1).map (fun y => (e.1, y))) := rfl
  rw [ho, Option.bind_some, iter_eq w _ hx _ (Nat.zero_le _) (by
    rw [hr, List.length_map, Scp.entries_length hx]; exact Nat.lt_succ_self _)]
  rw [hr]
  simp only [Option.map_map, List.drop_zero, mapM_id_map]
  exact map_fst _ _

/-- **C129 (parts).** The readers of the parts `1..P` of a script with `P > 1`, together, read every entry of the script exactly once, and the entries of one
recording are all read by the same part. -/
theorem C129_parts (w : World K) (text : Str) (x : Scp.Scp Str Str) (hl : Scp.load ' ' ':' text = some x) (scale : K) (P : Nat) (hP : 1 < P) :
    ∃ parts : List (Reader K), (List.range' 1 P).mapM (fun i : Nat => openSeq text none scale i P) = some parts ∧
      (parts.flatMap (fun r => r.scp.entries)).Perm x.entries ∧
      (∀ p ∈ parts, ∀ k ∈ p.scp.key, p.scp.entries.filter (fun e => decide (e.1 = k)) = x.entries.filter (fun e => decide (e.1 = k))) ∧
      (∀ p ∈ parts, (p.iter w p.fuel).map (fun q => q.1) =
        p.scp.entries.mapM (fun e => (readSpec w scale e.2.1).map (fun y => (e.1, y)))) := by
  have hx : x.WF := Copy.load_wf hl
  have hne : x.key ≠ [] := load_ne hl
  obtain ⟨parts, h1, h2, h3⟩ := Scp.C07_group_split x hx hne P (by omega)
  refine ⟨parts.map (fun y => ⟨y, none, scale, 0⟩), ?_, ?_, ?_, ?_⟩
  · rw [mapM_eq_some_iff] at h1 ⊢
    rw [List.map_map]
    have : ∀ i : Nat, openSeq (K := K) text none scale i P = (x.split i P true).map (fun y => ⟨y, none, scale, 0⟩) := by
      intro i
      unfold openSeq openBase takePart
      rw [hl]
      simp only [Option.bind_some, gt_iff_lt, hP, if_true]
    simp only [this]
    rw [show (fun i : Nat => (x.split i P true).map (fun y => (⟨y, none, scale, 0⟩ : Reader K))) =
      (fun o : Option (Scp.Scp Str Str) => o.map (fun y => (⟨y, none, scale, 0⟩ : Reader K))) ∘ (fun i => x.split i P true) from rfl]
    rw [← List.map_map, h1, List.map_map]
    rfl
  · rw [List.flatMap_map]; exact h2
  · intro p hp
    obtain ⟨y, hy, rfl⟩ := List.mem_map.1 hp
    intro k hk
    convert h3 y hy k hk
  · intro p hp
    obtain ⟨y, hy, rfl⟩ := List.mem_map.1 hp
    have hyx : y.WF := by
      have : some y ∈ parts.map some := List.mem_map_of_mem hy
      rw [← mapM_eq_some_iff.1 h1, List.mem_map] at this
      obtain ⟨i, _, hi⟩ := this
      exact (split_wf hi).1
    have hr : recs w (⟨y, none, scale, 0⟩ : Reader K) = y.entries.map (fun e => (readSpec w scale e.2.1).map (fun y => (e.1, y))) := rfl
    rw [iter_eq w _ hyx _ (Nat.zero_le _) (by
      rw [hr, List.length_map, Scp.entries_length hyx]; exact Nat.lt_succ_self _)]
    rw [hr]
    simp only [Option.map_map, List.drop_zero, mapM_id_map]
    exact map_fst _ _

end Hyp.Audio
