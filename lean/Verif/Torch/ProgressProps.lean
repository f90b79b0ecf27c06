import Verif.Torch.Progress
import Verif.TextLemmas
import Mathlib.Data.List.Forall2
import Mathlib.Algebra.Order.Floor.Semifield
import Mathlib.Tactic.Ring
import Mathlib.Tactic.Linarith
import Mathlib.Tactic.IntervalCases
import Mathlib.Tactic.FieldSimp
import Mathlib.Tactic.Positivity
import Mathlib.Algebra.Order.Ring.Rat
import Mathlib.Data.Rat.Floor

/-!
C164: progress lines of a training, and lists of loggers.
-/

namespace Hyp.Torch
open Hyp.Text

/-! ### Specification -/

/-- The text `x` names a time of `n` seconds: seconds with an `s`, or minutes:seconds, hours:minutes:seconds,
days:hours:minutes:seconds, with a first number that is not zero. -/
inductive Clock : Str → Nat → Prop
  | sec (s : Nat) : s < 60 → Clock (printNat s ++ "s".toList) s
  | min (m s : Nat) : 0 < m → m < 60 → s < 60 → Clock (printNat m ++ ":".toList ++ printNat s) (60 * m + s)
  | hour (h m s : Nat) : 0 < h → h < 24 → m < 60 → s < 60 →
      Clock (printNat h ++ ":".toList ++ printNat m ++ ":".toList ++ printNat s) (3600 * h + 60 * m + s)
  | day (d h m s : Nat) : 0 < d → h < 24 → m < 60 → s < 60 →
      Clock (printNat d ++ ":".toList ++ printNat h ++ ":".toList ++ printNat m ++ ":".toList ++ printNat s)
        (86400 * d + 3600 * h + 60 * m + s)

/-- What a line of the log is about. -/
inductive Item (K : Type) where
  | start (epoch : Nat)
  | batch (epoch batch done total : Nat) (elapsed : K) (logs : List (Str × K))
  | finish (epoch : Nat) (logs : List (Str × K))

section
variable {K : Type} [Field K] [LinearOrder K] [IsStrictOrderedRing K] [FloorRing K]

/-- The metrics to be shown, as text: those in `metrics` (all for `None`), in the order of `logs`. -/
def shown (fmt : K → Str) (metrics : Option (List Str)) (logs : List (Str × K)) : Str :=
  (logs.filter fun kv => metrics = none ∨ ∃ l, metrics = some l ∧ kv.1 ∈ l).flatMap
    fun kv => " ".toList ++ kv.1 ++ ": ".toList ++ fmt kv.2

/-- The line `line` tells about `item` in a training of `E` epochs.  Elapsed time, remaining time (elapsed time
times remaining samples over samples done) and percentage are rounded downwards; times are legible up to 31 days. -/
def Shows (fmt : K → Str) (metrics : Option (List Str)) (E : Nat) : Item K → Str → Prop
  | .start e, line =>
    line = "epoch: ".toList ++ printNat (e + 1) ++ "/".toList ++ printNat E ++ " starts".toList
  | .batch e b done total et logs, line => ∃ x y,
    (et < 31 * 86400 → Clock x ⌊et⌋.toNat) ∧
    (et * (total - done : ℤ) / done < 31 * 86400 → Clock y ⌊et * (total - done : ℤ) / done⌋.toNat) ∧
    line = "epoch: ".toList ++ printNat (e + 1) ++ "/".toList ++ printNat E ++ " ".toList ++
      " et: ".toList ++ x ++ " eta: ".toList ++ y ++ " batches: ".toList ++ printNat b ++
      " samples: ".toList ++ printNat done ++ "/".toList ++ printNat total ++
        "(".toList ++ printNat (100 * done / total) ++ "%)".toList ++ shown fmt metrics logs
  | .finish e logs, line =>
    line = "epoch: ".toList ++ printNat (e + 1) ++ "/".toList ++ printNat E ++ " ".toList ++
      shown fmt metrics logs

/-- The lines expected from one epoch: its start, every `interval`-th batch from the first on with the samples
processed so far, its end. -/
def epochItems (interval e : Nat) (r : EpochRun K) : List (Item K) :=
  [.start e] ++
  ((List.range r.batches.length).filter fun b => interval ∣ b).filterMap (fun b =>
    (r.batches[b]?).map fun x =>
      .batch e b (((r.batches.take (b + 1)).map Batch.size).sum) r.samples (x.now - r.start) x.logs) ++
  [.finish e r.logs]

/-- An epoch as a data loader and a clock can produce it: non-empty batches of at most all samples, and no step
back of the clock. -/
def EpochOk (r : EpochRun K) : Prop :=
  (∀ x ∈ r.batches, 0 < x.size ∧ r.start ≤ x.now) ∧ (r.batches.map Batch.size).sum ≤ r.samples

end

/-- The call `e'` is what reaches a logger of a list that is called with `e`: the same call, with no metrics
(`None`) replaced by an empty dictionary. -/
inductive Passed {K : Type} : Ev K → Ev K → Prop
  | trainBegin (n : Option Nat) : Passed (.trainBegin n) (.trainBegin n)
  | epochBegin (e : Nat) (s b : Option Nat) (t : K) : Passed (.epochBegin e s b t) (.epochBegin e s b t)
  | batchBegin (b : Nat) : Passed (.batchBegin b) (.batchBegin b)
  | batchEnd (logs : List (Str × K)) (n : Option Nat) (t : K) :
      Passed (.batchEnd (some logs) n t) (.batchEnd (some logs) n t)
  | batchEndNone (n : Option Nat) (t : K) : Passed (.batchEnd none n t) (.batchEnd (some []) n t)
  | epochEnd (logs : List (Str × K)) : Passed (.epochEnd (some logs)) (.epochEnd (some logs))
  | epochEndNone : Passed (.epochEnd none) (.epochEnd (some []))
  | trainEnd : Passed .trainEnd .trainEnd

/-! ### Times -/

private def readFields : List Str → Option Nat
  | [a] => parseNat (a.take (a.length - 1))
  | [a, b] => (parseNat a).bind fun m => (parseNat b).map fun s => 60 * m + s
  | [a, b, c] => (parseNat a).bind fun h => (parseNat b).bind fun m => (parseNat c).map fun s => 3600 * h + 60 * m + s
  | [a, b, c, d] => (parseNat a).bind fun x => (parseNat b).bind fun h => (parseNat c).bind fun m =>
      (parseNat d).map fun s => 86400 * x + 3600 * h + 60 * m + s
  | _ => none

theorem clock_read {x : Str} {n : Nat} (h : Clock x n) : readFields (splitAll ':' x) = some n := by
  have hc : ∀ n, ':' ∉ printNat n := fun n => not_mem_printNat (by decide)
  cases h with
  | sec s hs =>
    rw [splitAll_noSep (by simp [hc n])]
    simp [readFields]
  | min m s =>
    have : printNat m ++ ":".toList ++ printNat s = printNat m ++ ':' :: printNat s := by simp
    rw [this, splitAll_append (hc m), splitAll_noSep (hc s)]
    simp [readFields]
  | hour h m s =>
    have : printNat h ++ ":".toList ++ printNat m ++ ":".toList ++ printNat s =
      printNat h ++ ':' :: (printNat m ++ ':' :: printNat s) := by simp
    rw [this, splitAll_append (hc h), splitAll_append (hc m), splitAll_noSep (hc s)]
    simp [readFields]
  | day d h m s =>
    have : printNat d ++ ":".toList ++ printNat h ++ ":".toList ++ printNat m ++ ":".toList ++ printNat s =
      printNat d ++ ':' :: (printNat h ++ ':' :: (printNat m ++ ':' :: printNat s)) := by simp
    rw [this, splitAll_append (hc d), splitAll_append (hc h), splitAll_append (hc m), splitAll_noSep (hc s)]
    simp [readFields]

/-- **C164** (the notation): a text names at most one number of seconds. -/
theorem C164_time_unique {x : Str} {n m : Nat} (h : Clock x n) (h' : Clock x m) : n = m := by
  have a := clock_read h
  rw [clock_read h'] at a
  exact (Option.some.inj a).symm

theorem gmMday_range (d : Int) : 1 ≤ gmMday d ∧ gmMday d ≤ 31 := by
  unfold gmMday
  dsimp only
  omega

theorem gmMday_january {d : Int} (h0 : 0 ≤ d) (h1 : d < 31) : gmMday d = d + 1 := by
  interval_cases d <;> rfl

theorem sec2strI_clock (s : Int) :
    Clock (sec2strI s) (86400 * (gmMday (s / 86400) - 1).toNat + (s % 86400).toNat) := by
  have hr := gmMday_range (s / 86400)
  unfold sec2strI
  generalize gmMday (s / 86400) = md at hr ⊢
  dsimp only
  have h0 : 0 ≤ s % 86400 := Int.emod_nonneg _ (by decide)
  have h1 : s % 86400 < 86400 := Int.emod_lt_of_pos _ (by decide)
  generalize s % 86400 = r at h0 h1 ⊢
  by_cases hd : 1 < md
  · rw [if_pos hd]
    have := Clock.day (md - 1).toNat (r / 3600).toNat (r % 3600 / 60).toNat (r % 60).toNat (by omega) (by omega)
      (by omega) (by omega)
    convert this using 1
    · simp
    · omega
  · rw [if_neg hd]
    by_cases hh : 0 < r / 3600
    · rw [if_pos hh]
      have := Clock.hour (r / 3600).toNat (r % 3600 / 60).toNat (r % 60).toNat (by omega) (by omega)
        (by omega) (by omega)
      convert this using 1
      · simp
      · omega
    · rw [if_neg hh]
      by_cases hm : 0 < r % 3600 / 60
      · rw [if_pos hm]
        have := Clock.min (r % 3600 / 60).toNat (r % 60).toNat (by omega) (by omega) (by omega)
        convert this using 1
        · simp
        · omega
      · rw [if_neg hm]
        have := Clock.sec (r % 60).toNat (by omega)
        have hn : 86400 * (md - 1).toNat + r.toNat = (r % 60).toNat := by omega
        rw [hn]
        exact this

section
variable {K : Type} [Field K] [LinearOrder K] [IsStrictOrderedRing K] [FloorRing K]

/-- **C164** (times): a time from 0 up to 31 days is printed as its whole seconds. -/
theorem C164_time_text {t : K} (h0 : 0 ≤ t) (h1 : t < 31 * 86400) : Clock (sec2str t) ⌊t⌋.toNat := by
  have f0 : 0 ≤ ⌊t⌋ := Int.floor_nonneg.2 h0
  have f1 : ⌊t⌋ < 31 * 86400 := by
    rw [Int.floor_lt]; push_cast; linarith
  have := sec2strI_clock ⌊t⌋
  rw [gmMday_january (by omega) (by omega)] at this
  unfold sec2str
  convert this using 1
  omega

/-- **C164** (times, limit): a time of 31 days or more, or a negative one, is printed as another time. -/
theorem C164_not_time_text {t : K} (h : 31 * 86400 ≤ t ∨ t < 0) (n : Nat) (hn : (n : ℤ) = ⌊t⌋) :
    ¬ Clock (sec2str t) n := by
  intro hc
  have := C164_time_unique hc (sec2strI_clock ⌊t⌋)
  have hr := gmMday_range (⌊t⌋ / 86400)
  rcases h with h | h
  · have : (31 * 86400 : ℤ) ≤ ⌊t⌋ := by rw [Int.le_floor]; push_cast; linarith
    omega
  · have : ⌊t⌋ < 0 := by rw [Int.floor_lt]; simpa using h
    omega

/-- Examples: 61.5 seconds, three days; 31 days are printed as no time at all. -/
example : sec2str (61.5 : ℚ) = "1:1".toList ∧ sec2str (3 * 86400 + 7 : ℚ) = "3:0:0:7".toList ∧
    sec2str (31 * 86400 : ℚ) = "0s".toList ∧ sec2str (-1 : ℚ) = "30:23:59:59".toList := by
  decide +kernel

/-! ### Lines of a training -/

theorem metricsText_shown (fmt : K → Str) (metrics : Option (List Str)) (logs : List (Str × K)) :
    metricsText fmt metrics logs = shown fmt metrics logs := by
  induction logs with
  | nil => rfl
  | cons kv rest ih =>
    obtain ⟨k, v⟩ := kv
    unfold metricsText shown
    rw [ih, List.filter_cons]
    cases metrics with
    | none => simp [shown]
    | some l =>
      by_cases hk : k ∈ l <;> simp [shown, hk]

theorem ratio_floor {a b : Nat} (hb : 0 < b) : ⌊(100 * a : K) / b⌋.toNat = 100 * a / b := by
  have : (100 * a : K) / b = ((100 * a : ℕ) : K) / (b : ℕ) := by push_cast; rfl
  rw [this]
  rw [Int.floor_toNat, Nat.floor_div_eq_div]

/-- The line of one batch. -/
theorem batchLine_shows (fmt : K → Str) (s : Prog K) (now : K) (logs : List (Str × K))
    (hb : s.batches = 0) (hd : 0 < s.curSample) (hs : s.curSample ≤ s.samples) (ht : s.t0 ≤ now) :
    ∃ line, batchLine fmt s now (some logs) = some line ∧
      Shows fmt s.metrics s.epochs (.batch s.curEpoch s.curBatch s.curSample s.samples (now - s.t0) logs) line := by
  have hs0 : 0 < s.samples := by omega
  have het : 0 ≤ now - s.t0 := sub_nonneg.2 ht
  have hdK : (0 : K) < s.curSample := by exact_mod_cast hd
  have htot : 0 ≤ (now - s.t0) / s.curSample * s.samples := by positivity
  have hest : estimate s now = some (sec2str (now - s.t0),
      some (sec2str ((now - s.t0) / s.curSample * s.samples - (now - s.t0)))) := by
    unfold estimate totalTime
    rw [hb, if_neg (by decide), if_pos hs0, if_neg (by omega), Option.map_some, if_neg (by linarith)]
  have heta : (now - s.t0) / s.curSample * s.samples - (now - s.t0) =
      (now - s.t0) * ((s.samples : ℤ) - (s.curSample : ℤ) : ℤ) / s.curSample := by
    push_cast
    field_simp
  refine ⟨_, by unfold batchLine; rw [hest]; rfl, sec2str (now - s.t0),
    sec2str ((now - s.t0) / s.curSample * s.samples - (now - s.t0)), ?_, ?_, ?_⟩
  · intro h; exact C164_time_text het h
  · rw [← heta]
    intro h
    refine C164_time_text ?_ h
    rw [heta]
    have : (0 : ℤ) ≤ (s.samples : ℤ) - s.curSample := by omega
    have : (0 : K) ≤ ((s.samples : ℤ) - (s.curSample : ℤ) : ℤ) := by exact_mod_cast this
    positivity
  · unfold epochText timeText batchesText samplesText ratioText
    dsimp only
    rw [hb, if_neg (by decide), if_pos hd, if_pos hs0, ratio_floor hs0, metricsText_shown]
    simp

/-- The batch lines, recursively. -/
private def batchItems (interval e total : Nat) (t0 : K) (b done : Nat) : List (Batch K) → List (Item K)
  | [] => []
  | x :: xs =>
    (if interval ∣ b then [.batch e b (done + x.size) total (x.now - t0) x.logs] else []) ++
      batchItems interval e total t0 (b + 1) (done + x.size) xs

theorem batchItems_range (interval e total : Nat) (t0 : K) (xs : List (Batch K)) : ∀ b done,
    batchItems interval e total t0 b done xs =
      ((List.range xs.length).filter fun j => interval ∣ b + j).filterMap fun j =>
        (xs[j]?).map fun x =>
          .batch e (b + j) (done + ((xs.take (j + 1)).map Batch.size).sum) total (x.now - t0) x.logs := by
  induction xs with
  | nil => intro b done; rfl
  | cons x xs ih =>
    intro b done
    unfold batchItems
    rw [ih, List.length_cons, List.range_succ_eq_map, List.filter_cons, List.filter_map]
    have hf : ((fun j => decide (interval ∣ b + j)) ∘ Nat.succ) = fun j => decide (interval ∣ b + 1 + j) := by
      funext j; simp [Nat.succ_eq_add_one, Nat.add_assoc, Nat.add_comm 1 j]
    rw [hf]
    have hg : ∀ l : List Nat, (l.map Nat.succ).filterMap (fun j => ((x :: xs)[j]?).map fun y =>
          Item.batch e (b + j) (done + (((x :: xs).take (j + 1)).map Batch.size).sum) total (y.now - t0) y.logs) =
        l.filterMap (fun j => (xs[j]?).map fun y =>
          Item.batch e (b + 1 + j) (done + x.size + ((xs.take (j + 1)).map Batch.size).sum) total (y.now - t0)
            y.logs) := by
      intro l
      rw [List.filterMap_map]
      congr 1
      funext j
      simp [Nat.succ_eq_add_one, Nat.add_assoc, Nat.add_comm 1 j]
    by_cases hb : interval ∣ b
    · rw [if_pos hb, if_pos (by simpa using hb), List.filterMap_cons]
      simp only [List.getElem?_cons_zero, Option.map_some]
      rw [hg]
      simp
    · rw [if_neg hb, if_neg (by simpa using hb), hg]
      rfl

/-- All batches of an epoch. -/
theorem batches_run (fmt : K → Str) (xs : List (Batch K)) : ∀ (s : Prog K) (b : Nat),
    0 < s.interval → s.batches = 0 → (∀ x ∈ xs, 0 < x.size ∧ s.t0 ≤ x.now) →
    s.curSample + (xs.map Batch.size).sum ≤ s.samples →
    ∃ s' out, runCalls (progStep fmt) s (batchCalls b xs) = some (s', out) ∧
      (s'.metrics = s.metrics ∧ s'.interval = s.interval ∧ s'.epochs = s.epochs ∧ s'.curEpoch = s.curEpoch) ∧
      List.Forall₂ (Shows fmt s.metrics s.epochs)
        (batchItems s.interval s.curEpoch s.samples s.t0 b s.curSample xs) out.flatten := by
  induction xs with
  | nil => intro s b _ _ _ _; exact ⟨s, [], rfl, ⟨rfl, rfl, rfl, rfl⟩, .nil⟩
  | cons x xs ih =>
    intro s b hi hb hx hsum
    have hx0 := hx x (by simp)
    rw [List.map_cons, List.sum_cons] at hsum
    let s1 : Prog K := { s with curBatch := b, curSample := s.curSample + x.size }
    obtain ⟨s', out, hrun, hkeep, hshow⟩ := ih s1 (b + 1) hi hb (fun y hy => hx y (by simp [hy]))
      (by show s.curSample + x.size + _ ≤ s.samples; omega)
    have hstep : ∃ ls, batchEnd fmt { s with curBatch := b } (some x.logs) (some x.size) x.now = some (s1, ls) ∧
        List.Forall₂ (Shows fmt s.metrics s.epochs)
          (if s.interval ∣ b then [.batch s.curEpoch b (s.curSample + x.size) s.samples (x.now - s.t0) x.logs]
            else []) ls := by
      unfold batchEnd
      dsimp only
      rw [if_neg (by omega)]
      by_cases hd : s.interval ∣ b
      · rw [if_pos (Nat.mod_eq_zero_of_dvd hd), if_pos hd]
        obtain ⟨line, hl, hs⟩ := batchLine_shows fmt s1 x.now x.logs hb
          (by show 0 < s.curSample + x.size; omega) (by show s.curSample + x.size ≤ s.samples; omega) hx0.2
        refine ⟨[line], ?_, .cons hs .nil⟩
        have hl : batchLine fmt { s with curBatch := b, curSample := s.curSample + x.size } x.now (some x.logs) =
          some line := hl
        show (batchLine fmt { s with curBatch := b, curSample := s.curSample + x.size } x.now (some x.logs)).map _ =
          _
        rw [hl]; rfl
      · rw [if_neg (fun h => hd (Nat.dvd_of_mod_eq_zero h)), if_neg hd]
        exact ⟨[], rfl, .nil⟩
    obtain ⟨ls, hst, hls⟩ := hstep
    refine ⟨s', [] :: ls :: out, ?_, hkeep, ?_⟩
    · show (runCalls (progStep fmt) { s with curBatch := b }
        (.batchEnd (some x.logs) (some x.size) x.now :: batchCalls (b + 1) xs)).map _ = _
      have : runCalls (progStep fmt) { s with curBatch := b }
        (.batchEnd (some x.logs) (some x.size) x.now :: batchCalls (b + 1) xs) =
        (batchEnd fmt { s with curBatch := b } (some x.logs) (some x.size) x.now).bind fun r =>
          (runCalls (progStep fmt) r.1 (batchCalls (b + 1) xs)).map fun q => (q.1, r.2 :: q.2) := rfl
      rw [this, hst, Option.bind_some, hrun]
      rfl
    · show List.Forall₂ _ _ (ls ++ out.flatten)
      unfold batchItems
      exact List.rel_append hls hshow

theorem runCalls_append {σ ω : Type} (step : σ → Ev K → Option (σ × ω)) (es fs : List (Ev K)) : ∀ s : σ,
    runCalls step s (es ++ fs) = (runCalls step s es).bind fun r =>
      (runCalls step r.1 fs).map fun q => (q.1, r.2 ++ q.2) := by
  induction es with
  | nil => intro s; show runCalls step s fs = (some (s, [])).bind _; simp
  | cons e es ih =>
    intro s
    show (step s e).bind _ = ((step s e).bind _).bind _
    cases step s e with
    | none => rfl
    | some r =>
      simp only [Option.bind_some]
      have ih : runCalls step r.1 (es.append fs) = _ := ih r.1
      rw [ih]
      cases runCalls step r.1 es with
      | none => rfl
      | some q =>
        simp only [Option.bind_some, Option.map_some]
        cases runCalls step q.1 fs <;> simp

/-- One epoch, after any history. -/
theorem epoch_run (fmt : K → Str) (s : Prog K) (e : Nat) (r : EpochRun K) (hi : 0 < s.interval) (hr : EpochOk r) :
    ∃ s' out, runCalls (progStep fmt) s (epochCalls e r) = some (s', out) ∧
      (s'.metrics = s.metrics ∧ s'.interval = s.interval ∧ s'.epochs = s.epochs) ∧
      List.Forall₂ (Shows fmt s.metrics s.epochs) (epochItems s.interval e r) out.flatten := by
  obtain ⟨s2, out, hrun, ⟨k1, k2, k3, k4⟩, hshow⟩ := batches_run fmt r.batches
    (epochBegin s e (some r.samples) none r.start).1 0 hi rfl hr.1 (by
      show 0 + _ ≤ r.samples
      rw [Nat.zero_add]; exact hr.2)
  refine ⟨s2, (epochBegin s e (some r.samples) none r.start).2 :: (out ++ [[epochText s2 ++
    metricsText fmt s2.metrics r.logs]]), ?_, ⟨k1, k2, k3⟩, ?_⟩
  · show (runCalls (progStep fmt) (epochBegin s e (some r.samples) none r.start).1
      (batchCalls 0 r.batches ++ [.epochEnd (some r.logs)])).map _ = _
    rw [runCalls_append, hrun]
    rfl
  · unfold epochItems
    have hflat : ((epochBegin s e (some r.samples) none r.start).2 :: (out ++ [[epochText s2 ++
        metricsText fmt s2.metrics r.logs]])).flatten = (epochBegin s e (some r.samples) none r.start).2 ++
        out.flatten ++ [epochText s2 ++ metricsText fmt s2.metrics r.logs] := by simp
    rw [hflat]
    refine List.rel_append (List.rel_append (.cons ?_ .nil) ?_) (.cons ?_ .nil)
    · show _ = _
      simp
    · have hshow : List.Forall₂ (Shows fmt s.metrics s.epochs)
        (batchItems s.interval e r.samples r.start 0 0 r.batches) out.flatten := hshow
      rw [batchItems_range] at hshow
      simpa using hshow
    · show _ = _
      unfold epochText
      have k1 : s2.metrics = s.metrics := k1
      have k3 : s2.epochs = s.epochs := k3
      have k4 : s2.curEpoch = e := k4
      rw [k1, k3, k4, metricsText_shown]
      simp

/-- **C164** (progress of a training): a training of `E` epochs that starts with epoch number `first` never
raises in the logger and prints, epoch by epoch, one line at the start, one line for every `interval`-th batch
(with the samples done in this epoch, the percentage, the elapsed and the remaining time, and the requested
metrics) and one at the end, whatever the attributes of the logger were before. -/
theorem C164_training_lines (fmt : K → Str) (s : Prog K) (E first : Nat) (rs : List (EpochRun K))
    (hi : 0 < s.interval) (hr : ∀ r ∈ rs, EpochOk r) :
    ∃ s' out, runCalls (progStep fmt) s (fitCalls E first rs) = some (s', out) ∧
      List.Forall₂ (Shows fmt s.metrics E)
        ((rs.zipIdx first).flatMap fun p => epochItems s.interval p.2 p.1) out.flatten := by
  have key : ∀ (rs : List (EpochRun K)) (s : Prog K) (e : Nat), 0 < s.interval → (∀ r ∈ rs, EpochOk r) →
      ∃ s' out, runCalls (progStep fmt) s (epochsCalls e rs) = some (s', out) ∧
      List.Forall₂ (Shows fmt s.metrics s.epochs)
        ((rs.zipIdx e).flatMap fun p => epochItems s.interval p.2 p.1) out.flatten := by
    intro rs
    induction rs with
    | nil => intro s e _ _; exact ⟨s, [], rfl, .nil⟩
    | cons r rs ih =>
      intro s e hi hr
      obtain ⟨s1, out1, h1, ⟨k1, k2, k3⟩, f1⟩ := epoch_run fmt s e r hi (hr r (by simp))
      obtain ⟨s2, out2, h2, f2⟩ := ih s1 (e + 1) (k2 ▸ hi) (fun x hx => hr x (by simp [hx]))
      rw [k1, k2, k3] at f2
      refine ⟨s2, out1 ++ out2, ?_, ?_⟩
      · show runCalls _ _ (epochCalls e r ++ epochsCalls (e + 1) rs) = _
        rw [runCalls_append, h1, Option.bind_some, h2]; rfl
      · rw [List.flatten_append, List.zipIdx_cons, List.flatMap_cons]
        exact List.rel_append f1 f2
  obtain ⟨s', out, h, f⟩ := key rs { s with epochs := E } first hi hr
  refine ⟨s', [] :: out, ?_, f⟩
  show (runCalls (progStep fmt) { s with epochs := E } (epochsCalls first rs)).map _ = _
  rw [h]; rfl

/-- An epoch of ten samples in three batches, two of them shown with interval 2. -/
private def exEpoch : EpochRun ℚ :=
  ⟨10, 100, [⟨4, [("loss".toList, 3)], 103⟩, ⟨4, [("loss".toList, 2)], 106⟩, ⟨2, [("loss".toList, 1)], 160⟩],
    [("loss".toList, 1), ("lr".toList, 0)]⟩

example : EpochOk exEpoch := by unfold EpochOk; decide +kernel

example : ((runCalls (progStep fun v : ℚ => printNat v.num.toNat) (Prog.new (some ["loss".toList]) 2)
      (fitCalls 7 4 [exEpoch])).map fun r => r.2.flatten) =
    some ["epoch: 5/7 starts".toList,
      "epoch: 5/7  et: 3s eta: 4s batches: 0 samples: 4/10(40%) loss: 3".toList,
      "epoch: 5/7  et: 1:0 eta: 0s batches: 2 samples: 10/10(100%) loss: 1".toList,
      "epoch: 5/7  loss: 1".toList] := by
  decide +kernel

/-- **C164** (limit): if the number of batches is announced at the start of an epoch, the end of the first batch
raises (division by zero), whatever happened before and whatever the interval is. -/
theorem C164_batches_announced_raises (fmt : K → Str) (s : Prog K) (e n : Nat) (hn : 0 < n) (samples : Option Nat)
    (t t' : K) (logs : Option (List (Str × K))) (size : Option Nat) (later : List (Ev K)) :
    runCalls (progStep fmt) s (.epochBegin e samples (some n) t :: .batchBegin 0 :: .batchEnd logs size t' :: later) =
      none := by
  have hend : batchEnd fmt { (epochBegin s e samples (some n) t).1 with curBatch := 0 } logs size t' = none := by
    unfold batchEnd
    dsimp only
    split
    · rfl
    · rw [if_pos (Nat.zero_mod _)]
      have : ∀ (s : Prog K) et, 0 < s.batches → s.curBatch = 0 → totalTime s et = none := by
        intro s et h0 h1
        unfold totalTime
        rw [if_pos h0, if_pos h1]
      unfold batchLine estimate
      rw [this _ _ hn rfl]
      rfl
  show ((batchEnd fmt { (epochBegin s e samples (some n) t).1 with curBatch := 0 } logs size t').bind _ |>.map _ |>.map _)
    = none
  rw [hend]
  rfl

/-! ### Lists of loggers -/

theorem forall2_get {α β : Type} {R : α → β → Prop} {xs : List α} {ys : List β} (h : List.Forall₂ R xs ys) :
    ∀ {i : Nat} {x : α}, xs[i]? = some x → ∃ y, ys[i]? = some y ∧ R x y := by
  induction h with
  | nil => intro i x h; simp at h
  | @cons a b as bs hab _ ih =>
    intro i x hx
    cases i with
    | zero => simp at hx; subst hx; exact ⟨b, by simp, hab⟩
    | succ i => simp at hx; obtain ⟨y, h1, h2⟩ := ih hx; exact ⟨y, by simpa using h1, h2⟩

/-- **C164** (unknown size): if neither samples nor batches are announced, a batch line shows the elapsed time but no remaining time, the batch
and the samples done without percentages. -/
theorem C164_unknown_size (fmt : K → Str) (s : Prog K) (hi : 0 < s.interval) (e n : Nat) (hn : 0 < n) (t0 t : K) (logs : List (Str × K)) :
    ∃ s', runCalls (progStep fmt) s [.epochBegin e none none t0, .batchEnd (some logs) (some n) t] =
      some (s', [["epoch: ".toList ++ printNat (e + 1) ++ "/".toList ++ printNat s.epochs ++ " starts".toList],
        ["epoch: ".toList ++ printNat (e + 1) ++ "/".toList ++ printNat s.epochs ++ "  et: ".toList ++ sec2str (t - t0) ++ " batches: 0 samples: ".toList ++ printNat n ++
          shown fmt s.metrics logs]]) := by
  rw [← metricsText_shown]
  have hend : batchEnd fmt (epochBegin s e none none t0).1 (some logs) (some n) t =
      some ({ (epochBegin s e none none t0).1 with curSample := 0 + n },
        ["epoch: ".toList ++ printNat (e + 1) ++ "/".toList ++ printNat s.epochs ++ "  et: ".toList ++ sec2str (t - t0) ++ " batches: 0 samples: ".toList ++ printNat n ++
          metricsText fmt s.metrics logs]) := by
    unfold batchEnd epochBegin
    dsimp only
    rw [if_neg (by omega), if_pos (Nat.zero_mod _)]
    unfold batchLine estimate totalTime epochText timeText batchesText samplesText
    dsimp only [Option.getD_some, Option.getD_none]
    rw [if_neg (by decide), if_neg (by decide), Option.map_some, if_pos rfl]
    rw [if_neg (by decide), if_pos (by omega), if_neg (by decide), show printNat 0 = ['0'] by decide +kernel]
    simp
  refine ⟨{ (epochBegin s e none none t0).1 with curSample := 0 + n }, ?_⟩
  show ((batchEnd fmt (epochBegin s e none none t0).1 (some logs) (some n) t).bind (fun r => (some (r.1, [])).map fun q => (q.1, r.2 :: q.2))).map
    (fun q => (q.1, (epochBegin s e none none t0).2 :: q.2)) = _
  rw [hend]
  show some (_, [(epochBegin s e none none t0).2, _]) = _
  unfold epochBegin
  simp

/-- **C164 (batch without a size).** A batch that reports no size prints what a batch of size 0 prints and does not change
the count of samples. -/
theorem C164_no_size (fmt : K → Str) (s : Prog K) (logs : Option (List (Str × K))) (t : K) :
    progStep fmt s (.batchEnd logs none t) = progStep fmt s (.batchEnd logs (some 0) t) ∧
      ∀ s' out, progStep fmt s (.batchEnd logs none t) = some (s', out) → s'.curSample = s.curSample := by
  refine ⟨rfl, fun s' out h => ?_⟩
  have h : batchEnd fmt s logs none t = some (s', out) := h
  unfold batchEnd at h
  dsimp only at h
  split at h
  · cases h
  · split at h
    · obtain ⟨line, -, hl⟩ := Option.map_eq_some_iff.1 h
      rw [← (Prod.mk.inj hl).1]
      rfl
    · rw [← (Prod.mk.inj (Option.some.inj h)).1]
      rfl

/-- **C164** (limit): with interval 0 every end of a batch raises. -/
theorem C164_interval_zero_raises (fmt : K → Str) (s : Prog K) (h : s.interval = 0) (logs : Option (List (Str × K)))
    (size : Option Nat) (t : K) (later : List (Ev K)) :
    runCalls (progStep fmt) s (.batchEnd logs size t :: later) = none := by
  show ((batchEnd fmt s logs size t).bind _) = none
  unfold batchEnd
  dsimp only
  rw [if_pos h]; rfl

theorem listStep_some {σ ω : Type} (step : σ → Ev K → Option (σ × ω)) (e : Ev K) (ls : List σ) :
    ∀ rs : List (σ × ω), listStep step e ls = some rs ↔
      List.Forall₂ (fun l r => step l (listed e) = some r) ls rs := by
  induction ls with
  | nil => intro rs; simp [listStep, eq_comm]
  | cons l ls ih =>
    intro rs
    rw [List.forall₂_cons_left_iff]
    simp only [listStep, Option.bind_eq_some_iff, Option.map_eq_some_iff]
    constructor
    · rintro ⟨r, h1, q, h2, rfl⟩
      exact ⟨r, q, h1, (ih q).1 h2, rfl⟩
    · rintro ⟨r, q, h1, h2, rfl⟩
      exact ⟨r, h1, q, (ih q).2 h2, rfl⟩

/-- **C164** (lists of loggers): a list of loggers passes every call to all its loggers, missing metrics as an
empty dictionary.  The training goes on exactly if it goes on with each logger alone, and then every logger ends
up in the state it reaches alone and produces for every call what it produces alone. -/
theorem C164_logger_list {σ ω : Type} (step : σ → Ev K → Option (σ × ω)) (ls : List σ) (calls calls' : List (Ev K))
    (hp : List.Forall₂ Passed calls calls') :
    ((listRun step ls calls).isSome ↔ ∀ l ∈ ls, (runCalls step l calls').isSome) ∧
    ∀ ls' out, listRun step ls calls = some (ls', out) → ls'.length = ls.length ∧ out.length = calls.length ∧
      (∀ row ∈ out, row.length = ls.length) ∧
      ∀ (i : Nat) (l : σ), ls[i]? = some l → ∃ l' o, runCalls step l calls' = some (l', o) ∧
        ls'[i]? = some l' ∧ out.map (fun row => row[i]?) = o.map some := by
  have hl : ∀ e e' : Ev K, Passed e e' → listed e = e' := by
    intro e e' h; cases h <;> rfl
  induction hp generalizing ls with
  | nil =>
    refine ⟨⟨fun _ _ _ => rfl, fun _ => rfl⟩, ?_⟩
    intro ls' out h
    have h : some (ls, []) = some (ls', out) := h
    obtain ⟨rfl, rfl⟩ := Prod.mk.inj (Option.some.inj h)
    exact ⟨rfl, rfl, by simp, fun i l hi => ⟨l, [], rfl, hi, rfl⟩⟩
  | @cons e e' es es' he _ ih =>
    have hstep : ∀ rs, listStep step e ls = some rs ↔ List.Forall₂ (fun l r => step l e' = some r) ls rs := by
      intro rs; rw [listStep_some, hl e e' he]
    have hcons : ∀ l : σ, runCalls step l (e' :: es') = (step l e').bind fun r =>
        (runCalls step r.1 es').map fun q => (q.1, r.2 :: q.2) := fun l => rfl
    have hrun : listRun step ls (e :: es) = (listStep step e ls).bind fun r =>
      (listRun step (r.map Prod.fst) es).map fun q => (q.1, r.map Prod.snd :: q.2) := rfl
    constructor
    · rw [hrun]
      constructor
      · intro h l hlm
        cases hr : listStep step e ls with
        | none => rw [hr] at h; cases h
        | some rs =>
          rw [hr, Option.bind_some, Option.isSome_map, (ih _).1] at h
          have hf := (hstep rs).1 hr
          obtain ⟨i, hi⟩ := List.mem_iff_getElem?.1 hlm
          obtain ⟨r, hri, hsr⟩ := forall2_get hf hi
          rw [hcons, hsr, Option.bind_some, Option.isSome_map]
          exact h r.1 (List.mem_map.2 ⟨r, List.mem_of_getElem? hri, rfl⟩)
      · intro h
        have : ∃ rs, List.Forall₂ (fun l r => step l e' = some r) ls rs := by
          have hall : ∀ l ∈ ls, ∃ r, step l e' = some r := by
            intro l hlm
            have := h l hlm
            rw [hcons] at this
            cases hs : step l e' with
            | none => rw [hs] at this; cases this
            | some r => exact ⟨r, rfl⟩
          clear h hrun hstep
          induction ls with
          | nil => exact ⟨[], .nil⟩
          | cons l ls ihl =>
            obtain ⟨r, hr⟩ := hall l (by simp)
            obtain ⟨rs, hrs⟩ := ihl (fun x hx => hall x (by simp [hx]))
            exact ⟨r :: rs, .cons hr hrs⟩
        obtain ⟨rs, hf⟩ := this
        rw [(hstep rs).2 hf, Option.bind_some, Option.isSome_map, (ih _).1]
        intro x hx
        obtain ⟨r, hr, rfl⟩ := List.mem_map.1 hx
        obtain ⟨i, hi⟩ := List.mem_iff_getElem?.1 hr
        obtain ⟨l, hli, hsl⟩ := forall2_get hf.flip hi
        have := h l (List.mem_of_getElem? hli)
        rw [hcons, hsl, Option.bind_some, Option.isSome_map] at this
        exact this
    · intro ls' out h
      rw [hrun] at h
      obtain ⟨rs, hr, h⟩ := Option.bind_eq_some_iff.1 h
      obtain ⟨q, hq, h⟩ := Option.map_eq_some_iff.1 h
      obtain ⟨rfl, rfl⟩ := Prod.mk.inj h
      have hf := (hstep rs).1 hr
      have hlen : rs.length = ls.length := hf.length_eq.symm
      obtain ⟨a1, a2, a3, a4⟩ := (ih _).2 q.1 q.2 hq
      rw [List.length_map, hlen] at a1 a3
      refine ⟨a1, by simp [a2], ?_, ?_⟩
      · intro row hrow
        rcases List.mem_cons.1 hrow with rfl | hrow
        · simp [hlen]
        · exact a3 row hrow
      · intro i l hi
        obtain ⟨r, hri, hsr⟩ := forall2_get hf hi
        obtain ⟨l', o, b1, b2, b3⟩ := a4 i r.1 (by rw [List.getElem?_map, hri]; rfl)
        refine ⟨l', r.2 :: o, ?_, b2, ?_⟩
        · rw [hcons, hsr, Option.bind_some, b1]; rfl
        · rw [List.map_cons, b3, List.getElem?_map, hri]; rfl

end

end Hyp.Torch
