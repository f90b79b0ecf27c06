import Verif.Audio.MfccJob

/-! C134: what compute-mfcc-feats.py writes. -/

namespace Hyp.Audio
open Hyp.Text Hyp.Segments Hyp.Mfcc

theorem job_recs (w : World ℝ) (c : Cfg) (nz : Nat → List ℝ) (accepts : Str → Mat → Bool) (key path : Str) :
    jobRec c nz accepts ((readSpec w (2 ^ 15) path).map (fun y => (key, y))) =
      (readSpec w (2 ^ 15) path).bind (fun y => (compute c nz ⟨0, 0⟩ (.wave y.samples)).1.bind (fun res =>
        if accepts key res.R then some (key, res.R) else none)) := by
  unfold jobRec
  rcases readSpec w (2 ^ 15) path with _ | y <;> rfl

/-- **C134.** compute-mfcc-feats on the recordings of a script, whatever raises: the recordings before the first one that raises (not readable, no features, refused by
the writer) have their features written, in the order of the script, each computed from its own samples (times 2^15) with the filters at rest, so independent of the
other recordings; the file of numbers of frames has exactly one line `key rows` for each of them; the job ends well iff nothing raises. -/
theorem C134_compute_mfcc (w : World ℝ) (c : Cfg) (noise : Nat → Nat → List ℝ) (accepts : Str → Mat → Bool) (script : Str) (x : Scp.Scp Str Str)
    (hl : Scp.load ' ' ':' script = some x) :
    ∃ results : List (Option (Str × Mat)),
      results = x.entries.zipIdx.map (fun e => (readSpec w (2 ^ 15) e.1.2.1).bind (fun y =>
        (compute c (noise e.2) ⟨0, 0⟩ (.wave y.samples)).1.bind (fun res => if accepts e.1.1 res.R then some (e.1.1, res.R) else none))) ∧
      ∃ done : List (Str × Mat), done = (results.takeWhile Option.isSome).filterMap id ∧
        ∃ frames : Mat → Nat, (∀ X, frames (.cplx X) = X.length) ∧ (∀ M, frames (.real M) = M.length) ∧
          computeMfcc w c noise accepts script 1 1 =
            some (done, done.flatMap (fun p => p.1 ++ [' '] ++ printNat (frames p.2) ++ ['\n']), results.all Option.isSome) := by
  have hx : x.WF := Copy.load_wf hl
  refine ⟨_, rfl, _, rfl, rowsOf, fun _ => rfl, fun _ => rfl, ?_⟩
  have ho : openSeq (K := ℝ) script none (2 ^ 15) 1 1 = some ⟨x, none, 2 ^ 15, 0⟩ := by
    unfold openSeq openBase takePart
    rw [hl]; rfl
  unfold computeMfcc
  rw [ho, Option.map_some]
  have hr : recs w (⟨x, none, 2 ^ 15, 0⟩ : Reader ℝ) = x.entries.map (fun e => (readSpec w (2 ^ 15) e.2.1).map (fun y => (e.1, y))) := rfl
  rw [mfccLoop_eq w c noise accepts _ 0 _ hx (Nat.zero_le _) (by rw [hr, List.length_map, Scp.entries_length hx]; exact Nat.lt_succ_self _)]
  rw [hr]
  have hmap : (((x.entries.map (fun e => (readSpec w (2 ^ 15) e.2.1).map (fun y => (e.1, y)))).drop 0).zipIdx 0).map (fun q => jobRec c (noise q.2) accepts q.1) =
      x.entries.zipIdx.map (fun e => (readSpec w (2 ^ 15) e.1.2.1).bind (fun y =>
        (compute c (noise e.2) ⟨0, 0⟩ (.wave y.samples)).1.bind (fun res => if accepts e.1.1 res.R then some (e.1.1, res.R) else none))) := by
    rw [List.drop_zero, List.zipIdx_map, List.map_map]
    apply List.map_congr_left
    intro e _
    exact job_recs w c (noise e.2) accepts e.1.1 e.1.2.1
  have hc0 : (⟨x, none, 2 ^ 15, 0⟩ : Reader ℝ).cur = 0 := rfl
  rw [hc0, hmap]
  congr 3
  congr 1
  funext p
  simp [framesLine]

theorem allSome_takeWhile {α : Type} {l : List (Option α)} (h : l.all Option.isSome = true) : ∃ d, l = d.map some ∧ (l.takeWhile Option.isSome).filterMap id = d := by
  induction l with
  | nil => exact ⟨[], rfl, rfl⟩
  | cons a l ih =>
    rw [List.all_cons, Bool.and_eq_true] at h
    obtain ⟨d, rfl, h2⟩ := ih h.2
    obtain ⟨b, rfl⟩ := Option.isSome_iff_exists.1 h.1
    exact ⟨b :: d, rfl, by rw [List.takeWhile_cons, Option.isSome_some, if_pos rfl, List.filterMap_cons, h2]; rfl⟩

/-- **C134 (jobs).** Without dither (the noise does not depend on the position), a job that ends well and the same work split in `P` jobs: all of these end well, and together they
write the same records, each once. -/
theorem C134_jobs (w : World ℝ) (c : Cfg) (nz : Nat → List ℝ) (accepts : Str → Mat → Bool) (script : Str) (all : List (Str × Mat)) (txt : Str)
    (h : computeMfcc w c (fun _ => nz) accepts script 1 1 = some (all, txt, true)) (P : Nat) (hP : 1 < P) :
    ∃ parts : List (List (Str × Mat) × Str × Bool),
      (List.range' 1 P).mapM (fun i : Nat => computeMfcc w c (fun _ => nz) accepts script i P) = some parts ∧
      (∀ p ∈ parts, p.2.2 = true) ∧ (parts.flatMap (fun p => p.1)).Perm all := by
  have hl : ∃ x, Scp.load ' ' ':' script = some x := by
    unfold computeMfcc openSeq openBase at h
    rcases hx : Scp.load ' ' ':' script with _ | x
    · rw [hx] at h; simp at h
    · exact ⟨x, rfl⟩
  obtain ⟨x, hl⟩ := hl
  have hx : x.WF := Copy.load_wf hl
  let f : Str × Str × Option Nat × Option (Nat × Int) → Option (Str × Mat) := fun e =>
    jobRec c nz accepts ((readSpec w (2 ^ 15) e.2.1).map (fun y => (e.1, y)))
  have hgen : ∀ y : Scp.Scp Str Str, y.WF → mfccLoop w c (fun _ => nz) accepts (⟨y, none, 2 ^ 15, 0⟩ : Reader ℝ).fuel 0 ⟨y, none, 2 ^ 15, 0⟩ reset =
      (((y.entries.map f).takeWhile Option.isSome).filterMap id,
        (((y.entries.map f).takeWhile Option.isSome).filterMap id).flatMap (fun p => framesLine p.1 (rowsOf p.2)), (y.entries.map f).all Option.isSome) := by
    intro y hy
    have hr : recs w (⟨y, none, 2 ^ 15, 0⟩ : Reader ℝ) = y.entries.map (fun e => (readSpec w (2 ^ 15) e.2.1).map (fun y => (e.1, y))) := rfl
    rw [mfccLoop_eq w c (fun _ => nz) accepts _ 0 _ hy (Nat.zero_le _) (by rw [hr, List.length_map, Scp.entries_length hy]; exact Nat.lt_succ_self _), hr]
    have hmap : (((y.entries.map (fun e => (readSpec w (2 ^ 15) e.2.1).map (fun y => (e.1, y)))).drop 0).zipIdx 0).map (fun q => jobRec c nz accepts q.1) =
        y.entries.map f := by
      rw [List.drop_zero]
      have : ∀ (l : List (Option (Str × Wave ℝ))) (i : Nat), (l.zipIdx i).map (fun q => jobRec c nz accepts q.1) = l.map (jobRec c nz accepts) := by
        intro l
        induction l with
        | nil => intro i; rfl
        | cons a l ih => intro i; rw [List.zipIdx_cons, List.map_cons, ih, List.map_cons]
      rw [this, List.map_map]
      rfl
    have hc0 : (⟨y, none, 2 ^ 15, 0⟩ : Reader ℝ).cur = 0 := rfl
    rw [hc0, hmap]
  have hwhole : computeMfcc w c (fun _ => nz) accepts script 1 1 = some (((x.entries.map f).takeWhile Option.isSome).filterMap id,
        (((x.entries.map f).takeWhile Option.isSome).filterMap id).flatMap (fun p => framesLine p.1 (rowsOf p.2)), (x.entries.map f).all Option.isSome) := by
    unfold computeMfcc openSeq openBase takePart
    rw [hl]
    show some (mfccLoop w c (fun _ => nz) accepts (⟨x, none, 2 ^ 15, 0⟩ : Reader ℝ).fuel 0 ⟨x, none, 2 ^ 15, 0⟩ reset) = _
    rw [hgen x hx]
  rw [hwhole] at h
  simp only [Option.some.injEq, Prod.mk.injEq] at h
  obtain ⟨h1, -, h3⟩ := h
  obtain ⟨d, hd1, hd2⟩ := allSome_takeWhile h3
  obtain ⟨rs, g1, g2, g3, g4⟩ := C129_parts w script x hl (2 ^ 15 : ℝ) P hP
  have hrs : ∀ r ∈ rs, ∃ y : Scp.Scp Str Str, y.WF ∧ r = ⟨y, none, 2 ^ 15, 0⟩ := by
    intro r hr
    have : some r ∈ rs.map some := List.mem_map_of_mem hr
    rw [← mapM_eq_some_iff.1 g1, List.mem_map] at this
    obtain ⟨i, _, hi⟩ := this
    unfold openSeq openBase takePart at hi
    rw [hl] at hi
    simp only [Option.bind_some, gt_iff_lt, hP, if_true, Option.map_eq_some_iff] at hi
    obtain ⟨y, hy, rfl⟩ := hi
    exact ⟨y, (split_wf hy).1, rfl⟩
  refine ⟨rs.map (fun r => mfccLoop w c (fun _ => nz) accepts r.fuel 0 r reset), ?_, ?_, ?_⟩
  · rw [mapM_eq_some_iff] at g1 ⊢
    have : (fun i : Nat => computeMfcc w c (fun _ => nz) accepts script i P) =
        (fun o : Option (Reader ℝ) => o.map (fun r => mfccLoop w c (fun _ => nz) accepts r.fuel 0 r reset)) ∘ (fun i : Nat => openSeq script none (2 ^ 15 : ℝ) i P) := rfl
    rw [this, ← List.map_map, g1, List.map_map, List.map_map]
    rfl
  · intro p hp
    obtain ⟨r, hr, rfl⟩ := List.mem_map.1 hp
    obtain ⟨y, hy, rfl⟩ := hrs r hr
    rw [hgen y hy]
    rw [List.all_eq_true] at h3 ⊢
    intro o ho
    obtain ⟨e, he, rfl⟩ := List.mem_map.1 ho
    apply h3
    refine List.mem_map.2 ⟨e, ?_, rfl⟩
    exact g2.subset (List.mem_flatMap.2 ⟨_, hr, he⟩)
  · have hflat : (rs.map (fun r => mfccLoop w c (fun _ => nz) accepts r.fuel 0 r reset)).flatMap (fun p => p.1) =
        (rs.flatMap (fun r => r.scp.entries)).filterMap f := by
      rw [List.flatMap_map, List.filterMap_flatMap]
      have key : ∀ r ∈ rs, (mfccLoop w c (fun _ => nz) accepts r.fuel 0 r reset).1 = r.scp.entries.filterMap f := by
        intro r hr
        obtain ⟨y, hy, rfl⟩ := hrs r hr
        rw [hgen y hy]
        have hall : (y.entries.map f).all Option.isSome = true := by
          rw [List.all_eq_true] at h3 ⊢
          intro o ho
          obtain ⟨e, he, rfl⟩ := List.mem_map.1 ho
          apply h3
          exact List.mem_map.2 ⟨e, g2.subset (List.mem_flatMap.2 ⟨_, hr, he⟩), rfl⟩
        obtain ⟨d', e1, e2⟩ := allSome_takeWhile hall
        show ((y.entries.map f).takeWhile Option.isSome).filterMap id = y.entries.filterMap f
        rw [e2]
        have : y.entries.filterMap f = (y.entries.map f).filterMap id := by rw [List.filterMap_map]; rfl
        rw [this, e1, List.filterMap_map]
        exact (List.filterMap_some).symm
      clear hwhole h1 h3 hd1 hd2 g1 g2 g3 g4 hrs
      induction rs with
      | nil => rfl
      | cons r rs ih =>
        rw [List.flatMap_cons, List.flatMap_cons, key r (by simp), ih (fun r hr => key r (by simp [hr]))]
    rw [hflat, ← h1, hd2]
    have hall : x.entries.filterMap f = d := by
      have : x.entries.filterMap f = (x.entries.map f).filterMap id := by rw [List.filterMap_map]; rfl
      rw [this, hd1, List.filterMap_map]
      exact List.filterMap_some
    rw [← hall]
    exact g2.filterMap f

end Hyp.Audio
