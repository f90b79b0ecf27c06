import Verif.Audio.RoundTrip
import Verif.Feats.Mfcc

/-! Model of /repo/hyperion/bin/compute-mfcc-feats.py with wave input, and C134. -/

namespace Hyp.Audio
open Hyp.Text Hyp.Segments Hyp.Mfcc

/-- `y.shape[0]`. -/
def rowsOf : Mat → Nat
  | .cplx X => X.length
  | .real M => M.length

/-- compute-mfcc-feats.py:53-54: the line of a recording. -/
def framesLine (key : Str) (n : Nat) : Str := key ++ ' ' :: printNat n ++ ['\n']

/-- compute-mfcc-feats.py:42-66: the loop over the recordings, with what was written when it ends: the features, the text of the file of numbers of frames and whether it
ended without an exception. `accepts` tells whether the writer of the features takes a record; `noise i` is the dither of the `i`-th recording. The time measurement (it
divides by the elapsed time) is not modelled. -/
noncomputable def mfccLoop (w : World ℝ) (c : Cfg) (noise : Nat → Nat → List ℝ) (accepts : Str → Mat → Bool) :
    Nat → Nat → Reader ℝ → St → List (Str × Mat) × Str × Bool
  | 0, _, _, _ => ([], [], false)
  | fuel + 1, i, r, st =>
    match r.read w 1 with
    | none => ([], [], false)
    | some ([], _) => ([], [], true)
    | some (p :: _, r') =>
      match (compute c (noise i) st (.wave p.2.samples)).1 with
      | none => ([], [], false)
      | some res =>
        if accepts p.1 res.R then
          let q := mfccLoop w c noise accepts fuel (i + 1) r' reset
          ((p.1, res.R) :: q.1, framesLine p.1 (rowsOf res.R) ++ q.2.1, q.2.2)
        else ([], [], false)

/-- compute-mfcc-feats.py:25-70 `compute_mfcc_feats` with wave input, for part `part` of `parts`. The scale option is not passed to the reader (`filter_args` has only the part):
the scale is its default, 2^15. -/
noncomputable def computeMfcc (w : World ℝ) (c : Cfg) (noise : Nat → Nat → List ℝ) (accepts : Str → Mat → Bool) (script : Str) (part parts : Nat) :
    Option (List (Str × Mat) × Str × Bool) :=
  (openSeq script none (2 ^ 15 : ℝ) part parts).map (fun r => mfccLoop w c noise accepts r.fuel 0 r reset)

/-- one record of the job, from the record that the reader gives (for the proofs). -/
noncomputable def jobRec (c : Cfg) (nz : Nat → List ℝ) (accepts : Str → Mat → Bool) (o : Option (Str × Wave ℝ)) : Option (Str × Mat) :=
  o.bind (fun p => (compute c nz reset (.wave p.2.samples)).1.bind (fun res => if accepts p.1 res.R then some (p.1, res.R) else none))

theorem mfccLoop_eq (w : World ℝ) (c : Cfg) (noise : Nat → Nat → List ℝ) (accepts : Str → Mat → Bool) (fuel : Nat) (i : Nat) (r : Reader ℝ)
    (hx : r.scp.WF) (hc : r.cur ≤ (recs w r).length) (hf : (recs w r).length - r.cur < fuel) :
    mfccLoop w c noise accepts fuel i r reset =
      (((((((recs w r).drop r.cur).zipIdx i).map (fun q => jobRec c (noise q.2) accepts q.1)).takeWhile Option.isSome).filterMap id),
       ((((((recs w r).drop r.cur).zipIdx i).map (fun q => jobRec c (noise q.2) accepts q.1)).takeWhile Option.isSome).filterMap id).flatMap
          (fun p => framesLine p.1 (rowsOf p.2)),
       ((((recs w r).drop r.cur).zipIdx i).map (fun q => jobRec c (noise q.2) accepts q.1)).all Option.isSome) := by
  induction fuel generalizing i r with
  | zero => omega
  | succ fuel ih =>
    unfold mfccLoop
    have hread : r.read w 1 = r.loop w 1 := rfl
    rw [hread, loop_eq w 1 r hx hc]
    by_cases he : r.cur = (recs w r).length
    · rw [he, List.drop_length]
      simp
    · have hlt : r.cur < (recs w r).length := by omega
      rw [List.drop_eq_getElem_cons hlt, List.take_succ_cons, List.take_zero, List.mapM_cons, List.mapM_nil, List.zipIdx_cons, List.map_cons]
      cases hh : (recs w r)[r.cur] with
      | none => simp [jobRec]
      | some p =>
        simp only [id, Option.pure_def, Option.bind_eq_bind, Option.bind_some, Option.map_some]
        rcases hcm : (compute c (noise i) reset (.wave p.2.samples)).1 with _ | res
        · have hj : jobRec c (noise i) accepts (some p) = none := by
            unfold jobRec; simp [hcm]
          simp [hj]
        · by_cases ha : accepts p.1 res.R = true
          · have hj : jobRec c (noise i) accepts (some p) = some (p.1, res.R) := by
              unfold jobRec; simp [hcm, ha]
            rw [Nat.min_eq_left hlt]
            simp only [ha, if_true, hj]
            rw [ih (i + 1) { r with cur := r.cur + 1 } hx (by rw [recs_cur]; exact hlt) (by
              rw [recs_cur]
              show (recs w r).length - (r.cur + 1) < fuel
              omega)]
            rw [recs_cur]
            have hcur : ({ r with cur := r.cur + 1 } : Reader ℝ).cur = r.cur + 1 := rfl
            rw [hcur]
            simp [List.takeWhile_cons, List.filterMap_cons]
          · have hj : jobRec c (noise i) accepts (some p) = none := by
              unfold jobRec; simp [hcm, ha]
            simp [ha, hj]

end Hyp.Audio
