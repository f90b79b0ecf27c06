import Verif.Pipelines.EvalProps

/-!
Model of /repo/hyperion/bin/scores2lre_format.py. `os.path.splitext` is a parameter (library) with the law that root and extension make up the name.
-/

namespace Hyp.Eval
open Hyp.Trials Hyp.Text

/-- the first column of the test list without the heading, scores2lre_format.py:33-34 -/
def lreNames (content : Str) : List Str :=
  ((fileLines content).map (fun l => (splitAll ' ' (rstrip l)).headD [])).filter (fun s => decide (s ≠ "segmentid".toList))

/-- the names used for the segments, and the names in the test list, scores2lre_format.py:29-37 -/
def lreSegs (splitext : Str → Str × Str) (scores : Scores Str ℚ) (testList : Option Str) (addExt : Bool) : List Str :=
  match testList with
  | none => scores.segs
  | some c => if addExt then (lreNames c).map (fun n => (splitext n).1) else lreNames c

/-- scores2lre_format.py:39-43 -/
def lreModels (scores : Scores Str ℚ) (classFile : Option Str) : Option (List Str) :=
  match classFile with
  | none => some scores.models
  | some c => firstFields c

/-- scores2lre_format.py:48-49: the extensions are put back; without a test list `exts` does not exist -/
def lreOut (splitext : Str → Str × Str) (segs : List Str) (testList : Option Str) (addExt : Bool) : Option (List Str) :=
  if addExt then testList.map (fun c => List.zipWith (fun s e => s ++ e) segs ((lreNames c).map (fun n => (splitext n).2))) else some segs

/-- the text written, scores2lre_format.py:51-62; `models[-1]` raises for no models -/
def lreText (models names : List Str) (scores : Mat ℚ) : Option Str := do
  let last ← models.getLast?
  let rows ← (List.range scores.cols).mapM (fun i => (names[i]?).map (fun s =>
    s ++ '\t' :: ((List.range (scores.rows - 1)).flatMap (fun j => printF (scores.entry j i) ++ ['\t']) ++ (printF (scores.entry (scores.rows - 1) i) ++ ['\n']))))
  some ("segmentid\t".toList ++ (models.dropLast.flatMap (fun m => m ++ ['\t']) ++ (last ++ ['\n'])) ++ rows.flatten)

/-- `convert`, scores2lre_format.py:25-62 -/
def lreConvert (splitext : Str → Str × Str) (scores : Scores Str ℚ) (testList classFile : Option Str) (addExt : Bool) : Option Str := do
  let models ← lreModels scores classFile
  let ndx ← Ndx.create models (lreSegs splitext scores testList addExt) none
  let sc ← scores.setMissing ndx (-100)
  let names ← lreOut splitext sc.segs testList addExt
  lreText sc.models names sc.scores

/-! ### properties -/

/-- fields joined with tabulators, ended by a newline -/
def tsvLine (fields : List Str) : Str := List.intercalate ['\t'] fields ++ ['\n']

theorem intercalate_range (n : Nat) (f : Nat → Str) :
    (List.range n).flatMap (fun j => f j ++ ['\t']) ++ (f n ++ ['\n']) = tsvLine ((List.range (n + 1)).map f) := by
  unfold tsvLine
  have h : ∀ n, List.intercalate ['\t'] ((List.range (n + 1)).map f) = (List.range n).flatMap (fun j => f j ++ ['\t']) ++ f n := by
    have gen : ∀ (l : List Str) (x : Str), List.intercalate ['\t'] (l ++ [x]) = l.flatMap (fun s => s ++ ['\t']) ++ x := by
      intro l x
      induction l with
      | nil => simp [List.intercalate]
      | cons a l ih =>
        rcases l with _ | ⟨b, l⟩
        · simp [List.intercalate]
        · have e : List.intercalate ['\t'] ((a :: b :: l) ++ [x]) = a ++ ['\t'] ++ List.intercalate ['\t'] ((b :: l) ++ [x]) := by
            simp [List.intercalate]
          rw [e, ih]
          simp
    intro n
    rw [List.range_succ, List.map_append, List.map_cons, List.map_nil, gen, List.flatMap_map]
  rw [h]
  simp

theorem intercalate_last (l : List Str) (x : Str) (h : l.getLast? = some x) :
    l.dropLast.flatMap (fun m => m ++ ['\t']) ++ (x ++ ['\n']) = tsvLine l := by
  have e : l = l.dropLast ++ [x] := by
    have hne : l ≠ [] := by
      rintro rfl
      cases h
    have := List.dropLast_append_getLast hne
    rw [List.getLast?_eq_some_getLast hne] at h
    rw [Option.some.inj h] at this
    exact this.symm
  have := intercalate_range l.dropLast.length (fun j => (l[j]?).getD [])
  have h1 : (List.range l.dropLast.length).flatMap (fun j => (l[j]?).getD [] ++ ['\t']) = l.dropLast.flatMap (fun m => m ++ ['\t']) := by
    have : l.dropLast = (List.range l.dropLast.length).map (fun j => (l[j]?).getD []) := by
      apply List.ext_getElem?
      intro i
      rw [List.getElem?_map]
      by_cases hi : i < l.dropLast.length
      · rw [List.getElem?_range hi, List.getElem?_eq_getElem hi]
        have hl : i < l.length := by
          rw [List.length_dropLast] at hi
          omega
        simp [List.getElem?_eq_getElem hl]
      · rw [List.getElem?_eq_none (by omega), List.getElem?_eq_none (by simpa using hi)]
        rfl
    conv_rhs => rw [this]
    rw [List.flatMap_map]
  have h2 : (l[l.dropLast.length]?).getD [] = x := by
    conv_lhs => rw [e]
    simp
  have h3 : (List.range (l.dropLast.length + 1)).map (fun j => (l[j]?).getD []) = l := by
    have hl : l.dropLast.length + 1 = l.length := by
      conv_rhs => rw [e]
      simp
    rw [hl]
    apply List.ext_getElem?
    intro i
    rw [List.getElem?_map]
    by_cases hi : i < l.length
    · rw [List.getElem?_range hi, List.getElem?_eq_getElem hi]
      simp [List.getElem?_eq_getElem hi]
    · rw [List.getElem?_eq_none (by simpa using hi), List.getElem?_eq_none (by simpa using hi)]
      rfl
  rw [h1, h2, h3] at this
  exact this

end Hyp.Eval
