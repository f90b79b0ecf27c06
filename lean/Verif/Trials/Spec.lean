import Verif.Trials.Model

/-!
Specification vocabulary for trial lists: a TrialNdx is a set of (model, segment) pairs, a TrialKey is
two such sets, a TrialScores is a partial map from pairs to scores.
-/

namespace Hyp.Trials
variable {ν : Type} {α : Type}

/-- `A` has a true entry in the cell labelled `(m, s)`. -/
def TrueAt (models segs : List ν) (A : Mat Bool) (m s : ν) : Prop :=
  ∃ i j : Nat, models[i]? = some m ∧ segs[j]? = some s ∧ A.entry i j = true

/-- `(m, s)` is a trial of the index. -/
def Ndx.IsTrial (x : Ndx ν) (m s : ν) : Prop := TrueAt x.models x.segs x.mask m s
/-- `(m, s)` is a target trial of the key. -/
def Key.IsTar (x : Key ν) (m s : ν) : Prop := TrueAt x.models x.segs x.tar m s
/-- `(m, s)` is a nontarget trial of the key. -/
def Key.IsNon (x : Key ν) (m s : ν) : Prop := TrueAt x.models x.segs x.non m s
/-- the pair `(m, s)` has score `v`. -/
def Scores.HasScore (x : Scores ν α) (m s : ν) (v : α) : Prop :=
  ∃ i j : Nat, x.models[i]? = some m ∧ x.segs[j]? = some s ∧ x.mask.entry i j = true ∧
    x.scores.entry i j = v

/-- well-formed: what `validate` accepts. -/
structure Ndx.WF (x : Ndx ν) : Prop where
  models : x.models.Nodup
  segs : x.segs.Nodup
  rows : x.mask.rows = x.models.length
  cols : x.mask.cols = x.segs.length

structure Key.WF (x : Key ν) : Prop where
  models : x.models.Nodup
  segs : x.segs.Nodup
  trows : x.tar.rows = x.models.length
  tcols : x.tar.cols = x.segs.length
  nrows : x.non.rows = x.models.length
  ncols : x.non.cols = x.segs.length

structure Scores.WF (x : Scores ν α) : Prop where
  models : x.models.Nodup
  segs : x.segs.Nodup
  srows : x.scores.rows = x.models.length
  scols : x.scores.cols = x.segs.length
  mrows : x.mask.rows = x.models.length
  mcols : x.mask.cols = x.segs.length

/-- all pairs (row-major) -/
def pairs (models segs : List ν) : List (ν × ν) := models.flatMap (fun m => segs.map (fun s => (m, s)))

end Hyp.Trials
