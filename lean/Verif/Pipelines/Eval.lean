import Verif.Utt2Info.Props
import Verif.Trials.TxtFile
import Verif.Trials.ScoreProps
import Verif.Metrics.EerProps
import Verif.Plda.Props
import Verif.Transforms.Whiten

/-!
Model of the evaluation scripts and of the readers they use: /repo/hyperion/helpers/{trial_data_reader,classif_trial_data_reader,vector_reader}.py,
`TrialNdx.parse_eval_set` (utils/trial_ndx.py) and /repo/hyperion/bin/{eval-cos-1vs1,eval-plda-1vs1,eval-2class-performance,eval-linear-gbe,
eval-logistic-regression,vectors2scores,scores2lre_format}.py. A random access data reader is a partial function from keys to vectors (see C97, C98 for
the readers); `none` stands for an exception.
-/

namespace Hyp.Eval
open Hyp.Trials Hyp.U2I Hyp.Text

/-- `self.r.read(keys, squeeze=True)` of a non-permissive random access reader whose vectors have one dimension: a missing key raises, and stacking no
arrays raises; trial_data_reader.py:63-64, vector_reader.py:39 -/
def readAll {V : Type} (r : String → Option V) (keys : List String) : Option (List V) :=
  if keys = [] then none else keys.mapM r

/-- the argument `eval_set` (the script allows only these), trial_data_reader.py:100-103 -/
inductive EvalSet where
  | enrollTest
  | enrollCoh
  | cohTest
  | cohCoh
deriving DecidableEq

/-- `TrialNdx.parse_eval_set`, trial_ndx.py:209-236. `test` is an `Utt2Info`, which has no attribute `file_path`: the two cohort cases raise. -/
def parseEvalSet (ndx : Option (Ndx String)) (enroll : Tab) (es : EvalSet) : Option (Ndx String × Tab) := do
  let ndx ← ndx
  match es with
  | .enrollTest => (filterInfo enroll ndx.models 1 true).map (fun e => (ndx, e))
  | .enrollCoh => none
  | .cohTest => (Ndx.create (enroll.rows.map Prod.fst) ndx.segs none).map (fun n => (n, enroll))
  | .cohCoh => none

/-- `TrialDataReader.__init__`, trial_data_reader.py:32-57; `mParts` and `sParts` are the numbers of parts. With more than one part the code calls
`TrialNdx.split` on the class with four of its five arguments, which raises. -/
def tdrInit (ndx : Option (Ndx String)) (enroll : Tab) (es : EvalSet) (mParts sParts : Nat) : Option (Ndx String × Tab) := do
  let r ← parseEvalSet ndx enroll es
  if 1 < mParts ∨ 1 < sParts then none else some r

/-- the column `info` of a table with one info column, utt2info.py:66-71 -/
def infoCol (t : Tab) : List String := t.rows.map (fun r => r.2.headD "")

variable {V W : Type}

/-- `TrialDataReader.read`, trial_data_reader.py:61-71; the transformation `pre` treats rows independently (the identity without preprocessor) -/
def tdrRead (r : String → Option V) (pre : V → W) (ndx : Ndx String) (enroll : Tab) : Option (List W × List W × List String) := do
  let xe ← readAll r (enroll.rows.map Prod.fst)
  let xt ← readAll r ndx.segs
  some (xe.map pre, xt.map pre, infoCol enroll)

/-- `eval_cos` / `eval_plda`, eval-cos-1vs1.py:29-55, eval-plda-1vs1.py:31-56: `score` gives one entry of the score matrix from the two rows; the score
object is what is saved -/
def evalTrials [Inhabited W] (r : String → Option V) (pre : V → W) (score : W → W → ℝ) (ndx : Option (Ndx String)) (enroll : Tab) (es : EvalSet)
    (mParts sParts : Nat) : Option (Scores String ℝ) := do
  let p ← tdrInit ndx enroll es mParts sParts
  let d ← tdrRead r pre p.1 p.2
  Scores.create d.2.2 p.1.segs ⟨d.1.length, d.2.1.length, fun i j => score (d.1.getD i default) (d.2.1.getD j default)⟩ none

/-- one entry of `np.dot(x_e, x_t.T)` after `LNorm.predict`, eval-cos-1vs1.py:42-47 -/
noncomputable def cosScore (a b : List ℝ) : ℝ := (List.zipWith (fun u v => u * v) (Transforms.lnorm a) (Transforms.lnorm b)).sum

/-- `eval_2class_performance`, eval-2class-performance.py:28-44: the three numbers written: equal error rate, number of target and of nontarget trials -/
def performance {K : Type} [Field K] [LinearOrder K] [IsStrictOrderedRing K] (s : Scores String K) (key : Key String) : Option (K × Nat × Nat) := do
  let r ← s.getTarNon key
  let e ← Metrics.computeEer r.1 r.2
  some (e, r.1.length, r.2.length)

/-- `[line.rstrip().split()[0] for line in f]`, classif_trial_data_reader.py:38-42, vectors2scores.py:27: an empty line raises. (`rstrip` does not change
the fields.) -/
def firstFields (content : Str) : Option (List Str) :=
  (fileLines content).mapM (fun l => (splitWs l).head?)

/-- `ClassifTrialDataReader` and the scripts eval-linear-gbe.py:31-63, eval-logistic-regression.py:30-60: names of the classes, names of the segments;
`predict` gives the row of scores of one vector, one number per class of the model. The number of parts is 1 (a larger one raises as above). -/
def evalClassif (r : String → Option V) (pre : V → W) (predict : W → List ℝ) (classes segs : List String) : Option (Scores String ℝ) := do
  let ndx ← Ndx.create classes segs none
  let xt ← readAll r ndx.segs
  let scores := xt.map (fun x => predict (pre x))
  let k ← scores.head?.map List.length
  Scores.create ndx.models ndx.segs ⟨k, scores.length, fun i j => (scores.getD j []).getD i 0⟩ none

/-- `convert` of vectors2scores.py:22-32: `items` is what a sequential reader returns, in order -/
def vectors2scores (items : List (String × List ℝ)) (classes : List String) : Option (Scores String ℝ) := do
  let k ← items.head?.map (fun i => i.2.length)
  if items.all (fun i => i.2.length == k) then
    Scores.create classes (items.map Prod.fst) ⟨k, items.length, fun i j => ((items.map Prod.snd).getD j []).getD i 0⟩ none
  else none

end Hyp.Eval
