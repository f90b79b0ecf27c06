import Verif.Keras.SeqEmbed
import Verif.Keras.Post
import Verif.Text
import Mathlib.Data.Rat.Floor

/-!
Model of `SeqQEmbed`, /repo/hyperion/keras/embed/seq_q_embed.py: a network gives for every frame of a chunk the parameters of a
Gaussian posterior, the posteriors of a whole sequence are multiplied. The loop over chunks is the one of `SeqEmbed`
(`embStep`), with another number of chunks. The network is an arbitrary function; a row has the two parameters of each
coordinate. Real arithmetic.
-/

namespace Hyp.Keras
open Hyp.Text

variable {α β : Type}

/-- attributes of a `SeqQEmbed`, seq_q_embed.py:27-58, with the lengths of the network: `N` input and `P` output frames -/
structure QEmbed where
  N : Nat
  P : Nat
  down : Option Nat
  left : Nat
  right : Nat
  beginC : Nat
  endC : Nat
  inFmt : String
  outFmt : String
  minVar : ℝ
  pen : ℝ

/-- the constructor, seq_q_embed.py:57-60: contexts at the ends not given are the ones of the chunks -/
def qInit (N P : Nat) (down : Option Nat) (left right : Nat) (beginC endC : Option Nat) (inFmt outFmt : String) (minVar pen : ℝ) : QEmbed :=
  { N := N, P := P, down := down, left := left, right := right,
    beginC := beginC.getD left, endC := endC.getD right, inFmt := inFmt, outFmt := outFmt, minVar := minVar, pen := pen }

/-- property `prepool_downsampling`, seq_q_embed.py:96-104 -/
def qDown (m : QEmbed) : Option Nat :=
  match m.down with
  | some r => some r
  | none => if 0 < m.P ∧ m.P ∣ m.N then some (m.N / m.P) else none

/-- `int(np.ceil((in_length-in_seq_length)/in_shift+1))`, seq_q_embed.py:221; `xrange` of a negative number is empty -/
def qBatches (L N shift : Nat) : Nat := (⌈((L : ℚ) - N) / shift + 1⌉).toNat

/-- the parameters of the frames and the mask given to the pooling network, seq_q_embed.py:196-241 (`in_shift < 0` is left out
of the model: it raises there) -/
def qFrames (m : QEmbed) (enc : List α → List β) (z : α) (zy : β) (x : List α) : Option (List β × List Bool) := do
  let r ← qDown m
  guard (0 < r ∧ r ∣ m.left ∧ r ∣ m.right ∧ r ∣ m.beginC ∧ r ∣ m.endC)
  guard (m.left + m.right < m.N)
  let c : EmbCfg := { N := m.N, P := m.P, r := r, left := m.left, right := m.right, beginC := m.beginC, endC := m.endC }
  let n := x.length / r
  let s ← (List.range (qBatches x.length m.N (m.N - m.left - m.right))).foldlM (embStep c enc x)
    { xi := List.replicate m.N z, y := List.replicate n zy, jin := 0, jout := 0 }
  some (s.y, embMask n (m.beginC / r) (m.endC / r))

/-- `fmt.split(sep='+', maxsplit=1)` in the constructor of the layer, pooling.py:223-224; a format without `+` raises when the
second word is taken -/
def fmtWords (s : String) : Option (String × String) :=
  match splitOnce '+' s.toList with
  | some (a, b) => some (String.ofList a, String.ofList b)
  | none => none

/-- coordinate `d` of the frames, with the mask as weights -/
noncomputable def qCoord {D : Nat} (d : Fin D) (y : List (Fin D → ℝ × ℝ)) (mask : List Bool) : List (ℝ × ℝ × ℝ) :=
  (y.zip mask).map (fun q => ((q.1 d).1, (q.1 d).2, if q.2 then 1 else 0))

/-- the pooling network of `build_embed(pooling_output)`, seq_q_embed.py:178-191: no `frame_corr_penalty` -/
noncomputable def qPool (m : QEmbed) (out : Option String) (f : List (ℝ × ℝ × ℝ)) : Option (ℝ × ℝ) := do
  let fin ← fmtWords m.inFmt
  let fout ← fmtWords (out.getD m.outFmt)
  postPool m.minVar 1 fin fout f

/-- the posterior inside the network that is trained, `build`, seq_q_embed.py:122-140, with the default `max_seq_length`: with twice
as many input as output frames or more (line 132) `MaxPooling1D` is not defined, NameError; otherwise the mask has the `N` input frames and
does not fit the `P` output frames unless the numbers are equal (line 137; a single input frame with more output frames, where the mask is
broadcast, is left out of the model) -/
noncomputable def qTrain (m : QEmbed) (f : List (ℝ × ℝ × ℝ)) : Option (ℝ × ℝ) := do
  guard (0 < m.P ∧ ¬ 1 < m.N / m.P ∧ m.N = m.P)
  let fin ← fmtWords m.inFmt
  let fout ← fmtWords m.outFmt
  postPool m.minVar m.pen fin fout f

/-- `predict_embed` after `build_embed(pooling_output)`, coordinate `d`, seq_q_embed.py:195-246 -/
noncomputable def qPredict {D : Nat} (m : QEmbed) (out : Option String) (enc : List α → List (Fin D → ℝ × ℝ)) (z : α) (x : List α) (d : Fin D) :
    Option (ℝ × ℝ) := do
  let q ← qFrames m enc z (fun _ => (0, 0)) x
  qPool m out (qCoord d q.1 q.2)

/-- `save` then `load`, seq_q_embed.py:277-325: `prepool_downsampling` is not among the values saved; the other attributes that
are used here are, with the contexts at the ends as numbers -/
def qReload (m : QEmbed) : QEmbed :=
  qInit m.N m.P none m.left m.right (some m.beginC) (some m.endC) m.inFmt m.outFmt m.minVar m.pen

/-- choices of `--pooling-input`, seq_q_embed.py:353-360 -/
def qInChoices : List String :=
  ["nat+logitvar", "nat+logprec-1", "nat+logvar", "nat+logprec", "nat+var", "nat+prec", "nat+prec-1",
   "mean+logitvar", "mean+logprec-1", "mean+logvar", "mean+logprec", "mean+var", "mean+prec", "mean+prec-1"]

/-- choices of `--pooling-output`, seq_q_embed.py:361-366 -/
def qOutChoices : List String :=
  ["nat+logar", "nat+logprec", "nat+var", "nat+prec", "mean+logar", "mean+logprec", "mean+var", "mean+prec"]

end Hyp.Keras
