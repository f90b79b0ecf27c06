import Verif.Keras.Losses

/-!
Model of the variational autoencoder, /repo/hyperion/keras/vae/vae.py, with the sampler of
/repo/hyperion/keras/layers/sampling.py:248-295. The encoder and the decoder are functions of one row of the batch (Keras networks
in test mode); a batch is a list of rows. Only the posterior `qz_form = 'diag_normal'` is modelled, and not the form
`'normal_1chol'` of the observations.
-/

namespace Hyp.Keras.Vae
open Hyp.Keras

/-- result of an operation: a value, or the exception raised -/
inductive Res (α : Type) | ok (a : α) | valueError | typeError | nameError
  deriving DecidableEq

/-- the dictionary of functions, sampling.py:255-260, and `_g_logvar`, `_g_var`, `_g_std`, sampling.py:281-293: the factor of the noise -/
noncomputable def spread (spec : String) : Option (ℝ → ℝ) :=
  if spec = "logvar" then some (fun v => Real.exp (v / 2))
  else if spec = "var" then some (fun v => Real.sqrt |v|)
  else if spec = "std" then some (fun v => |v|)
  else none

/-- `DiagNormalSampler.call`, sampling.py:269-275: a batch of means and spreads, and one vector of noise per row of the result;
`none`: the word is not in the dictionary (`KeyError` of `build`) -/
noncomputable def sampler {D : Nat} (spec : String) (n : Nat) (p : List ((Fin D → ℝ) × (Fin D → ℝ))) (eps : Nat → Fin D → ℝ) : Option (List (Fin D → ℝ)) := do
  let g ← spread spec
  let rows := if n > 1 then repeatElements n p else p
  some (rows.zipIdx.map (fun q d => q.1.1 d + g (q.1.2 d) * eps q.2 d))

/-- what the decoder gives for a row, by form of the observations (vae.py:70-78): means and log-variances, these with a matrix, or
probabilities -/
inductive Px (D : Nat) where
  | diag (mean logvar : Fin D → ℝ)
  | full (mean logvar : Fin D → ℝ) (chol : Matrix (Fin D) (Fin D) ℝ)
  | bern (prob : Fin D → ℝ)

/-- the loss of one row, `hyp_obj.bernoulli`, `hyp_obj.diag_normal`, `hyp_obj.normal` called at vae.py:237, 252, 267. The loss
chosen by the form is applied to the decoder's output of that form: a decoder of another form is not modelled. -/
noncomputable def nll {D : Nat} (epsK : ℝ) (x : Fin D → ℝ) (p : Px D) : ℝ :=
  match p with
  | .diag m l => diagNormal x m l
  | .full m l c => normalChol x m l c
  | .bern q => bernoulli epsK x q

/-- `r = K.reshape(l, (-1, num_samples))`, `K.mean(r, axis=1)`, vae.py:239-240, 254-255, 269-270 -/
noncomputable def groupMeans (n : Nat) (l : List ℝ) : List ℝ :=
  (List.range (l.length / n)).map (fun i => ((l.drop (i * n)).take n).sum / n)

/-- `_get_loss_bernoulli`, `_get_loss_diag_normal`, `_get_loss_normal`, vae.py:232-272 -/
noncomputable def logPx {D : Nat} (epsK : ℝ) (x : List (Fin D → ℝ)) (par : List (Px D)) (n : Nat) : List ℝ :=
  let x := if n > 1 then repeatElements n x else x
  let l := List.zipWith (nll epsK) x par
  if n > 1 then groupMeans n l else l

/-- settings of the class, vae.py:30-50 -/
structure Cfg where
  pxForm : String
  prior : String
  minKl : ℝ

/-- the value of the model's loss for a batch, vae.py:61-80 and 83-101: `kl_normal_vs_std_normal` takes the posterior; the other
divergence, chosen for any other prior, needs a second distribution and is called with the posterior only -/
noncomputable def loss {D Z : Nat} (cfg : Cfg) (epsK : ℝ) (n : Nat) (enc : (Fin D → ℝ) → (Fin Z → ℝ) × (Fin Z → ℝ)) (dec : (Fin Z → ℝ) → Px D)
    (x : List (Fin D → ℝ)) (eps : Nat → Fin Z → ℝ) : Res (List ℝ) :=
  let qz := x.map enc
  let z := (sampler "logvar" n qz eps).getD []
  if cfg.pxForm ∉ ["bernoulli", "diag_normal", "normal", "normal_1chol"] then .valueError
  else if cfg.prior ≠ "std_normal" then .typeError
  else .ok (List.zipWith (fun a b => a + b) (logPx epsK x (z.map dec) n) (qz.map (fun q => max (klStdObj 1 q.1 q.2) cfg.minKl)))

/-- `elbo`, vae.py:135-150: `ls` are the losses that the evaluations of the model return, one list per evaluation (at least one is
made, however small `num_samples` is); the noise is drawn again in every evaluation -/
noncomputable def elbo (ls : Nat → List ℝ) (numSamples : Nat) : List ℝ :=
  let e0 := (ls 0).map (fun v => -v)
  let e := ((List.range' 1 (numSamples - 1)).foldl (fun acc i => List.zipWith (fun a b => a - b) acc (ls i)) e0)
  e.map (fun v => v / numSamples)

/-- `generate`, vae.py:185-188, and `decode_z`, vae.py:161-182, for `sample_x = True` and observations with diagonal covariance: `zs`
are the standard normal draws, `eps` the noise of the second sampler -/
noncomputable def generate {D Z : Nat} (dec : (Fin Z → ℝ) → (Fin D → ℝ) × (Fin D → ℝ)) (zs : List (Fin Z → ℝ)) (eps : Nat → Fin D → ℝ) :
    Option (List (Fin D → ℝ)) :=
  sampler "logvar" 1 (zs.map dec) eps

/-- `decode_z` with `sample_x = False`, vae.py:163-167: the result of `predict` is an array for one output (probabilities) and a list
of arrays for several, and `x_param[:, :x_dim]` on a list raises -/
def decodeMean {α : Type} (pxForm : String) (predicted : List α) : Res (List α) :=
  if pxForm = "bernoulli" then .ok predicted else .typeError

/-- names of the files that `save` writes, vae.py:205-213 -/
def saveNames (path : String) : List String := [path ++ ".json", path ++ ".enc.h5", path ++ ".dec.h5"]

/-- `VAE.load`, vae.py:216-229, when all files can be read: the name `enconder_net` has no value -/
def load (_path : String) : Res Unit := .nameError

end Hyp.Keras.Vae
