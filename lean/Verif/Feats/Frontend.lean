import Verif.Feats.Stft
import Verif.Round

/-!
Model of the signal front end shared by /repo/hyperion/feats/energy_vad.py and /repo/hyperion/feats/mfcc.py: padding,
dither, the recursive filters and their state, and of `EnergyVAD`.

Exact real arithmetic. `RandomState(seed=len(x)).randn(len(x))` is a function of the length (`noise`). The prints of
energy_vad.py:108-111 are dropped.
-/

namespace Hyp.Frontend
open Hyp.Stft

/-- `scipy.signal.lfilter([b0, b1], [1, a1], x, zi=[z])` (transposed direct form II): output and final state. -/
def lfilter (b0 b1 a1 : ℝ) : List ℝ → ℝ → List ℝ × ℝ
  | [], z => ([], z)
  | x :: xs, z =>
    let y := b0 * x + z
    let r := lfilter b0 b1 a1 xs (b1 * x - a1 * y)
    (y :: r.1, r.2)

/-- energy_vad.py:47-48,96, mfcc.py:143-144,262: the offset removal filter. -/
def dcFilter (x : List ℝ) (z : ℝ) : List ℝ × ℝ := lfilter 1 (-1) (-0.999) x z

/-- mfcc.py:146,270: the preemphasis filter (`a = [1]`). -/
def preemph (c : ℝ) (x : List ℝ) (z : ℝ) : List ℝ × ℝ := lfilter 1 (-c) 0 x z

/-- The sample that `np.pad(mode='reflect')` puts at offset `t` from the start of an array of `n` samples; one sample is
repeated. -/
def reflectIdx (n : Nat) (t : Int) : Nat :=
  if n ≤ 1 then 0
  else
    let m := (t % (2 * (n - 1) : Nat)).toNat
    if m < n then m else 2 * (n - 1) - m

/-- `np.pad(x, (p, q), mode='reflect')`: negative widths raise, and so does padding an empty array. -/
def padReflect (x : List ℝ) (p q : Int) : Option (List ℝ) :=
  if p < 0 ∨ q < 0 then none
  else if x.length = 0 ∧ (0 < p ∨ 0 < q) then none
  else some ((List.range (p.toNat + x.length + q.toNat)).map
    (fun t : Nat => x.getD (reflectIdx x.length ((t : Int) - p)) 0))

/-- energy_vad.py:80-88, mfcc.py:243-252: nothing is done with `snip_edges` (apart from dividing by the shift);
otherwise the signal is padded. The float division `len(x)/shift` is taken as exact. -/
def padEdges (snip : Bool) (L S : Nat) (x : List ℝ) : Option (List ℝ) :=
  if S = 0 then none
  else if snip then some x
  else
    let nf : Int := roundEven ((x.length : ℚ) / (S : ℚ))
    let lenx : Int := (nf - 1) * S + L
    let d : Int := lenx - x.length
    let d1 : Int := ((L : Int) - S) / 2
    let d2 : Int := d - d1
    padReflect x d1 d2

open Classical in
/-- energy_vad.py:91-94, mfcc.py:255-258: dither. -/
noncomputable def addDither (noise : Nat → List ℝ) (dither : ℝ) (x : List ℝ) : List ℝ :=
  if dither > 0 then List.zipWith (fun a n => a + dither * n) x (noise x.length) else x

/-- energy_vad.py:33-57: the attributes (lengths in samples; the assertions of lines 50-52 are hypotheses of theorems
where they matter). -/
structure VadCfg where
  L : Nat
  S : Nat
  dither : ℝ
  snip : Bool
  scale : ℝ
  thr : ℝ
  context : Nat

/-- The argument of `compute`: a wave (one dimension), a feature matrix (two), or another number of dimensions. -/
inductive VadIn where
  | wave (x : List ℝ)
  | feats (rows : List (List ℝ))
  | other

/-- `np.mean`. -/
noncomputable def mean (x : List ℝ) : ℝ := x.sum / (x.length : ℝ)

/-- `x[:, 0]`: a matrix without columns raises. -/
def column0 (rows : List (List ℝ)) : Option (List ℝ) := rows.mapM (fun r => r[0]?)

/-- energy_vad.py:78-104: the log energies and the new filter state. The state is stored (line 96) before the energies
are computed, so it changes even if `st_logE` raises. -/
noncomputable def logE (c : VadCfg) (noise : Nat → List ℝ) (z : ℝ) : VadIn → Option (List ℝ) × ℝ
  | .wave x =>
    match padEdges c.snip c.L c.S x with
    | none => (none, z)
    | some x1 =>
      let r := dcFilter (addDither noise c.dither x1) z
      (stLogE r.1 c.L c.S, r.2)
  | .feats rows => (column0 rows, z)
  | .other => (none, z)

open Classical in
/-- energy_vad.py:107-112: the threshold and the decisions. -/
noncomputable def decide (c : VadCfg) (e : List ℝ) : List Bool :=
  let t := c.thr + c.scale * mean e
  e.map (fun a => if a > t then true else false)

/-- energy_vad.py:67-130 `compute`; with a context, line 119 uses the undefined name `vad0` and raises. -/
noncomputable def compute (c : VadCfg) (noise : Nat → List ℝ) (z : ℝ) (x : VadIn) : Option (List Bool) × ℝ :=
  let r := logE c noise z x
  (r.1.bind (fun e => if c.context = 0 then some (decide c e) else none), r.2)

/-- energy_vad.py:62-64 `reset`. -/
def reset : ℝ := 0

/-- A use of the object: a call of `compute` or of `reset`. -/
inductive VadEv where
  | call (x : VadIn)
  | reset

/-- A sequence of uses of one object in filter state `z`: the results of the `compute` calls, and the last state. -/
noncomputable def uses (c : VadCfg) (noise : Nat → List ℝ) (z : ℝ) : List VadEv → List (Option (List Bool)) × ℝ
  | [] => ([], z)
  | .call x :: xs =>
    let r := compute c noise z x
    let rs := uses c noise r.2 xs
    (r.1 :: rs.1, rs.2)
  | .reset :: xs => uses c noise reset xs

end Hyp.Frontend
