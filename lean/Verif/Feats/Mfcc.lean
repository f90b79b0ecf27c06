import Verif.Feats.Frontend
import Verif.Feats.FilterBank

/-!
Model of /repo/hyperion/feats/mfcc.py (`MFCC`). Exact arithmetic. `none` is an exception; a Python variable that may be
unbound is an `Option` too. The matrix argument of `compute` is a list of rows; a wave argument is a list. The input
given must match `input_step` (a wave for 'wave', a complex matrix for 'fft', a real one for the other steps): other
combinations are not modelled and give `none`.
-/

namespace Hyp.Mfcc
open Hyp.Stft Hyp.Frontend

/-- mfcc.py:24-31: the steps and their order. -/
inductive Step where
  | wave | fft | fftMag | logSpec | logFb | cepstrum
deriving DecidableEq

/-- mfcc.py:26-31: the values of the enumeration. -/
def Step.value : Step → Nat
  | .wave => 0 | .fft => 1 | .fftMag => 2 | .logSpec => 3 | .logFb => 4 | .cepstrum => 5

/-- mfcc.py:97-154: the attributes that `compute` uses. `n` is the FFT length, `fb` the filter bank by columns. -/
structure Cfg where
  L : Nat
  S : Nat
  n : Nat
  removeDc : Bool
  preemph : ℝ
  window : List ℝ
  useFft2 : Bool
  dither : ℝ
  fb : List (List ℝ)
  numCeps : Nat
  snip : Bool
  floor : ℝ
  rawEnergy : Bool
  useEnergy : Bool
  lifter : ℝ
  inp : Step
  out : Step

/-- mfcc.py:135-138: a frame longer than the FFT raises the FFT length to a power of two that holds it (`np.log` in
exact arithmetic). -/
def fftLength (N n : Nat) : Nat := if N > n then 2 ^ Nat.clog 2 N else n

/-- mfcc.py:158-161: the filter states. -/
structure St where
  dc : ℝ
  pre : ℝ

/-- mfcc.py:158-161 `reset`. -/
def reset : St := ⟨0, 0⟩

/-- mfcc.py:166-178 `make_lifter` for `Q` other than 0: entry `i`. -/
noncomputable def lifterAt (Q : ℝ) (i : Nat) : ℝ := 1 + 0.5 * Q * Real.sin (Real.pi * i / Q)

/-- The argument of `compute`. -/
inductive In where
  | wave (x : List ℝ)
  | cplx (X : List (List ℂ))
  | real (M : List (List ℝ))

/-- A returned matrix. -/
inductive Mat where
  | cplx (X : List (List ℂ))
  | real (M : List (List ℝ))

/-- `np.abs(X)`. -/
noncomputable def absM (X : List (List ℂ)) : List (List ℝ) := X.map (fun r => r.map (fun z => ‖z‖))

/-- The local variables after the input is prepared; `none` is an unbound variable. -/
structure Vars where
  X : Option (List (List ℂ)) := none
  F : Option (List (List ℝ)) := none
  B : Option (List (List ℝ)) := none
  logE : Option (List ℝ) := none

/-- mfcc.py:260-262. -/
noncomputable def dcStage (c : Cfg) (x : List ℝ) (z : ℝ) : List ℝ × ℝ := if c.removeDc then dcFilter x z else (x, z)

open Classical in
/-- mfcc.py:268-270. -/
noncomputable def preStage (c : Cfg) (x : List ℝ) (z : ℝ) : List ℝ × ℝ :=
  if c.preemph > 0 then preemph c.preemph x z else (x, z)

/-- mfcc.py:285: the energy from the magnitude spectrum of a frame. -/
noncomputable def specEnergy (row : List ℝ) : ℝ := Real.log (Frontend.mean (row.map (fun a => a ^ 2)) + 1e-10)

/-- mfcc.py:242-285: the wave input. The filter states are stored one by one, so that an exception in `st_logE` leaves
the first updated. -/
noncomputable def prepWave (c : Cfg) (noise : Nat → List ℝ) (st : St) (x : List ℝ) : Option Vars × St :=
  match padEdges c.snip c.L c.S x with
  | none => (none, st)
  | some x1 =>
    let d := dcStage c (addDither noise c.dither x1) st.dc
    let eRaw := if c.useEnergy && c.rawEnergy then (stLogE d.1 c.L c.S).map some else some none
    match eRaw with
    | none => (none, ⟨d.2, st.pre⟩)
    | some e =>
      let p := preStage c d.1 st.pre
      (match strft p.1 c.L c.S c.n (some c.window) with
        | none => none
        | some X =>
          let F := absM X
          some { X := some X, F := some F,
                 logE := if c.useEnergy && !c.rawEnergy then some (F.map specEnergy) else e },
        ⟨d.2, p.2⟩)

/-- `if self.use_energy: logE = M[:,0]`. -/
def energyCol (c : Cfg) (M : List (List ℝ)) : Option (Option (List ℝ)) :=
  if c.useEnergy then (column0 M).map some else some none

/-- mfcc.py:223-285: preparing the input. -/
noncomputable def prepare (c : Cfg) (noise : Nat → List ℝ) (st : St) : In → Option Vars × St
  | .wave x => if c.inp = .wave then prepWave c noise st x else (none, st)
  | .cplx X =>
    (if c.inp = .fft then do
      let e ← energyCol c (absM X)
      some { X := some X, F := some (absM X), logE := e }
    else none, st)
  | .real M =>
    (match c.inp with
      | .fftMag => do
        let e ← energyCol c M
        some { F := some M, logE := e }
      | .logSpec => do
        let e ← energyCol c M
        some { F := some (M.map (fun r => r.map Real.exp)), logE := e }
      | .logFb => do
        let e ← energyCol c M
        some { B := if c.useEnergy then some (M.map (fun r => r.drop 1)) else none, logE := e }
      | .cepstrum => some {}
      | _ => none, st)

/-- mfcc.py:289-291: squaring the magnitudes. -/
def squared (c : Cfg) (F : List (List ℝ)) : List (List ℝ) :=
  if c.inp.value ≤ Step.fft.value ∧ Step.fftMag.value ≤ c.out.value ∧ c.useFft2 = true then
    F.map (fun r => r.map (fun a => a ^ 2)) else F

/-- One row of `np.log(np.dot(F, self._fb) + 1e-10)`; `none` is a shape error. -/
noncomputable def fbRow (c : Cfg) (r : List ℝ) : Option (List ℝ) :=
  if r.length = c.n / 2 + 1 then
    some (c.fb.map (fun col => Real.log ((List.zipWith (· * ·) r col).sum + 1e-10)))
  else none

/-- mfcc.py:294-295: the log filter bank outputs; the outer `Option` is an exception, the inner one an unbound `B`. -/
noncomputable def stageB (c : Cfg) (F B : Option (List (List ℝ))) : Option (Option (List (List ℝ))) :=
  if c.inp.value ≤ Step.logSpec.value ∧ Step.logFb.value ≤ c.out.value then do
    let f ← F
    let b ← f.mapM (fbRow c)
    some (some b)
  else some B

/-- `scipy.fftpack.dct(row, type=2, norm='ortho')`; an empty row raises. -/
noncomputable def dct (r : List ℝ) : Option (List ℝ) :=
  if r.length = 0 then none
  else some ((List.range r.length).map (fun k : Nat =>
    Real.sqrt ((if k = 0 then 1 else 2) / (r.length : ℝ)) *
      ((List.range r.length).map (fun j : Nat =>
        r.getD j 0 * Real.cos (Real.pi * k * (2 * j + 1) / (2 * (r.length : ℝ))))).sum))

open Classical in
/-- mfcc.py:300-303: one row of cepstra; `P *= lifter` needs the lengths to agree (or one lifter coefficient). -/
noncomputable def cepsRow (c : Cfg) (b : List ℝ) : Option (List ℝ) := do
  let y ← dct b
  let p := y.take c.numCeps
  if c.lifter > 0 then
    if p.length = c.numCeps then some (List.zipWith (· * ·) p ((List.range c.numCeps).map (lifterAt c.lifter)))
    else if c.numCeps = 1 then some (p.map (fun a => a * lifterAt c.lifter 0))
    else none
  else some p

/-- mfcc.py:299-303: the cepstra; the outer `Option` is an exception, the inner one an unbound `P`. -/
noncomputable def stageP (c : Cfg) (B : Option (List (List ℝ))) : Option (Option (List (List ℝ))) :=
  if c.inp.value ≤ Step.logFb.value ∧ c.out = .cepstrum then do
    let b ← B
    let p ← b.mapM (cepsRow c)
    some (some p)
  else some none

/-- `R[:,0] = e`: `e` must have as many entries as `R` has rows, or one; a row without columns raises. -/
def setCol0 {K : Type} (R : List (List K)) (e : List K) : Option (List (List K)) :=
  if R.any (fun r => r.length == 0) then none
  else if e.length = R.length then some (List.zipWith (fun r a => r.set 0 a) R e)
  else if e.length = 1 then e.head?.map (fun a => R.map (fun r => r.set 0 a))
  else none

/-- `np.hstack((e[:,None], R))`. -/
def hstack (e : List ℝ) (R : List (List ℝ)) : Option (List (List ℝ)) :=
  if e.length = R.length then some (List.zipWith (fun a r => a :: r) e R) else none

/-- mfcc.py:319: the energy floor. -/
noncomputable def floored (c : Cfg) (e : List ℝ) : List ℝ := e.map (fun a => max a (Real.log (c.floor + 1e-15)))

/-- What a call leaves behind: the result and, for the extra return values and the caller's array, the matrices `X`,
`F`, `B` as they are at the end (an in-place change of the result changes the matrix it is an alias of). -/
structure Res where
  R : Mat
  X : Option (List (List ℂ))
  F : Option (List (List ℝ))
  B : Option (List (List ℝ))

/-- mfcc.py:306-323: selecting the output and storing the energy in it. -/
noncomputable def output (c : Cfg) (X : Option (List (List ℂ))) (F B P : Option (List (List ℝ)))
    (e : Option (List ℝ)) : Option Res :=
  match c.out with
  | .fft => do
    let x ← X
    if c.useEnergy then do
      let e ← e
      let x' ← setCol0 x ((floored c e).map Complex.ofReal)
      some ⟨.cplx x', some x', F, B⟩
    else some ⟨.cplx x, X, F, B⟩
  | .fftMag => do
    let f ← F
    if c.useEnergy then do
      let e ← e
      let f' ← setCol0 f (floored c e)
      some ⟨.real f', X, some f', B⟩
    else some ⟨.real f, X, F, B⟩
  | .logSpec => do
    let f ← F
    let r := f.map (fun row => row.map (fun a => Real.log (a + 1e-10)))
    if c.useEnergy then do
      let e ← e
      let r' ← setCol0 r (floored c e)
      some ⟨.real r', X, F, B⟩
    else some ⟨.real r, X, F, B⟩
  | .logFb => do
    let b ← B
    if c.useEnergy then do
      let e ← e
      let r ← hstack (floored c e) b
      some ⟨.real r, X, F, B⟩
    else some ⟨.real b, X, F, B⟩
  | _ => do
    let p ← P
    if c.useEnergy then do
      let e ← e
      let r ← setCol0 p (floored c e)
      some ⟨.real r, X, F, B⟩
    else some ⟨.real p, X, F, B⟩

/-- mfcc.py:288-323: from the prepared input to the result. -/
noncomputable def finish (c : Cfg) (v : Vars) : Option Res := do
  let F := v.F.map (squared c)
  let B ← stageB c F v.B
  let P ← stageP c B
  output c v.X F B P v.logE

/-- mfcc.py:206-323 `compute` without extra return values: the result (with what it leaves behind) and the new filter
states. -/
noncomputable def compute (c : Cfg) (noise : Nat → List ℝ) (st : St) (x : In) : Option Res × St :=
  let r := prepare c noise st x
  (r.1.bind (finish c), r.2)

/-- mfcc.py:219-221: the assertions on the extra return values. -/
def flagsOk (c : Cfg) (rFft rMag rFb : Bool) : Bool :=
  !(rFft && decide (c.inp.value > 1)) &&
  !(rMag && (decide (c.inp.value > 2) || decide (c.out.value < 2))) &&
  !(rFb && decide (c.out.value < 4))

/-- mfcc.py:325-337: the returned tuple (`none` if one of the variables is unbound). -/
def extras (r : Res) (rFft rMag rFb : Bool) : Option (List Mat) := do
  let x ← if rFft then r.X.map (fun X => [Mat.cplx X]) else some []
  let f ← if rMag then r.F.map (fun F => [Mat.real F]) else some []
  let b ← if rFb then r.B.map (fun B => [Mat.real B]) else some []
  some ([r.R] ++ x ++ f ++ b)

/-- mfcc.py:206-337 `compute`. -/
noncomputable def computeAll (c : Cfg) (noise : Nat → List ℝ) (st : St) (x : In) (rFft rMag rFb : Bool) :
    Option (List Mat) × St :=
  if flagsOk c rFft rMag rFb then
    let r := compute c noise st x
    (r.1.bind (fun r => extras r rFft rMag rFb), r.2)
  else (none, st)

/-- The caller's matrix after the call: for the steps 'fft' and 'fft_mag' the variable `X` or `F` is the argument
itself (mfcc.py:225,230). -/
def callerAfter (c : Cfg) (x : In) (r : Res) : In :=
  match x, c.inp, r.X, r.F with
  | .cplx _, .fft, some X, _ => .cplx X
  | .real _, .fftMag, _, some F => .real F
  | x, _, _, _ => x

end Hyp.Mfcc
