import Mathlib.Analysis.SpecialFunctions.Complex.Log
import Mathlib.RingTheory.RootsOfUnity.Complex
import Mathlib.Algebra.BigOperators.Ring.List

/-!
Model of /repo/hyperion/feats/stft.py.

Exact arithmetic over ℝ and ℂ (the code stores complex64 and float32). Lengths and shifts are natural numbers.
`numpy.fft` is modelled by the definition of the discrete Fourier transform. `none` is an exception.
-/

namespace Hyp.Stft

/-- `exp(2 pi i m / n)`. -/
noncomputable def root (n : Nat) (m : ℤ) : ℂ := Complex.exp (2 * Real.pi * Complex.I * m / n)

/-- `np.fft.fft(a, n=n)`: the input is cropped or zero padded to `n` points; `n < 1` raises. -/
noncomputable def fft (a : List ℂ) (n : Nat) : Option (List ℂ) :=
  if n = 0 then none
  else some ((List.range n).map (fun k : Nat =>
    ((List.range n).map (fun j : Nat => a.getD j 0 * root n (-((j : ℤ) * k)))).sum))

/-- `np.fft.rfft(a, n=n)` of a real signal: the first `n // 2 + 1` coefficients. -/
noncomputable def rfft (a : List ℝ) (n : Nat) : Option (List ℂ) :=
  (fft (a.map Complex.ofReal) n).map (fun A => A.take (n / 2 + 1))

/-- `np.fft.ifft(A)`. -/
noncomputable def ifft (A : List ℂ) : Option (List ℂ) :=
  if A.length = 0 then none
  else some ((List.range A.length).map (fun t : Nat =>
    ((List.range A.length).map (fun k : Nat => A.getD k 0 * root A.length ((k : ℤ) * t))).sum / (A.length : ℂ)))

/-- The Hermitian extension `np.fft.irfft` works on: `A[k]` up to the half of the spectrum, conjugates above. -/
noncomputable def hermitian (A : List ℂ) (n k : Nat) : ℂ :=
  if k < A.length then A.getD k 0 else (starRingEnd ℂ) (A.getD (n - k) 0)

/-- `np.fft.irfft(A)`: the output has `2*(m-1)` points for `m` coefficients, and `m < 2` raises. -/
noncomputable def irfft (A : List ℂ) : Option (List ℝ) :=
  if A.length < 2 then none
  else
    let n := 2 * (A.length - 1)
    some ((List.range n).map (fun t : Nat =>
      (((List.range n).map (fun k : Nat => hermitian A n k * root n ((k : ℤ) * t))).sum / (n : ℂ)).re))

/-- `frame*window` (NumPy broadcasting of two vectors). -/
def bmul (a w : List ℝ) : Option (List ℝ) :=
  if a.length = w.length then some (List.zipWith (· * ·) a w)
  else if w.length = 1 then some (a.map (· * w.getD 0 0))
  else if a.length = 1 then some (w.map (a.getD 0 0 * ·))
  else none

/-- stft.py:21,61,106: `int(np.floor((len(x) - frame_length + frame_shift)/frame_shift))`; `none` is division by zero.
The float division is taken as exact. -/
def numFrames (len L S : Nat) : Option Int := if S = 0 then none else some (((len : Int) - L + S) / S)

/-- stft.py:24-26,64-66,111-113: the loop over frames; `j` advances by `frame_shift`. -/
def frameLoop {α : Type} (f : List ℝ → Option α) (x : List ℝ) (L S : Nat) : Nat → Nat → Option (List α)
  | 0, _ => some []
  | k + 1, j => do
    let r ← f ((x.drop j).take L)
    let rs ← frameLoop f x L S k (j + S)
    some (r :: rs)

/-- The common part of stft.py:21-28, 61-68, 106-113; a negative number of frames makes `np.zeros` raise. -/
def frameMap {α : Type} (f : List ℝ → Option α) (x : List ℝ) (L S : Nat) : Option (List α) := do
  let F ← numFrames x.length L S
  if F < 0 then none else frameLoop f x L S F.toNat 0

/-- stft.py:18-19,58-59: no window is the number 1, which broadcasts. -/
def windowOr1 (w : Option (List ℝ)) : List ℝ := w.getD [1]

/-- stft.py:16-28 `stft`. -/
noncomputable def stft (x : List ℝ) (L S n : Nat) (w : Option (List ℝ)) : Option (List (List ℂ)) :=
  frameMap (fun fr => do
    let a ← bmul fr (windowOr1 w)
    fft (a.map Complex.ofReal) n) x L S

/-- stft.py:56-68 `strft`. -/
noncomputable def strft (x : List ℝ) (L S n : Nat) (w : Option (List ℝ)) : Option (List (List ℂ)) :=
  frameMap (fun fr => do
    let a ← bmul fr (windowOr1 w)
    rfft a n) x L S

/-- stft.py:96-115 `st_logE`. -/
noncomputable def stLogE (x : List ℝ) (L S : Nat) : Option (List ℝ) := do
  let e ← frameMap (fun fr => some ((fr.map (fun a => a ^ 2)).sum)) x L S
  some (e.map (fun a => Real.log (a + 1e-15)))

/-- `acc[j:j+L] += v` (in place: `v` must have the length of the slice, or one element). -/
def addSlice {K : Type} [Add K] [Zero K] (acc : List K) (j L : Nat) (v : List K) : Option (List K) :=
  let seg := (acc.drop j).take L
  if v.length = seg.length then some (acc.take j ++ List.zipWith (· + ·) seg v ++ acc.drop (j + L))
  else if v.length = 1 then some (acc.take j ++ seg.map (· + v.getD 0 0) ++ acc.drop (j + L))
  else none

/-- stft.py:42-45, 83-86: the overlap-add loop. -/
def overlapLoop {K : Type} [Add K] [Zero K] (L S : Nat) (w : List ℝ) :
    List (List K) → Nat → List K → List ℝ → Option (List K × List ℝ)
  | [], _, xo, wo => some (xo, wo)
  | v :: vs, j, xo, wo => do
    let xo' ← addSlice xo j L v
    let wo' ← addSlice wo j L w
    overlapLoop L S w vs (j + S) xo' wo'

/-- stft.py:36,77: `(X.shape[0] - 1)*frame_shift + frame_length`; a negative number makes `np.zeros` raise. -/
def numSamples (F L S : Nat) : Option Nat :=
  if ((F : Int) - 1) * S + L < 0 then none else some (((F : Int) - 1) * S + L).toNat

/-- stft.py:33-34,74-75: no window is a vector of ones. -/
def windowOrOnes (L : Nat) (w : Option (List ℝ)) : List ℝ := w.getD (List.replicate L 1)

open Classical in
/-- stft.py:31-51 `istft`. (An array of zero frames whose width is zero raises in `ifft`; a list of rows has no width
when it is empty, and then nothing raises here.) -/
noncomputable def istft (X : List (List ℂ)) (L S : Nat) (w : Option (List ℝ)) : Option (List ℂ) := do
  let T ← numSamples X.length L S
  let xx ← X.mapM (fun r => (ifft r).map (fun y => y.take L))
  let (xo, wo) ← overlapLoop L S (windowOrOnes L w) xx 0 (List.replicate T 0) (List.replicate T 0)
  let wo1 := wo.map (fun a => if a = 0 then 1 else a)
  some (List.zipWith (fun (a : ℂ) (b : ℝ) => a * ((1 / b : ℝ) : ℂ)) xo wo1)

open Classical in
/-- stft.py:72-92 `istrft`. -/
noncomputable def istrft (X : List (List ℂ)) (L S : Nat) (w : Option (List ℝ)) : Option (List ℝ) := do
  let T ← numSamples X.length L S
  let xx ← X.mapM (fun r => (irfft r).map (fun y => y.take L))
  let (xo, wo) ← overlapLoop L S (windowOrOnes L w) xx 0 (List.replicate T 0) (List.replicate T 0)
  let wo1 := wo.map (fun a => if a = 0 then 1 else a)
  some (List.zipWith (fun (a : ℝ) (b : ℝ) => a * (1 / b)) xo wo1)

end Hyp.Stft
