import Verif.Round
import Mathlib.Analysis.SpecialFunctions.Log.Basic
import Mathlib.Analysis.SpecialFunctions.Pow.Real
import Mathlib.Analysis.SpecialFunctions.Trigonometric.Basic

/-!
Model of /repo/hyperion/feats/filter_banks.py (`FilterBankFactory`) and /repo/hyperion/feats/feature_windows.py
(`FeatureWindowFactory`). Exact real arithmetic; a filter bank is stored by columns (one list of weights per filter).
`none` is an exception.
-/

namespace Hyp.FB

/-- filter_banks.py:39-41. -/
noncomputable def lin2mel (x : ℝ) : ℝ := 1127 * Real.log (1 + x / 700)

/-- filter_banks.py:44-46. -/
noncomputable def mel2lin (x : ℝ) : ℝ := 700 * (Real.exp (x / 1127) - 1)

/-- Entry `i` of `np.linspace(a, b, n)`; `np.linspace(a, b, 1)` is `[a]`. -/
noncomputable def linspace (a b : ℝ) (n i : Nat) : ℝ := if n ≤ 1 then a else a + (i : ℝ) * ((b - a) / ((n - 1 : Nat) : ℝ))

open Classical in
/-- filter_banks.py:52-53, 79-80, 101-102. -/
noncomputable def highFreq (fs high : ℝ) : ℝ := if high = 0 then fs / 2 else high

open Classical in
/-- filter_banks.py:67-71: the triangle. -/
noncomputable def triangle (left center right m : ℝ) : ℝ :=
  if m > left ∧ m < right then
    if m ≤ center then (m - left) / (center - left) else (right - m) / (right - center)
  else 0

/-- filter_banks.py:49-73 `make_mel_kaldi`: the loop over bins stops before the last row. -/
noncomputable def melKaldi (nf n : Nat) (fs low high : ℝ) : List (List ℝ) :=
  let lo := lin2mel low
  let hi := lin2mel (highFreq fs high)
  (List.range nf).map (fun k : Nat =>
    (List.range (n / 2 + 1)).map (fun j : Nat =>
      if j < n / 2 then
        triangle (linspace lo hi (nf + 2) k) (linspace lo hi (nf + 2) (k + 1)) (linspace lo hi (nf + 2) (k + 2))
          (lin2mel (linspace 0 fs n j))
      else 0))

/-- `B[j,k] = v` in one column: Python indices, `none` is IndexError. -/
def setIdx (l : List ℝ) (j : Int) (v : ℝ) : Option (List ℝ) :=
  if 0 ≤ j ∧ j < l.length then some (l.set j.toNat v)
  else if j < 0 ∧ 0 ≤ j + l.length then some (l.set (j + l.length).toNat v)
  else none

/-- `for j in xrange(a, b): B[j,k] = f(j)` (`m` counts the iterations left). -/
def fillLoop (f : Int → ℝ) : Nat → Int → List ℝ → Option (List ℝ)
  | 0, _, l => some l
  | m + 1, j, l => do
    let l' ← setIdx l j (f j)
    fillLoop f m (j + 1) l'

/-- filter_banks.py:90-93, 110-113: one filter with its edges and centre at bins `a`, `b`, `c`. -/
noncomputable def binFilter (rows : Nat) (a b c : Int) : Option (List ℝ) := do
  let l1 ← fillLoop (fun j => ((j - a + 1 : Int) : ℝ) / ((b - a + 1 : Int) : ℝ)) (b + 1 - a).toNat a
    (List.replicate rows 0)
  fillLoop (fun j => ((c - j + 1 : Int) : ℝ) / ((c - b + 1 : Int) : ℝ)) (c - b).toNat (b + 1) l1

/-- filter_banks.py:88-95, 108-115: all the filters, from the bins `cbin`. -/
noncomputable def binFilters (nf n : Nat) (cbin : Nat → Int) : Option (List (List ℝ)) :=
  (List.range nf).mapM (fun k : Nat => binFilter (n / 2 + 1) (cbin k) (cbin (k + 1)) (cbin (k + 2)))

/-- filter_banks.py:82-86. -/
noncomputable def cbinEtsi (nf n : Nat) (fs low high : ℝ) (i : Nat) : Int :=
  roundEven (mel2lin (linspace (lin2mel low) (lin2mel (highFreq fs high)) (nf + 2) i) / fs * (n : ℝ))

/-- filter_banks.py:104-106. -/
noncomputable def cbinLinear (nf n : Nat) (fs low high : ℝ) (i : Nat) : Int :=
  roundEven (linspace low (highFreq fs high) (nf + 2) i / fs * (n : ℝ))

/-- filter_banks.py:76-95 `make_mel_etsi`. -/
noncomputable def melEtsi (nf n : Nat) (fs low high : ℝ) : Option (List (List ℝ)) :=
  binFilters nf n (cbinEtsi nf n fs low high)

/-- filter_banks.py:98-115 `make_linear`. -/
noncomputable def linear (nf n : Nat) (fs low high : ℝ) : Option (List (List ℝ)) :=
  binFilters nf n (cbinLinear nf n fs low high)

/-- filter_banks.py:32-33: a column that adds up to zero gives nan in NumPy and zeros here. -/
noncomputable def normCols (B : List (List ℝ)) : List (List ℝ) := B.map (fun c => c.map (fun a => a / c.sum))

/-- filter_banks.py:20-35 `create`. -/
noncomputable def create (type : String) (nf n : Nat) (fs low high : ℝ) (norm : Bool) : Option (List (List ℝ)) := do
  let B ← if type = "mel_kaldi" then some (melKaldi nf n fs low high)
    else if type = "mel_etsi" then melEtsi nf n fs low high
    else if type = "linear" then linear nf n fs low high
    else none
  some (if norm then normCols B else B)

/-- A weight of a filter bank: bin `j`, filter `k`. -/
def weight (B : List (List ℝ)) (j k : Nat) : ℝ := (B.getD k []).getD j 0

/-- feature_windows.py:22-36 `create` (with `sym=False`, the periodic windows of SciPy: a window of one point is 1, of
none is empty). The Povey window of length 0 raises (division by zero). -/
noncomputable def windowAt (type : String) (N i : Nat) : ℝ :=
  let c := Real.cos (2 * Real.pi * i / N)
  if type = "povey" then (0.5 - 0.5 * c) ^ (0.85 : ℝ)
  else if type = "hamming" then (if N = 1 then 1 else 0.54 - 0.46 * c)
  else if type = "hanning" then (if N = 1 then 1 else 0.5 - 0.5 * c)
  else if type = "blackman" then (if N = 1 then 1 else 0.42 - 0.5 * c + 0.08 * Real.cos (2 * (2 * Real.pi * i / N)))
  else 1

/-- feature_windows.py:22-36 `create`. -/
noncomputable def window (type : String) (N : Nat) : Option (List ℝ) :=
  if type = "povey" ∧ N = 0 then none
  else if type = "povey" ∨ type = "hamming" ∨ type = "hanning" ∨ type = "blackman" ∨ type = "rectangular" then
    some ((List.range N).map (windowAt type N))
  else none

end Hyp.FB
