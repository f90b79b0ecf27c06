import Mathlib.Analysis.SpecialFunctions.Pow.Real
import Mathlib.Analysis.SpecialFunctions.Log.Base
import Mathlib.Tactic.FieldSimp
import Mathlib.Tactic.Linarith

/-!
Model of the gains and of the simple activity detector of /repo/hyperion/utils/misc.py:29-62 over the real numbers (exact arithmetic); arrays are
lists of their elements, all operations are element by element.
-/

namespace Hyp.Misc

/-- `apply_gain_logx`, misc.py:29-31 -/
noncomputable def gainLogx (x : List ℝ) (a : ℝ) : List ℝ := x.map (fun v => v + a / (20 * Real.logb 10 (Real.exp 1)))

/-- `apply_gain_logx2`, misc.py:33-35 -/
noncomputable def gainLogx2 (x : List ℝ) (a : ℝ) : List ℝ := x.map (fun v => v + a / (10 * Real.logb 10 (Real.exp 1)))

/-- `apply_gain_x`, misc.py:37-39 -/
noncomputable def gainX (x : List ℝ) (a : ℝ) : List ℝ := x.map (fun v => v * (10 : ℝ) ^ (a / 20))

/-- `apply_gain_x2`, misc.py:41-43 -/
noncomputable def gainX2 (x : List ℝ) (a : ℝ) : List ℝ := x.map (fun v => v * (10 : ℝ) ^ (a / 10))

/-- `apply_gain(x, feat_type, AdB)`, misc.py:45-53; `none`: KeyError -/
noncomputable def applyGain (x : List ℝ) (ty : String) (a : ℝ) : Option (List ℝ) :=
  if ty = "fft" then some (gainX x a)
  else if ty = "logfft" then some (gainLogx x a)
  else if ty = "fb" then some (gainX x a)
  else if ty = "fb2" then some (gainX2 x a)
  else if ty = "logfb" then some (gainLogx x a)
  else if ty = "logfb2" then some (gainLogx2 x a)
  else none

open Classical in
/-- `energy_vad(P)`, misc.py:55-57; `none`: `np.max` of an empty array raises -/
noncomputable def energyVad (p : List ℝ) : Option (List Bool) :=
  p.max?.map (fun m => p.map (fun v => decide (v > m - 35)))

end Hyp.Misc
