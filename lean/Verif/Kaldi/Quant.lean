import Mathlib.Algebra.Order.Floor.Ring
import Mathlib.Algebra.Order.Field.Basic
import Mathlib.Tactic.Linarith
import Mathlib.Tactic.FieldSimp
import Mathlib.Tactic.Ring
import Mathlib.Tactic.NormNum
import Mathlib.Data.List.Sort

/-!
Model of the number coding of /repo/hyperion/utils/kaldi_matrix.py (`KaldiCompressedMatrix.compress`,
`to_ndarray`, `scale`), over an arbitrary linearly ordered field with a floor function: exact arithmetic, float
rounding (also the rounding of `min_value` and `data_range` to float32 in the header) is not modelled.
-/

namespace Hyp.Kaldi.Quant

variable {K : Type} [Field K] [LinearOrder K] [IsStrictOrderedRing K] [FloorRing K]

/-- `astype(np.int32)` / `astype(np.uint16)` of a number in range: truncation towards zero. -/
def trunc (x : K) : Int := if 0 ≤ x then ⌊x⌋ else -⌊-x⌋

/-- the statements `f[f>1.0] = 1; f[f<0.0] = 0` of kaldi_matrix.py:506-507, 514-515. -/
def clip01 (f : K) : K :=
  let f := if f > 1 then 1 else f
  if f < 0 then 0 else f

/-- kaldi_matrix.py:504-508 `_float_to_uint16`, one element. -/
def floatToU16 (mn rg x : K) : Int := trunc (clip01 ((x - mn) / rg) * 65535 + 499 / 1000)

/-- kaldi_matrix.py:512-516 `_float_to_uint8`, one element. -/
def floatToU8 (mn rg x : K) : Int := trunc (clip01 ((x - mn) / rg) * 255 + 499 / 1000)

/-- the constant `1.52590218966964e-05` of kaldi_matrix.py:521. -/
def u16Step : K := 152590218966964 / 10000000000000000000

/-- kaldi_matrix.py:520-522 `_uint16_to_float`, one element. -/
def u16ToFloat (mn rg : K) (c : Int) : K := mn + rg * u16Step * (c : K)

/-- kaldi_matrix.py:526-528 `_uint8_to_float`, one element. -/
def u8ToFloat (mn rg : K) (c : Int) : K := mn + rg / 255 * (c : K)

/-- the four percentiles of the header of a column. -/
structure Perc (α : Type) where
  p0 : α
  p25 : α
  p75 : α
  p100 : α
  deriving DecidableEq

/-- element `i` of the sorted column (`np.sort`, or `np.partition` at the positions it is asked for). -/
def sortedAt (v : List K) (i : Nat) : K := (v.mergeSort (fun a b => decide (a ≤ b))).getD i 0

/-- kaldi_matrix.py:532-565 `_compute_column_header`. -/
def columnHeader (mn rg : K) (v : List K) : Perc Int :=
  let n := v.length
  let q (i : Nat) : Int := floatToU16 mn rg (sortedAt v i)
  if n ≥ 5 then
    let p0 := min (q 0) 65532
    let p25 := min (max (q (n / 4)) (p0 + 1)) 65533
    let p75 := min (max (q (3 * (n / 4))) (p25 + 1)) 65534
    let p100 := max (q (n - 1)) (p75 + 1)
    ⟨p0, p25, p75, p100⟩
  else
    let p0 := min (q 0) 65532
    let p25 := if n > 1 then min (max (q 1) (p0 + 1)) 65533 else p0 + 1
    let p75 := if n > 2 then min (max (q 2) (p25 + 1)) 65534 else p25 + 1
    let p100 := if n > 3 then max (q 3) (p75 + 1) else p75 + 1
    ⟨p0, p25, p75, p100⟩

/-- kaldi_matrix.py:577, 598: the percentiles as numbers. -/
def Perc.toFloat (mn rg : K) (h : Perc Int) : Perc K :=
  ⟨u16ToFloat mn rg h.p0, u16ToFloat mn rg h.p25, u16ToFloat mn rg h.p75, u16ToFloat mn rg h.p100⟩

/-- kaldi_matrix.py:602-623 `_float_to_char`, one element. The final `astype(np.uint8)` is the identity on
0..255, see `C27_code_range`. -/
def floatToChar (p : Perc K) (v : K) : Int :=
  if v < p.p25 then
    let c := trunc ((v - p.p0) / (p.p25 - p.p0) * 64 + 1 / 2)
    let c := if c < 0 then 0 else c
    if c > 64 then 64 else c
  else if v < p.p75 then
    let c := 64 + trunc ((v - p.p25) / (p.p75 - p.p25) * 128 + 1 / 2)
    let c := if c < 64 then 64 else c
    if c > 192 then 192 else c
  else
    let c := 192 + trunc ((v - p.p75) / (p.p100 - p.p75) * 63 + 1 / 2)
    let c := if c < 192 then 192 else c
    if c > 255 then 255 else c

/-- kaldi_matrix.py:628-638 `_char_to_float`, one element. -/
def charToFloat (p : Perc K) (c : Int) : K :=
  if c ≤ 64 then p.p0 + (p.p25 - p.p0) * (c : K) / 64
  else if c ≤ 192 then p.p25 + (p.p75 - p.p25) * ((c : K) - 64) / 128
  else p.p75 + (p.p100 - p.p75) * ((c : K) - 192) / 63

/-- the compression methods of kaldi_matrix.py:246-251 and 'auto'. -/
inductive Method
  | auto | speechFeat | twoByteAuto | twoByteSigned | oneByteAuto | oneByteUnsigned | oneByte01
  deriving DecidableEq

/-- a compressed matrix (attributes of the object plus the coded data). `codes`: by rows in formats 2 and 3, by
columns in format 1. -/
structure CMat (K : Type) where
  fmt : Nat
  mn : K
  rg : K
  rows : Nat
  cols : Nat
  heads : List (Perc Int)
  codes : List (List Int)

/-- kaldi_matrix.py:376-380: what 'auto' stands for. -/
def Method.resolve (m : Method) (rows : Nat) : Method :=
  match m with
  | .auto => if rows > 8 then .speechFeat else .twoByteAuto
  | m => m

/-- kaldi_matrix.py:246-251. -/
def Method.format : Method → Nat
  | .auto => 0
  | .speechFeat => 1
  | .twoByteAuto | .twoByteSigned => 2
  | .oneByteAuto | .oneByteUnsigned | .oneByte01 => 3

/-- kaldi_matrix.py:386-404: minimum and range; `none` = `np.min` of an empty array or the assertion raises. -/
def globalRange (m : Method) (xs : List K) : Option (K × K) :=
  match m with
  | .twoByteSigned => some (-32768, 65535)
  | .oneByteUnsigned => some (0, 255)
  | .oneByte01 => some (0, 1)
  | _ => do
    let mn ← xs.min?
    let mx ← xs.max?
    let mx := if mx = mn then mn + 1 + |mn| else mx
    if mx - mn > 0 then some (mn, mx - mn) else none

/-- column `j` of a matrix given by rows. -/
def column (rows : List (List K)) (j : Nat) : List K := rows.map (·.getD j 0)

/-- kaldi_matrix.py:472-500 `compress(mat, method)` of a matrix with rows `rows` and `cols` columns. -/
def compress (m : Method) (cols : Nat) (rows : List (List K)) : Option (CMat K) := do
  let m := m.resolve rows.length
  let (mn, rg) ← globalRange m rows.flatten
  if m.format = 1 then
    let heads := (List.range cols).map (fun j => columnHeader mn rg (column rows j))
    let codes := (List.range cols).map (fun j =>
      (column rows j).map (floatToChar ((columnHeader mn rg (column rows j)).toFloat mn rg)))
    return ⟨1, mn, rg, rows.length, cols, heads, codes⟩
  else if m.format = 2 then
    return ⟨2, mn, rg, rows.length, cols, [], rows.map (List.map (floatToU16 mn rg))⟩
  else
    return ⟨3, mn, rg, rows.length, cols, [], rows.map (List.map (floatToU8 mn rg))⟩

/-- kaldi_matrix.py:642-664 `to_ndarray`; element (i, j). -/
def CMat.at (c : CMat K) (i j : Nat) : Option K :=
  if c.fmt = 1 then do
    let h ← c.heads[j]?
    let col ← c.codes[j]?
    let x ← col[i]?
    return charToFloat (h.toFloat c.mn c.rg) x
  else if c.fmt = 2 then do
    let r ← c.codes[i]?
    let x ← r[j]?
    return u16ToFloat c.mn c.rg x
  else do
    let r ← c.codes[i]?
    let x ← r[j]?
    return u8ToFloat c.mn c.rg x

/-- kaldi_matrix.py:357-362 `scale(alpha)`. -/
def CMat.scale (c : CMat K) (alpha : K) : CMat K := { c with mn := c.mn * alpha, rg := c.rg * alpha }

end Hyp.Kaldi.Quant
