import Mathlib.Data.List.Basic
import Mathlib.Data.Int.Basic

/-!
Model of `SeqEmbed.predict_embed`, /repo/hyperion/keras/embed/seq_embed.py:201-258: the encoder accepts chunks of a fixed
length, a long sequence is encoded chunk by chunk into one matrix, which goes to the pooling network with a mask. The encoder
(`enc_net.predict` of one chunk) is an arbitrary function; rows are elements of arbitrary types with a zero.
-/

namespace Hyp.Keras

/-- lengths and contexts, seq_embed.py:203-205 and constructor: `N` input frames and `P` output frames per chunk, one output
frame for `r` input frames -/
structure EmbCfg where
  N : Nat
  P : Nat
  r : Nat
  left : Nat
  right : Nat
  beginC : Nat
  endC : Nat
deriving DecidableEq

variable {α β : Type}

/-- `y[j:k] = v`, for `j ≤ k ≤ len(y)`; rows of another number raise (NumPy repeats a single row: the model raises) -/
def sliceSet (y : List β) (j k : Nat) (v : List β) : Option (List β) :=
  if j ≤ k ∧ k ≤ y.length ∧ v.length = k - j then some (y.take j ++ v ++ y.drop k) else none

/-- variables of the loop: the buffer `x_i`, the result `y`, positions `j_in`, `j_out` -/
structure EmbState (α β : Type) where
  xi : List α
  y : List β
  jin : Nat
  jout : Nat

/-- body of the loop, seq_embed.py:232-246. The buffer is not cleared: a short last chunk is followed by frames of the
chunk before. -/
def embStep (c : EmbCfg) (enc : List α → List β) (x : List α) (s : EmbState α β) (i : Nat) : Option (EmbState α β) := do
  let shift := c.N - c.left - c.right
  let kin := min (s.jin + c.N) x.length
  let kout := min (s.jout + c.P) (x.length / c.r)
  let lin := kin - s.jin
  let xi := (x.drop s.jin).take lin ++ s.xi.drop lin
  let y ← sliceSet s.y s.jout kout ((enc xi).take (kout - s.jout))
  some { xi := xi, y := y, jin := s.jin + shift,
         jout := s.jout + shift / c.r + (if i = 0 then c.left / c.r else 0) }

/-- `mask[0,:b] = 0; mask[0, n - e:] = 0`, seq_embed.py:223-225: a negative start counts from the end -/
def embMask (n b e : Nat) : List Bool :=
  let m1 := List.replicate (min b n) false ++ List.replicate (n - min b n) true
  let start := if e ≤ n then n - e else n - (e - n)
  m1.take start ++ List.replicate (n - start) false

/-- the encoded frames and the mask given to the pooling network, seq_embed.py:201-246. Contexts that are not multiples of
the downsampling raise; `in_shift = 0` divides by zero (negative shifts are left out of the model). The number of chunks
`max(ceil((L - N)/shift + 1), 1)` is written with natural numbers. -/
def predictFrames (c : EmbCfg) (enc : List α → List β) (z : α) (zy : β) (x : List α) : Option (List β × List Bool) := do
  guard (0 < c.r ∧ c.r ∣ c.left ∧ c.r ∣ c.right ∧ c.r ∣ c.beginC ∧ c.r ∣ c.endC)
  guard (c.left + c.right < c.N)
  let shift := c.N - c.left - c.right
  let n := x.length / c.r
  let nb := (x.length - c.N + (shift - 1)) / shift + 1
  let s ← (List.range nb).foldlM (embStep c enc x) { xi := List.replicate c.N z, y := List.replicate n zy, jin := 0, jout := 0 }
  some (s.y, embMask n (c.beginC / c.r) (c.endC / c.r))

end Hyp.Keras
