import Mathlib.Data.List.DropRight
import Mathlib.Data.List.Basic

/-!
# Python text primitives used by the models

Strings are lists of characters. These functions belong to the Python standard library, not to /repo:
they are modelled by their documented behaviour and belong to the trusted base.
-/

namespace Hyp.Text

abbrev Str := List Char

/-- `str.isspace` for one character (the Unicode white-space characters of CPython). -/
def isSpace (c : Char) : Bool :=
  let n := c.toNat
  (9 ≤ n && n ≤ 13) || (28 ≤ n && n ≤ 32) || n == 0x85 || n == 0xA0 || n == 0x1680 ||
  (0x2000 ≤ n && n ≤ 0x200A) || n == 0x2028 || n == 0x2029 || n == 0x202F || n == 0x205F || n == 0x3000

/-- `str.rstrip()`. -/
def rstrip (s : Str) : Str := s.rdropWhile isSpace

/-- `str.rstrip(chars)` with a single character. -/
def rstripChar (c : Char) (s : Str) : Str := s.rdropWhile (· == c)

/-- `str.lstrip()`. -/
def lstrip (s : Str) : Str := s.dropWhile isSpace

/-- `str.split(sep, maxsplit=1)` for a one-character separator: `none` when the separator does not
occur (Python returns a one-element list), otherwise the text before and after its first occurrence. -/
def splitOnce (sep : Char) : Str → Option (Str × Str)
  | [] => none
  | c :: cs => if c = sep then some ([], cs)
    else (splitOnce sep cs).map (fun p => (c :: p.1, p.2))

/-- `str.split(sep)` for a one-character separator (always at least one field). -/
def splitAll (sep : Char) : Str → List Str
  | [] => [[]]
  | c :: cs =>
    if c = sep then [] :: splitAll sep cs
    else match splitAll sep cs with
      | [] => [[c]]
      | f :: fs => (c :: f) :: fs

/-- `str.split()`: fields separated by runs of white space, no empty fields. -/
def splitWsAux : Str → Str → List Str
  | [], acc => if acc = [] then [] else [acc]
  | c :: cs, acc =>
    if isSpace c then (if acc = [] then splitWsAux cs [] else acc :: splitWsAux cs [])
    else splitWsAux cs (acc ++ [c])

def splitWs (s : Str) : List Str := splitWsAux s []

/-- universal-newline translation done by `open(path, 'r')`. -/
def universalNewlines : Str → Str
  | [] => []
  | '\r' :: '\n' :: cs => '\n' :: universalNewlines cs
  | '\r' :: cs => '\n' :: universalNewlines cs
  | c :: cs => c :: universalNewlines cs

/-- lines of a text, each with its terminating newline if it has one. -/
def linesKeep : Str → List Str
  | [] => []
  | c :: cs =>
    if c = '\n' then ['\n'] :: linesKeep cs
    else match linesKeep cs with
      | [] => [[c]]
      | l :: ls => (c :: l) :: ls

/-- `for line in f` on a file opened in text mode. -/
def fileLines (content : Str) : List Str := linesKeep (universalNewlines content)

/-- the decimal digit character of `d < 10`. -/
def digitChar (d : Nat) : Char := Char.ofNat (48 + d)

/-- `'%d' % n` for a non-negative integer. -/
def printNat (n : Nat) : Str :=
  if n < 10 then [digitChar n] else printNat (n / 10) ++ [digitChar (n % 10)]

/-- value of an ASCII decimal digit. -/
def digitVal (c : Char) : Option Nat :=
  if 48 ≤ c.toNat ∧ c.toNat ≤ 57 then some (c.toNat - 48) else none

/-- `str.isdecimal()` (ASCII digits; the other Unicode decimal digits are not modelled). -/
def isDecimal (s : Str) : Bool := !s.isEmpty && s.all (fun c => (digitVal c).isSome)

/-- `int(s)` restricted to plain non-negative decimal numerals; `none` = `ValueError`
(signs, surrounding blanks and underscores, which Python also accepts, are not modelled). -/
def parseNat (s : Str) : Option Nat :=
  if s.isEmpty then none
  else s.foldl (fun acc c => acc.bind (fun n => (digitVal c).map (fun d => 10 * n + d))) (some 0)

end Hyp.Text
