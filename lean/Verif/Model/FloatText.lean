import Mathlib.Data.Rat.Defs
import Mathlib.Algebra.Order.Field.Rat
import Verif.Model.Reader
import Verif.Model.Special

/-!
# Python `float()` on text

Library contract used by `reader.py:50` (`float(entry[-1])`), part of the trusted base: CPython
`PyFloat_FromString`.  `Model/Reader.lean` takes `float()` as an argument `pyFloat`; `toFloat F` is the function to be
put there, for a format `F` of numbers.
Simplifications: ASCII only, no NUL characters, the rounding of `Model/Special.lean` (no signed zeros).
-/
namespace TD.reader
open TD

/-- What a text read by `float()` stands for, before it is rounded to a double (`reader.py:50`). -/
inductive Lit where
  | num (q : ℚ)
  | inf (neg : Bool)
  | nan
  deriving DecidableEq

/-- The text before the first character in `seps` and the text after it, if there is one
(part of `float()`, `reader.py:50`). -/
def cutAt (seps : List Char) : List Char → List Char × Option (List Char)
  | [] => ([], none)
  | c :: r => if c ∈ seps then ([], some r) else
      match cutAt seps r with
      | (a, b) => (c :: a, b)

/-- The digits before or after the point: their value and their number.  There may be none
(part of `float()`, `reader.py:50`). -/
def digitPart (l : List Char) : Option (Nat × Nat) :=
  if l = [] then some (0, 0)
  else (digitsAux 0 false l).map fun n => (n, (l.filter Char.isDigit).length)

/-- A sign, removed from the front: whether it is a minus, and the rest (part of `float()`, `reader.py:50`). -/
def cutSign : List Char → Bool × List Char
  | '-' :: r => (true, r)
  | '+' :: r => (false, r)
  | r => (false, r)

/-- The exponent: an integer without blanks; nothing stands for 0 (part of `float()`, `reader.py:50`). -/
def exponent : Option (List Char) → Option Int
  | none => some 0
  | some l =>
    let (neg, l) := cutSign l
    (digitsAux 0 false l).map fun n : Nat => if neg then -(n : Int) else (n : Int)

/-- A decimal number without sign: digits, a point, digits, `e` or `E`, an exponent
(part of `float()`, `reader.py:50`). -/
def decimal (l : List Char) : Option ℚ := do
  let (m, ex) := cutAt ['e', 'E'] l
  let (ip, fp) := cutAt ['.'] m
  let (i, ni) ← digitPart ip
  let (f, nf) ← digitPart (fp.getD [])
  let e ← exponent ex
  if ni + nf = 0 then none
  else some (((i * 10 ^ nf + f : Nat) : ℚ) * (10 : ℚ) ^ (e - nf))

/-- Python `float(s)`; `none` is `ValueError` (`reader.py:50`). -/
def pyFloat (s : List Char) : Option Lit :=
  let s := ((s.dropWhile isWs).reverse.dropWhile isWs).reverse
  let (neg, s) := cutSign s
  let low := s.map Char.toLower
  if low = "inf".toList ∨ low = "infinity".toList then some (.inf neg)
  else if low = "nan".toList then some .nan
  else (decimal s).map fun q => .num (if neg then -q else q)

/-- `value[row] = float(entry[-1])`: the value as a number of the format (`reader.py:50`). -/
noncomputable def toFloat (F : sp.Fmt) (s : List Char) : Option (sp.Num F) :=
  (pyFloat s).map fun
    | .num q => .round F q
    | .inf neg => .inf neg
    | .nan => .nan

end TD.reader
