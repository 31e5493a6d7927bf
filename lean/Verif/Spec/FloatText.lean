import Mathlib.Data.Rat.Defs
import Mathlib.Algebra.Order.Field.Rat
import Verif.Spec.IntText

/-! # Specification: how a number is written -/
namespace TD.Spec

/-- `l` writes the decimal digits `ds`: nothing, or groups of digits separated by single underscores. -/
def DigitsText (l ds : List Char) : Prop :=
  l = [] ∧ ds = [] ∨
  ∃ groups : List (List Char), groups ≠ [] ∧ (∀ g ∈ groups, g ≠ [] ∧ ∀ c ∈ g, c ∈ decimals) ∧
    l = List.intercalate ['_'] groups ∧ ds = groups.flatten

/-- `l` is a sign or nothing; `neg` tells whether it is a minus. -/
def SignText (l : List Char) (neg : Bool) : Prop :=
  (l = [] ∨ l = ['+']) ∧ neg = false ∨ l = ['-'] ∧ neg = true

/-- `l` is an exponent, `e` or `E` and an integer without blanks, or nothing; its value is `e`. -/
def ExponentText (l : List Char) (e : Int) : Prop :=
  l = [] ∧ e = 0 ∨
  ∃ mark sign digits ds neg, l = mark :: (sign ++ digits) ∧ (mark = 'e' ∨ mark = 'E') ∧ SignText sign neg ∧
    DigitsText digits ds ∧ ds ≠ [] ∧ e = (if neg then -1 else 1) * (decValue ds : Int)

/-- `s` is a way to write the rational number `q`: blanks, perhaps a sign, digits, perhaps a point and digits, perhaps an
exponent, blanks.  There is at least one digit before or after the point.  The value is that of all digits, shifted by the
exponent and by the number of digits after the point. -/
def NumText (s : List Char) (q : ℚ) : Prop :=
  ∃ (pre sign whole frac expo post dWhole dFrac : List Char) (neg : Bool) (e : Int),
    s = pre ++ sign ++ whole ++ frac ++ expo ++ post ∧ (∀ c ∈ pre, c ∈ blanks) ∧ (∀ c ∈ post, c ∈ blanks) ∧
    SignText sign neg ∧ DigitsText whole dWhole ∧
    (frac = [] ∧ dFrac = [] ∨ ∃ l, frac = '.' :: l ∧ DigitsText l dFrac) ∧ dWhole ++ dFrac ≠ [] ∧ ExponentText expo e ∧
    q = (if neg then -1 else 1) * (decValue (dWhole ++ dFrac) : ℚ) * (10 : ℚ) ^ (e - dFrac.length)

/-- `s` is the word `w` (in lower case), in any mixture of cases, with perhaps a sign and blanks around. -/
def WordText (s w : List Char) (neg : Bool) : Prop :=
  ∃ (pre sign word post : List Char), s = pre ++ sign ++ word ++ post ∧ (∀ c ∈ pre, c ∈ blanks) ∧ (∀ c ∈ post, c ∈ blanks) ∧
    SignText sign neg ∧ List.Forall₂ (fun c l => c = l ∨ c = l.toUpper) word w

end TD.Spec
