import Mathlib.Data.List.Basic

/-! # Specification: how an integer is written -/
namespace TD.Spec

/-- White space that may stand around an integer: space, tab, newline, vertical tab, form feed, carriage return. -/
def blanks : List Char := [' ', '\t', '\n', '\x0b', '\x0c', '\r']

/-- The decimal digits; the position of a digit is its value. -/
def decimals : List Char := ['0', '1', '2', '3', '4', '5', '6', '7', '8', '9']

/-- Value of a sequence of decimal digits. -/
def decValue (ds : List Char) : Nat := ds.foldl (fun v c => 10 * v + decimals.idxOf c) 0

/-- `s` is a way to write the integer `i`: blanks, perhaps a sign, groups of decimal digits separated by single underscores,
blanks. -/
def IntText (s : List Char) (i : Int) : Prop :=
  ∃ (pre sign post : List Char) (groups : List (List Char)),
    s = pre ++ sign ++ List.intercalate ['_'] groups ++ post ∧ (∀ c ∈ pre, c ∈ blanks) ∧ (∀ c ∈ post, c ∈ blanks) ∧
    groups ≠ [] ∧ (∀ g ∈ groups, g ≠ [] ∧ ∀ c ∈ g, c ∈ decimals) ∧
    ((sign = [] ∨ sign = ['+']) ∧ i = (decValue groups.flatten : Int) ∨ sign = ['-'] ∧ i = -(decValue groups.flatten : Int))

end TD.Spec
