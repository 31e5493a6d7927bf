import Verif.Spec.Experiment

/-!
# Specification of what a training prints
-/
namespace TD.Spec
open TD.ex

/-- `d` is the number `n` in decimal digits. -/
def Numeral (d : List Char) (n : Nat) : Prop := Digits d ∧ digitsVal d = n

/-- The line for step `n` with the two numbers of its history entry. -/
def StepText (l : List Char) (n : Nat) (p : PyFloat × PyFloat) : Prop :=
  ∃ d a b, l = "step=".toList ++ d ++ ", RMSE=".toList ++ a ++ ", relerr=".toList ++ b ∧ Numeral d n ∧ Shows a p.1 ∧
    Shows b p.2

/-- The last line of a training of `n` steps. -/
def FinishText (name l : List Char) (n : Nat) (loss : PyFloat) : Prop :=
  ∃ d a, l = name ++ " model train finish, in ".toList ++ d ++ " steps, with RMSE = ".toList ++ a ∧ Numeral d n ∧ Shows a loss

/-- The first line. -/
def startText (name : List Char) : List Char := name ++ " model initial finish".toList

/-- Lines, each ended by a newline. -/
def onLines (ls : List (List Char)) : List Char := ls.flatMap (· ++ ['\n'])

/-- The lines `ls` are those of the steps `ev` (counted from 1), each with its entry of the history. -/
def StepTexts (ls : List (List Char)) (ev : List Int) (hist : List (PyFloat × PyFloat)) : Prop :=
  List.Forall₂ (fun l e => ∃ (j : Nat) (p : PyFloat × PyFloat), e = (j : Int) + 1 ∧ hist[j]? = some p ∧ StepText l (j + 1) p) ls ev

/-- The text shows the float: by name, or as a decimal number with `n` digits after the point that differs from it by at most
half a unit of the last digit. -/
def ShowsTo (n : Nat) (t : List Char) : PyFloat → Prop
  | .nan => t = "nan".toList
  | .inf neg => t = if neg then "-inf".toList else "inf".toList
  | .fin neg m => ∃ i f, Digits i ∧ Digits f ∧ f.length = n ∧ t = (if neg then ['-'] else []) ++ i ++ '.' :: f ∧
      |(digitsVal i + digitsVal f / 10 ^ n : ℚ) - m| ≤ 1 / (2 * 10 ^ n)

end TD.Spec
