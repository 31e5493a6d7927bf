import Mathlib.Algebra.Order.Field.Rat
import Mathlib.Algebra.Order.Group.Unbundled.Abs
import Verif.Model.Experiment

/-!
# Specification of the experiment reports
-/
namespace TD.Spec
open TD.ex

/-- A non-empty string of decimal digits. -/
def Digits (ds : List Char) : Prop := ds ≠ [] ∧ ∀ c ∈ ds, c.isDigit

/-- Its value. -/
def digitsVal (ds : List Char) : Nat := ds.foldl (fun a c => 10 * a + (c.toNat - '0'.toNat)) 0

/-- `t` is a decimal number with ten digits after the point, and `v` is its value. -/
def Decimal10 (t : List Char) (v : ℚ) : Prop :=
  ∃ (neg : Bool) (i f : List Char), Digits i ∧ Digits f ∧ f.length = 10 ∧ t = (if neg then ['-'] else []) ++ i ++ '.' :: f ∧
    v = (if neg then -1 else 1) * (digitsVal i + digitsVal f / 10 ^ 10)

/-- The number with this sign and magnitude. -/
def signed (neg : Bool) (m : ℚ≥0) : ℚ := if neg then -(m : ℚ) else m

/-- The text `t` shows the float: `nan`, `inf`, `-inf`, or a decimal number that differs from it by at most half a unit of
the tenth digit. -/
def Shows (t : List Char) : PyFloat → Prop
  | .nan => t = "nan".toList
  | .inf neg => t = if neg then "-inf".toList else "inf".toList
  | .fin neg m => ∃ v, Decimal10 t v ∧ |v - signed neg m| ≤ 1 / (2 * 10 ^ 10)

/-- The file has one line per history entry, in order, each with the two numbers. -/
def ReportOf (t : List Char) (hist : List (PyFloat × PyFloat)) : Prop :=
  ∃ ls : List (List Char), t = ls.flatMap (· ++ ['\n']) ∧
    List.Forall₂ (fun l p => ∃ a b, l = a ++ [',', ' '] ++ b ∧ Shows a p.1 ∧ Shows b p.2) ls hist

/-- Two floats that differ by at most a unit of the tenth digit. -/
def Close : PyFloat → PyFloat → Prop
  | .nan, .nan => True
  | .inf a, .inf b => a = b
  | .fin a m, .fin b n => |signed a m - signed b n| ≤ 1 / 10 ^ 10
  | _, _ => False

/-- A finite float that is a multiple of the unit of the tenth digit, or not finite. -/
def OnGrid : PyFloat → Prop
  | .fin _ m => ∃ k : Nat, m * 10 ^ 10 = k
  | _ => True

/-- What the name of a report file tells about the experiment. -/
def SameName (j j' : Job) : Prop :=
  j.alg = j'.alg ∧ j.n1 = j'.n1 ∧ j.gR = j'.gR ∧ j.dR = j'.dR ∧ j.time = j'.time

/-- The calls `ex_20_shell.sh` is meant to make: cubes of size 20, 40, 80; generating rank 10 with ranks 5 to 15 and
generating rank 20 with ranks 15 to 25; 20 repetitions, 21 for `ntucker_ex.py`. -/
def Planned20 (j : Job) : Prop :=
  (j.n1 = 20 ∨ j.n1 = 40 ∨ j.n1 = 80) ∧ j.n2 = j.n1 ∧ j.n3 = j.n1 ∧
    (j.gR = 10 ∧ 5 ≤ j.dR ∧ j.dR ≤ 15 ∨ j.gR = 20 ∧ 15 ≤ j.dR ∧ j.dR ≤ 25) ∧
    1 ≤ j.time ∧ j.time ≤ if j.alg = .ntucker then 21 else 20

/-- The calls `ex_20_shell2.sh` is meant to make, all of them to `tucker_ex.py`: they continue those of `ex_20_shell.sh` up to the size
of the cube, in steps of 1, 2 and 5 for the sizes 20, 40 and 80. -/
def Planned20b (j : Job) : Prop :=
  j.alg = .tucker ∧ j.n2 = j.n1 ∧ j.n3 = j.n1 ∧ 1 ≤ j.time ∧ j.time ≤ 20 ∧ j.dR ≤ j.n1 ∧
    (j.n1 = 20 ∧ j.gR = 10 ∧ 16 ≤ j.dR ∨
     j.n1 = 40 ∧ 2 ∣ j.dR ∧ (j.gR = 10 ∧ 16 ≤ j.dR ∨ j.gR = 20 ∧ 26 ≤ j.dR) ∨
     j.n1 = 80 ∧ 5 ∣ j.dR ∧ (j.gR = 10 ∧ 20 ≤ j.dR ∨ j.gR = 20 ∧ 30 ≤ j.dR))

end TD.Spec
