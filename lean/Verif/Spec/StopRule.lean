import Verif.Spec.Train
import Verif.Spec.Fit
import Mathlib.Analysis.Real.Sqrt

/-!
# The stopping rule, read off the returned history
-/
namespace TD.Spec
open TD fact

/-- The relative residual `‖X - full‖ / ‖X‖` in entry `j` of a history. -/
noncomputable def histRel (hist : List (ℝ × ℝ)) (j : Nat) : ℝ := (hist[j]?.getD (0, 0)).2

/-- The objective `½ ‖X - full‖²` of step `j`, computed from its relative residual. -/
noncomputable def histObj (X : Tensor ℝ) (hist : List (ℝ × ℝ)) (j : Nat) : ℝ :=
  1 / 2 * (histRel hist j * Real.sqrt (normSqT X)) ^ 2

/-- A history of at most `steps` entries that ends where it should: the stopping test fails at every entry before the
last one, and holds at the last one unless all steps were executed. -/
def EndsWhereItShould (A : Arith ℝ) (track : Bool) (X : Tensor ℝ) (tol : ℝ) (steps : Int) (hist : List (ℝ × ℝ)) : Prop :=
  1 ≤ hist.length ∧ (hist.length : Int) ≤ steps ∧
  (∀ j, j + 1 < hist.length → ¬ Stop A track tol (histObj X hist) (histRel hist) j) ∧
  ((hist.length : Int) = steps ∨ Stop A track tol (histObj X hist) (histRel hist) (hist.length - 1))

end TD.Spec
