import Mathlib.Data.Real.Basic

/-!
# Progress of a training

Specification only.  `res` is the list of relative residuals of the executed steps.
-/
namespace TD.Spec

/-- The residual before step `j + 1` (counted from 0) minus the residual after it. -/
noncomputable def drop (res : List ℝ) (j : Nat) : ℝ := res.getD j 0 - res.getD (j + 1) 0

open Classical in
/-- Number of steps that lowered the residual by more than `δ`. -/
noncomputable def drops (δ : ℝ) (res : List ℝ) : Nat := ((List.range (res.length - 1)).filter fun j => δ < drop res j).length

/-- The last residual. -/
noncomputable def lastRes (hist : List (ℝ × ℝ)) : ℝ := (hist.map Prod.snd).getLastD 0

end TD.Spec
