import Mathlib.Data.Real.Basic
import Verif.Spec.Contract

/-!
# The noise of the synthetic data

Specification only.
-/
namespace TD.Spec

/-- The squared size of the noise that the generators add: `∑ max(0, max_noise * n_i)²`. -/
noncomputable def noiseSq (N : List Nat) (mx : ℝ) (randn : List Nat → ℝ) : ℝ :=
  boxSum N fun i => (max 0 (mx * randn i)) ^ 2

end TD.Spec
