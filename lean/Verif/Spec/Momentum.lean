import Mathlib.Analysis.Real.Sqrt

/-!
# Extrapolation and restart

Steps are numbered from 0; `e j` is the squared error after step `j`.
-/
namespace TD.Spec

/-- The sequence `1, (1 + √5)/2, …` of Nesterov momentum parameters. -/
noncomputable def tau : Nat → ℝ
  | 0 => 1
  | i + 1 => (1 + Real.sqrt (1 + 4 * tau i ^ 2)) / 2

/-- Step `j` has a smaller error than all steps before it. -/
def Improves (e : Nat → ℝ) (j : Nat) : Prop := ∀ i < j, e j < e i

open Classical in
/-- The number of improving steps before step `j`. -/
noncomputable def improvements (e : Nat → ℝ) : Nat → Nat
  | 0 => 0
  | j + 1 => if Improves e j then improvements e j + 1 else improvements e j

open Classical in
/-- Which iterate is the best before step `j`: iterate 0 is the initial point, iterate `i + 1` the result of
step `i`. -/
noncomputable def best (e : Nat → ℝ) : Nat → Nat
  | 0 => 0
  | j + 1 => if Improves e j then j + 1 else best e j

/-- The weight used for extrapolating after step `j`, where `l` and `l'` are the previous and the present Lipschitz
constants. -/
noncomputable def extraWeight (e : Nat → ℝ) (j : Nat) (l l' : ℝ) : ℝ :=
  min ((tau (improvements e j) - 1) / tau (improvements e j + 1)) (Real.sqrt (l / l'))

end TD.Spec
