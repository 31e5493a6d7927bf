import Mathlib.Algebra.BigOperators.Group.Finset.Basic
import Mathlib.Data.Fintype.Card
import Mathlib.Data.Real.Basic

/-! # Averages

A uniform random choice among finitely many possibilities; the expected value is the average over all of them. -/
namespace TD.Spec

/-- The average of `f` over all elements of a finite type. -/
noncomputable def average {ι : Type} [Fintype ι] (f : ι → ℝ) : ℝ := (∑ i, f i) / Fintype.card ι

end TD.Spec
