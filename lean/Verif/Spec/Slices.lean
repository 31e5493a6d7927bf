import Mathlib.Algebra.BigOperators.Group.Finset.Basic
import Mathlib.Data.Real.Basic
import Verif.Model.Tensor

/-!
# Linear relations between slices

Specification only.
-/
namespace TD.Spec
open Tensor

/-- The slices of mode `k`, multiplied by the numbers `c`, add up to zero.  With `c` nonzero at one place: that slice is
empty.  With `c` equal to 1 and -1 at two places: the two slices are equal. -/
def SliceRel (X : Tensor ℝ) (k : Nat) (c : Nat → ℝ) : Prop :=
  ∀ idx, InB X.shape idx → ∑ i ∈ Finset.range (X.shape.getD k 0), c i * X.at_ (idx.set k i) = 0

/-- The same for the rows of a matrix with `m` rows and `n` columns. -/
def RowRel (A : Tensor ℝ) (m n : Nat) (c : Nat → ℝ) : Prop :=
  ∀ r < n, ∑ i ∈ Finset.range m, c i * A.at_ [i, r] = 0

end TD.Spec
