import Mathlib.LinearAlgebra.Matrix.Rank
import Verif.Spec.ThinSvd
import Verif.Spec.Report

/-!
# Best approximations of a matrix by matrices of a given rank
-/
namespace TD.Spec
open TD Tensor

/-- `Y` is a best approximation of the `m` by `n` matrix `X` among the matrices of rank at most `r`, in the sum of squared
errors. -/
structure BestOfRank (X : Tensor ℝ) (m n r : Nat) (Y : Tensor ℝ) : Prop where
  shape : Y.shape = [m, n]
  rank : (toMat Y m n).rank ≤ r
  best : ∀ Z, Z.shape = [m, n] → (toMat Z m n).rank ≤ r →
    (boxSum [m, n] fun i => (X.at_ i - Y.at_ i) ^ 2) ≤ boxSum [m, n] fun i => (X.at_ i - Z.at_ i) ^ 2

/-- The first `r` singular values of `M` are larger than the others, except that all the others may be zero. -/
def Gap {m n : Nat} (M : Mat m n) (r : Nat) : Prop :=
  ∃ s, SingularValues M s ∧ ∀ i j, i.val < r → r ≤ j.val → s j < s i ∨ s j = 0

end TD.Spec
