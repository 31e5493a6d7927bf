import Mathlib.Algebra.BigOperators.Group.Finset.Basic
import Mathlib.Algebra.Ring.Defs
import Verif.Model.Tensor

/-! # Specification of the laws of mode products -/
namespace TD.Spec
open Tensor
variable {α : Type}

/-- `I` is the `d × d` identity matrix. -/
def IsEye [CommSemiring α] (I : Tensor α) (d : Nat) : Prop :=
  I.shape = [d, d] ∧ ∀ i < d, ∀ j < d, I.at_ [i, j] = if i = j then 1 else 0

/-- `D = x X + y Y`, entry by entry. -/
def IsComb [CommSemiring α] (x y : α) (X Y D : Tensor α) : Prop :=
  X.shape = D.shape ∧ Y.shape = D.shape ∧ ∀ i, InB D.shape i → D.at_ i = x * X.at_ i + y * Y.at_ i

/-- The columns of the `m × c` matrix `A` are orthonormal: `∑_i A[i, a] A[i, b]` is 1 for `a = b` and 0 otherwise. -/
def Orthonormal [CommSemiring α] (A : Tensor α) (c : Nat) : Prop :=
  ∃ m, A.shape = [m, c] ∧ ∀ a < c, ∀ b < c, (∑ i ∈ Finset.range m, A.at_ [i, a] * A.at_ [i, b]) = if a = b then 1 else 0

end TD.Spec
