import Mathlib.Algebra.BigOperators.Group.Finset.Basic
import Mathlib.Algebra.Ring.Defs
import Verif.Model.Tensor

/-!
# Specification of mode products
-/
namespace TD.Spec
open Tensor
variable {α : Type}

/-- `X ×_n A`: `(X ×_n A)[i_0,…,i_n,…] = ∑_k A[i_n, k] * X[i_0,…,k,…]`. -/
def modeProd [NonUnitalNonAssocSemiring α] (X : Tensor α) (n : Nat) (A : Tensor α) : Tensor α :=
  ofFn (X.shape.set n (A.shape.getD 0 0)) fun idx =>
    ∑ k ∈ Finset.range (X.shape.getD n 0), A.at_ [idx.getD n 0, k] * X.at_ (idx.set n k)

/-- `X ×_{n_0} A_0 ×_{n_1} A_1 …`, left to right. -/
def modeProds [NonUnitalNonAssocSemiring α] (X : Tensor α) (ps : List (Nat × Tensor α)) : Tensor α :=
  ps.foldl (fun Y p => modeProd Y p.1 p.2) X

/-- Matrix transpose. -/
def matT [Zero α] (A : Tensor α) : Tensor α :=
  mat (A.shape.getD 1 0) (A.shape.getD 0 0) fun i j => A.at_ [j, i]

end TD.Spec
