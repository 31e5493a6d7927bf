import Verif.Model.Tensor
import Mathlib.Algebra.Ring.Defs

/-!
# Specification vocabulary for Kronecker and Khatri-Rao products
-/
namespace TD.Spec
variable {α : Type}

/-- Row counts / column counts of a list of matrices. -/
def rowDims (ms : List (Tensor α)) : List Nat := ms.map fun M => M.shape.getD 0 0
@[inherit_doc rowDims] def colDims (ms : List (Tensor α)) : List Nat := ms.map fun M => M.shape.getD 1 0

/-- All members are matrices (order-2 tensors). -/
def AllMat (ms : List (Tensor α)) : Prop := ∀ M ∈ ms, M.shape.length = 2

/-- `∏_k A_k[r_k, c_k]`. -/
def kronEntry [MulOneClass α] [Zero α] : List (Tensor α) → List Nat → List Nat → α
  | M :: ms, r :: rs, c :: cs => M.at_ [r, c] * kronEntry ms rs cs
  | _, _, _ => 1

/-- `∏_k A_k[i_k, r]`. -/
def khatriEntry [MulOneClass α] [Zero α] (r : Nat) : List (Tensor α) → List Nat → α
  | M :: ms, i :: is => M.at_ [i, r] * khatriEntry r ms is
  | _, _ => 1

end TD.Spec
