import Verif.Model.Tensor

/-! # Specification: the modes in another order -/
namespace TD.Spec
open Tensor
variable {α β : Type}

/-- `l_{p_0}, l_{p_1}, ...` -/
def permute (p l : List Nat) : List Nat := p.map fun k => l.getD k 0

/-- `Y` is `X` with mode `p_k` moved to position `k`: `Y[i_{p_0}, i_{p_1}, ...] = X[i_0, i_1, ...]`. -/
structure IsTransposed [Zero α] (p : List Nat) (X Y : Tensor α) : Prop where
  perm : p.Perm (List.range X.shape.length)
  shape : Y.shape = permute p X.shape
  entry : ∀ i, InB X.shape i → Y.at_ (permute p i) = X.at_ i

/-- `A'` is `[A[p_0], A[p_1], ...]`. -/
def Picked (p : List Nat) (A A' : List β) : Prop := A'.map some = p.map (A[·]?)

end TD.Spec
