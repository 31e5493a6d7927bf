import Verif.Model.Tensor

/-! # Specification: a vector as a matrix with one column -/
namespace TD.Spec
open TD Tensor

/-- The one-column matrix whose entries are those of the vector `x`. -/
def asColumn {α : Type} [Zero α] (x : Tensor α) : Tensor α := mat (x.shape.getD 0 0) 1 fun i _ => x.at_ [i]

end TD.Spec
