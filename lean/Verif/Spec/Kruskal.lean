import Verif.Model.Type
import Verif.Spec.Kron

/-!
# Specification vocabulary for Kruskal tensors
-/
namespace TD.Spec
variable {α : Type}

/-- The weight of component `r`: 1 without weights, else the `r`-th entry of the given vector or column. -/
def weight [Zero α] [One α] : Option (KTensor.Arr α) → Nat → α
  | none, _ => 1
  | some a, r => if a.val.shape.length = 1 then a.val.at_ [r] else a.val.at_ [r, 0]

/-- The weights are absent, a vector of length `R`, or a column of height `R`. -/
def WeightShape (R : Nat) : Option (KTensor.Arr α) → Prop
  | none => True
  | some a => a.val.shape = [R] ∨ a.val.shape = [R, 1]

/-- Element type the factors have once stored: numpy factors become float32 (`type.py:139`). -/
def storedDtype : Src → DType → DType
  | .np, _ => .float32
  | .tf, dt => dt

/-- Element type the weights have once stored: default weights are float32 (`type.py:145`). -/
def weightDtype : Option (KTensor.Arr α) → DType
  | none => .float32
  | some a => a.dtype

/-- Factor matrices of a rank-`R` Kruskal tensor: between 1 and 25 matrices with `R` columns. -/
def Factors (U : List (Tensor α)) (R : Nat) : Prop :=
  U ≠ [] ∧ U.length ≤ 25 ∧ AllMat U ∧ ∀ M ∈ U, M.shape.getD 1 0 = R

end TD.Spec
