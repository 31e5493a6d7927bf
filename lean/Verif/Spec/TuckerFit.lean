import Verif.Spec.Fit
import Verif.Spec.ThinSvd

/-!
# The error of a Tucker model
-/
namespace TD.Spec
open TD

/-- `‖X - G ×_0 A_0 ×_1 A_1 …‖²`, written out entry by entry. -/
noncomputable def tkErr (X g : Tensor ℝ) (A : List (Tensor ℝ)) : ℝ :=
  boxSum X.shape fun i => (X.at_ i - boxSum g.shape fun j => g.at_ j * kronEntry A i j) ^ 2

/-- Shapes of the factors of a Tucker model with the given ranks. -/
def tuckerShapes (shape ranks : List Nat) : List (List Nat) :=
  (List.range shape.length).map fun k => [shape.getD k 0, ranks.getD k 0]

end TD.Spec
