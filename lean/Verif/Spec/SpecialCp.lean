import Verif.Model.SpecialCp
import Verif.Spec.Special
import Verif.Spec.Fit

/-!
# Specification: `CP_ALS` in rounded arithmetic
-/
namespace TD.Spec
open TD sp
variable {F : Fmt}

/-- What is used of the shape of `numpy.linalg.pinv`: when it returns, the result for a square matrix has the same size. -/
def PinvSize (pinv : Tensor (Num F) → Res (Tensor (Num F))) : Prop :=
  ∀ V P R, V.shape = [R, R] → pinv V = .ok P → P.shape = [R, R]

/-- `numpy.linalg.pinv` raises on a matrix with an infinity or NaN ("SVD did not converge"). -/
def PinvRejects (pinv : Tensor (Num F) → Res (Tensor (Num F))) : Prop := ∀ V P, pinv V = .ok P → AllFinite V

/-- Column `r` of a matrix with `m` rows. -/
def ColumnFinite (M : Tensor (Num F)) (m r : Nat) : Prop := ∀ i < m, (M.at_ [i, r]).Finite

/-- Column `r` contains the number 1. -/
def ColumnHasOne (M : Tensor (Num F)) (m r : Nat) : Prop := ∃ i < m, M.at_ [i, r] = 1

/-- No entry of column `r` is above 1, or none is below 1. -/
def ColumnOneSided (M : Tensor (Num F)) (m r : Nat) : Prop :=
  (∀ i < m, (1 : Num F).lt (M.at_ [i, r]) = false) ∨ ∀ i < m, (M.at_ [i, r]).lt 1 = false

end TD.Spec
