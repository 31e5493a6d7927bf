import Verif.Spec.Contract
import Verif.Spec.Kron
import Verif.Spec.Svd

/-!
# Specification vocabulary for the factorization algorithms
-/
namespace TD.Spec
open Matrix TD
variable {α : Type}

/-- Factors of a rank-`R` Kruskal model of a tensor of the given shape: one `I_k × R` matrix per mode. -/
def FactorsFor (shape : List Nat) (R : Nat) (U : List (Tensor α)) : Prop :=
  U.map Tensor.shape = shape.map fun d => [d, R]

/-- `‖X - ∑_r w_r a_0^r ∘ a_1^r ∘ …‖²`, written out entry by entry. -/
noncomputable def cpErr (X : Tensor ℝ) (R : Nat) (U : List (Tensor ℝ)) (w : Nat → ℝ) : ℝ :=
  boxSum X.shape fun i => (X.at_ i - ∑ r ∈ Finset.range R, w r * khatriEntry r U i) ^ 2

/-- `‖X - Y‖²` for tensors of one shape. -/
noncomputable def distSqT (X Y : Tensor ℝ) : ℝ := boxSum X.shape fun i => (X.at_ i - Y.at_ i) ^ 2

/-- `‖X‖²`. -/
noncomputable def normSqT (X : Tensor ℝ) : ℝ := boxSum X.shape fun i => X.at_ i ^ 2

/-- The `m × n` matrix of a tensor of order two. -/
def toMat (t : Tensor ℝ) (m n : Nat) : Mat m n := Matrix.of fun i j => t.at_ [i, j]

/-- The four Penrose conditions: `P` is the Moore-Penrose inverse of `V`. -/
structure IsPinv {n : Nat} (V P : Mat n n) : Prop where
  vpv : V * P * V = V
  pvp : P * V * P = P
  vpT : (V * P)ᵀ = V * P
  pvT : (P * V)ᵀ = P * V

/-- Contract of `numpy.linalg.pinv` on square matrices (exact arithmetic). -/
def PinvOk (pinv : Tensor ℝ → Res (Tensor ℝ)) : Prop :=
  ∀ (V : Tensor ℝ) (n : Nat), V.shape = [n, n] →
    ∃ P, pinv V = .ok P ∧ P.shape = [n, n] ∧ IsPinv (toMat V n n) (toMat P n n)

end TD.Spec
