import Verif.Spec.Fit
import Verif.Spec.Unfold

/-!
# Thin singular value decompositions

Contract of `tf.svd(M, full_matrices=False)` in exact arithmetic: *some* thin decomposition is returned; the
theorems quantify over all of them.
-/
namespace TD.Spec
open Matrix TD

/-- `M = U diag(s) Vᵀ` with orthonormal columns in `U`, `V` and `s ≥ 0` non-increasing. -/
structure IsThinSVD {m n : Nat} (M : Mat m n) (U : Mat m (min m n)) (s : Fin (min m n) → ℝ)
    (V : Mat n (min m n)) : Prop where
  orthU : Uᵀ * U = 1
  orthV : Vᵀ * V = 1
  nonneg : ∀ i, 0 ≤ s i
  anti : ∀ i j, i ≤ j → s j ≤ s i
  eq : M = U * diagonal s * Vᵀ

/-- Contract of `tf.svd` on matrices. -/
def SvdOk (svd : Tensor ℝ → Res (Tensor ℝ × Tensor ℝ × Tensor ℝ)) : Prop :=
  ∀ (M : Tensor ℝ) (m n : Nat), M.shape = [m, n] → ∃ s U V, svd M = .ok (s, U, V) ∧ s.shape = [min m n] ∧
    U.shape = [m, min m n] ∧ V.shape = [n, min m n] ∧
    IsThinSVD (toMat M m n) (toMat U m (min m n)) (fun i => s.at_ [(i : Nat)]) (toMat V n (min m n))

/-- `A` is an `m × r` matrix with orthonormal columns. -/
def OrthoCols (A : Tensor ℝ) (m r : Nat) : Prop :=
  A.shape = [m, r] ∧ (toMat A m r)ᵀ * toMat A m r = 1

/-- `s_0 ≥ s_1 ≥ …` are the singular values of the matrix `M`. -/
def SingularValues {m n : Nat} (M : Mat m n) (s : Fin (min m n) → ℝ) : Prop := ∃ U V, IsThinSVD M U s V

/-- `U` has one matrix with orthonormal columns per mode. -/
def OrthoFactors (shape : List Nat) (U : List (Tensor ℝ)) : Prop :=
  U.length = shape.length ∧ ∀ k M, U[k]? = some M → OrthoCols M (shape.getD k 0) (M.shape.getD 1 0)

/-- Factors of a Tucker model with given ranks. -/
def TuckerShapes (shape ranks : List Nat) (A : List (Tensor ℝ)) : Prop :=
  A.length = shape.length ∧ ∀ k M, A[k]? = some M → M.shape = [shape.getD k 0, ranks.getD k 0]

/-- `r_n ≤ min(I_n, ∏_{k≠n} r_k)` for every mode. -/
def Admissible (shape ranks : List Nat) : Prop :=
  ∀ n < shape.length, ranks.getD n 0 ≤ shape.getD n 0 ∧
    ranks.getD n 0 ≤ ∏ m ∈ (Finset.range shape.length).erase n, ranks.getD m 0

end TD.Spec
