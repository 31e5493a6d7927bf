import Mathlib.Data.Matrix.Mul
import Mathlib.Data.Real.Basic
import Mathlib.Order.Lattice
import Mathlib.LinearAlgebra.Matrix.NonsingularInverse

/-!
# Singular value decompositions

Contract of `numpy.linalg.svd` and `tf.svd`: the solvers return *some* decomposition; theorems quantify over
all of them.
-/
namespace TD.Spec
open Matrix

/-- Real matrices. -/
abbrev Mat (m n : Nat) := Matrix (Fin m) (Fin n) ℝ

/-- The rectangular diagonal matrix of a vector of length `min m n`. -/
def diagRect {m n : Nat} (s : Fin (min m n) → ℝ) : Mat m n := fun i j =>
  if h : i.val = j.val then s ⟨i.val, Nat.lt_min.2 ⟨i.isLt, h ▸ j.isLt⟩⟩ else 0

/-- `M = U diag(s) Vᵀ` with orthogonal `U`, `V` and `s ≥ 0` non-increasing
(`full_matrices=True`, in TensorFlow's convention; numpy returns `Vᵀ`). -/
structure IsSVD {m n : Nat} (M : Mat m n) (U : Mat m m) (s : Fin (min m n) → ℝ) (V : Mat n n) : Prop where
  orthU : Uᵀ * U = 1
  orthV : Vᵀ * V = 1
  nonneg : ∀ i, 0 ≤ s i
  anti : ∀ i j, i ≤ j → s j ≤ s i
  eq : M = U * diagRect s * Vᵀ

/-- Squared Frobenius norm. -/
def frobSq {m n : Nat} (M : Mat m n) : ℝ := ∑ i, ∑ j, M i j ^ 2

end TD.Spec
