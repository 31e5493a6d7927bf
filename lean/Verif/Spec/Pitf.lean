import Verif.Spec.Svd
import Mathlib.Analysis.Real.Sqrt

/-! # Notions used to state the pairwise-interaction properties -/
namespace TD.Spec
open Matrix

/-- All column sums are zero. -/
def ZeroColSums {r c : Nat} (M : Mat r c) : Prop := ∀ j, ∑ i, M i j = 0

/-- All column sums are equal. -/
def EqualColSums {r c : Nat} (M : Mat r c) : Prop := ∀ j j', ∑ i, M i j = ∑ i, M i j'

/-- Sum of all entries. -/
def total {r c : Nat} (M : Mat r c) : ℝ := ∑ i, ∑ j, M i j

/-- Soft thresholding. -/
noncomputable def soft (x t : ℝ) : ℝ := if x > t then x - t else if x < -t then x + t else 0

/-- Frobenius inner product. -/
def frobInner {r c : Nat} (M N : Mat r c) : ℝ := ∑ i, ∑ j, M i j * N i j

/-- The second-order cone: `‖x‖ ≤ t`. -/
def InCone {k : Nat} (x : Fin k → ℝ) (t : ℝ) : Prop := √(∑ i, x i ^ 2) ≤ t

/-- Squared distance of `(x, t)` and `(z, w)`. -/
def distSq {k : Nat} (x : Fin k → ℝ) (t : ℝ) (z : Fin k → ℝ) (w : ℝ) : ℝ := ∑ i, (x i - z i) ^ 2 + (t - w) ^ 2

end TD.Spec

namespace TD.Spec

/-- Difference at sample `i` between the tensor and the pairwise interaction of `X`, `Y`, `Z`. -/
noncomputable def sampleError {n : Fin 3 → Nat} {m : Nat} (T : Fin (n 0) → Fin (n 1) → Fin (n 2) → ℝ)
    (a : Fin m → Fin (n 0)) (b : Fin m → Fin (n 1)) (c : Fin m → Fin (n 2))
    (X : Mat (n 0) (n 1)) (Y : Mat (n 1) (n 2)) (Z : Mat (n 2) (n 0)) (i : Fin m) : ℝ :=
  T (a i) (b i) (c i) - (X (a i) (b i) / √(n 2) + Y (b i) (c i) / √(n 0) + Z (c i) (a i) / √(n 1))

end TD.Spec
