import Verif.Spec.Prox

/-! # The convex program behind `exact_recovery` -/
namespace TD.Spec
open Matrix

/-- `N` with the mean of every column subtracted. -/
noncomputable def colCentered {r c : Nat} (N : Mat r c) : Mat r c := fun i j => N i j - (∑ k, N k j) / r

/-- `‖N₀‖_* + |total N| / √(r c)` where `N₀` is `N` without its column means. -/
noncomputable def splitNorm {r c : Nat} (N : Mat r c) : ℝ := nuclear (colCentered N) + |total N| / √((r : ℝ) * c)

variable {n : Fin 3 → Nat} {m : Nat}

/-- No two samples share a position in any of the three matrices. -/
def DistinctPairs (a : Fin m → Fin (n 0)) (b : Fin m → Fin (n 1)) (c : Fin m → Fin (n 2)) : Prop :=
  ∀ i j, i ≠ j → (a i, b i) ≠ (a j, b j) ∧ (b i, c i) ≠ (b j, c j) ∧ (c i, a i) ≠ (c j, a j)

/-- The matrices satisfy the column constraints and their pairwise interaction agrees with `T` at the samples. -/
structure Fits (T : Fin (n 0) → Fin (n 1) → Fin (n 2) → ℝ) (a : Fin m → Fin (n 0)) (b : Fin m → Fin (n 1))
    (c : Fin m → Fin (n 2)) (X : Mat (n 0) (n 1)) (Y : Mat (n 1) (n 2)) (Z : Mat (n 2) (n 0)) : Prop where
  equal : EqualColSums X
  zero1 : ZeroColSums Y
  zero2 : ZeroColSums Z
  agree : ∀ i, sampleError T a b c X Y Z i = 0

/-- Weighted norms plus half the squared size. -/
noncomputable def recoveryObjective (n : Fin 3 → Nat) (tao : ℝ) (X : Mat (n 0) (n 1)) (Y : Mat (n 1) (n 2))
    (Z : Mat (n 2) (n 0)) : ℝ :=
  tao * (splitNorm X / √(n 2) + nuclear Y / √(n 0) + nuclear Z / √(n 1)) + (frobSq X + frobSq Y + frobSq Z) / 2

end TD.Spec
