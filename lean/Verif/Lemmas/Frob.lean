import Mathlib.Data.Matrix.Mul
import Mathlib.LinearAlgebra.Matrix.Trace
import Mathlib.Algebra.Order.Chebyshev
import Mathlib.Tactic.Ring
import Mathlib.Tactic.Linarith
import Verif.Lemmas.Svd

/-! # Frobenius norms -/
namespace TD.Spec
open Matrix

theorem frobSq_eq_trace {m n : Nat} (M : Mat m n) : frobSq M = trace (Mᵀ * M) := by
  rw [frobSq, trace, Finset.sum_comm]
  refine Finset.sum_congr rfl fun j _ => ?_
  rw [diag_apply, Matrix.mul_apply]
  exact Finset.sum_congr rfl fun i _ => by rw [transpose_apply, sq]

theorem frobSq_transpose {m n : Nat} (M : Mat m n) : frobSq Mᵀ = frobSq M := by
  rw [frobSq, frobSq, Finset.sum_comm]
  rfl

/-- Multiplying from the left by a matrix with orthonormal columns keeps the norm. -/
theorem frobSq_orth_mul {k m n : Nat} {U : Mat k m} (hU : Uᵀ * U = 1) (M : Mat m n) :
    frobSq (U * M) = frobSq M := by
  rw [frobSq_eq_trace, frobSq_eq_trace, transpose_mul, Matrix.mul_assoc, ← Matrix.mul_assoc Uᵀ, hU,
    Matrix.one_mul]

theorem frobSq_mul_orth {k m n : Nat} {V : Mat k n} (hV : Vᵀ * V = 1) (M : Mat m n) :
    frobSq (M * Vᵀ) = frobSq M := by
  rw [← frobSq_transpose, transpose_mul, transpose_transpose, frobSq_orth_mul hV, frobSq_transpose]

theorem frobSq_diagRect {m n : Nat} (s : Fin (min m n) → ℝ) : frobSq (diagRect s : Mat m n) = ∑ i, s i ^ 2 := by
  have h1 : ∀ i : Fin m, ∑ j, (diagRect s : Mat m n) i j ^ 2
      = ∑ k : Fin (min m n), if k.val = i.val then s k ^ 2 else 0 := by
    intro i
    by_cases hi : i.val < n
    · rw [Finset.sum_eq_single (⟨i.val, hi⟩ : Fin n), Finset.sum_eq_single (⟨i.val, Nat.lt_min.2 ⟨i.isLt, hi⟩⟩ : Fin (min m n))]
      · simp [diagRect]
      · intro b _ hb
        rw [if_neg (fun e => hb (Fin.ext e))]
      · intro h; exact absurd (Finset.mem_univ _) h
      · intro b _ hb
        have : i.val ≠ b.val := fun e => hb (Fin.ext e.symm)
        simp [diagRect, this]
      · intro h; exact absurd (Finset.mem_univ _) h
    · rw [Finset.sum_eq_zero, Finset.sum_eq_zero]
      · intro k _
        have := (Nat.lt_min.1 k.isLt).2
        rw [if_neg (by omega)]
      · intro j _
        have : i.val ≠ j.val := by have := j.isLt; omega
        simp [diagRect, this]
  rw [frobSq, Finset.sum_congr rfl fun i _ => h1 i, Finset.sum_comm]
  refine Finset.sum_congr rfl fun k _ => ?_
  rw [Finset.sum_eq_single (⟨k.val, (Nat.lt_min.1 k.isLt).1⟩ : Fin m)]
  · simp
  · intro b _ hb
    rw [if_neg (fun e => hb (Fin.ext e.symm))]
  · intro h; exact absurd (Finset.mem_univ _) h

theorem frobSq_nonneg {m n : Nat} (M : Mat m n) : 0 ≤ frobSq M :=
  Finset.sum_nonneg fun _ _ => Finset.sum_nonneg fun _ _ => sq_nonneg _

end TD.Spec
