import Verif.Lemmas.Frob
import Verif.Lemmas.Unfolding
import Verif.Lemmas.Loss
import Verif.Spec.Fit

/-! # Tensors of order two as matrices -/
namespace TD
open Spec Tensor tf ops Matrix

theorem toMat_apply (t : Tensor ℝ) {m n : Nat} (i : Fin m) (j : Fin n) : toMat t m n i j = t.at_ [i, j] := rfl

theorem toMat_mat (m n : Nat) (f : Nat → Nat → ℝ) :
    toMat (mat m n f) m n = Matrix.of fun (i : Fin m) (j : Fin n) => f i j := by
  ext i j
  rw [toMat_apply, at_mat _ i.isLt j.isLt, of_apply]

theorem toMat_inj {A B : Tensor ℝ} {m n : Nat} (hA : A.shape = [m, n]) (hB : B.shape = [m, n])
    (h : toMat A m n = toMat B m n) : A = B :=
  ext_mat hA hB fun i hi j hj => congrFun (congrFun h ⟨i, hi⟩) ⟨j, hj⟩

theorem toMat_matmul_nn {A B C : Tensor ℝ} {m k n : Nat} (hA : A.shape = [m, k]) (hB : B.shape = [k, n])
    (h : matmul A B = .ok C) : C.shape = [m, n] ∧ toMat C m n = toMat A m k * toMat B k n := by
  rw [matmul_nn hA hB] at h
  cases h
  refine ⟨rfl, ?_⟩
  rw [toMat_mat]
  ext i j
  rw [of_apply, Matrix.mul_apply, Finset.sum_range]
  rfl

theorem toMat_matmul_tn {A B C : Tensor ℝ} {m k n : Nat} (hA : A.shape = [k, m]) (hB : B.shape = [k, n])
    (h : matmul A B true false = .ok C) :
    C.shape = [m, n] ∧ toMat C m n = (toMat A k m)ᵀ * toMat B k n := by
  rw [matmul_tn hA hB] at h
  cases h
  refine ⟨rfl, ?_⟩
  rw [toMat_mat]
  ext i j
  rw [of_apply, Matrix.mul_apply, Finset.sum_range]
  rfl

theorem toMat_matmul_nt {A B C : Tensor ℝ} {m k n : Nat} (hA : A.shape = [m, k]) (hB : B.shape = [n, k])
    (h : matmul A B false true = .ok C) :
    C.shape = [m, n] ∧ toMat C m n = toMat A m k * (toMat B n k)ᵀ := by
  rw [matmul_nt hA hB] at h
  cases h
  refine ⟨rfl, ?_⟩
  rw [toMat_mat]
  ext i j
  rw [of_apply, Matrix.mul_apply, Finset.sum_range]
  rfl

/-! ### Squared norms -/

theorem normSqT_mat {t : Tensor ℝ} {m n : Nat} (h : t.shape = [m, n]) : normSqT t = frobSq (toMat t m n) := by
  rw [normSqT, h, boxSum_pair, frobSq, Finset.sum_range]
  refine Finset.sum_congr rfl fun i _ => ?_
  rw [Finset.sum_range]
  rfl

theorem reduceSum_sq (t : Tensor ℝ) : reduceSum (tf.map (fun x => x ^ 2) t) = normSqT t :=
  loss.reduceSum_map t _

theorem normSqT_nonneg (t : Tensor ℝ) : 0 ≤ normSqT t := loss.boxSum_nonneg _ fun _ _ => sq_nonneg _

theorem distSqT_nonneg (t u : Tensor ℝ) : 0 ≤ distSqT t u := loss.boxSum_nonneg _ fun _ _ => sq_nonneg _

theorem distSqT_comm {t u : Tensor ℝ} (h : t.shape = u.shape) : distSqT t u = distSqT u t := by
  unfold distSqT
  rw [h]
  exact boxSum_congr fun i _ => by ring

/-- The unfolding as a matrix. -/
theorem toMat_unfold {X M : Tensor ℝ} {n : Nat} (hn : n < X.order) (hpos : 0 < X.shape.getD n 0)
    (h : unfold X n = .ok M) :
    M.shape = [X.shape.getD n 0, otherSize X.shape n] ∧
      toMat M (X.shape.getD n 0) (otherSize X.shape n) = Matrix.of fun (i : Fin (X.shape.getD n 0)) (j : Fin (otherSize X.shape n)) => X.at_ (unkolda X.shape n i j) := by
  rw [unfold_closed X hn hpos] at h
  cases h
  exact ⟨rfl, toMat_mat _ _ _⟩

/-- Squared norms can be computed from any unfolding. -/
theorem boxSum_sq_unfold {shape : List Nat} {n : Nat} (hn : n < shape.length) (f : List Nat → ℝ) :
    boxSum shape (fun i => f i ^ 2) = frobSq (Matrix.of fun (i : Fin (shape.getD n 0))
      (j : Fin (otherSize shape n)) => f (unkolda shape n i j)) := by
  rw [boxSum_unkolda hn, frobSq, Finset.sum_range]
  refine Finset.sum_congr rfl fun i _ => ?_
  rw [Finset.sum_range]
  rfl

end TD

namespace TD.Spec
open Matrix

theorem frobSq_add {m n : Nat} (E F : Mat m n) : frobSq (E + F) = frobSq E + frobSq F + 2 * trace (E * Fᵀ) := by
  have h : trace (E * Fᵀ) = ∑ i, ∑ j, E i j * F i j := by
    simp [trace, Matrix.mul_apply]
  rw [h, frobSq, frobSq, frobSq, Finset.mul_sum, ← Finset.sum_add_distrib, ← Finset.sum_add_distrib]
  refine Finset.sum_congr rfl fun i _ => ?_
  rw [Finset.mul_sum, ← Finset.sum_add_distrib, ← Finset.sum_add_distrib]
  exact Finset.sum_congr rfl fun j _ => by rw [Matrix.add_apply]; ring

theorem frobSq_eq_zero {m n : Nat} {E : Mat m n} (h : frobSq E = 0) : E = 0 := by
  ext i j
  have h1 := (Finset.sum_eq_zero_iff_of_nonneg (fun i _ => Finset.sum_nonneg fun j _ => sq_nonneg (E i j))).1 h i
    (Finset.mem_univ i)
  have h2 := (Finset.sum_eq_zero_iff_of_nonneg (fun j _ => sq_nonneg (E i j))).1 h1 j (Finset.mem_univ j)
  simpa using h2

/-- `K P KᵀK = K` when `(KᵀK) P (KᵀK) = KᵀK`. -/
theorem mul_pinv_gram {J R : Nat} (K : Mat J R) (P : Mat R R) (h : Kᵀ * K * P * (Kᵀ * K) = Kᵀ * K) :
    K * P * (Kᵀ * K) = K := by
  have hz : frobSq (K * (P * (Kᵀ * K) - 1)) = 0 := by
    rw [frobSq_eq_trace, transpose_mul, Matrix.mul_assoc, ← Matrix.mul_assoc Kᵀ, Matrix.mul_sub (Kᵀ * K),
      ← Matrix.mul_assoc (Kᵀ * K), h, Matrix.mul_one, sub_self, Matrix.mul_zero, trace_zero]
  have := frobSq_eq_zero hz
  rw [Matrix.mul_sub, Matrix.mul_one, ← Matrix.mul_assoc, sub_eq_zero] at this
  exact this

/-- Normal equations: `B = M K P` minimises `‖M - B Kᵀ‖`. -/
theorem least_squares {I J R : Nat} (M : Mat I J) (K : Mat J R) (P : Mat R R)
    (h : Kᵀ * K * P * (Kᵀ * K) = Kᵀ * K) (B : Mat I R) :
    frobSq (M - B * Kᵀ) = frobSq (M - M * K * P * Kᵀ) + frobSq ((M * K * P - B) * Kᵀ) := by
  have e : M - B * Kᵀ = (M - M * K * P * Kᵀ) + (M * K * P - B) * Kᵀ := by
    rw [Matrix.sub_mul]; abel
  have ho : (M - M * K * P * Kᵀ) * K = 0 := by
    rw [Matrix.sub_mul, Matrix.mul_assoc _ Kᵀ K, Matrix.mul_assoc M K P, Matrix.mul_assoc M, mul_pinv_gram K P h,
      sub_self]
  rw [e, frobSq_add, transpose_mul, transpose_transpose, ← Matrix.mul_assoc, ho, Matrix.zero_mul, trace_zero]
  ring

theorem least_squares_le {I J R : Nat} (M : Mat I J) (K : Mat J R) (P : Mat R R)
    (h : Kᵀ * K * P * (Kᵀ * K) = Kᵀ * K) (B : Mat I R) :
    frobSq (M - M * K * P * Kᵀ) ≤ frobSq (M - B * Kᵀ) := by
  rw [least_squares M K P h B]
  linarith [frobSq_nonneg ((M * K * P - B) * Kᵀ)]

/-- Moore-Penrose inverses exist. -/
theorem exists_pinv {n : Nat} (V : Mat n n) : ∃ P, IsPinv V P := by
  obtain ⟨U, s, W, h⟩ := exists_svd V
  obtain ⟨s', hs', hnn⟩ : ∃ s' : Fin n → ℝ, (diagRect s : Mat n n) = diagonal s' ∧ ∀ i, 0 ≤ s' i := by
    refine ⟨fun i => s ⟨i, by simp⟩, ?_, fun i => h.nonneg _⟩
    ext i j
    simp only [diagRect, diagonal_apply, Fin.ext_iff]
    by_cases e : i.val = j.val <;> simp [e]
  have hV : V = U * diagonal s' * Wᵀ := by rw [← hs']; exact h.eq
  have a1 : ∀ D E : Mat n n, U * D * Wᵀ * (W * E * Uᵀ) = U * (D * E) * Uᵀ := by
    intro D E
    calc U * D * Wᵀ * (W * E * Uᵀ) = U * D * (Wᵀ * W) * E * Uᵀ := by simp only [Matrix.mul_assoc]
      _ = _ := by rw [h.orthV]; simp only [Matrix.mul_assoc, Matrix.one_mul]
  have a2 : ∀ D E : Mat n n, W * E * Uᵀ * (U * D * Wᵀ) = W * (E * D) * Wᵀ := by
    intro D E
    calc W * E * Uᵀ * (U * D * Wᵀ) = W * E * (Uᵀ * U) * D * Wᵀ := by simp only [Matrix.mul_assoc]
      _ = _ := by rw [h.orthU]; simp only [Matrix.mul_assoc, Matrix.one_mul]
  have a3 : ∀ D E : Mat n n, U * D * Uᵀ * (U * E * Wᵀ) = U * (D * E) * Wᵀ := by
    intro D E
    calc U * D * Uᵀ * (U * E * Wᵀ) = U * D * (Uᵀ * U) * E * Wᵀ := by simp only [Matrix.mul_assoc]
      _ = _ := by rw [h.orthU]; simp only [Matrix.mul_assoc, Matrix.one_mul]
  have a4 : ∀ D E : Mat n n, W * D * Wᵀ * (W * E * Uᵀ) = W * (D * E) * Uᵀ := by
    intro D E
    calc W * D * Wᵀ * (W * E * Uᵀ) = W * D * (Wᵀ * W) * E * Uᵀ := by simp only [Matrix.mul_assoc]
      _ = _ := by rw [h.orthV]; simp only [Matrix.mul_assoc, Matrix.one_mul]
  have hc : ∀ x : ℝ, x * x⁻¹ * x = x := fun x => by
    by_cases hx : x = 0
    · simp [hx]
    · field_simp
  have hc' : ∀ x : ℝ, x⁻¹ * x * x⁻¹ = x⁻¹ := fun x => by
    by_cases hx : x = 0
    · simp [hx]
    · field_simp
  refine ⟨W * diagonal (fun i => (s' i)⁻¹) * Uᵀ, ?_, ?_, ?_, ?_⟩
  · rw [hV, a1, a3, diagonal_mul_diagonal, diagonal_mul_diagonal]; simp only [hc]
  · rw [hV, a2, a4, diagonal_mul_diagonal, diagonal_mul_diagonal]; simp only [hc']
  · rw [hV, a1, diagonal_mul_diagonal]; simp [Matrix.mul_assoc]
  · rw [hV, a2, diagonal_mul_diagonal]; simp [Matrix.mul_assoc]

end TD.Spec
