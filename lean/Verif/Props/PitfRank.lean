import Verif.Props.Pitf
import Mathlib.LinearAlgebra.Matrix.Rank
import Mathlib.Data.Matrix.ColumnRowPartitioned

/-!
# C160: the rank of the matrices made by `subspace` and `sample_rule4mat`
-/
namespace TD.Props
open TD TD.pitf Matrix Spec

theorem rank_prod {r c k : Nat} (U : Mat r k) (V : Mat c k) : (U * Vᵀ).rank ≤ k :=
  (Matrix.rank_mul_le_left _ _).trans (Matrix.rank_le_width _)

theorem central_prod {r c k : Nat} (U : Mat r k) (V : Mat c k) :
    np.centralization (U * Vᵀ) = (U - (r : ℝ)⁻¹ • (ones r r * U)) * Vᵀ := by
  unfold np.centralization
  rw [Matrix.sub_mul, Matrix.smul_mul, Matrix.mul_assoc]

theorem rank_central {r c k : Nat} (U : Mat r k) (V : Mat c k) : (np.centralization (U * Vᵀ)).rank ≤ k := by
  rw [central_prod]
  exact (Matrix.rank_mul_le_left _ _).trans (Matrix.rank_le_width _)

/-- A matrix with zero column sums has fewer independent rows than rows. -/
theorem rank_zeroCols {r c : Nat} (hr : 0 < r) {M : Mat r c} (h : ZeroColSums M) : M.rank ≤ r - 1 := by
  obtain ⟨r, rfl⟩ : ∃ r', r = r' + 1 := ⟨r - 1, by omega⟩
  have e : M = Matrix.of (fun (i : Fin (r + 1)) (j : Fin r) => Fin.cases (-1 : ℝ) (fun i' => if i' = j then 1 else 0) i) *
      Matrix.of fun (j : Fin r) k => M j.succ k := by
    ext i k
    rw [Matrix.mul_apply]
    simp only [of_apply]
    refine Fin.cases ?_ (fun i' => ?_) i
    · have := h k
      rw [Fin.sum_univ_succ] at this
      simp only [Fin.cases_zero, neg_one_mul, Finset.sum_neg_distrib]
      linarith
    · simp
  rw [e]
  exact (Matrix.rank_mul_le_left _ _).trans (Matrix.rank_le_width _)

/-- **C160** (what holds): the matrices of `subspace` for 'B' and 'C' have at most the requested rank, and fewer than the
number of rows; the matrix for 'A' has at most one more than the requested rank. -/
theorem C160_rank_partial {r c k : Nat} (hr : 0 < r) (hc : 0 < c) (U : Mat r k) (V : Mat c k) :
    (∀ mode S, mode = "B" ∨ mode = "C" → np.subspace U V mode = some S ∨ tfl.subspace U V mode = some S →
      S.rank ≤ k ∧ S.rank ≤ r - 1) ∧
    ∀ S, np.subspace U V "A" = some S ∨ tfl.subspace U V "A" = some S → S.rank ≤ k + 1 := by
  constructor
  · intro mode S hm h
    obtain ⟨S', e1, e2, hz⟩ := C62_modes_B_C hr U V mode hm
    have hS : S = np.centralization (U * Vᵀ) := by
      have e : np.subspace U V mode = some (np.centralization (U * Vᵀ)) := by
        rcases hm with rfl | rfl <;> simp [np.subspace]
      rw [e1] at e
      rcases h with h | h
      · rw [e1] at h; exact (Option.some.inj h).symm.trans (Option.some.inj e)
      · rw [e2] at h; exact (Option.some.inj h).symm.trans (Option.some.inj e)
    subst hS
    exact ⟨rank_central U V, rank_zeroCols hr (C61_zero_column_sums hr _).1⟩
  · intro S h
    obtain ⟨S', e1, e2, -⟩ := C62_mode_A hr hc U V
    have hS : S = np.centralization (U * Vᵀ) +
        ((((ones r 1)ᵀ * (U * Vᵀ) * ones c 1) 0 0 / ((r : ℝ) * c)) • ones r 1) * (ones c 1)ᵀ := by
      have e : np.subspace U V "A" = some (np.centralization (U * Vᵀ) +
          (((ones r 1)ᵀ * (U * Vᵀ) * ones c 1) 0 0 / ((r : ℝ) * c)) • (ones r 1 * (ones c 1)ᵀ)) := by
        simp [np.subspace]
      rw [e1] at e
      rw [Matrix.smul_mul]
      rcases h with h | h
      · rw [e1] at h; exact (Option.some.inj h).symm.trans (Option.some.inj e)
      · rw [e2] at h; exact (Option.some.inj h).symm.trans (Option.some.inj e)
    rw [hS, central_prod, ← Matrix.fromCols_mul_fromRows]
    refine (Matrix.rank_mul_le_left _ _).trans ((Matrix.rank_le_card_width _).trans ?_)
    simp

/-- **C160** (what fails): the rank of the matrix for 'A' can be larger than the requested rank. -/
theorem C160_rank_false : ∃ (U V : Mat 2 1) (S : Mat 2 2), np.subspace U V "A" = some S ∧ tfl.subspace U V "A" = some S ∧
    S.rank = 2 := by
  refine ⟨!![1; 0], !![1; 0], !![3 / 4, 1 / 4; -1 / 4, 1 / 4], ?_, ?_, ?_⟩
  · refine (show np.subspace (!![1; 0] : Mat 2 1) (!![1; 0] : Mat 2 1) "A" = some _ from rfl).trans (congrArg some ?_)
    ext i j
    fin_cases i <;> fin_cases j <;>
      simp [np.centralization, Matrix.mul_apply, Matrix.vecMul, dotProduct, Fin.sum_univ_two, ones] <;> norm_num
  · refine (show tfl.subspace (!![1; 0] : Mat 2 1) (!![1; 0] : Mat 2 1) "A" = some _ from rfl).trans (congrArg some ?_)
    ext i j
    fin_cases i <;> fin_cases j <;>
      simp [tfl.centralization, Matrix.mul_apply, Matrix.vecMul, dotProduct, Fin.sum_univ_two, ones] <;> norm_num
  · have : IsUnit (!![3 / 4, 1 / 4; -1 / 4, 1 / 4] : Mat 2 2) := by
      rw [Matrix.isUnit_iff_isUnit_det, Matrix.det_fin_two_of]
      norm_num
    rw [Matrix.rank_of_isUnit _ this]
    rfl

/-- The hypotheses of `C160_rank_partial` are met, for every mode, by the two draws of `C160_rank_false`. -/
example : (0 < 2) ∧ ∃ S, np.subspace (!![1; 0] : Mat 2 1) (!![1; 0] : Mat 2 1) "B" = some S ∧ S 0 0 = 1 / 2 := by
  refine ⟨by norm_num, _, rfl, ?_⟩
  simp [np.centralization, Matrix.mul_apply, Matrix.vecMul, dotProduct, Fin.sum_univ_two, ones]
  norm_num

end TD.Props
