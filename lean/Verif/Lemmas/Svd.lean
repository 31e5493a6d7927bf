import Mathlib.Analysis.Matrix.Spectrum
import Mathlib.Data.Fin.Tuple.Sort
import Mathlib.Analysis.Real.Sqrt
import Verif.Spec.Svd

/-! # Every real matrix has a singular value decomposition -/
namespace TD.Spec
open Matrix

theorem exists_eigen {n : Nat} (A : Mat n n) (hA : Aᵀ = A) :
    ∃ (V : Mat n n) (l : Fin n → ℝ), Vᵀ * V = 1 ∧ (∀ i j, i ≤ j → l j ≤ l i) ∧ A * V = V * diagonal l := by
  have h : A.IsHermitian := by
    rw [IsHermitian, conjTranspose_eq_transpose_of_trivial]; exact hA
  let σ := Tuple.sort fun i => - h.eigenvalues i
  refine ⟨Matrix.of fun i j => h.eigenvectorBasis (σ j) i, fun i => h.eigenvalues (σ i), ?_, ?_, ?_⟩
  · ext i j
    have := h.eigenvectorBasis.inner_eq_ite (σ i) (σ j)
    rw [PiLp.inner_apply] at this
    simp only [Matrix.mul_apply, Matrix.transpose_apply, Matrix.one_apply, Matrix.of_apply]
    simp only [EmbeddingLike.apply_eq_iff_eq] at this
    rw [← this]
    exact Finset.sum_congr rfl fun k _ => by simp [mul_comm]
  · intro i j hij
    have := Tuple.monotone_sort (fun i => - h.eigenvalues i) hij
    simp only [Function.comp] at this
    exact neg_le_neg_iff.1 this
  · ext i j
    have := congrFun (h.mulVec_eigenvectorBasis (σ j)) i
    rw [mul_diagonal]
    simp only [Matrix.mul_apply, Matrix.of_apply]
    simp only [mulVec, dotProduct, Pi.smul_apply, smul_eq_mul] at this
    simpa [mul_comm] using this

theorem diagRect_transpose_apply {m n : Nat} (s : Fin (min m n) → ℝ) (s' : Fin (min n m) → ℝ)
    (h : ∀ i : Fin (min m n), s' (i.cast (Nat.min_comm m n)) = s i) :
    (diagRect s : Mat m n)ᵀ = diagRect s' := by
  ext i j
  simp only [transpose_apply, diagRect]
  by_cases hij : i.val = j.val
  · rw [dif_pos hij.symm, dif_pos hij, ← h]
    congr 1
    exact Fin.ext hij.symm
  · rw [dif_neg (Ne.symm hij), dif_neg hij]

theorem IsSVD.transpose {m n : Nat} {M : Mat m n} {U s V} (h : IsSVD M U s V) :
    IsSVD Mᵀ V (fun i => s (i.cast (Nat.min_comm n m))) U where
  orthU := h.orthV
  orthV := h.orthU
  nonneg i := h.nonneg _
  anti i j hij := h.anti _ _ hij
  eq := by
    rw [← diagRect_transpose_apply s _ (fun i => rfl)]
    conv_lhs => rw [h.eq]
    simp [Matrix.mul_assoc]

/-- `(U * diagRect s) i j` is column `j` of `U` times `s j`. -/
theorem mul_diagRect_apply {m n k : Nat} (U : Mat k m) (s : Fin (min m n) → ℝ) (i : Fin k) (j : Fin n) :
    (U * (diagRect s : Mat m n)) i j = if h : j.val < m then U i ⟨j, h⟩ * s ⟨j, Nat.lt_min.2 ⟨h, j.isLt⟩⟩ else 0 := by
  rw [Matrix.mul_apply]
  by_cases h : j.val < m
  · rw [dif_pos h, Finset.sum_eq_single ⟨j.val, h⟩]
    · simp [diagRect]
    · intro b _ hb
      have : b.val ≠ j.val := fun e => hb (Fin.ext e)
      simp [diagRect, this]
    · intro h; exact absurd (Finset.mem_univ _) h
  · rw [dif_neg h]
    refine Finset.sum_eq_zero fun b _ => ?_
    have : b.val ≠ j.val := fun e => h (e ▸ b.isLt)
    simp [diagRect, this]

theorem exists_svd_tall {m n : Nat} (hmn : n ≤ m) (M : Mat m n) : ∃ U s V, IsSVD M U s V := by
  obtain ⟨V, l, hV, hl, hMV⟩ := exists_eigen (Mᵀ * M) (by simp)
  set W : Mat m n := M * V with hW
  have hWW : Wᵀ * W = diagonal l := by
    rw [hW, transpose_mul, Matrix.mul_assoc, ← Matrix.mul_assoc Mᵀ, hMV, ← Matrix.mul_assoc, hV, Matrix.one_mul]
  have hcol : ∀ i j, ∑ k, W k i * W k j = if i = j then l i else 0 := by
    intro i j
    have := congrFun (congrFun hWW i) j
    rw [Matrix.mul_apply, diagonal_apply] at this
    simpa using this
  have hl0 : ∀ i, 0 ≤ l i := by
    intro i
    have := hcol i i
    rw [if_pos rfl] at this
    rw [← this]
    exact Finset.sum_nonneg fun k _ => mul_self_nonneg _
  let c : Fin m → EuclideanSpace ℝ (Fin m) := fun i =>
    if h : i.val < n then WithLp.toLp 2 (fun k => W k ⟨i, h⟩ / √(l ⟨i, h⟩)) else 0
  let S : Set (Fin m) := {i | ∃ h : i.val < n, l ⟨i, h⟩ ≠ 0}
  have hS : Orthonormal ℝ (S.domRestrict c) := by
    rw [orthonormal_iff_ite]
    rintro ⟨i, hi, hli⟩ ⟨j, hj, hlj⟩
    have e1 : S.domRestrict c ⟨i, hi, hli⟩ = WithLp.toLp 2 (fun k => W k ⟨i, hi⟩ / √(l ⟨i, hi⟩)) := by
      simp [Set.domRestrict, c, hi]
    have e2 : S.domRestrict c ⟨j, hj, hlj⟩ = WithLp.toLp 2 (fun k => W k ⟨j, hj⟩ / √(l ⟨j, hj⟩)) := by
      simp [Set.domRestrict, c, hj]
    rw [e1, e2, EuclideanSpace.inner_toLp_toLp]
    simp only [dotProduct, Pi.star_apply, star_trivial]
    have : ∀ k, W k ⟨j, hj⟩ / √(l ⟨j, hj⟩) * (W k ⟨i, hi⟩ / √(l ⟨i, hi⟩))
        = (W k ⟨i, hi⟩ * W k ⟨j, hj⟩) / (√(l ⟨i, hi⟩) * √(l ⟨j, hj⟩)) := fun k => by
      rw [div_mul_div_comm, mul_comm (W k _), mul_comm (√_)]
    rw [Finset.sum_congr rfl fun k _ => this k, ← Finset.sum_div, hcol]
    by_cases hij : i = j
    · subst hij
      rw [if_pos rfl, if_pos rfl, Real.mul_self_sqrt (hl0 _), div_self hli]
    · rw [if_neg (fun e => hij (Fin.ext (Fin.mk.inj e))), zero_div, if_neg (fun e => hij (Subtype.mk.inj e))]
  obtain ⟨b, hb⟩ := hS.exists_orthonormalBasis_extension_of_card_eq (by simp)
  have hlt : ∀ i : Fin (min m n), i.val < n := fun i => (Nat.lt_min.1 i.isLt).2
  have hVV : V * Vᵀ = 1 := mul_eq_one_comm.1 hV
  refine ⟨Matrix.of fun i j => b j i, fun i => √(l ⟨i, hlt i⟩), V, ?_, hV, fun i => Real.sqrt_nonneg _,
    fun i j hij => Real.sqrt_le_sqrt (hl _ _ hij), ?_⟩
  · ext i j
    have := b.inner_eq_ite i j
    rw [PiLp.inner_apply] at this
    simp only [Matrix.mul_apply, Matrix.transpose_apply, Matrix.one_apply, Matrix.of_apply]
    rw [← this]
    exact Finset.sum_congr rfl fun k _ => by simp [mul_comm]
  · have key : W = (Matrix.of fun i j => b j i : Mat m m) * (diagRect fun i => √(l ⟨i, hlt i⟩)) := by
      ext i j
      have hjm : j.val < m := Nat.lt_of_lt_of_le j.isLt hmn
      rw [mul_diagRect_apply, dif_pos hjm]
      by_cases hz : l j = 0
      · have hs := hcol j j
        rw [if_pos rfl, hz] at hs
        have := (Finset.sum_eq_zero_iff_of_nonneg (fun k _ => mul_self_nonneg (W k j))).1 hs i (Finset.mem_univ _)
        rw [mul_self_eq_zero.1 this]
        simp [hz]
      · have := hb ⟨j, hjm⟩ ⟨j.isLt, hz⟩
        rw [Matrix.of_apply, this]
        simp only [c, j.isLt, dif_pos, Fin.eta]
        rw [div_mul_cancel₀]
        exact (Real.sqrt_pos.2 (lt_of_le_of_ne (hl0 j) (Ne.symm hz))).ne'
    rw [← key, hW, Matrix.mul_assoc, hVV, Matrix.mul_one]

theorem exists_svd {m n : Nat} (M : Mat m n) : ∃ U s V, IsSVD M U s V := by
  rcases Nat.le_total n m with h | h
  · exact exists_svd_tall h M
  · obtain ⟨U, s, V, hs⟩ := exists_svd_tall h Mᵀ
    exact ⟨V, _, U, hs.transpose⟩

end TD.Spec
