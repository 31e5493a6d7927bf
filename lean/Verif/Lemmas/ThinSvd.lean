import Verif.Spec.ThinSvd
import Verif.Lemmas.Mats

/-! # Thin singular value decompositions -/
namespace TD.Spec
open Matrix

theorem submatrix_mul_id {a b c d e : Nat} (A : Mat a b) (B : Mat b c) (f : Fin d → Fin a) (g : Fin e → Fin c) :
    (A.submatrix f id : Mat d b) * (B.submatrix id g : Mat b e) = (A * B).submatrix f g := by
  ext i j
  simp only [Matrix.mul_apply, submatrix_apply, id_eq]

theorem exists_thinSvd {m n : Nat} (M : Mat m n) : ∃ U s V, IsThinSVD M U s V := by
  obtain ⟨U, s, V, h⟩ := exists_svd M
  refine ⟨U.submatrix id (Fin.castLE (Nat.min_le_left m n)), s, V.submatrix id (Fin.castLE (Nat.min_le_right m n)),
    ?_, ?_, h.nonneg, h.anti, ?_⟩
  · rw [transpose_submatrix, submatrix_mul_id, h.orthU]
    ext i j
    simp [Matrix.one_apply, Fin.ext_iff]
  · rw [transpose_submatrix, submatrix_mul_id, h.orthV]
    ext i j
    simp [Matrix.one_apply, Fin.ext_iff]
  · conv_lhs => rw [h.eq]
    ext i k
    rw [Matrix.mul_apply, Matrix.mul_apply]
    simp only [mul_diagRect_apply, mul_diagonal, submatrix_apply, id_eq, transpose_apply]
    have := Finset.sum_subset (s₁ := Finset.univ.map (Fin.castLEEmb (Nat.min_le_right m n))) (Finset.subset_univ _)
      (f := fun j : Fin n => (if h : j.val < m then U i ⟨j, h⟩ * s ⟨j, Nat.lt_min.2 ⟨h, j.isLt⟩⟩ else 0) * V k j) (by
        intro j _ hj
        have : ¬ j.val < m := by
          intro hlt
          apply hj
          rw [Finset.mem_map]
          exact ⟨⟨j, Nat.lt_min.2 ⟨hlt, j.isLt⟩⟩, Finset.mem_univ _, by ext; rfl⟩
        rw [dif_neg this, zero_mul])
    rw [← this, Finset.sum_map]
    refine Finset.sum_congr rfl fun j _ => ?_
    have hj : (Fin.castLEEmb (Nat.min_le_right m n) j).val < m := lt_of_lt_of_le j.isLt (Nat.min_le_left m n)
    rw [dif_pos hj]
    rfl

theorem frobSq_diagonal {p : Nat} (d : Fin p → ℝ) : frobSq (diagonal d) = ∑ i, d i ^ 2 := by
  rw [frobSq]
  refine Finset.sum_congr rfl fun i _ => ?_
  rw [Finset.sum_eq_single i]
  · rw [diagonal_apply_eq]
  · intro j _ hj; rw [diagonal_apply_ne _ (Ne.symm hj)]; simp
  · intro h; exact absurd (Finset.mem_univ _) h

/-- A projection splits the norm. -/
theorem frobSq_proj {m r n : Nat} {Q : Mat m r} (hQ : Qᵀ * Q = 1) (M W : Mat m n) :
    frobSq (M - Q * Qᵀ * W) = frobSq (M - Q * Qᵀ * M) + frobSq (Qᵀ * (M - W)) := by
  have e : M - Q * Qᵀ * W = (M - Q * Qᵀ * M) + Q * (Qᵀ * (M - W)) := by
    rw [← Matrix.mul_assoc, Matrix.mul_sub]; abel
  have ho : Qᵀ * (M - Q * Qᵀ * M) = 0 := by
    rw [Matrix.mul_sub Qᵀ M, Matrix.mul_assoc Q, ← Matrix.mul_assoc Qᵀ Q, hQ, Matrix.one_mul, sub_self]
  rw [e, frobSq_add, frobSq_orth_mul hQ, transpose_mul, ← Matrix.mul_assoc, trace_mul_comm, ← Matrix.mul_assoc, ho,
    Matrix.zero_mul, trace_zero]
  ring

theorem frobSq_proj_zero {m r n : Nat} {Q : Mat m r} (hQ : Qᵀ * Q = 1) (M : Mat m n) :
    frobSq M = frobSq (M - Q * Qᵀ * M) + frobSq (Qᵀ * M) := by
  have := frobSq_proj hQ M 0
  rwa [Matrix.mul_zero, sub_zero] at this

theorem frobSq_tmul_le {m r n : Nat} {Q : Mat m r} (hQ : Qᵀ * Q = 1) (M : Mat m n) :
    frobSq (Qᵀ * M) ≤ frobSq M := by
  rw [frobSq_proj_zero hQ M]
  linarith [frobSq_nonneg (M - Q * Qᵀ * M)]

/-- The first `r` columns. -/
def cols {m p : Nat} (U : Mat m p) (r : Nat) (h : r ≤ p) : Mat m r := U.submatrix id (Fin.castLE h)

theorem cols_orth {m p r : Nat} {U : Mat m p} (hU : Uᵀ * U = 1) (h : r ≤ p) : (cols U r h)ᵀ * cols U r h = 1 := by
  rw [cols, transpose_submatrix, submatrix_mul_id, hU]
  ext i j
  simp [Matrix.one_apply, Fin.ext_iff]

theorem cols_proj {m p r : Nat} {U : Mat m p} (hU : Uᵀ * U = 1) (h : r ≤ p) :
    cols U r h * (cols U r h)ᵀ * U = U * diagonal (fun i : Fin p => if i.val < r then (1 : ℝ) else 0) := by
  have e : (cols U r h)ᵀ * U = (1 : Mat p p).submatrix (Fin.castLE h) id := by
    rw [cols, transpose_submatrix, ← hU]; rfl
  rw [Matrix.mul_assoc, e]
  ext i j
  rw [Matrix.mul_apply, mul_diagonal]
  simp only [cols, submatrix_apply, id_eq, Matrix.one_apply]
  by_cases hj : j.val < r
  · rw [if_pos hj, Finset.sum_eq_single ⟨j, hj⟩]
    · have : Fin.castLE h ⟨j, hj⟩ = j := by ext; rfl
      simp [this]
    · intro b _ hb
      rw [if_neg, mul_zero]
      intro e; have := congrArg Fin.val e; exact hb (Fin.ext this)
    · intro hh; exact absurd (Finset.mem_univ _) hh
  · rw [if_neg hj, mul_zero]
    refine Finset.sum_eq_zero fun b _ => ?_
    rw [if_neg, mul_zero]
    intro e; apply hj; rw [← e]; exact b.isLt

/-- The error of projecting onto the first `r` left singular vectors. -/
theorem IsThinSVD.trunc {m n r : Nat} {M : Mat m n} {U s V} (h : IsThinSVD M U s V) (hr : r ≤ min m n) :
    frobSq (M - cols U r hr * (cols U r hr)ᵀ * M) = ∑ i : Fin (min m n), if r ≤ i.val then s i ^ 2 else 0 := by
  have e : M - cols U r hr * (cols U r hr)ᵀ * M = U * diagonal (fun i : Fin (min m n) => if r ≤ i.val then s i else 0) * Vᵀ := by
    conv_lhs => rw [h.eq]
    rw [← Matrix.mul_assoc, ← Matrix.mul_assoc, cols_proj h.orthU, Matrix.mul_assoc U (diagonal _) (diagonal _), diagonal_mul_diagonal,
      ← Matrix.sub_mul, ← Matrix.mul_sub, diagonal_sub]
    congr 3
    funext i
    by_cases hi : r ≤ i.val
    · simp [hi, Nat.not_lt.2 hi]
    · simp [hi, Nat.lt_of_not_le hi]
  rw [e, frobSq_mul_orth h.orthV, frobSq_orth_mul h.orthU, frobSq_diagonal]
  refine Finset.sum_congr rfl fun i _ => ?_
  by_cases hi : r ≤ i.val <;> simp [hi]

theorem IsThinSVD.norm {m n : Nat} {M : Mat m n} {U s V} (h : IsThinSVD M U s V) :
    frobSq M = ∑ i, s i ^ 2 := by
  conv_lhs => rw [h.eq]
  rw [frobSq_mul_orth h.orthV, frobSq_orth_mul h.orthU, frobSq_diagonal]

theorem IsThinSVD.lead {m n r : Nat} {M : Mat m n} {U s V} (h : IsThinSVD M U s V) (hr : r ≤ min m n) :
    frobSq ((cols U r hr)ᵀ * M) = ∑ i : Fin (min m n), if i.val < r then s i ^ 2 else 0 := by
  have h1 := frobSq_proj_zero (cols_orth h.orthU hr) M
  rw [h.trunc hr, h.norm] at h1
  have : ∑ i, s i ^ 2 = (∑ i : Fin (min m n), if r ≤ i.val then s i ^ 2 else 0) +
      ∑ i : Fin (min m n), if i.val < r then s i ^ 2 else 0 := by
    rw [← Finset.sum_add_distrib]
    refine Finset.sum_congr rfl fun i _ => ?_
    by_cases hi : r ≤ i.val
    · simp [hi, Nat.not_lt.2 hi]
    · simp [hi, Nat.lt_of_not_le hi]
  linarith

theorem frobSq_one (r : Nat) : frobSq (1 : Mat r r) = r := by
  rw [← diagonal_one, frobSq_diagonal]; simp

theorem frobSq_of_orth {m r : Nat} {Q : Mat m r} (hQ : Qᵀ * Q = 1) : frobSq Q = r := by
  rw [frobSq_eq_trace, hQ, trace_one, Fintype.card_fin]

/-- Ky Fan: no `r` orthonormal vectors capture more of `M` than its first `r` left singular vectors. -/
theorem IsThinSVD.kyFan {m n r : Nat} {M : Mat m n} {U s V} (h : IsThinSVD M U s V) (hr : r ≤ min m n)
    {Q : Mat m r} (hQ : Qᵀ * Q = 1) : frobSq (Qᵀ * M) ≤ frobSq ((cols U r hr)ᵀ * M) := by
  rw [h.lead hr]
  have e : frobSq (Qᵀ * M) = ∑ i, s i ^ 2 * ∑ a, (Qᵀ * U) a i ^ 2 := by
    conv_lhs => rw [h.eq]
    rw [← Matrix.mul_assoc, ← Matrix.mul_assoc, frobSq_mul_orth h.orthV, frobSq, Finset.sum_comm]
    refine Finset.sum_congr rfl fun i _ => ?_
    rw [Finset.mul_sum]
    refine Finset.sum_congr rfl fun a _ => ?_
    rw [mul_diagonal]; ring
  rw [e]
  set c : Fin (min m n) → ℝ := fun i => ∑ a, (Qᵀ * U) a i ^ 2 with hc
  change ∑ i, s i ^ 2 * c i ≤ _
  have c0 : ∀ i, 0 ≤ c i := fun i => Finset.sum_nonneg fun a _ => sq_nonneg _
  have c1 : ∀ i, c i ≤ 1 := by
    intro i
    have h1 := frobSq_tmul_le hQ (U.submatrix id fun _ : Fin 1 => i)
    have h2 : frobSq (U.submatrix id fun _ : Fin 1 => i) = 1 := by
      have := congrFun (congrFun h.orthU i) i
      rw [Matrix.mul_apply, Matrix.one_apply_eq] at this
      rw [← this, frobSq]
      simp [sq]
    have h3 : frobSq (Qᵀ * U.submatrix id fun _ : Fin 1 => i) = c i := by
      simp [frobSq, hc, Matrix.mul_apply]
    rw [h2, h3] at h1
    exact h1
  have csum : ∑ i, c i ≤ r := by
    have h1 : ∑ i, c i = frobSq (Uᵀ * Q) := by
      rw [← frobSq_transpose, transpose_mul, transpose_transpose, frobSq, Finset.sum_comm]
    rw [h1, ← frobSq_of_orth hQ]
    exact frobSq_tmul_le h.orthU Q
  -- threshold value
  obtain ⟨θ, hθ0, hθ1, hθ2⟩ : ∃ θ : ℝ, 0 ≤ θ ∧ (∀ i : Fin (min m n), i.val < r → θ ≤ s i ^ 2) ∧
      ∀ i : Fin (min m n), r ≤ i.val → s i ^ 2 ≤ θ := by
    by_cases hlt : r < min m n
    · refine ⟨s ⟨r, hlt⟩ ^ 2, sq_nonneg _, fun i hi => ?_, fun i hi => ?_⟩
      · exact pow_le_pow_left₀ (h.nonneg _) (h.anti _ _ (Fin.mk_le_mk.2 (le_of_lt hi))) 2
      · exact pow_le_pow_left₀ (h.nonneg _) (h.anti _ _ (Fin.mk_le_mk.2 hi)) 2
    · exact ⟨0, le_refl _, fun i _ => sq_nonneg _, fun i hi => absurd i.isLt (by omega)⟩
  have key : ∀ i : Fin (min m n), s i ^ 2 * c i ≤
      (if i.val < r then s i ^ 2 else 0) + θ * (c i - if i.val < r then 1 else 0) := by
    intro i
    by_cases hi : i.val < r
    · rw [if_pos hi, if_pos hi]
      nlinarith [hθ1 i hi, c1 i]
    · rw [if_neg hi, if_neg hi]
      nlinarith [hθ2 i (Nat.le_of_not_lt hi), c0 i]
  have hcount : ∑ i : Fin (min m n), (if i.val < r then (1 : ℝ) else 0) = r := by
    rw [Finset.sum_boole]
    have : (Finset.univ.filter fun i : Fin (min m n) => i.val < r) = Finset.univ.map (Fin.castLEEmb hr) := by
      ext i
      simp only [Finset.mem_filter, Finset.mem_univ, true_and, Finset.mem_map]
      constructor
      · intro hi; exact ⟨⟨i, hi⟩, by ext; rfl⟩
      · rintro ⟨a, rfl⟩; exact a.isLt
    rw [this, Finset.card_map, Finset.card_univ, Fintype.card_fin]
  refine le_trans (Finset.sum_le_sum fun i _ => key i) ?_
  rw [Finset.sum_add_distrib, ← Finset.mul_sum, Finset.sum_sub_distrib, hcount]
  nlinarith

end TD.Spec
