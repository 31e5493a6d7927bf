import Verif.Spec.Rotate
import Verif.Lemmas.Hooi

/-! # Uniqueness of leading singular subspaces -/
namespace TD.Spec
open Matrix TD

theorem frobSq_zero_iff {m n : Nat} {M : Mat m n} (h : frobSq M = 0) : M = 0 := by
  ext i j
  unfold frobSq at h
  have h1 := (Finset.sum_eq_zero_iff_of_nonneg fun i _ => Finset.sum_nonneg fun j _ => sq_nonneg (M i j)).1 h i (Finset.mem_univ _)
  have h2 := (Finset.sum_eq_zero_iff_of_nonneg fun j _ => sq_nonneg (M i j)).1 h1 j (Finset.mem_univ _)
  simpa using h2

/-- Orthonormal columns that keep `W` whole, as many as `W` has columns, span the same subspace. -/
theorem proj_eq_of_keep {m r : Nat} {Q W : Mat m r} (hW : Wᵀ * W = 1) (h : Q * Qᵀ * W = W) :
    Q * Qᵀ = W * Wᵀ := by
  -- `C = QᵀW` is orthogonal and `W = QC`
  have hC : (Qᵀ * W)ᵀ * (Qᵀ * W) = 1 := by
    rw [transpose_mul, transpose_transpose, Matrix.mul_assoc, ← Matrix.mul_assoc Q, h, hW]
  have hC' : (Qᵀ * W) * (Qᵀ * W)ᵀ = 1 := mul_eq_one_comm.1 hC
  have hQC : W = Q * (Qᵀ * W) := by rw [← Matrix.mul_assoc, h]
  calc Q * Qᵀ = Q * ((Qᵀ * W) * (Qᵀ * W)ᵀ) * Qᵀ := by rw [hC', Matrix.mul_one]
    _ = (Q * (Qᵀ * W)) * (Q * (Qᵀ * W))ᵀ := by rw [transpose_mul Q]; simp only [Matrix.mul_assoc]
    _ = W * Wᵀ := by rw [← hQC]

/-- Ky Fan with equality: orthonormal vectors that capture as much as the leading ones span the same subspace. -/
theorem IsThinSVD.kyFan_unique {m n r : Nat} {M : Mat m n} {U s V} (h : IsThinSVD M U s V) (hr : r ≤ min m n)
    (hp : ∀ i : Fin (min m n), i.val < r → 0 < s i) (hsep : ∀ i j : Fin (min m n), i.val < r → r ≤ j.val → s j < s i)
    {Q : Mat m r} (hQ : Qᵀ * Q = 1) (hE : frobSq ((cols U r hr)ᵀ * M) ≤ frobSq (Qᵀ * M)) :
    Q * Qᵀ = cols U r hr * (cols U r hr)ᵀ := by
  rcases Nat.eq_zero_or_pos r with rfl | hr0
  · ext i j; simp [Matrix.mul_apply]
  rw [h.lead hr] at hE
  have e : frobSq (Qᵀ * M) = ∑ i, s i ^ 2 * ∑ a, (Qᵀ * U) a i ^ 2 := by
    conv_lhs => rw [h.eq]
    rw [← Matrix.mul_assoc, ← Matrix.mul_assoc, frobSq_mul_orth h.orthV, frobSq, Finset.sum_comm]
    refine Finset.sum_congr rfl fun i _ => ?_
    rw [Finset.mul_sum]
    refine Finset.sum_congr rfl fun a _ => ?_
    rw [mul_diagonal]; ring
  rw [e] at hE
  set c : Fin (min m n) → ℝ := fun i => ∑ a, (Qᵀ * U) a i ^ 2 with hc
  change _ ≤ ∑ i, s i ^ 2 * c i at hE
  have c0 : ∀ i, 0 ≤ c i := fun i => Finset.sum_nonneg fun a _ => sq_nonneg _
  have hcol : ∀ i, frobSq (U.submatrix id fun _ : Fin 1 => i) = 1 := by
    intro i
    have := congrFun (congrFun h.orthU i) i
    rw [Matrix.mul_apply, Matrix.one_apply_eq] at this
    rw [← this, frobSq]
    simp [sq]
  have hcc : ∀ i, frobSq (Qᵀ * U.submatrix id fun _ : Fin 1 => i) = c i := by
    intro i
    simp [frobSq, hc, Matrix.mul_apply]
  have hrest : ∀ i, frobSq (U.submatrix id (fun _ : Fin 1 => i) - Q * Qᵀ * U.submatrix id fun _ : Fin 1 => i) = 1 - c i := by
    intro i
    have := frobSq_proj_zero hQ (U.submatrix id fun _ : Fin 1 => i)
    rw [hcol, hcc] at this
    linarith
  have c1 : ∀ i, c i ≤ 1 := fun i => by
    have := hrest i
    linarith [frobSq_nonneg (U.submatrix id (fun _ : Fin 1 => i) - Q * Qᵀ * U.submatrix id fun _ : Fin 1 => i)]
  have csum : ∑ i, c i ≤ r := by
    have h1 : ∑ i, c i = frobSq (Uᵀ * Q) := by
      rw [← frobSq_transpose, transpose_mul, transpose_transpose, frobSq, Finset.sum_comm]
    rw [h1, ← frobSq_of_orth hQ]
    exact frobSq_tmul_le h.orthU Q
  have hcount : ∑ i : Fin (min m n), (if i.val < r then (1 : ℝ) else 0) = r := by
    rw [Finset.sum_boole]
    have : (Finset.univ.filter fun i : Fin (min m n) => i.val < r) = Finset.univ.map (Fin.castLEEmb hr) := by
      ext i
      simp only [Finset.mem_filter, Finset.mem_univ, true_and, Finset.mem_map]
      constructor
      · intro hi; exact ⟨⟨i, hi⟩, by ext; rfl⟩
      · rintro ⟨a, rfl⟩; exact a.isLt
    rw [this, Finset.card_map, Finset.card_univ, Fintype.card_fin]
  -- two thresholds
  obtain ⟨θ, η, hη, hθη, hθ1, hθ2⟩ : ∃ θ η : ℝ, 0 ≤ η ∧ η < θ ∧ (∀ i : Fin (min m n), i.val < r → θ ≤ s i ^ 2) ∧
      ∀ i : Fin (min m n), r ≤ i.val → s i ^ 2 ≤ η := by
    set a : Fin (min m n) := ⟨r - 1, by omega⟩ with ha
    have hθ : ∀ i : Fin (min m n), i.val < r → s a ^ 2 ≤ s i ^ 2 := fun i hi =>
      pow_le_pow_left₀ (h.nonneg _) (h.anti _ _ (Fin.mk_le_mk.2 (by omega))) 2
    have ha0 : 0 < s a := hp a (by simp only [ha]; omega)
    by_cases hlt : r < min m n
    · refine ⟨s a ^ 2, s ⟨r, hlt⟩ ^ 2, sq_nonneg _, ?_, hθ, fun i hi => ?_⟩
      · exact pow_lt_pow_left₀ (hsep a ⟨r, hlt⟩ (by simp only [ha]; omega) (le_refl _)) (h.nonneg _) (by norm_num)
      · exact pow_le_pow_left₀ (h.nonneg _) (h.anti _ _ (Fin.mk_le_mk.2 hi)) 2
    · exact ⟨s a ^ 2, 0, le_refl _, by positivity, hθ, fun i hi => absurd i.isLt (by omega)⟩
  have key : ∀ i : Fin (min m n), s i ^ 2 * c i - (if i.val < r then s i ^ 2 else 0) ≤
      η * (c i - if i.val < r then 1 else 0) - (θ - η) * (if i.val < r then 1 - c i else 0) := by
    intro i
    by_cases hi : i.val < r
    · rw [if_pos hi, if_pos hi, if_pos hi]
      nlinarith [hθ1 i hi, c1 i]
    · rw [if_neg hi, if_neg hi, if_neg hi]
      nlinarith [hθ2 i (Nat.le_of_not_lt hi), c0 i]
  have hsum := Finset.sum_le_sum fun i (_ : i ∈ Finset.univ) => key i
  rw [Finset.sum_sub_distrib, Finset.sum_sub_distrib, ← Finset.mul_sum, ← Finset.mul_sum, Finset.sum_sub_distrib, hcount] at hsum
  have hnn : ∀ i ∈ Finset.univ, (0 : ℝ) ≤ if (i : Fin (min m n)).val < r then 1 - c i else 0 := by
    intro i _
    split
    · linarith [c1 i]
    · exact le_refl _
  have hz : ∑ i : Fin (min m n), (if i.val < r then 1 - c i else 0) = 0 := by
    refine le_antisymm ?_ (Finset.sum_nonneg hnn)
    by_contra hgt
    have : 0 < (θ - η) * ∑ i : Fin (min m n), (if i.val < r then 1 - c i else 0) :=
      mul_pos (by linarith) (not_le.1 hgt)
    nlinarith
  have hone : ∀ i : Fin (min m n), i.val < r → c i = 1 := by
    intro i hi
    have := (Finset.sum_eq_zero_iff_of_nonneg hnn).1 hz i (Finset.mem_univ _)
    rw [if_pos hi] at this
    linarith
  refine proj_eq_of_keep (cols_orth h.orthU hr) ?_
  ext a j
  have h0 := frobSq_zero_iff (by rw [hrest (Fin.castLE hr j), hone _ j.isLt, sub_self])
  have := congrFun (congrFun h0 a) 0
  rw [Matrix.sub_apply, Matrix.zero_apply, sub_eq_zero] at this
  exact this.symm

/-- A separated subspace is the only one that captures that much. -/
theorem Separated.unique {m n r : Nat} {M : Mat m n} (hM : Separated M r) {U s V} (h : IsThinSVD M U s V) (hr : r ≤ min m n)
    {Q : Mat m r} (hQ : Qᵀ * Q = 1) (hE : frobSq ((cols U r hr)ᵀ * M) ≤ frobSq (Qᵀ * M)) :
    Q * Qᵀ = cols U r hr * (cols U r hr)ᵀ := by
  rcases hM with rfl | ⟨s', ⟨U', V', h'⟩, hp, hsep⟩
  · rw [mul_eq_one_comm.1 hQ, mul_eq_one_comm.1 (cols_orth h.orthU hr)]
  · have a := h'.kyFan hr (cols_orth h.orthU hr)
    have b := h.kyFan hr (cols_orth h'.orthU hr)
    rw [h'.kyFan_unique hr hp hsep hQ (le_trans b hE), h'.kyFan_unique hr hp hsep (cols_orth h.orthU hr) b]

end TD.Spec
