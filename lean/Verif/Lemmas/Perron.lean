import Verif.Lemmas.TopSv

/-! # Nonnegative matrices: a nonnegative top singular vector, and what a proximal step does along it -/
namespace TD.Spec
open Matrix

/-- `l` is the largest value of `‖D Kᵀ‖²` on row vectors of norm one. -/
structure TopRow {J R : Nat} (K : Mat J R) (l : ℝ) : Prop where
  le : ∀ D : Mat 1 R, frobSq (D * Kᵀ) ≤ l * frobSq D
  att : ∃ D : Mat 1 R, frobSq D = 1 ∧ frobSq (D * Kᵀ) = l

/-- The largest singular value of a Gram matrix is such a value. -/
theorem IsTopSv.topRow {J R : Nat} {K : Mat J R} {l : ℝ} (h : IsTopSv (Kᵀ * K) l) : TopRow K l := by
  refine ⟨fun D => ?_, ?_⟩
  · have := h.gram_le Dᵀ
    rwa [← frobSq_transpose, transpose_mul, transpose_transpose, frobSq_transpose] at this
  · obtain ⟨v, v1, v2⟩ := h.attained
    refine ⟨vᵀ, by rw [frobSq_transpose, v1], ?_⟩
    have e : frobSq (vᵀ * Kᵀ) = frobSq (K * v) := by rw [← transpose_mul, frobSq_transpose]
    rw [e]
    have hle := h.gram_le v
    rw [v1, mul_one] at hle
    refine le_antisymm hle ?_
    -- ‖KᵀKv‖² = ⟨K(KᵀKv), Kv⟩
    have h1 : frobSq (Kᵀ * K * v) = trace (K * (Kᵀ * K * v) * (K * v)ᵀ) := by
      rw [frobSq_eq_trace, Matrix.trace_mul_comm, Matrix.transpose_mul, Matrix.mul_assoc K, Matrix.trace_mul_comm K]
      simp only [transpose_mul, transpose_transpose, Matrix.mul_assoc]
    have h2 := trace_cauchy (K * (Kᵀ * K * v)) (K * v)
    rw [← h1, v2] at h2
    have h3 := h.gram_le (Kᵀ * K * v)
    rw [v2] at h3
    rcases h.nonneg.eq_or_lt with h0 | h0
    · rw [← h0]; exact frobSq_nonneg _
    · have h4 := mul_le_mul_of_nonneg_right h3 (frobSq_nonneg (K * v))
      have h5 : l ^ 3 * l ≤ l ^ 3 * frobSq (K * v) := by nlinarith
      exact le_of_mul_le_mul_left h5 (by positivity)

theorem TopRow.nonneg {J R : Nat} {K : Mat J R} {l : ℝ} (h : TopRow K l) : 0 ≤ l := by
  obtain ⟨D, -, h2⟩ := h.att
  rw [← h2]; exact frobSq_nonneg _

/-- A nonnegative matrix has a nonnegative top singular vector. -/
theorem TopRow.perron {J R : Nat} {K : Mat J R} {l : ℝ} (h : TopRow K l) (hK : ∀ j r, 0 ≤ K j r) :
    ∃ y : Mat 1 R, (∀ r, 0 ≤ y 0 r) ∧ frobSq (y * Kᵀ) = l ∧ y * (Kᵀ * K) = l • y := by
  obtain ⟨D, d1, d2⟩ := h.att
  set y : Mat 1 R := Matrix.of fun _ r => |D 0 r| with hy
  have y0 : ∀ r, 0 ≤ y 0 r := fun r => abs_nonneg _
  have y1 : frobSq y = 1 := by
    rw [← d1, frobSq, frobSq]
    simp [hy, sq_abs]
  have y2 : l ≤ frobSq (y * Kᵀ) := by
    rw [← d2, frobSq, frobSq]
    refine Finset.sum_le_sum fun i _ => Finset.sum_le_sum fun j _ => ?_
    rw [Subsingleton.elim i 0]
    refine sq_le_sq' ?_ ?_
    · rw [Matrix.mul_apply, Matrix.mul_apply, ← Finset.sum_neg_distrib]
      refine Finset.sum_le_sum fun r _ => ?_
      rw [hy, of_apply, transpose_apply, ← neg_mul]
      exact mul_le_mul_of_nonneg_right (neg_abs_le _) (hK j r)
    · rw [Matrix.mul_apply, Matrix.mul_apply]
      refine Finset.sum_le_sum fun r _ => ?_
      rw [hy, of_apply, transpose_apply]
      exact mul_le_mul_of_nonneg_right (le_abs_self _) (hK j r)
  have y3 : frobSq (y * Kᵀ) = l := le_antisymm (by have := h.le y; rwa [y1, mul_one] at this) y2
  refine ⟨y, y0, y3, ?_⟩
  set g := y * (Kᵀ * K) - l • y with hg
  have hq : ∀ t : ℝ, 0 ≤ t ^ 2 * (l * frobSq g) - 2 * t * frobSq g := by
    intro t
    have h1 := h.le (y + t • g)
    have e1 : frobSq (t • g) = t ^ 2 * frobSq g := by
      simp only [frobSq, Matrix.smul_apply, smul_eq_mul, mul_pow, Finset.mul_sum]
    have e2 : frobSq ((t • g) * Kᵀ) = t ^ 2 * frobSq (g * Kᵀ) := by
      simp only [frobSq, Matrix.smul_mul, Matrix.smul_apply, smul_eq_mul, mul_pow, Finset.mul_sum]
    rw [Matrix.add_mul, frobSq_add, frobSq_add, e1, e2, y1, y3] at h1
    have e3 : trace (y * Kᵀ * ((t • g) * Kᵀ)ᵀ) = t * trace (y * (Kᵀ * K) * gᵀ) := by
      rw [Matrix.smul_mul, transpose_smul, Matrix.mul_smul, trace_smul, smul_eq_mul, transpose_mul, transpose_transpose]
      simp only [Matrix.mul_assoc]
    have e4 : trace (y * (t • g)ᵀ) = t * trace (y * gᵀ) := by
      rw [transpose_smul, Matrix.mul_smul, trace_smul, smul_eq_mul]
    have e5 : frobSq g = trace (y * (Kᵀ * K) * gᵀ) - l * trace (y * gᵀ) := by
      have : frobSq g = trace (g * gᵀ) := by rw [frobSq_eq_trace, trace_mul_comm]
      rw [this]
      conv_lhs => rw [hg]
      rw [Matrix.sub_mul, trace_sub, Matrix.smul_mul, trace_smul, smul_eq_mul]
    rw [e3, e4] at h1
    have h2 := mul_nonneg (sq_nonneg t) (frobSq_nonneg (g * Kᵀ))
    have e6 : 2 * t * frobSq g = 2 * (t * trace (y * (Kᵀ * K) * gᵀ)) - l * (2 * (t * trace (y * gᵀ))) := by rw [e5]; ring
    rw [e6]
    nlinarith
  have hz : frobSq g = 0 := by
    by_contra hne
    have hp : 0 < frobSq g := lt_of_le_of_ne (frobSq_nonneg _) (Ne.symm hne)
    have hl := h.nonneg
    have := hq (1 / (l + 1))
    have hl1 : 0 < l + 1 := by linarith
    have e : (1 / (l + 1)) ^ 2 * (l * frobSq g) - 2 * (1 / (l + 1)) * frobSq g = - (frobSq g * (l + 2) / (l + 1) ^ 2) := by
      field_simp; ring
    rw [e] at this
    have : 0 < frobSq g * (l + 2) / (l + 1) ^ 2 := by positivity
    linarith
  exact sub_eq_zero.1 (frobSq_eq_zero hz)

/-- A proximal gradient step towards positive data leaves no row of the model empty. -/
theorem prox_row_pos {I J R : Nat} {M : Mat I J} {K : Mat J R} {l : ℝ} (hl : 0 < l) (h : TopRow K l) (hK : ∀ j r, 0 ≤ K j r)
    (hM : ∀ i j, 0 < M i j) {Y Z : Mat I R} (hZ : ∀ i r, Z i r = max (Y i r - (Y * (Kᵀ * K) - M * K) i r / l) 0) (i : Fin I) :
    ∃ j, 0 < (Z * Kᵀ) i j := by
  obtain ⟨y, y0, y1, y2⟩ := h.perron hK
  set w := y * Kᵀ with hw
  have w0 : ∀ j, 0 ≤ w 0 j := fun j => by
    rw [hw, Matrix.mul_apply]
    exact Finset.sum_nonneg fun r _ => mul_nonneg (y0 r) (hK j r)
  have hMw : 0 < (M * wᵀ) i 0 := by
    rw [Matrix.mul_apply]
    have hnn : ∀ j ∈ Finset.univ, 0 ≤ M i j * wᵀ j 0 := fun j _ => mul_nonneg (hM i j).le (w0 j)
    refine lt_of_le_of_ne (Finset.sum_nonneg hnn) fun e => ?_
    have hz := (Finset.sum_eq_zero_iff_of_nonneg hnn).1 e.symm
    have : frobSq w = 0 := by
      rw [frobSq]
      refine Finset.sum_eq_zero fun a _ => Finset.sum_eq_zero fun j _ => ?_
      rw [Subsingleton.elim a 0]
      have := (mul_eq_zero.1 (hz j (Finset.mem_univ _))).resolve_left (hM i j).ne'
      rw [transpose_apply] at this
      rw [this]; norm_num
    rw [y1] at this
    exact hl.ne' this
  have e1 : ∀ C : Mat I R, (C * Kᵀ * wᵀ) i 0 = l * (C * yᵀ) i 0 := by
    intro C
    have : C * Kᵀ * wᵀ = C * (y * (Kᵀ * K))ᵀ := by
      rw [hw]; simp only [transpose_mul, transpose_transpose, Matrix.mul_assoc]
    rw [this, y2, transpose_smul, Matrix.mul_smul, Matrix.smul_apply, smul_eq_mul]
  have e2 : (Y * (Kᵀ * K) * yᵀ) i 0 = l * (Y * yᵀ) i 0 := by
    have : Y * (Kᵀ * K) * yᵀ = Y * (y * (Kᵀ * K))ᵀ := by
      simp only [transpose_mul, transpose_transpose, Matrix.mul_assoc]
    rw [this, y2, transpose_smul, Matrix.mul_smul, Matrix.smul_apply, smul_eq_mul]
  have e3 : (M * K * yᵀ) i 0 = (M * wᵀ) i 0 := by
    rw [hw, transpose_mul, transpose_transpose, Matrix.mul_assoc]
  have hge : (M * wᵀ) i 0 ≤ (Z * Kᵀ * wᵀ) i 0 := by
    rw [e1]
    have h1 : (Y * yᵀ) i 0 - ((Y * (Kᵀ * K) * yᵀ) i 0 - (M * K * yᵀ) i 0) / l ≤ (Z * yᵀ) i 0 := by
      rw [Matrix.mul_apply, Matrix.mul_apply, Matrix.mul_apply (M := M * K), Matrix.mul_apply (M := Z), ← Finset.sum_sub_distrib,
        Finset.sum_div, ← Finset.sum_sub_distrib]
      refine Finset.sum_le_sum fun r _ => ?_
      rw [transpose_apply]
      have := mul_le_mul_of_nonneg_right (le_max_left (Y i r - (Y * (Kᵀ * K) - M * K) i r / l) 0) (y0 r)
      rw [← hZ i r, Matrix.sub_apply] at this
      calc _ = (Y i r - ((Y * (Kᵀ * K)) i r - (M * K) i r) / l) * y 0 r := by ring
        _ ≤ _ := this
    rw [e2, e3] at h1
    have h2 := mul_le_mul_of_nonneg_left h1 hl.le
    have e : l * ((Y * yᵀ) i 0 - (l * (Y * yᵀ) i 0 - (M * wᵀ) i 0) / l) = (M * wᵀ) i 0 := by
      field_simp; ring
    rwa [e] at h2
  by_contra hno
  push Not at hno
  have : (Z * Kᵀ * wᵀ) i 0 ≤ 0 := by
    rw [Matrix.mul_apply]
    exact Finset.sum_nonpos fun j _ => mul_nonpos_of_nonpos_of_nonneg (hno j) (w0 j)
  linarith

end TD.Spec
