import Verif.Spec.TopSv
import Verif.Lemmas.ThinSvd

/-! # Largest singular values and proximal gradient steps -/
namespace TD.Spec
open Matrix

theorem frobSq_diag_mul_le {p n : Nat} {s : Fin p → ℝ} {L : ℝ} (h0 : ∀ i, 0 ≤ s i) (hL : ∀ i, s i ≤ L) (M : Mat p n) :
    frobSq (diagonal s * M) ≤ L ^ 2 * frobSq M := by
  rw [frobSq, frobSq, Finset.mul_sum]
  refine Finset.sum_le_sum fun i _ => ?_
  rw [Finset.mul_sum]
  refine Finset.sum_le_sum fun j _ => ?_
  rw [diagonal_mul, mul_pow]
  exact mul_le_mul_of_nonneg_right (pow_le_pow_left₀ (h0 i) (hL i) 2) (sq_nonneg _)

theorem IsTopSv.nonneg {m n : Nat} {M : Mat m n} {L : ℝ} (h : IsTopSv M L) : 0 ≤ L := by
  obtain ⟨s, ⟨U, V, hs⟩, -, i, rfl⟩ := h
  exact hs.nonneg i

/-- The largest singular value bounds the operator. -/
theorem IsTopSv.mul_le {m n k : Nat} {M : Mat m n} {L : ℝ} (h : IsTopSv M L) (D : Mat n k) :
    frobSq (M * D) ≤ L ^ 2 * frobSq D := by
  obtain ⟨s, ⟨U, V, hs⟩, hL, -⟩ := h
  conv_lhs => rw [hs.eq]
  rw [Matrix.mul_assoc, Matrix.mul_assoc, frobSq_orth_mul hs.orthU]
  refine le_trans (frobSq_diag_mul_le hs.nonneg hL _) ?_
  exact mul_le_mul_of_nonneg_left (frobSq_tmul_le hs.orthV _) (sq_nonneg _)

/-- The bound is attained. -/
theorem IsTopSv.attained {m n : Nat} {M : Mat m n} {L : ℝ} (h : IsTopSv M L) :
    ∃ v : Mat n 1, frobSq v = 1 ∧ frobSq (M * v) = L ^ 2 := by
  obtain ⟨s, ⟨U, V, hs⟩, -, i, rfl⟩ := h
  refine ⟨V.submatrix id fun _ : Fin 1 => i, ?_, ?_⟩
  · have := congrFun (congrFun hs.orthV i) i
    rw [Matrix.mul_apply, Matrix.one_apply_eq] at this
    rw [← this, frobSq]
    simp [sq]
  · have e : Vᵀ * V.submatrix id (fun _ : Fin 1 => i) =
        Matrix.of fun (a : Fin (min m n)) (_ : Fin 1) => if a = i then (1 : ℝ) else 0 := by
      ext a b
      have := congrFun (congrFun hs.orthV a) i
      rw [Matrix.one_apply] at this
      rw [of_apply, ← this]; rfl
    conv_lhs => rw [hs.eq]
    rw [Matrix.mul_assoc, Matrix.mul_assoc, frobSq_orth_mul hs.orthU, e]
    simp only [frobSq, diagonal_mul, of_apply, Finset.univ_unique, Finset.sum_singleton]
    rw [Finset.sum_eq_single i]
    · simp
    · intro b _ hb; simp [hb]
    · intro h; exact absurd (Finset.mem_univ _) h

theorem exists_topSv {m n : Nat} (M : Mat m n) (hm : 0 < m) (hn : 0 < n) : ∃ L, IsTopSv M L := by
  obtain ⟨U, s, V, h⟩ := exists_thinSvd M
  have : 0 < min m n := Nat.lt_min.2 ⟨hm, hn⟩
  exact ⟨s ⟨0, this⟩, s, ⟨U, V, h⟩, fun i => h.anti _ _ (Fin.mk_le_mk.2 (Nat.zero_le _)), _, rfl⟩

theorem trace_cauchy {m n : Nat} (E F : Mat m n) : trace (E * Fᵀ) ^ 2 ≤ frobSq E * frobSq F := by
  have h : trace (E * Fᵀ) = ∑ p : Fin m × Fin n, E p.1 p.2 * F p.1 p.2 := by
    rw [Fintype.sum_prod_type]; simp [trace, Matrix.mul_apply]
  have h1 : ∀ G : Mat m n, frobSq G = ∑ p : Fin m × Fin n, G p.1 p.2 ^ 2 := fun G => by
    rw [Fintype.sum_prod_type]; rfl
  rw [h, h1, h1]
  exact Finset.sum_mul_sq_le_sq_mul_sq _ _ _

/-- The largest singular value of a Gram matrix bounds the square of the operator. -/
theorem IsTopSv.gram_le {J R k : Nat} {K : Mat J R} {L : ℝ} (h : IsTopSv (Kᵀ * K) L) (D : Mat R k) :
    frobSq (K * D) ≤ L * frobSq D := by
  have e : frobSq (K * D) = trace (Dᵀ * (Kᵀ * K * D)) := by
    rw [frobSq_eq_trace, transpose_mul, Matrix.mul_assoc, Matrix.mul_assoc]
  have h1 : trace (Dᵀ * (Kᵀ * K * D)) = trace (Dᵀ * ((Kᵀ * K * D)ᵀ)ᵀ) := by rw [transpose_transpose]
  have h2 := trace_cauchy Dᵀ (Kᵀ * K * D)ᵀ
  rw [← h1, ← e, frobSq_transpose, frobSq_transpose] at h2
  have h3 := h.mul_le D
  have h4 : frobSq (K * D) ^ 2 ≤ (L * frobSq D) ^ 2 := by
    refine le_trans h2 ?_
    have := mul_le_mul_of_nonneg_left h3 (frobSq_nonneg D)
    nlinarith [this]
  exact abs_le_abs_of_sq_le_sq' h4 (mul_nonneg h.nonneg (frobSq_nonneg D)) (frobSq_nonneg _)
where
  abs_le_abs_of_sq_le_sq' {a b : ℝ} (h : a ^ 2 ≤ b ^ 2) (hb : 0 ≤ b) (_ : 0 ≤ a) : a ≤ b := by
    nlinarith

theorem prox_entry {y g b z L : ℝ} (hL : 0 < L) (hb : 0 ≤ b) (hz : z = max (y - g / L) 0) :
    g * (z - b) ≤ L * ((z - y) * (b - z)) := by
  have e : g = L * (g / L) := by field_simp
  set q := g / L
  rw [e]
  rcases le_total (y - q) 0 with h | h
  · rw [max_eq_right h] at hz
    subst hz
    have := mul_nonneg hL.le hb
    nlinarith [mul_nonneg this (sub_nonneg.2 h)]
  · rw [max_eq_left h] at hz
    subst hz
    nlinarith

/-- The three-point inequality of a projected gradient step on `‖M - B Kᵀ‖²`, from the point `Y`. -/
theorem prox_three_point {I J R : Nat} (M : Mat I J) (K : Mat J R) {L : ℝ} (hL : 0 < L)
    (hK : ∀ D : Mat I R, frobSq (D * Kᵀ) ≤ L * frobSq D) (Y Z B : Mat I R)
    (hZ : ∀ i r, Z i r = max (Y i r - (Y * (Kᵀ * K) - M * K) i r / L) 0) (hB : ∀ i r, 0 ≤ B i r) :
    frobSq (M - Z * Kᵀ) ≤ frobSq (M - B * Kᵀ) + L * frobSq (B - Y) - L * frobSq (B - Z) := by
  set G := Y * (Kᵀ * K) - M * K with hG
  have expand : ∀ C : Mat I R, frobSq (M - C * Kᵀ) =
      frobSq (M - Y * Kᵀ) + frobSq ((C - Y) * Kᵀ) + 2 * trace (G * (C - Y)ᵀ) := by
    intro C
    have e : M - C * Kᵀ = (M - Y * Kᵀ) + (-((C - Y) * Kᵀ)) := by rw [Matrix.sub_mul]; abel
    rw [e, frobSq_add]
    have e2 : frobSq (-((C - Y) * Kᵀ)) = frobSq ((C - Y) * Kᵀ) := by simp [frobSq]
    have e3 : trace ((M - Y * Kᵀ) * (-((C - Y) * Kᵀ))ᵀ) = trace (G * (C - Y)ᵀ) := by
      rw [transpose_neg, Matrix.mul_neg, transpose_mul, transpose_transpose, ← Matrix.mul_assoc, ← Matrix.neg_mul]
      congr 2
      rw [hG, Matrix.sub_mul, Matrix.mul_assoc Y]; abel
    rw [e2, e3]
  have htr : trace (G * (Z - B)ᵀ) ≤ L * trace ((Z - Y) * (B - Z)ᵀ) := by
    have h1 : ∀ E F : Mat I R, trace (E * Fᵀ) = ∑ i, ∑ j, E i j * F i j := fun E F => by
      simp [trace, Matrix.mul_apply]
    rw [h1, h1, Finset.mul_sum]
    refine Finset.sum_le_sum fun i _ => ?_
    rw [Finset.mul_sum]
    refine Finset.sum_le_sum fun j _ => ?_
    simp only [Matrix.sub_apply]
    exact prox_entry hL (hB i j) (hZ i j)
  have hsplit : trace (G * (Z - B)ᵀ) = trace (G * (Z - Y)ᵀ) - trace (G * (B - Y)ᵀ) := by
    rw [← trace_sub, ← Matrix.mul_sub, ← transpose_sub]
    congr 3; abel
  have hBY : frobSq (B - Y) = frobSq (Z - Y) + frobSq (B - Z) + 2 * trace ((Z - Y) * (B - Z)ᵀ) := by
    rw [← frobSq_add]; congr 1; abel
  rw [expand Z, expand B, hBY]
  have h2 := hK (Z - Y)
  have h3 := frobSq_nonneg ((B - Y) * Kᵀ)
  nlinarith

/-- The largest singular value of a Gram matrix vanishes iff the matrix does. -/
theorem IsTopSv.gram_eq_zero {J R : Nat} {K : Mat J R} {L : ℝ} (h : IsTopSv (Kᵀ * K) L) : L = 0 ↔ K = 0 := by
  constructor
  · intro h0
    have := h.gram_le (1 : Mat R R)
    rw [Matrix.mul_one, h0, zero_mul] at this
    exact frobSq_eq_zero (le_antisymm this (frobSq_nonneg _))
  · intro h0
    obtain ⟨v, -, hv⟩ := h.attained
    rw [h0, Matrix.mul_zero, Matrix.zero_mul] at hv
    have e : frobSq (0 : Mat R 1) = 0 := by simp [frobSq]
    rw [e] at hv
    exact pow_eq_zero_iff (by norm_num) |>.1 hv.symm

end TD.Spec
