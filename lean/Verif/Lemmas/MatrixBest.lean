import Verif.Lemmas.Hooi
import Verif.Lemmas.LowRank
import Verif.Lemmas.Separated
import Verif.Lemmas.HosvdCore
import Verif.Spec.BestRank

/-! # Two modes: the core as a product of matrices, and transposed singular value decompositions -/
namespace TD
open Spec Tensor ops Matrix

theorem unkolda_two_zero (m n i j : Nat) : unkolda [m, n] 0 i j = [i, j] := by
  unfold unkolda
  simp [unravel]

theorem unkolda_two_one (m n i j : Nat) : unkolda [m, n] 1 i j = [j, i] := by
  unfold unkolda
  simp [unravel]

theorem unfM_two_zero {X : Tensor ℝ} {m n : Nat} (hX : X.shape = [m, n]) : unfM X 0 m n = toMat X m n := by
  ext i j
  unfold unfM
  rw [of_apply, hX, unkolda_two_zero]
  rfl

theorem unfM_two_one {X : Tensor ℝ} {m n : Nat} (hX : X.shape = [m, n]) : unfM X 1 n m = (toMat X m n)ᵀ := by
  ext i j
  unfold unfM
  rw [of_apply, hX, unkolda_two_one]
  rfl

theorem coreSq_two {X B C : Tensor ℝ} {m n p q : Nat} (hX : X.shape = [m, n]) (hB : B.shape = [m, p]) (hC : C.shape = [n, q]) :
    coreSq X [B, C] = frobSq ((toMat B m p)ᵀ * (toMat X m n * toMat C n q)) := by
  have ho : X.order = 2 := by unfold order; rw [hX]; rfl
  have hT : TuckerShapes X.shape [p, q] [B, C] := by
    rw [hX]
    refine ⟨rfl, fun k M hM => ?_⟩
    match k, hM with
    | 0, hM => cases hM; exact hB
    | 1, hM => cases hM; exact hC
  rw [coreSq_eq (n := 0) (m := m) (r := p) (J := q) (by omega) (by omega) hT (by omega) (B := B) rfl (by rw [hX]; rfl) rfl (by
    rw [ho]; exact Finset.prod_singleton _ _)]
  congr 2
  rw [ho]
  change unfM (modeProd X 1 (matT C)) 0 m q = _
  have hTs : (matT C).shape = [q, n] := by unfold matT; rw [hC]; rfl
  have hs : (modeProd X 1 (matT C)).shape = [m, q] := by
    change X.shape.set 1 ((matT C).shape.getD 0 0) = _
    rw [hX, hTs]; rfl
  rw [unfM_two_zero hs]
  ext i j
  rw [Matrix.mul_apply]
  change (modeProd X 1 (matT C)).at_ [i.val, j.val] = _
  rw [modeProd_at (by rw [hs]; simp [InB, i.isLt, j.isLt]), hX]
  change ∑ k ∈ Finset.range n, (matT C).at_ [j.val, k] * X.at_ [i.val, k] = _
  rw [Finset.sum_range]
  refine Finset.sum_congr rfl fun k _ => ?_
  rw [mul_comm]
  congr 1
  unfold matT
  rw [hC]
  exact at_mat _ j.isLt k.isLt

namespace Spec

/-- The transposed decomposition. -/
theorem IsThinSVD.transpose {m n : Nat} {M : Mat m n} {U s V} (h : IsThinSVD M U s V) :
    IsThinSVD Mᵀ (V.submatrix id (Fin.cast (Nat.min_comm n m))) (fun i => s (Fin.cast (Nat.min_comm n m) i))
      (U.submatrix id (Fin.cast (Nat.min_comm n m))) := by
  refine ⟨?_, ?_, fun i => h.nonneg _, fun i j hij => h.anti _ _ hij, ?_⟩
  · rw [transpose_submatrix, submatrix_mul_id, h.orthV]
    ext i j
    simp [Matrix.one_apply, Fin.ext_iff]
  · rw [transpose_submatrix, submatrix_mul_id, h.orthU]
    ext i j
    simp [Matrix.one_apply, Fin.ext_iff]
  · conv_lhs => rw [h.eq]
    ext i j
    rw [transpose_apply, Matrix.mul_apply, Matrix.mul_apply]
    rw [← (finCongr (Nat.min_comm n m)).sum_comp]
    refine Finset.sum_congr rfl fun k _ => ?_
    simp only [mul_diagonal, transpose_apply, submatrix_apply, id_eq, finCongr_apply]
    ring

/-- If the leading left singular vectors span one space only, no matter which are chosen, then a projection of the rows on as
many or more right singular vectors takes nothing away. -/
theorem IsThinSVD.two_sided {m n p q : Nat} {M : Mat m n} {U s V U' s' V'} (h : IsThinSVD M U s V) (h' : IsThinSVD M U' s' V')
    (hp : p ≤ min m n) (hq : q ≤ min m n) (hpq : p ≤ q) (h0 : ∀ i : Fin (min m n), i.val < p → 0 < s i)
    (hsep : ∀ i j : Fin (min m n), i.val < p → p ≤ j.val → s j < s i) :
    frobSq ((cols U p hp)ᵀ * (M * cols V' q hq)) = ∑ i : Fin (min m n), if i.val < p then s i ^ 2 else 0 := by
  have hs : s = s' := funext fun i => h.values_unique h' i
  have hP := h.kyFan_unique hp h0 hsep (cols_orth h'.orthU hp) (h'.kyFan hp (cols_orth h.orthU hp))
  have e1 : frobSq ((cols U p hp)ᵀ * (M * cols V' q hq)) = frobSq ((cols U' p hp)ᵀ * (M * cols V' q hq)) := by
    rw [← frobSq_orth_mul (cols_orth h.orthU hp), ← frobSq_orth_mul (cols_orth h'.orthU hp), ← Matrix.mul_assoc,
      ← Matrix.mul_assoc (cols U' p hp), hP]
  have e2 : frobSq ((cols U' p hp)ᵀ * (M * cols V' q hq)) = frobSq ((cols U' p hp)ᵀ * M) := by
    have hc : (cols U' p hp)ᵀ * M * (cols V' q hq * (cols V' q hq)ᵀ) = (cols U' p hp)ᵀ * M := by
      have hu : (cols U' p hp)ᵀ * M = (1 : Mat _ _).submatrix (Fin.castLE hp) id * (diagonal s' * V'ᵀ) := by
        conv_lhs => rw [h'.eq]
        rw [Matrix.mul_assoc U', ← Matrix.mul_assoc]
        congr 1
        rw [cols, transpose_submatrix, ← h'.orthU]; rfl
      have hv : V'ᵀ * (cols V' q hq * (cols V' q hq)ᵀ) = diagonal (fun i : Fin (min m n) => if i.val < q then (1 : ℝ) else 0) * V'ᵀ := by
        have := congrArg Matrix.transpose (cols_proj h'.orthV hq)
        rw [transpose_mul, transpose_mul, transpose_transpose, transpose_mul, diagonal_transpose] at this
        exact this
      rw [hu, Matrix.mul_assoc, Matrix.mul_assoc, hv]
      ext i j
      rw [Matrix.mul_apply, Matrix.mul_apply]
      refine Finset.sum_congr rfl fun k _ => ?_
      rw [← Matrix.mul_assoc, diagonal_mul_diagonal, diagonal_mul, diagonal_mul, submatrix_apply, Matrix.one_apply]
      by_cases e : Fin.castLE hp i = id k
      · have : k.val < q := by
          have := congrArg Fin.val e
          simp at this
          omega
        simp [this]
      · rw [if_neg e, zero_mul, zero_mul]
    rw [← frobSq_mul_orth (cols_orth h'.orthV hq), ← Matrix.mul_assoc, Matrix.mul_assoc _ (cols V' q hq), hc]
  rw [e1, e2, h'.lead hp, hs]

/-- A matrix is a product through as many columns as its rank. -/
theorem rank_factor {m n : Nat} (M : Mat m n) : ∃ (B : Mat m M.rank) (C : Mat M.rank n), M = B * C := by
  let S := LinearMap.range M.mulVecLin
  have hb : Module.finrank ℝ S = M.rank := rfl
  let b := Module.finBasisOfFinrankEq ℝ S hb
  obtain ⟨w, hw⟩ : ∃ w : Fin n → S, ∀ j i, (w j : Fin m → ℝ) i = M i j :=
    ⟨fun j => ⟨M.mulVecLin (Pi.single j 1), LinearMap.mem_range_self _ _⟩, fun j i => by simp⟩
  refine ⟨Matrix.of fun i k => (b k : Fin m → ℝ) i, Matrix.of fun k j => b.repr (w j) k, ?_⟩
  ext i j
  have h := congrFun (congrArg Subtype.val (b.sum_repr (w j))) i
  rw [hw] at h
  simp only [Submodule.coe_sum, Submodule.coe_smul, Finset.sum_apply, Pi.smul_apply, smul_eq_mul] at h
  rw [Matrix.mul_apply, ← h]
  exact Finset.sum_congr rfl fun k _ => mul_comm _ _

theorem rank_mul_le_mid {m q n : Nat} (B : Mat m q) (C : Mat q n) : (B * C).rank ≤ q :=
  le_trans (Matrix.rank_mul_le_left B C) (by simpa using B.rank_le_width)

/-- The sum of the squares of the first singular values and of the others. -/
theorem IsThinSVD.lead_tail {m n : Nat} {M : Mat m n} {U s V} (h : IsThinSVD M U s V) (k : Nat) :
    frobSq M - (∑ i : Fin (min m n), if i.val < k then s i ^ 2 else 0) = ∑ i : Fin (min m n), if k ≤ i.val then s i ^ 2 else 0 := by
  rw [h.norm, ← Finset.sum_sub_distrib]
  refine Finset.sum_congr rfl fun i _ => ?_
  by_cases e : i.val < k
  · rw [if_pos e, if_neg (by omega)]; ring
  · rw [if_neg e, if_pos (by omega)]; ring

end Spec

theorem normSqT_two {X : Tensor ℝ} {m n : Nat} (hX : X.shape = [m, n]) : normSqT X = frobSq (toMat X m n) := by
  rw [normSqT_unfM X (n := 0) (m := m) (J := n) (by unfold order; rw [hX]; simp) (by rw [hX]; rfl) (by
    rw [hX, otherSize_eq_prod]; simp), unfM_two_zero hX]

theorem distSqT_two {X Y : Tensor ℝ} {m n : Nat} (hX : X.shape = [m, n]) (hY : Y.shape = [m, n]) :
    distSqT X Y = frobSq (toMat X m n - toMat Y m n) := by
  rw [distSqT_unfM (n := 0) (m := m) (J := n) (by rw [hX, hY]) (by unfold order; rw [hX]; simp) (by rw [hX]; rfl) (by
    rw [hX, otherSize_eq_prod]; simp), unfM_two_zero hX, unfM_two_zero hY]

/-- What an approximation whose error is the sum of the squares of the last singular values is. -/
theorem bestOfRank {X Y : Tensor ℝ} {m n r : Nat} (hX : X.shape = [m, n]) {U s V} (h : IsThinSVD (toMat X m n) U s V)
    (hY : Y.shape = [m, n]) (hr : (toMat Y m n).rank ≤ r)
    (hd : distSqT X Y ≤ ∑ i : Fin (min m n), if r ≤ i.val then s i ^ 2 else 0) : BestOfRank X m n r Y := by
  refine ⟨hY, hr, fun Z hZ hZr => ?_⟩
  obtain ⟨B, C, e⟩ := rank_factor (toMat Z m n)
  have h1 := h.eckart_young B C hZr
  rw [← e, ← distSqT_two hX hZ] at h1
  have := le_trans hd h1
  unfold distSqT at this
  rwa [hX] at this

/-- The tensor computed from two factors and their core. -/
theorem tucker_two {X B C : Tensor ℝ} {m n p q : Nat} (hX : X.shape = [m, n]) (hB : OrthoCols B m p) (hC : OrthoCols C n q) :
    ∃ g Y, ttm X [B, C] none true = .ok g ∧ tucker.fullOf g [B, C] = .ok Y ∧ Y.shape = [m, n] ∧
      (toMat Y m n).rank ≤ min p q ∧ IsTucker [m, n] g [B, C] Y ∧
      distSqT X Y = frobSq (toMat X m n) - frobSq ((toMat B m p)ᵀ * (toMat X m n * toMat C n q)) := by
  have ho : OrthoFactors X.shape [B, C] := by
    rw [hX]
    refine ⟨rfl, fun k M hM => ?_⟩
    match k, hM with
    | 0, hM => cases hM; rw [hB.1]; exact hB
    | 1, hM => cases hM; rw [hC.1]; exact hC
  have hne : X.shape ≠ [] := by rw [hX]; simp
  have h13 : X.order ≤ 13 := by unfold order; rw [hX]; simp
  obtain ⟨g, Y, e1, e2, hgs, hYs, -, hY⟩ := tucker_entries hne h13 ho.allMat ho.rowDims
  have hgs : g.shape = [p, q] := by rw [hgs]; unfold Spec.colDims; simp [hB.1, hC.1]
  have hYm : toMat Y m n = toMat B m p * (toMat g p q * (toMat C n q)ᵀ) := by
    ext i j
    change Y.at_ [i.val, j.val] = _
    rw [hY _ (by rw [hX]; simp [InB, i.isLt, j.isLt]), hgs]
    simp only [boxSum, Matrix.mul_apply]
    rw [Finset.sum_range]
    refine Finset.sum_congr rfl fun a _ => ?_
    rw [Finset.sum_range, Finset.mul_sum]
    refine Finset.sum_congr rfl fun b _ => ?_
    simp only [kronEntry, toMat, of_apply, transpose_apply]
    ring
  refine ⟨g, Y, e1, e2, by rw [hYs, hX], ?_, ⟨by rw [hYs, hX], by rw [← hX]; exact hY⟩, ?_⟩
  · rw [hYm]
    refine le_min (rank_mul_le_mid _ _) ?_
    rw [← Matrix.mul_assoc]
    exact rank_mul_le_mid _ _
  · rw [(tucker_residual hne h13 ho e1 e2).2, ← coreSq_two hX hB.1 hC.1, ← normSqT_two hX, coreSq, e1]

/-- The matrix as a tensor. -/
noncomputable def ofMat {m n : Nat} (M : Mat m n) : Tensor ℝ :=
  mat m n fun i j => if h : i < m ∧ j < n then M ⟨i, h.1⟩ ⟨j, h.2⟩ else 0

theorem toMat_ofMat {m n : Nat} (M : Mat m n) : toMat (ofMat M) m n = M := by
  ext i j
  change (ofMat M).at_ [i.val, j.val] = _
  unfold ofMat
  rw [at_mat _ i.isLt j.isLt, dif_pos ⟨i.isLt, j.isLt⟩]

/-- Orthonormal columns whose span contains the columns of a matrix that is not wider than high. -/
theorem exists_range {m k : Nat} (N : Mat m k) (h : k ≤ m) : ∃ Q : Mat m k, Qᵀ * Q = 1 ∧ frobSq (Qᵀ * N) = frobSq N := by
  obtain ⟨U, s, V, hN⟩ := exists_thinSvd N
  have hk : k ≤ min m k := by omega
  refine ⟨cols U k hk, cols_orth hN.orthU hk, ?_⟩
  rw [hN.lead hk, hN.norm]
  exact Finset.sum_congr rfl fun i _ => if_pos (by have := i.isLt; omega)

end TD
