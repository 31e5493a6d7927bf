import Verif.Lemmas.Hooi
import Verif.Spec.Report

/-!
# Eckart-Young, and the unfoldings of a Tucker tensor
-/
namespace TD.Spec
open Matrix

/-- Eckart-Young: no matrix of the form `B C` with at most `r` columns in `B` is closer to `M` than the discarded
singular values say. -/
theorem IsThinSVD.eckart_young {m n q r : Nat} {M : Mat m n} {U s V} (h : IsThinSVD M U s V) (B : Mat m q) (C : Mat q n)
    (hq : q ≤ r) : (∑ i : Fin (min m n), if r ≤ i.val then s i ^ 2 else 0) ≤ frobSq (M - B * C) := by
  obtain ⟨Q, t, W, hB⟩ := exists_thinSvd B
  have e : M - B * C = M - Q * Qᵀ * (B * C) := by
    congr 1
    conv_rhs => rw [hB.eq]
    conv_lhs => rw [hB.eq]
    simp only [Matrix.mul_assoc]
    rw [← Matrix.mul_assoc Qᵀ Q, hB.orthU, Matrix.one_mul]
  rw [e, frobSq_proj hB.orthU]
  refine le_trans ?_ (le_add_of_nonneg_right (frobSq_nonneg _))
  have hsplit := frobSq_proj_zero hB.orthU M
  by_cases hr : min m q ≤ min m n
  · have k1 := h.kyFan hr hB.orthU
    have k2 := frobSq_proj_zero (cols_orth h.orthU hr) M
    rw [h.trunc hr] at k2
    have : (∑ i : Fin (min m n), if r ≤ i.val then s i ^ 2 else 0) ≤
        ∑ i : Fin (min m n), if min m q ≤ i.val then s i ^ 2 else 0 := by
      refine Finset.sum_le_sum fun i _ => ?_
      by_cases hi : r ≤ i.val
      · rw [if_pos hi, if_pos (le_trans (Nat.min_le_right _ _) (le_trans hq hi))]
      · rw [if_neg hi]; split <;> positivity
    linarith
  · have : (∑ i : Fin (min m n), if r ≤ i.val then s i ^ 2 else 0) = 0 := by
      refine Finset.sum_eq_zero fun i _ => if_neg ?_
      have := i.isLt
      omega
    rw [this]
    exact frobSq_nonneg _

end TD.Spec

namespace TD
open Spec Tensor Matrix

/-- The mode-`n` unfolding of a Tucker tensor has its columns in the range of factor `n`. -/
theorem unfM_tucker {shape : List Nat} {g Y : Tensor ℝ} {B : List (Tensor ℝ)} {n m c J : Nat} {A : Tensor ℝ}
    (hY : IsTucker shape g B Y) (hB : rowDims B = shape) (hg : g.shape = colDims B) (hA : B[n]? = some A)
    (hAs : A.shape = [m, c]) (hJ : otherSize shape n = J) :
    ∃ C : Mat c J, unfM Y n m J = toMat A m c * C := by
  have hl : B.length = shape.length := by rw [← hB, rowDims, List.length_map]
  have hn : n < B.length := (List.getElem?_eq_some_iff.1 hA).1
  have hgl : g.shape.length = B.length := by rw [hg, colDims, List.length_map]
  have hgn : g.shape.getD n 0 = c := by rw [hg]; simp [colDims, hA, hAs]
  have hsn : shape.getD n 0 = m := by rw [← hB]; simp [rowDims, hA, hAs]
  have hng : n < g.shape.length := by omega
  refine ⟨Matrix.of fun p j => ∑ q ∈ Finset.range (otherSize g.shape n), g.at_ (unkolda g.shape n p q) *
    kronEntry (B.eraseIdx n) ((unkolda shape n 0 j).eraseIdx n) ((unkolda g.shape n p q).eraseIdx n), ?_⟩
  ext i j
  have hi : (i : Nat) < shape.getD n 0 := by rw [hsn]; exact i.isLt
  have hj : (j : Nat) < otherSize shape n := by rw [hJ]; exact j.isLt
  obtain ⟨k1, k2, -⟩ := unkolda_spec (hl ▸ hn) hi hj
  obtain ⟨-, -, f1⟩ := unkolda_facts (shape := shape) (hl ▸ hn) i j
  obtain ⟨-, -, f2⟩ := unkolda_facts (shape := shape) (hl ▸ hn) 0 j
  unfold unfM
  rw [Matrix.of_apply, hY.1, hY.2 _ k1, boxSum_unkolda hng, hgn, Matrix.mul_apply, Finset.sum_range]
  refine Finset.sum_congr rfl fun p _ => ?_
  rw [toMat_apply, Matrix.of_apply, Finset.mul_sum]
  refine Finset.sum_congr rfl fun q hq => ?_
  obtain ⟨g1, g2, -⟩ := unkolda_spec (shape := g.shape) hng (i := p) (j := q) (by rw [hgn]; exact p.isLt)
    (Finset.mem_range.1 hq)
  rw [kronEntry_eraseIdx (by rw [k1.length, hl]) (by rw [g1.length, hgl]) hA, k2, g2, f1, f2]
  ring

end TD
