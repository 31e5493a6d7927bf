import Mathlib.Data.Matrix.Mul
import Mathlib.LinearAlgebra.Matrix.Trace
import Mathlib.Algebra.Order.Chebyshev
import Mathlib.Tactic.Ring
import Mathlib.Tactic.Linarith
import Mathlib.Tactic.FieldSimp
import Verif.Lemmas.Frob
import Verif.Model.Pitf

/-! # Lemmas on the pairwise-interaction operators -/
namespace TD.pitf
open TD Matrix Spec

theorem centralization_apply {r c : Nat} (M : Mat r c) (i : Fin r) (j : Fin c) :
    np.centralization M i j = M i j - (∑ k, M k j) / r := by
  simp [np.centralization, ones, Matrix.mul_apply, div_eq_inv_mul]

theorem centralization_fun {r c : Nat} (M : Mat r c) :
    np.centralization M = fun i j => M i j - (∑ k, M k j) / r := by
  ext i j; exact centralization_apply M i j

theorem foldl_assign {m r c : Nat} (pos : Fin m → Fin r × Fin c) (y : Fin m → ℝ) (l : List (Fin m))
    (X : Mat r c) (i : Fin r) (j : Fin c) :
    l.foldl (fun X k => np.assign X (pos k) (y k)) X i j
      = ((l.filter fun k => pos k = (i, j)).map y).getLastD (X i j) := by
  induction l generalizing X with
  | nil => rfl
  | cons a l ih =>
    rw [List.foldl_cons, ih, List.filter_cons]
    by_cases h : pos a = (i, j)
    · have e : (if decide (pos a = (i, j)) = true then a :: l.filter (fun k => decide (pos k = (i, j)))
          else l.filter (fun k => decide (pos k = (i, j)))) = a :: l.filter (fun k => decide (pos k = (i, j))) :=
        if_pos (decide_eq_true h)
      rw [e, List.map_cons, List.getLastD_cons, np.assign, if_pos h.symm]
    · have e : (if decide (pos a = (i, j)) = true then a :: l.filter (fun k => decide (pos k = (i, j)))
          else l.filter (fun k => decide (pos k = (i, j)))) = l.filter (fun k => decide (pos k = (i, j))) :=
        if_neg (by simpa using h)
      rw [e, np.assign, if_neg (Ne.symm h)]

theorem sparseToDense_append {m r c : Nat} (l1 : Fin m → Fin r) (l2 : Fin m → Fin c) (y : Fin m → ℝ)
    (i : Fin r) (j : Fin c) :
    tfl.sparseToDense (tfl.indexValueAppend l1 l2 y) i j
      = (((List.finRange m).filter fun k => (l1 k, l2 k) = (i, j)).map y).getLastD 0 := by
  unfold tfl.sparseToDense tfl.indexValueAppend
  rw [List.filter_map, List.map_map]
  rfl

/-- With distinct positions the scattered matrix is the sum of the samples. -/
theorem getLastD_distinct {m r c : Nat} (pos : Fin m → Fin r × Fin c) (h : Function.Injective pos)
    (y : Fin m → ℝ) (p : Fin r × Fin c) :
    (((List.finRange m).filter fun k => pos k = p).map y).getLastD 0 = ∑ k, if pos k = p then y k else 0 := by
  by_cases he : ∃ k, pos k = p
  · obtain ⟨k, rfl⟩ := he
    have : (List.finRange m).filter (fun k' => decide (pos k' = pos k)) = [k] := by
      have h1 : (fun k' => decide (pos k' = pos k)) = fun k' => k' == k := by
        funext k'
        by_cases e : k' = k
        · simp [e]
        · simp [e, h.ne e]
      rw [h1, List.filter_beq]
      rw [List.count_eq_one_of_mem (List.nodup_finRange m) (List.mem_finRange k)]
      rfl
    rw [this, Finset.sum_eq_single k]
    · simp
    · intro b _ hb
      rw [if_neg (h.ne hb)]
    · intro h; exact absurd (Finset.mem_univ _) h
  · have : (List.finRange m).filter (fun k' => decide (pos k' = p)) = [] := by
      rw [List.filter_eq_nil_iff]
      intro k _
      simpa using fun e => he ⟨k, e⟩
    rw [this]
    rw [Finset.sum_eq_zero]
    · rfl
    · intro k _
      rw [if_neg fun e => he ⟨k, e⟩]

end TD.pitf
