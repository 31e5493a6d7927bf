import Mathlib.Algebra.Ring.Int.Defs
import Verif.Lemmas.Tucker
import Verif.Props.Unfold
import Verif.Props.Ttm
import Verif.Props.Mul

/-!
# C172 : three ways to multiply along one mode
-/
namespace TD.Props
open TD Tensor Spec ops
variable {α : Type}

theorem koldaCol_set (s idx : List Nat) (n d k : Nat) : koldaCol (s.set n d) (idx.set n k) n = koldaCol s idx n := by
  unfold koldaCol
  rw [List.length_set]
  refine Finset.sum_congr rfl fun m hm => ?_
  rw [getD_set_ne (Finset.ne_of_mem_erase hm).symm]
  congr 1
  exact Finset.prod_congr rfl fun p hp => getD_set_ne (Finset.ne_of_mem_erase hp).symm

/-- **C172** (`unfold`): the unfolding of a product along mode `n` is the matrix product with the unfolding; hence `ttm` with one matrix
is `fold(A · unfold(X, n), n)`. -/
theorem C172_unfold [CommSemiring α] (X A : Tensor α) (n J : Nat) (hN : X.order ≤ 13) (hn : n < X.order) (hJ : 0 < J)
    (hpos : 0 < X.shape.getD n 0) (hA : A.shape = [J, X.shape.getD n 0]) :
    ∃ Y M P, ttm X [A] (some [n]) = .ok Y ∧ unfold X n = .ok M ∧ tf.matmul A M = .ok P ∧ unfold Y n = .ok P ∧
      fold P n (X.shape.set n J) = .ok Y := by
  obtain ⟨Y, hY, hYs, hYe⟩ := C10_ttm_single X A n J hN hn hA
  obtain ⟨M, hM, hMs, hMe⟩ := C01_unfold_entry X n hn hpos
  have hl : n < X.shape.length := hn
  have hYn : Y.shape.getD n 0 = J := by rw [hYs, getD_set_self hl]
  obtain ⟨P, hP, hPs, hPe⟩ := C01_unfold_entry Y n (by unfold Tensor.order; rw [hYs, List.length_set]; exact hl) (by rw [hYn]; exact hJ)
  rw [hYn, hYs, otherSize_set] at hPs
  refine ⟨Y, M, P, hY, hM, ?_, hP, by rw [← hYs]; exact C02_fold_unfold Y P n hP⟩
  rw [tf.matmul_nn hA hMs]
  congr 1
  refine ext_mat rfl hPs fun i hi j hj => ?_
  rw [at_mat _ hi hj]
  obtain ⟨idx, ⟨hin, hii, hij⟩, -⟩ := C01_unfold_bijective Y.shape n (by rw [hYs, List.length_set]; exact hl) i j (by rw [hYn]; exact hi)
    (by rw [hYs, otherSize_set]; exact hj)
  have h1 := (hPe idx hin).2.2
  rw [hii, hij] at h1
  rw [h1, hYe idx hin]
  refine Finset.sum_congr rfl fun k hk => ?_
  rw [Finset.mem_range] at hk
  have hidx : InB X.shape (idx.set n k) := by
    rw [hYs] at hin
    exact InB_set hin hk
  have h2 := (hMe _ hidx).2.2
  have hlen : n < idx.length := by rw [hin.length, hYs, List.length_set]; exact hl
  rw [getD_set_self hlen] at h2
  have h3 : koldaCol X.shape (idx.set n k) n = j := by
    rw [← hij, hYs, ← koldaCol_set X.shape (idx.set n k) n J (idx.getD n 0), List.set_set]
    congr 1
    rw [List.getD_eq_getElem _ _ hlen, List.set_getElem_self]
  rw [h3] at h2
  rw [h2, hii]

theorem freeAxes_one (N n : Nat) (hn : n < N) : freeAxes N [n] = (List.range N).eraseIdx n := by
  have h := List.Nodup.erase_getElem (List.nodup_range (n := N)) n (by simpa using hn)
  rw [List.getElem_range, List.nodup_range.erase_eq_filter] at h
  rw [← h]
  unfold freeAxes
  congr 1
  funext k
  by_cases hk : k = n <;> simp [hk]

theorem free_map (l : List Nat) (n : Nat) (hn : n < l.length) : ((freeAxes l.length [n]).map fun k => l.getD k 0) = l.eraseIdx n := by
  rw [freeAxes_one _ _ hn, ← List.eraseIdx_map, map_getD_range _ l.length rfl]

theorem place_one (idx : List Nat) (n k : Nat) (hn : n < idx.length) : place idx.length [n] [k] (idx.eraseIdx n) = idx.set n k := by
  refine List.ext_getElem (by simp [place]) fun m h1 h2 => ?_
  rw [List.length_set] at h2
  simp only [place, List.getElem_map, List.getElem_range, List.mem_singleton, List.getElem_set]
  by_cases hm : m = n
  · subst hm
    simp
  · rw [if_neg hm, if_neg (Ne.symm hm), ← free_map idx n hn]
    have hf : m ∈ freeAxes idx.length [n] := by simp [freeAxes, h2, hm]
    have hlt := List.idxOf_lt_length_of_mem hf
    rw [List.getD_eq_getElem _ _ (by rw [List.length_map]; exact hlt), List.getElem_map, List.getElem_idxOf,
      List.getD_eq_getElem _ _ h2]

/-- **C172** (`mul`): contracting mode `n` of `X` with the columns of `A` gives the same numbers, with the new mode moved to the end. -/
theorem C172_mul [CommSemiring α] (X A : Tensor α) (n J : Nat) (hN : X.order ≤ 13) (hn : n < X.order)
    (hA : A.shape = [J, X.shape.getD n 0]) :
    ∃ Y C, ttm X [A] (some [n]) = .ok Y ∧ mul X A (.int n) (.int 1) = .ok C ∧ C.shape = X.shape.eraseIdx n ++ [J] ∧
      ∀ idx, InB Y.shape idx → C.at_ (idx.eraseIdx n ++ [idx.getD n 0]) = Y.at_ idx := by
  obtain ⟨Y, hY, hYs, hYe⟩ := C10_ttm_single X A n J hN hn hA
  have hl : n < X.shape.length := hn
  have hAo : A.order = 2 := by unfold Tensor.order; rw [hA]; rfl
  obtain ⟨C, hC, hCs, hCe⟩ := C08_mul_entry X A [n] [1] (by simp) (by simpa using hn) (by simp) (by simp [hAo]) (by simp [hA])
  have hfA : (freeAxes A.order [1]).map (fun k => A.shape.getD k 0) = [J] := by rw [hAo, hA]; rfl
  have hfX : (freeAxes X.order [n]).map (fun k => X.shape.getD k 0) = X.shape.eraseIdx n := free_map X.shape n hl
  rw [hfA, hfX] at hCs hCe
  refine ⟨Y, C, hY, hC, hCs, fun idx hidx => ?_⟩
  rw [hYe idx hidx]
  rw [hYs] at hidx
  have hlen : idx.length = X.shape.length := by rw [hidx.length, List.length_set]
  have hin : InB (X.shape.eraseIdx n) (idx.eraseIdx n) := by
    rw [← free_map X.shape n hl, ← free_map idx n (by omega), hlen, InB_iff_getElem]
    refine ⟨by simp, fun m h1 h2 => ?_⟩
    simp only [List.getElem_map]
    have hm := List.getElem_mem (l := freeAxes X.shape.length [n]) (n := m) (by simpa using h1)
    generalize (freeAxes X.shape.length [n])[m]'(by simpa using h1) = p at hm ⊢
    simp only [freeAxes, List.mem_filter, List.mem_range, List.mem_singleton, decide_eq_true_eq] at hm
    have := (InB_iff_getElem.1 hidx).2 p (by omega) (by rw [List.length_set]; exact hm.1)
    rw [List.getElem_set_ne (Ne.symm hm.2)] at this
    rw [List.getD_eq_getElem _ _ (by omega), List.getD_eq_getElem _ _ hm.1]
    exact this
  have hjn : idx.getD n 0 < J := by
    have := (InB_iff_getElem.1 hidx).2 n (by omega) (by rw [List.length_set]; exact hl)
    rw [List.getElem_set_self] at this
    rw [List.getD_eq_getElem _ _ (by omega)]
    exact this
  rw [hCe _ [idx.getD n 0] hin (by simpa [InB] using hjn)]
  simp only [List.map_cons, List.map_nil, boxSum]
  refine Finset.sum_congr rfl fun k _ => ?_
  have e : X.order = idx.length := hlen.symm
  rw [e, place_one idx n k (by omega), hAo]
  have : place 2 [1] [k] [idx.getD n 0] = [idx.getD n 0, k] := rfl
  rw [this, mul_comm]

/-- A 2 x 3 x 2 tensor, mode 1 and a 4 x 3 matrix. -/
example : let X : Tensor Int := ofFn [2, 3, 2] fun i => (ravel [2, 3, 2] i : Int)
    let A : Tensor Int := mat 4 3 fun i j => (i + j : Int)
    X.order ≤ 13 ∧ 1 < X.order ∧ 0 < X.shape.getD 1 0 ∧ A.shape = [4, X.shape.getD 1 0] := by decide

end TD.Props
