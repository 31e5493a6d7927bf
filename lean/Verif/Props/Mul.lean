import Mathlib.Algebra.Ring.Int.Defs
import Verif.Props.T2mat

/-!
# C06, C08, C09 : `mul`
-/
namespace TD.Props
open TD Tensor Spec ops
variable {α : Type} [NonUnitalNonAssocSemiring α]

/-- **C08** (contraction formula). -/
theorem C08_mul_entry (A B : Tensor α) (a b : List Nat)
    (ha : a.Nodup) (ha' : ∀ i ∈ a, i < A.order) (hb : b.Nodup) (hb' : ∀ i ∈ b, i < B.order)
    (hd : (a.map fun k => A.shape.getD k 0) = b.map fun k => B.shape.getD k 0) :
    ∃ C, mul A B (.list a) (.list b) = .ok C ∧
      C.shape = ((freeAxes A.order a).map fun k => A.shape.getD k 0) ++
        ((freeAxes B.order b).map fun k => B.shape.getD k 0) ∧
      ∀ fa fb, InB ((freeAxes A.order a).map fun k => A.shape.getD k 0) fa →
        InB ((freeAxes B.order b).map fun k => B.shape.getD k 0) fb →
        C.at_ (fa ++ fb) = boxSum (a.map fun k => A.shape.getD k 0) fun c =>
          A.at_ (place A.order a c fa) * B.at_ (place B.order b c fb) := by
  obtain ⟨C, hC, hs, he⟩ := (mul_list_spec A B ha ha' hb hb').2 (by unfold axesSize; rw [hd])
  refine ⟨C, hC, hs, fun fa fb hfa hfb => ?_⟩
  rw [he fa fb hfa hfb, boxSum_eq_sum_range, ← hd]
  rfl

/-- The example of the docstring (`ops.py:235-238`): `2x3x4x5x6` with `1x2x3x5x7`, axes `[0,1,3]` and
`[1,2,3]`. -/
example : ([0, 1, 3].map fun k => [2, 3, 4, 5, 6].getD k 0) = [1, 2, 3].map (fun k => [1, 2, 3, 5, 7].getD k 0) ∧
    freeAxes 5 [0, 1, 3] = [2, 4] ∧ freeAxes 5 [1, 2, 3] = [0, 4] ∧
    place 5 [0, 1, 3] [9, 8, 7] [5, 6] = [9, 8, 5, 7, 6] := by decide

/-- **C08** (matrices): `mul(A, B, 1, 0)` is the matrix product `AB`. -/
theorem C08_mul_matrices (A B : Tensor α) (m k n : Nat) (hA : A.shape = [m, k]) (hB : B.shape = [k, n]) :
    ∃ C, mul A B (.int 1) (.int 0) = .ok C ∧ C.shape = [m, n] ∧
      ∀ i < m, ∀ j < n, C.at_ [i, j] = ∑ l ∈ Finset.range k, A.at_ [i, l] * B.at_ [l, j] := by
  have hAo : A.order = 2 := by simp [order, hA]
  have hBo : B.order = 2 := by simp [order, hB]
  obtain ⟨C, hC, hs, he⟩ := C08_mul_entry A B [1] [0] (by simp) (by simp [hAo]) (by simp) (by simp [hBo])
    (by simp [hA, hB])
  have hfA : freeAxes 2 [1] = [0] := by decide
  have hfB : freeAxes 2 [0] = [1] := by decide
  simp only [hAo, hBo, hfA, hfB, hA, hB] at hs he
  refine ⟨C, hC, hs, fun i hi j hj => ?_⟩
  have := he [i] [j] (by simpa using hi) (by simpa using hj)
  simp only [List.singleton_append] at this
  rw [this]
  simp only [List.map_cons, List.map_nil, boxSum]
  rfl

/-- **C06** (partial): an int axis means the same as the one-element list.
Missing: tuples, for which the claim is false. -/
theorem C06_int_axis_partial (A B : Tensor α) (i j : Nat) (b : Axis) :
    mul A B (.int i) b = mul A B (.list [i]) b ∧ mul A B b (.int j) = mul A B b (.list [j]) := by
  constructor <;> rfl

/-- **C06** is false of the code: a tuple axis (of valid axes) raises `TypeError` for *every* pair of
tensors, although documented (`ops.py:221-224`). -/
theorem C06_tuple_axis_raises_false (A B : Tensor α) (a : List Nat) (b : Axis)
    (ha : ∀ i ∈ a, i < A.order) : mul A B (.tuple a) b = .error .typeError := by
  have : t2mat A (.tuple a) .rest = .error .typeError := by
    unfold t2mat t2matSt
    dsimp only
    rw [dimsAt_ok ha]
  unfold mul
  simp only [normAxis, this]
  rfl

/-- **C06** is false of the code for the second tensor as well. -/
theorem C06_tuple_second_axis_raises_false (A B : Tensor α) (a b : List Nat) (ha : a.Nodup)
    (ha' : ∀ i ∈ a, i < A.order) (hb : ∀ i ∈ b, i < B.order) :
    mul A B (.list a) (.tuple b) = .error .typeError := by
  have h2 : t2mat B (.tuple b) .rest = .error .typeError := by
    unfold t2mat t2matSt
    dsimp only
    rw [dimsAt_ok hb]
  obtain ⟨M, hM, -⟩ := t2mat_rest_spec A ha ha'
  unfold mul
  simp only [normAxis, hM, h2]
  rfl

example : ∃ A B : Tensor Int, (∃ C, mul A B (.list [0]) (.list [0]) = .ok C) ∧
    mul A B (.tuple [0]) (.tuple [0]) = .error .typeError := by
  refine ⟨mat 2 3 fun i j => i + j, mat 2 2 fun i j => i * j, ?_, ?_⟩
  · obtain ⟨C, hC, -⟩ := C08_mul_entry (mat 2 3 fun i j => (i + j : Int)) (mat 2 2 fun i j => (i * j : Int))
      [0] [0] (by simp) (by simp [order]) (by simp) (by simp [order]) (by simp)
    exact ⟨C, hC⟩
  · exact C06_tuple_axis_raises_false _ _ _ _ (by simp [order])

/-- **C09** (partial): with valid distinct axes, `mul` succeeds exactly when the *products* of the
contracted dimensions agree.  So it rejects every mismatch that changes the product.
Missing: mismatches with equal products, see `C09_mismatch_accepted_false`. -/
theorem C09_mul_accepts_iff_partial (A B : Tensor α) (a b : List Nat)
    (ha : a.Nodup) (ha' : ∀ i ∈ a, i < A.order) (hb : b.Nodup) (hb' : ∀ i ∈ b, i < B.order) :
    (∃ C, mul A B (.list a) (.list b) = .ok C) ↔ axesSize A.shape a = axesSize B.shape b := by
  obtain ⟨h1, h2⟩ := mul_list_spec A B ha ha' hb hb'
  constructor
  · rintro ⟨C, hC⟩
    by_contra h
    rw [h1 h] at hC; cases hC
  · intro h
    obtain ⟨C, hC, -⟩ := h2 h
    exact ⟨C, hC⟩

/-- **C09** is false of the code: contracting both axes of a `2x3` with both axes of a `3x2` tensor, and
contracting one axis of length 6 with two axes `2,3`, are accepted. -/
theorem C09_mismatch_accepted_false (A B D : Tensor α) (hA : A.shape = [2, 3]) (hB : B.shape = [3, 2])
    (hD : D.shape = [6]) :
    (∃ C, mul A B (.list [0, 1]) (.list [0, 1]) = .ok C) ∧
    (∃ C, mul A D (.list [0, 1]) (.list [0]) = .ok C) := by
  have hAo : A.order = 2 := by simp [order, hA]
  have hBo : B.order = 2 := by simp [order, hB]
  have hDo : D.order = 1 := by simp [order, hD]
  constructor
  · exact (C09_mul_accepts_iff_partial A B [0, 1] [0, 1] (by simp) (by simp [hAo]) (by simp) (by simp [hBo])).2
      (by simp [axesSize, hA, hB])
  · exact (C09_mul_accepts_iff_partial A D [0, 1] [0] (by simp) (by simp [hAo]) (by simp) (by simp [hDo])).2
      (by simp [axesSize, hA, hD])

example : (mat 2 3 fun i j => ((i + j : Nat) : Int)).shape = [2, 3] ∧
    (Tensor.ofFn [6] (fun i => (ravel [6] i : Int))).shape = [6] := by decide

end TD.Props
