import Mathlib.Algebra.Ring.Int.Defs
import Verif.Props.Unfold
import Verif.Model.Type

/-!
# Recorded outputs

Tests of the model, not proofs of properties: the outputs printed in the project's documentation
(`docs/source/guide_basic_ops.rst`) and the assertions on literals of its test suite (`tensorD/base/test/ops_test.py`), each
computed by the model and compared by the kernel.  They are evidence that the model computes what the code computed.
-/
namespace TD.Recorded
open TD Tensor

/-- `A` of the Hadamard section (`guide_basic_ops.rst:56`, `guide_basic_ops.rst:68`). -/
def A33 : Tensor ℤ := ⟨[3, 3], [1, 4, 7, 2, 5, 8, 3, 6, 9], by decide⟩

/-- `B` of the Hadamard section (`guide_basic_ops.rst:57`, `guide_basic_ops.rst:69`). -/
def B33 : Tensor ℤ := ⟨[3, 3], [2, 3, 4, 2, 3, 4, 2, 3, 4], by decide⟩

/-- `guide_basic_ops.rst:56-62`: `A*B` of `DTensor`s. -/
example : (((DTensor.init A33).hmul (.dtensor (DTensor.init B33))).map DTensor.T) = .ok ⟨[3, 3], [2, 12, 28, 4, 15, 32, 6, 18, 36], by decide⟩ := by decide +kernel

/-- `guide_basic_ops.rst:68-73`: `ops.hadamard([A,B])`. -/
example : ops.hadamard [A33, B33] = .ok ⟨[3, 3], [2, 12, 28, 4, 15, 32, 6, 18, 36], by decide⟩ := by decide +kernel

/-- `A` of the Kronecker and Khatri-Rao sections (`guide_basic_ops.rst:110`, `guide_basic_ops.rst:211`). -/
def A34 : Tensor ℤ := ⟨[3, 4], [1, 2, 3, 4, 5, 6, 7, 8, 9, 10, 11, 12], by decide⟩

/-- `B` of the Kronecker section (`guide_basic_ops.rst:111`). -/
def B25 : Tensor ℤ := ⟨[2, 5], [1, 1, 1, 1, 1, 2, 2, 2, 2, 2], by decide⟩

/-- `B` of the Khatri-Rao section (`guide_basic_ops.rst:212`). -/
def B24 : Tensor ℤ := ⟨[2, 4], [1, 1, 1, 1, 2, 2, 2, 2], by decide⟩

/-- `ops.kron([A, B])` (`guide_basic_ops.rst:112-119`). -/
example : ops.kron [A34, B25] = .ok ⟨[6, 20], [1, 1, 1, 1, 1, 2, 2, 2, 2, 2, 3, 3, 3, 3, 3, 4, 4, 4, 4, 4, 2, 2, 2, 2, 2, 4, 4, 4, 4, 4, 6, 6, 6, 6, 6, 8, 8, 8, 8, 8, 5, 5, 5, 5, 5, 6, 6, 6, 6, 6, 7, 7, 7, 7, 7, 8, 8, 8, 8, 8, 10, 10, 10, 10, 10, 12, 12, 12, 12, 12, 14, 14, 14, 14, 14, 16, 16, 16, 16, 16, 9, 9, 9, 9, 9, 10, 10, 10, 10, 10, 11, 11, 11, 11, 11, 12, 12, 12, 12, 12, 18, 18, 18, 18, 18, 20, 20, 20, 20, 20, 22, 22, 22, 22, 22, 24, 24, 24, 24, 24], by decide⟩ := by decide +kernel

/-- `ops.kron([A, B], reverse=True)` (`guide_basic_ops.rst:125-132`). -/
example : ops.kron [A34, B25] .none true = .ok ⟨[6, 20], [1, 2, 3, 4, 1, 2, 3, 4, 1, 2, 3, 4, 1, 2, 3, 4, 1, 2, 3, 4, 5, 6, 7, 8, 5, 6, 7, 8, 5, 6, 7, 8, 5, 6, 7, 8, 5, 6, 7, 8, 9, 10, 11, 12, 9, 10, 11, 12, 9, 10, 11, 12, 9, 10, 11, 12, 9, 10, 11, 12, 2, 4, 6, 8, 2, 4, 6, 8, 2, 4, 6, 8, 2, 4, 6, 8, 2, 4, 6, 8, 10, 12, 14, 16, 10, 12, 14, 16, 10, 12, 14, 16, 10, 12, 14, 16, 10, 12, 14, 16, 18, 20, 22, 24, 18, 20, 22, 24, 18, 20, 22, 24, 18, 20, 22, 24, 18, 20, 22, 24], by decide⟩ := by decide +kernel

/-- `A.kron(dtensor_B)` (`guide_basic_ops.rst:152-159`). -/
example : (((DTensor.init A34).kron (.dtensor (DTensor.init B25))).map DTensor.T) = .ok ⟨[6, 20], [1, 1, 1, 1, 1, 2, 2, 2, 2, 2, 3, 3, 3, 3, 3, 4, 4, 4, 4, 4, 2, 2, 2, 2, 2, 4, 4, 4, 4, 4, 6, 6, 6, 6, 6, 8, 8, 8, 8, 8, 5, 5, 5, 5, 5, 6, 6, 6, 6, 6, 7, 7, 7, 7, 7, 8, 8, 8, 8, 8, 10, 10, 10, 10, 10, 12, 12, 12, 12, 12, 14, 14, 14, 14, 14, 16, 16, 16, 16, 16, 9, 9, 9, 9, 9, 10, 10, 10, 10, 10, 11, 11, 11, 11, 11, 12, 12, 12, 12, 12, 18, 18, 18, 18, 18, 20, 20, 20, 20, 20, 22, 22, 22, 22, 22, 24, 24, 24, 24, 24], by decide⟩ := by decide +kernel

/-- `A.kron(tf_B)` (`guide_basic_ops.rst:165-172`). -/
example : (((DTensor.init A34).kron (.raw B25)).map DTensor.T) = .ok ⟨[6, 20], [1, 1, 1, 1, 1, 2, 2, 2, 2, 2, 3, 3, 3, 3, 3, 4, 4, 4, 4, 4, 2, 2, 2, 2, 2, 4, 4, 4, 4, 4, 6, 6, 6, 6, 6, 8, 8, 8, 8, 8, 5, 5, 5, 5, 5, 6, 6, 6, 6, 6, 7, 7, 7, 7, 7, 8, 8, 8, 8, 8, 10, 10, 10, 10, 10, 12, 12, 12, 12, 12, 14, 14, 14, 14, 14, 16, 16, 16, 16, 16, 9, 9, 9, 9, 9, 10, 10, 10, 10, 10, 11, 11, 11, 11, 11, 12, 12, 12, 12, 12, 18, 18, 18, 18, 18, 20, 20, 20, 20, 20, 22, 22, 22, 22, 22, 24, 24, 24, 24, 24], by decide⟩ := by decide +kernel

/-- `ops.khatri([A, B])` (`guide_basic_ops.rst:213-220`). -/
example : ops.khatri [A34, B24] = .ok ⟨[6, 4], [1, 2, 3, 4, 2, 4, 6, 8, 5, 6, 7, 8, 10, 12, 14, 16, 9, 10, 11, 12, 18, 20, 22, 24], by decide⟩ := by decide +kernel

/-- `A.khatri(B)` of a `DTensor` (`guide_basic_ops.rst:244-253`). -/
example : (((DTensor.init A34).khatri (.raw B24)).map DTensor.T) = .ok ⟨[6, 4], [1, 2, 3, 4, 2, 4, 6, 8, 5, 6, 7, 8, 10, 12, 14, 16, 9, 10, 11, 12, 18, 20, 22, 24], by decide⟩ := by decide +kernel

/-- `X` of the addition section (`guide_basic_ops.rst:267`). -/
def X223 : Tensor ℤ := ⟨[2, 2, 3], [1, 2, 3, 4, 5, 6, 7, 8, 9, 10, 11, 12], by decide⟩

/-- `Y` and `Z` of the addition section (`guide_basic_ops.rst:268`). -/
def Y223 : Tensor ℤ := ⟨[2, 2, 3], [-1, -2, -3, -4, -5, -6, -7, -8, -9, -10, -11, -12], by decide⟩

/-- `X + Y` (`guide_basic_ops.rst:269-275`). -/
example : (((DTensor.init X223).add (.dtensor (DTensor.init Y223))).map DTensor.T) = .ok ⟨[2, 2, 3], [0, 0, 0, 0, 0, 0, 0, 0, 0, 0, 0, 0], by decide⟩ := by decide +kernel

/-- `X - Y` (`guide_basic_ops.rst:270-281`). -/
example : (((DTensor.init X223).sub (.dtensor (DTensor.init Y223))).map DTensor.T) = .ok ⟨[2, 2, 3], [2, 4, 6, 8, 10, 12, 14, 16, 18, 20, 22, 24], by decide⟩ := by decide +kernel

/-- `X + Z` (`guide_basic_ops.rst:290-297`). -/
example : (((DTensor.init X223).add (.raw Y223)).map DTensor.T) = .ok ⟨[2, 2, 3], [0, 0, 0, 0, 0, 0, 0, 0, 0, 0, 0, 0], by decide⟩ := by decide +kernel

/-- `X - Z` (`guide_basic_ops.rst:291-303`). -/
example : (((DTensor.init X223).sub (.raw Y223)).map DTensor.T) = .ok ⟨[2, 2, 3], [2, 4, 6, 8, 10, 12, 14, 16, 18, 20, 22, 24], by decide⟩ := by decide +kernel

/-- `X` of the inner product and vectorization sections (`guide_basic_ops.rst:350`). -/
def X332 : Tensor ℤ := ⟨[3, 3, 2], [1, 10, 4, 13, 7, 16, 2, 11, 5, 14, 8, 17, 3, 12, 6, 15, 9, 18], by decide⟩

/-- `Y` of the inner product section (`guide_basic_ops.rst:351`). -/
def Y332 : Tensor ℤ := ⟨[3, 3, 2], [1, 1, 1, 1, 1, 1, 1, 1, 1, 1, 1, 1, 1, 1, 1, 1, 1, 1], by decide⟩

/-- `ops.inner(X, Y)` prints 171 (`guide_basic_ops.rst:357-358`). -/
example : ops.inner X332 Y332 = .ok 171 := by decide +kernel

/-- `ops.vectorize(X)` (`guide_basic_ops.rst:377-379`). -/
example : ops.vectorize X332 = .ok ⟨[18], [1, 10, 4, 13, 7, 16, 2, 11, 5, 14, 8, 17, 3, 12, 6, 15, 9, 18], by decide⟩ := by decide +kernel

/-- `ops.vec_to_tensor(vec,(3,3,2))` (`guide_basic_ops.rst:385-395`). -/
example : ops.vecToTensor (⟨[18], [1, 10, 4, 13, 7, 16, 2, 11, 5, 14, 8, 17, 3, 12, 6, 15, 9, 18], by decide⟩ : Tensor ℤ) [3, 3, 2] = .ok X332 := by decide +kernel

/-- `X` of the unfolding, matricization and n-mode sections, and `np_x` of `ops_test.py:17-22`. -/
def X342 : Tensor ℤ := ⟨[3, 4, 2], [1, 13, 4, 16, 7, 19, 10, 22, 2, 14, 5, 17, 8, 20, 11, 23, 3, 15, 6, 18, 9, 21, 12, 24], by decide⟩

/-- `ops.unfold(X, 0)` (`guide_basic_ops.rst:430`). -/
example : ops.unfold X342 0 = .ok ⟨[3, 8], [1, 4, 7, 10, 13, 16, 19, 22, 2, 5, 8, 11, 14, 17, 20, 23, 3, 6, 9, 12, 15, 18, 21, 24], by decide⟩ := by decide +kernel

/-- `ops.unfold(X, 1)` (`guide_basic_ops.rst:439`). -/
example : ops.unfold X342 1 = .ok ⟨[4, 6], [1, 2, 3, 13, 14, 15, 4, 5, 6, 16, 17, 18, 7, 8, 9, 19, 20, 21, 10, 11, 12, 22, 23, 24], by decide⟩ := by decide +kernel

/-- `ops.unfold(X, 2)` (`guide_basic_ops.rst:449`). -/
example : ops.unfold X342 2 = .ok ⟨[2, 12], [1, 2, 3, 4, 5, 6, 7, 8, 9, 10, 11, 12, 13, 14, 15, 16, 17, 18, 19, 20, 21, 22, 23, 24], by decide⟩ := by decide +kernel

/-- `X.unfold(mode=0)` of a `DTensor` (`guide_basic_ops.rst:457-461`). -/
example : (((DTensor.init X342).unfold 0).map fun p => p.2.T) = .ok ⟨[3, 8], [1, 4, 7, 10, 13, 16, 19, 22, 2, 5, 8, 11, 14, 17, 20, 23, 3, 6, 9, 12, 15, 18, 21, 24], by decide⟩ := by decide +kernel

/-- `ops.t2mat(X, [1,0], 2)` (`guide_basic_ops.rst:496-511`). -/
example : ops.t2mat X342 (.list [1, 0]) (.ax (.int 2)) = .ok ⟨[12, 2], [1, 13, 2, 14, 3, 15, 4, 16, 5, 17, 6, 18, 7, 19, 8, 20, 9, 21, 10, 22, 11, 23, 12, 24], by decide⟩ := by decide +kernel

/-- `X.t2mat([1,0], 2)` of a `DTensor` (`guide_basic_ops.rst:531-545`). -/
example : (((DTensor.init X342).t2mat (.list [1, 0]) (.ax (.int 2))).map DTensor.T) = .ok ⟨[12, 2], [1, 13, 2, 14, 3, 15, 4, 16, 5, 17, 6, 18, 7, 19, 8, 20, 9, 21, 10, 22, 11, 23, 12, 24], by decide⟩ := by decide +kernel

/-- "Kolda-type mode-2 unfolding": `ops.t2mat(X, 1, [2,0])` is `ops.unfold(X, 1)` (`guide_basic_ops.rst:519`). -/
example : ops.t2mat X342 (.int 1) (.ax (.list [2, 0])) = ops.unfold X342 1 := by decide +kernel

/-- `A` of the n-mode section (`guide_basic_ops.rst:590`). -/
def A23 : Tensor ℤ := ⟨[2, 3], [1, 3, 5, 2, 4, 6], by decide⟩

/-- `ops.ttm(X,[A],[0])`, given by its two frontal slices (`guide_basic_ops.rst:612-618`). -/
example : ops.ttm X342 [A23] (some [0]) = .ok ⟨[2, 4, 2], [22, 130, 49, 157, 76, 184, 103, 211, 28, 172, 64, 208, 100, 244, 136, 280], by decide⟩ := by decide +kernel

/-! ### Assertions of the repository's tests without random data -/

/-- `ops_test.py:26-28`. -/
example : ops.genPerm 4 2 = .ok [2, 3, 1, 0] := by decide +kernel

/-- `ops_test.py:30-32`. -/
example : ops.genPerm 1 0 = .ok [0] := by decide +kernel

/-- `ops_test.py:35-37`: `ValueError`. -/
example : ops.genPerm 0 0 = .error .valueError := by decide +kernel

/-- `ops_test.py:40-44`: `np.reshape(np.transpose(np_x, [1, 2, 0]), [4, 6])`. -/
example : ops.unfold X342 1 = (tf.transpose X342 [1, 2, 0]).bind fun t => tf.reshape t [4, 6] := by decide +kernel

/-- `ops_test.py:67-73`: folding `np.reshape(np.transpose(np_x, [2, 1, 0]), [2, 12])` gives `np_x` back.  (The kernel does not
evaluate the sort of `fold` by itself.) -/
example : ((tf.transpose X342 [2, 1, 0]).bind fun t => (tf.reshape t [2, 12]).bind fun m => ops.fold m 2 [3, 4, 2])
    = .ok X342 := by
  have h : ((tf.transpose X342 [2, 1, 0]).bind fun t => tf.reshape t [2, 12]) = ops.unfold X342 2 := by decide +kernel
  obtain ⟨M, hM⟩ : ∃ M, ops.unfold X342 2 = .ok M := ⟨_, rfl⟩
  rw [hM] at h
  cases ht : tf.transpose X342 [2, 1, 0] with
  | error e => rw [ht] at h; simp [Except.bind] at h
  | ok t =>
    rw [ht] at h
    simp only [Except.bind] at h ⊢
    rw [h]
    exact Props.C02_fold_unfold X342 M 2 hM

/-- `ops_test.py:122-127`: `vectorize`. -/
example : ops.vectorize X342 = tf.reshape X342 [-1] := by decide +kernel

/-- `ops_test.py:134-139`: `vec_to_tensor`. -/
example : ((tf.reshape X342 [-1]).bind fun v => ops.vecToTensor v [3, 4, 2]) = .ok X342 := by decide +kernel

end TD.Recorded
