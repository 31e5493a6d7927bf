import Verif.Spec.Fit
import Verif.Model.Loss

/-!
# Specification: alternating least squares with one component

`v k a` is entry `a` of the vector of mode `k`.  The method fits the vectors one after the other, mode 0 first, each to the
data while the vectors of the other modes are held.
-/
namespace TD.Spec
open TD

/-- `∏_{k ≠ n} v_k[i_k]`: the outer product of the vectors of the modes other than `n`. -/
def restEntry (N : Nat) (v : Nat → Nat → ℝ) (n : Nat) (i : List Nat) : ℝ :=
  ∏ k ∈ (Finset.range N).erase n, v k (i.getD k 0)

/-- `∏_k v_k[i_k]`: entry `i` of the outer product of all the vectors. -/
def outerEntry (N : Nat) (v : Nat → Nat → ℝ) (i : List Nat) : ℝ := ∏ k ∈ Finset.range N, v k (i.getD k 0)

/-- Sum of `f i` over the entries whose index in mode `n` is `a`. -/
noncomputable def sliceSum (shape : List Nat) (n a : Nat) (f : List Nat → ℝ) : ℝ :=
  boxSum shape fun i => if i.getD n 0 = a then f i else 0

/-- The vector of mode `n` that fits `X` best when the other vectors are held: in every slice, the coefficient of the
regression of the data on the outer product of the other vectors. -/
noncomputable def bestVec (X : Tensor ℝ) (v : Nat → Nat → ℝ) (n a : Nat) : ℝ :=
  sliceSum X.shape n a (fun i => X.at_ i * restEntry X.order v n i) /
    sliceSum X.shape n a (fun i => restEntry X.order v n i ^ 2)

/-- One fit: the vector of mode `n` is replaced. -/
noncomputable def refit (X : Tensor ℝ) (v : Nat → Nat → ℝ) (n : Nat) : Nat → Nat → ℝ :=
  Function.update v n (bestVec X v n)

/-- One step: every mode once, in order. -/
noncomputable def refitAll (X : Tensor ℝ) (v : Nat → Nat → ℝ) : Nat → Nat → ℝ := (List.range X.order).foldl (refit X) v

/-- What the method returns after `j` steps from `v`. -/
noncomputable def alsOne (X : Tensor ℝ) (v : Nat → Nat → ℝ) (j : Nat) : Tensor ℝ :=
  Tensor.ofFn X.shape (outerEntry X.order ((refitAll X)^[j] v))

/-- The first column of every factor. -/
def firstCol (A : List (Tensor ℝ)) (k a : Nat) : ℝ := ((A[k]?).map fun M => M.at_ [a, 0]).getD 0

/-- `p` is what a training reports about the reconstruction `Y`: the value of the loss function and the relative
residual. -/
def EntryOf (X Y : Tensor ℝ) (p : ℝ × ℝ) : Prop :=
  loss.rmseIgnoreZero X Y = .ok (some p.1) ∧ p.2 = Real.sqrt (distSqT X Y) / Real.sqrt (normSqT X)

end TD.Spec
