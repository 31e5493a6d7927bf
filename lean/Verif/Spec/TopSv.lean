import Verif.Spec.ThinSvd

/-!
# Largest singular value; nonnegative tensors
-/
namespace TD.Spec
open Matrix TD

/-- `L` is the largest singular value of `M`. -/
def IsTopSv {m n : Nat} (M : Mat m n) (L : ℝ) : Prop :=
  ∃ s, SingularValues M s ∧ (∀ i, s i ≤ L) ∧ ∃ i, s i = L

/-- Contract of `tf.reduce_max(tf.svd(M, compute_uv=False))` on non-empty matrices (exact arithmetic). -/
def TopSvOk (topSv : Tensor ℝ → Res ℝ) : Prop :=
  ∀ (M : Tensor ℝ) (m n : Nat), M.shape = [m, n] → 0 < m → 0 < n →
    ∃ L, topSv M = .ok L ∧ IsTopSv (toMat M m n) L

/-- Every entry is nonnegative. -/
def Nonneg (t : Tensor ℝ) : Prop := ∀ x ∈ t.data, 0 ≤ x

end TD.Spec
