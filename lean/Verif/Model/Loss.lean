import Mathlib.Analysis.Real.Sqrt
import Verif.Model.TF

/-!
# `tensorD/loss.py`

Over the real numbers (exact arithmetic).  A floating point division by zero does not raise; its
non-finite result (NaN or infinity) is represented by `none`.
-/
namespace TD.loss
open TD Tensor

/-- Floating point division: `none` stands for a non-finite result (`loss.py:55`, `loss.py:88`). -/
noncomputable def fdiv (a b : ℝ) : Option ℝ := if b = 0 then none else some (a / b)

/-- `tf.sqrt` on such a value (its argument is never negative here) (`loss.py:55`, `loss.py:88`). -/
noncomputable def fsqrt (a : Option ℝ) : Option ℝ := a.map Real.sqrt

/-- `tf.cast(tf.not_equal(A, 0), dtype)` (`loss.py:86-88`). -/
noncomputable def nonzero (A : Tensor ℝ) : Tensor ℝ := tf.map (fun x => if x ≠ 0 then 1 else 0) A

/-- `loss.py:22-23` `l2` (the operands broadcast like any TensorFlow operands). -/
noncomputable def l2 (f h : Tensor ℝ) : Res ℝ := do
  let d ← tf.ewise (· - ·) f h
  return (1 / 2) * tf.reduceSum (tf.map (fun x => x ^ 2) d)

/-- `loss.py:51-55` `rmse`. -/
noncomputable def rmse (A B : Tensor ℝ) : Res (Option ℝ) :=
  if A.shape ≠ B.shape then .error .tensorErr
  else do
    let d ← tf.ewise (· - ·) A B
    return fsqrt (fdiv (tf.reduceSum (tf.map (fun x => x ^ 2) d)) (d.shape.prod : ℝ))

/-- `loss.py:83-88` `rmse_ignore_zero`. -/
noncomputable def rmseIgnoreZero (A B : Tensor ℝ) : Res (Option ℝ) :=
  if A.shape ≠ B.shape then .error .tensorErr
  else do
    let B' ← tf.ewise (· * ·) B (nonzero A)
    let d ← tf.ewise (· - ·) A B'
    return fsqrt (fdiv (tf.reduceSum (tf.map (fun x => x ^ 2) d)) (tf.reduceSum (nonzero A)))

end TD.loss
