import Verif.Model.Special

/-!
# `tensorD/loss.py` and the errors reported by the trainings, with overflow, infinities and NaN

The text of `Model/Loss.lean` and of `cp.scalars` on the numbers of `Model/Special.lean`.
-/
namespace TD.sp
open TD Tensor
variable {F : Fmt}

/-- A Python number entering an operation with a float tensor: the nearest number of the format (`loss.py:23`). -/
noncomputable def const (F : Fmt) (x : ℝ) : Num F := Num.round F x

open Classical in
/-- `tf.cast(tf.not_equal(A, 0), dtype)`; NaN is not equal to 0 (`loss.py:86-88`). -/
noncomputable def nonzero (A : Tensor (Num F)) : Tensor (Num F) := tf.map (fun x => if x ≠ 0 then 1 else 0) A

/-- `tf.reduce_sum(tf.square(t))` (`loss.py:55`). -/
noncomputable def sumSq (t : Tensor (Num F)) : Num F := tf.reduceSum (tf.map (fun x => x * x) t)

/-- `tf.norm(t)` (`cp.py:71`, `cp.py:105`). -/
noncomputable def norm (t : Tensor (Num F)) : Num F := (sumSq t).sqrt

/-- `loss.py:22-23` `l2`. -/
noncomputable def l2 (f h : Tensor (Num F)) : Res (Num F) := do
  let d ← tf.ewise (· - ·) f h
  return const F (1 / 2) * sumSq d

/-- `loss.py:51-55` `rmse`. -/
noncomputable def rmse (A B : Tensor (Num F)) : Res (Num F) :=
  if A.shape ≠ B.shape then .error .tensorErr
  else do
    let d ← tf.ewise (· - ·) A B
    return (sumSq d / const F (d.shape.prod : ℝ)).sqrt

/-- `loss.py:83-88` `rmse_ignore_zero`. -/
noncomputable def rmseIgnoreZero (A B : Tensor (Num F)) : Res (Num F) :=
  if A.shape ≠ B.shape then .error .tensorErr
  else do
    let B' ← tf.ewise (· * ·) B (nonzero A)
    let d ← tf.ewise (· - ·) A B'
    return (sumSq d / tf.reduceSum (nonzero A)).sqrt

/-- `0.5 * tf.square(tf.norm(full_op - input_data))` (`cp.py:107`; the same text at `tucker.py:173`, `ncp.py:134`,
`ntucker.py:160`). -/
noncomputable def objective (X full : Tensor (Num F)) : Res (Num F) := do
  let d ← tf.ewise (· - ·) full X
  return const F (1 / 2) * (norm d * norm d)

/-- `tf.norm(full_op - input_data) / tf.norm(input_data)` (`cp.py:105` with `input_norm` of line 71; the same text at
`tucker.py:171`, `ncp.py:132`, `ntucker.py:158`). -/
noncomputable def relResidual (X full : Tensor (Num F)) : Res (Num F) := do
  let d ← tf.ewise (· - ·) full X
  return norm d / norm X

end TD.sp
