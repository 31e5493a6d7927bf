import Mathlib.Analysis.Real.Sqrt
import Verif.Model.Float

/-!
# `tensorD/loss.py` and the errors reported by the trainings, in rounded arithmetic

The text of `Model/Loss.lean` and of `cp.scalars` with every operation rounded (`Model/Float.lean`): differences, squares, the
steps of the sums, divisions and square roots.  Divisions by zero are `none`.
-/
namespace TD.fl
open TD Tensor
variable {S : Arith}

/-- A division is rounded once; `none` stands for a non-finite result (`loss.py:55`, `loss.py:88`). -/
noncomputable def fdiv (x y : Fl S) : Option (Fl S) := if y.val = 0 then none else some ⟨S.rnd (x.val / y.val), S.rnd_rnd _⟩

/-- `tf.sqrt` is rounded once (its argument is never negative here) (`loss.py:55`, `loss.py:88`). -/
noncomputable def fsqrt (x : Fl S) : Fl S := ⟨S.rnd (Real.sqrt x.val), S.rnd_rnd _⟩

/-- A Python number entering an operation with a float tensor: the nearest number of the format (`loss.py:23`). -/
noncomputable def const (S : Arith) (x : ℝ) : Fl S := ⟨S.rnd x, S.rnd_rnd _⟩

/-- `tf.cast(tf.not_equal(A, 0), dtype)` (`loss.py:86-88`). -/
noncomputable def nonzero (A : Tensor (Fl S)) : Tensor (Fl S) := tf.map (fun x => if x.val ≠ 0 then 1 else 0) A

/-- `tf.reduce_sum(tf.square(t))` (`loss.py:55`). -/
noncomputable def sumSq (t : Tensor (Fl S)) : Fl S := tf.reduceSum (tf.map (fun x => x * x) t)

/-- `tf.norm(t)` (`cp.py:71`, `cp.py:105`). -/
noncomputable def norm (t : Tensor (Fl S)) : Fl S := fsqrt (sumSq t)

/-- `loss.py:22-23` `l2`. -/
noncomputable def l2 (f h : Tensor (Fl S)) : Res (Fl S) := do
  let d ← tf.ewise (· - ·) f h
  return const S (1 / 2) * sumSq d

/-- `loss.py:51-55` `rmse`. -/
noncomputable def rmse (A B : Tensor (Fl S)) : Res (Option (Fl S)) :=
  if A.shape ≠ B.shape then .error .tensorErr
  else do
    let d ← tf.ewise (· - ·) A B
    return (fdiv (sumSq d) (const S (d.shape.prod : ℝ))).map fsqrt

/-- `loss.py:83-88` `rmse_ignore_zero`. -/
noncomputable def rmseIgnoreZero (A B : Tensor (Fl S)) : Res (Option (Fl S)) :=
  if A.shape ≠ B.shape then .error .tensorErr
  else do
    let B' ← tf.ewise (· * ·) B (nonzero A)
    let d ← tf.ewise (· - ·) A B'
    return (fdiv (sumSq d) (tf.reduceSum (nonzero A))).map fsqrt

/-- `0.5 * tf.square(tf.norm(full_op - input_data))` (`cp.py:107`; the same text at `tucker.py:173`, `ncp.py:134`,
`ntucker.py:160`). -/
noncomputable def objective (X full : Tensor (Fl S)) : Res (Fl S) := do
  let d ← tf.ewise (· - ·) full X
  return const S (1 / 2) * (norm d * norm d)

/-- `tf.norm(full_op - input_data) / tf.norm(input_data)` (`cp.py:105` with `input_norm` of line 71; the same text at
`tucker.py:171`, `ncp.py:132`, `ntucker.py:158`). -/
noncomputable def relResidual (X full : Tensor (Fl S)) : Res (Option (Fl S)) := do
  let d ← tf.ewise (· - ·) full X
  return fdiv (norm d) (norm X)

end TD.fl
