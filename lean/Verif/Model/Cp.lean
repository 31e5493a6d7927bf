import Mathlib.Algebra.Field.Defs
import Mathlib.Order.Defs.LinearOrder
import Verif.Model.Type
import Verif.Model.Loss
import Verif.Model.Train

/-!
# The graph built by `CP_ALS.build_model` (`factorization/cp.py:67-121`)

Sequential (mode by mode) semantics; `Props/Schedule.lean` shows that every execution order of the graph agrees
with it.  `numpy.linalg.pinv` is an argument.
-/
namespace TD.tf
open TD Tensor
variable {α : Type}

/-- `tf.reduce_max(t, axis=0)` of a matrix.  The maximum of an empty column is `-inf` (`cp.py:96`). -/
def reduceMax0 [Zero α] [LinearOrder α] (t : Tensor α) : Res (Tensor α) :=
  match t.shape with
  | [m, n] =>
      match m with
      | 0 => .error .nonFinite
      | m + 1 => .ok (ofFn [n] fun idx =>
          (List.range m).foldl (fun acc i => max acc (t.at_ [i + 1, idx.getD 0 0])) (t.at_ [0, idx.getD 0 0]))
  | _ => .error .invalidArgument

/-- `tf.div(a, b)` on floats with broadcasting; a zero divisor gives an infinity or NaN (`cp.py:97`). -/
def div [Zero α] [Div α] [DecidableEq α] (a b : Tensor α) : Res (Tensor α) :=
  if (0 : α) ∈ b.data then .error .nonFinite else ewise (· / ·) a b

/-- `variable.assign(value)`: the shape of a variable is fixed (`cp.py:97`). -/
def assign (vars : List (Tensor α)) (k : Nat) (v : Tensor α) : Res (List (Tensor α)) :=
  match vars[k]? with
  | none => .error .indexError
  | some old => if v.shape = old.shape then .ok (vars.set k v) else .error .invalidArgument

/-- `tf.norm(t)` (`cp.py:71`, `cp.py:105`). -/
noncomputable def norm (t : Tensor ℝ) : ℝ := Real.sqrt (reduceSum (map (fun x => x ^ 2) t))

end TD.tf

namespace TD.cp
open TD Tensor
variable {α : Type}

/-- What one pass of the loop `cp.py:82-97` computes: the factors after `assign_op[mode]`, the weights
`lambda_op` and `non_norm_A`. -/
structure Upd (α : Type) where
  A : List (Tensor α)
  lam : Tensor α
  nonNorm : Tensor α

/-- `cp.py:82-97` for one `mode`; `A` are the current values of the variables. -/
def modeUpdate [Field α] [LinearOrder α] (pinv : Tensor α → Res (Tensor α)) (X : Tensor α) (rank : Nat)
    (A : List (Tensor α)) (mode : Nat) : Res (Upd α) := do
  let mat ← ops.unfold X mode
  let AtA ← A.mapM fun a => tf.matmul a a true false
  let K ← ops.khatri A (.int mode) true
  let XA ← tf.matmul mat K
  let V ← ops.hadamard AtA (.int mode)
  let P ← pinv V
  let nonNorm ← tf.matmul XA P
  let N ← tf.reshape nonNorm [(X.shape.getD mode 0 : Nat), (rank : Nat)]
  let lam ← tf.reduceMax0 N
  let A' ← tf.div nonNorm lam
  let A ← tf.assign A mode A'
  return ⟨A, lam, nonNorm⟩

/-- The loop `cp.py:82-97` over all modes; the weights of the last mode survive the loop (`lambda_op` is
unbound when there is no mode). -/
def sweep [Field α] [LinearOrder α] (pinv : Tensor α → Res (Tensor α)) (X : Tensor α) (rank : Nat)
    (A : List (Tensor α)) : Res (List (Tensor α) × Tensor α) := do
  let r ← (List.range X.order).foldlM (init := (A, (none : Option (Tensor α)))) fun st mode => do
    let u ← modeUpdate pinv X rank st.1 mode
    return (u.A, some u.lam)
  match r.2 with
  | none => .error .unboundLocal
  | some lam => .ok (r.1, lam)

/-- `cp.py:99-101`: `KTensor(assign_op, lambda_op).extract()`. -/
def fullOf [CommSemiring α] (A : List (Tensor α)) (lam : Tensor α) : Res (Tensor α) := do
  let k ← KTensor.init .tf .float32 A (some ⟨.tf, .float32, lam⟩)
  k.extract

/-- The scalars fetched by `train`: `rmse_ignore_zero`, `0.5 * square(norm(full - input))` and
`norm(full - input) / norm(input)` (`cp.py:102-107`; the same text at `tucker.py:168-173`,
`ncp.py:129-134` and `ntucker.py:155-160`). -/
noncomputable def scalars (X full : Tensor ℝ) : Res (ℝ × ℝ × ℝ) := do
  let ls ← loss.rmseIgnoreZero X full
  let d ← tf.ewise (· - ·) full X
  let obj := (1 / 2 : ℝ) * tf.norm d ^ 2
  match ls, loss.fdiv (tf.norm d) (tf.norm X) with
  | some l, some r => .ok (l, obj, r)
  | _, _ => .error .nonFinite

/-- One run of the fetch list of `cp.py:152-159` on variables `A`. -/
noncomputable def main (pinv : Tensor ℝ → Res (Tensor ℝ)) (X : Tensor ℝ) (rank : Nat) (A : List (Tensor ℝ)) :
    Res (List (Tensor ℝ) × fact.Out (List (Tensor ℝ)) (Tensor ℝ) (Tensor ℝ) ℝ) := do
  let (A, lam) ← sweep pinv X rank A
  let full ← fullOf A lam
  let (l, obj, rel) ← scalars X full
  return (A, ⟨A, some lam, full, l, obj, rel⟩)

end TD.cp
