import Verif.Model.SpecialLoss
import Verif.Model.SpecialBcu
import Verif.Model.Cp

/-!
# The graph of `CP_ALS` with rounding, overflow, infinities and NaN (`factorization/cp.py:67-121`)

The text of `Model/Cp.lean` on the numbers of `Model/Special.lean`: every operation is rounded, a division by zero gives an infinity
or NaN and does not stop the run.  `numpy.linalg.pinv` is any function from tensors to tensors or exceptions.

Simplifications: those of `Model/Special.lean` and `Model/Cp.lean`; `tf.reduce_max` takes the maximum with C++'s `std::max`, starting
from `-inf` (no theorem depends on what it does with NaN).
-/
namespace TD.sp
open TD Tensor
variable {F : Fmt}

/-- The larger of two numbers (part of `tf.reduce_max`, `cp.py:96`). -/
noncomputable def maximum (x y : Num F) : Num F := if x.lt y then y else x

/-- `tf.reduce_max(t, axis=0)` of a matrix (`cp.py:96`). -/
noncomputable def reduceMax0 (t : Tensor (Num F)) : Res (Tensor (Num F)) :=
  match t.shape with
  | [m, n] => .ok (ofFn [n] fun idx => (List.range m).foldl (fun acc i => maximum acc (t.at_ [i, idx.getD 0 0])) (.inf true))
  | _ => .error .invalidArgument

/-- `cp.py:82-97` for one `mode`; `A` are the current values of the variables. -/
noncomputable def CP.modeUpdate (pinv : Tensor (Num F) → Res (Tensor (Num F))) (X : Tensor (Num F)) (rank : Nat)
    (A : List (Tensor (Num F))) (mode : Nat) : Res (cp.Upd (Num F)) := do
  let mat ← ops.unfold X mode
  let AtA ← A.mapM fun a => tf.matmul a a true false
  let K ← ops.khatri A (.int mode) true
  let XA ← tf.matmul mat K
  let V ← ops.hadamard AtA (.int mode)
  let P ← pinv V
  let nonNorm ← tf.matmul XA P
  let N ← tf.reshape nonNorm [(X.shape.getD mode 0 : Nat), (rank : Nat)]
  let lam ← reduceMax0 N
  let A' ← tf.ewise (· / ·) nonNorm lam
  let A ← tf.assign A mode A'
  return ⟨A, lam, nonNorm⟩

/-- The loop `cp.py:82-97` over all modes; the weights of the last mode survive the loop. -/
noncomputable def CP.sweep (pinv : Tensor (Num F) → Res (Tensor (Num F))) (X : Tensor (Num F)) (rank : Nat)
    (A : List (Tensor (Num F))) : Res (List (Tensor (Num F)) × Tensor (Num F)) := do
  let r ← (List.range X.order).foldlM (init := (A, (none : Option (Tensor (Num F))))) fun st mode => do
    let u ← CP.modeUpdate pinv X rank st.1 mode
    return (u.A, some u.lam)
  match r.2 with
  | none => .error .unboundLocal
  | some lam => .ok (r.1, lam)

/-- `KTensor(assign_op, lambda_op).extract()` (`cp.py:99-101`). -/
noncomputable def CP.fullOf (A : List (Tensor (Num F))) (lam : Tensor (Num F)) : Res (Tensor (Num F)) := do
  let k ← KTensor.init .tf .float32 A (some ⟨.tf, .float32, lam⟩)
  k.extract

/-- One run of the fetch list of `cp.py:152-159`. -/
noncomputable def CP.main (pinv : Tensor (Num F) → Res (Tensor (Num F))) (X : Tensor (Num F)) (rank : Nat)
    (A : List (Tensor (Num F))) :
    Res (List (Tensor (Num F)) × fact.Out (List (Tensor (Num F))) (Tensor (Num F)) (Tensor (Num F)) (Num F)) := do
  let (A, lam) ← CP.sweep pinv X rank A
  let full ← CP.fullOf A lam
  let (l, obj, rel) ← scalars X full
  return (A, ⟨A, some lam, full, l, obj, rel⟩)

/-- `CP_ALS.train` with this graph (`cp.py:124-177`). -/
noncomputable def CP.cls (pinv : Tensor (Num F) → Res (Tensor (Num F))) (X : Tensor (Num F)) (rank : Nat) :=
  fact.CP_ALS.cls (CP.main pinv X rank)

end TD.sp
