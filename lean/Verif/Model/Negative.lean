import Verif.Model.Ops
import Verif.Model.Objects

/-!
# Axes given as negative integers (`tensorD/base/ops.py:118-164`, `210-262`, `265-357`)

The functions of `Model/Ops.lean` with integers for the axes.  `neg` is what `tf.transpose` does with a permutation of the right length
that has a negative entry, which depends on the version of TensorFlow.
-/
namespace TD.ops
open Tensor
variable {α : Type}

/-- `tensor.get_shape()[i].value` for an integer `i`: negative ones count from the end (`ops.py:152`, `ops.py:155`). -/
def dimsAtZ (shape : List Nat) (l : List Int) : Res (List Nat) :=
  l.mapM fun i => match tf.wrap shape.length i with
    | some k => .ok (shape.getD k 0)
    | none => .error .indexError

/-- `tf.transpose(t, perm)`: a permutation of another length is refused (`ops.py:164`). -/
def transposeZ [Zero α] (neg : Tensor α → List Int → Res (Tensor α)) (t : Tensor α) (perm : List Int) : Res (Tensor α) :=
  if perm.length ≠ t.order then .error .invalidArgument
  else if perm.any (· < 0) then neg t perm
  else tf.transpose t (perm.map Int.toNat)

/-- `ops.py:118-164` `t2mat` with a list `r_axis` and `c_axis = -1`, as `mul` calls it (lines 257 and 258): the remaining axes are those
of `range(ndims)` that are not in the list, which no negative number is. -/
def t2matZ [Zero α] (neg : Tensor α → List Int → Res (Tensor α)) (t : Tensor α) (r : List Int) : Res (Tensor α) := do
  let rd ← dimsAtZ t.shape r
  let c := ((List.range t.order).map Int.ofNat).filter (· ∉ r)
  let cd ← dimsAtZ t.shape c
  let tr ← transposeZ neg t (r ++ c)
  tf.reshape tr [((rd.prod : Nat) : Int), ((cd.prod : Nat) : Int)]

/-- `ops.py:210-262` `mul` with lists of integers. -/
def mulZ [Zero α] [tf.Red α] (neg : Tensor α → List Int → Res (Tensor α)) (A B : Tensor α) (a b : List Int) : Res (Tensor α) := do
  let MA ← t2matZ neg A a
  let MB ← t2matZ neg B b
  let d ← tf.matmul MA MB (ta := true)
  let back := (((List.range A.order).filter fun (k : Nat) => (k : Int) ∉ a).map fun k => ((A.shape.getD k 0 : Nat) : Int)) ++
    (((List.range B.order).filter fun (k : Nat) => (k : Int) ∉ b).map fun k => ((B.shape.getD k 0 : Nat) : Int))
  tf.reshape d back

/-- The `for i in axis: target_op[i] = ...` loop of `ops.py:352-354`; negative indices count from the end. -/
def setAllZ (base : List Char) : List (Int × Char) → Res (List Char)
  | [] => .ok base
  | (i, c) :: r => match tf.wrap base.length i with
      | some k => setAllZ (base.set k c) r
      | none => .error .indexError

/-- `ops.py:343-356`: the equation text built by `ttm`. -/
def ttmEqZ (order : Nat) (axis : List Int) (tr : Bool) : Res (List Char) := do
  let tensorStart : Int := 122 - order + 1
  let matsStart : Int := 97
  let tensorOp ← (List.range order).mapM fun (i : Nat) => chr (tensorStart + i)
  let matOps ← axis.mapM fun (i : Int) => do
    let t ← chr (tensorStart + i)
    let m ← chr (matsStart + i)
    .ok (if tr then [t, m] else [m, t])
  let sets ← axis.mapM fun (i : Int) => do
    let m ← chr (matsStart + i)
    return (i, m)
  let target ← setAllZ tensorOp sets
  .ok (tensorOp ++ ',' :: joinComma matOps ++ '-' :: '>' :: target)

/-- `ops.py:265-357` `ttm` with a list of integers for `axis`. -/
def ttmZ [Zero α] [tf.Ein α] (t : Tensor α) (ms : List (Tensor α)) (axis : List Int) (tr : Bool := false) : Res (Tensor α) := do
  let eqn ← ttmEqZ t.order axis tr
  tf.einsum eqn (t :: ms)

end TD.ops
