import Verif.Model.Ops

/-!
# `tensorD/base/type.py`
-/
namespace TD
open Tensor

/-- Element types that matter here; TensorFlow refuses to mix them (`type.py:136-151`). -/
inductive DType where
  | float32 | float64 | int64
  deriving DecidableEq, Repr

/-- Whether an argument is a numpy array or a `tf.Tensor` (`type.py:20`, `type.py:135`, `type.py:145`). -/
inductive Src where
  | np | tf
  deriving DecidableEq, Repr

/-- `type.py:7-27`: the fields that influence results, `T` and the `unfold_T` cache. -/
structure DTensor (α : Type) where
  T : Tensor α
  unfoldT : Option (Tensor α)
  deriving DecidableEq

namespace DTensor
variable {α : Type}

/-- `type.py:12-27` `DTensor.__init__`. -/
def init (t : Tensor α) : DTensor α := ⟨t, none⟩

/-- A right operand: another `DTensor` or a raw tensor (`type.py:65`, `type.py:84`). -/
inductive Rhs (α : Type) where
  | dtensor (d : DTensor α)
  | raw (t : Tensor α)

/-- The `isinstance(other, DTensor)` dispatch of `type.py:65,71,84,103,109`. -/
def Rhs.T : Rhs α → Tensor α
  | .dtensor d => d.T
  | .raw t => t

/-- `type.py:29-48`. -/
def mul [Zero α] [tf.Red α] (d o : DTensor α) (a b : ops.Axis) : Res (DTensor α) := do
  let r ← ops.mul d.T o.T a b
  return init r

/-- `type.py:50-53`: returns the new state of `self` and the result. -/
def unfold [Zero α] (d : DTensor α) (mode : Int) : Res (DTensor α × DTensor α) :=
  match d.unfoldT with
  | none => do
      let u ← ops.unfold d.T mode
      return ({ d with unfoldT := some u }, init u)
  | some u => .ok (d, init u)

/-- A history of `unfold` calls on one object; a raising call leaves the object as it was (the
assignment at line 52 is not reached).  Returns the final object and every result (`type.py:50-53`). -/
def unfoldMany [Zero α] (d : DTensor α) : List Int → DTensor α × List (Res (Tensor α))
  | [] => (d, [])
  | m :: ms => match d.unfold m with
    | .ok (d', r) => let (e, rs) := unfoldMany d' ms; (e, .ok r.T :: rs)
    | .error er => let (e, rs) := unfoldMany d ms; (e, .error er :: rs)

/-- `type.py:55-56`. -/
def t2mat [Zero α] (d : DTensor α) (r : ops.Axis) (c : ops.CAxis) : Res (DTensor α) := do
  let m ← ops.t2mat d.T r c
  return init m

/-- `type.py:58-59`. -/
def vectorize [Zero α] (d : DTensor α) : Res (DTensor α) := do
  let v ← ops.vectorize d.T
  return init v

/-- `type.py:64-68`. -/
def kron [Zero α] [tf.Ein α] (d : DTensor α) (o : Rhs α) : Res (DTensor α) := do
  let k ← ops.kron [d.T, o.T]
  return init k

/-- `type.py:70-74`. -/
def khatri [Zero α] [tf.Ein α] (d : DTensor α) (o : Rhs α) : Res (DTensor α) := do
  let k ← ops.khatri [d.T, o.T]
  return init k

/-- `type.py:79-81`. -/
def fold [Zero α] (m : Tensor α) (mode : Int) (shape : List Nat) : Res (DTensor α) := do
  let t ← ops.fold m mode shape
  return init t

/-- `type.py:83-87`. -/
def add [Zero α] [Add α] (d : DTensor α) (o : Rhs α) : Res (DTensor α) := do
  let t ← tf.ewise (· + ·) d.T o.T
  return init t

/-- `type.py:89-105`. -/
def hmul [Zero α] [Mul α] (d : DTensor α) (o : Rhs α) : Res (DTensor α) := do
  let t ← tf.ewise (· * ·) d.T o.T
  return init t

/-- `type.py:107-111`. -/
def sub [Zero α] [Sub α] (d : DTensor α) (o : Rhs α) : Res (DTensor α) := do
  let t ← tf.ewise (· - ·) d.T o.T
  return init t

end DTensor

/-- A weight argument with its origin and element type (`type.py:144-151`). -/
structure KTensor.Arr (α : Type) where
  src : Src
  dtype : DType
  val : Tensor α

/-- `type.py:117-153`: fields of a Kruskal tensor, with the element types TensorFlow checks. -/
structure KTensor (α : Type) where
  U : List (Tensor α)
  udtype : DType
  lam : Tensor α
  ldtype : DType

namespace KTensor
variable {α : Type}

/-- `tf.expand_dims(t, -1)` (`type.py:146-151`). -/
def expandLast (t : Tensor α) : Tensor α := ⟨t.shape ++ [1], t.data, by simp [t.wf]⟩

/-- `type.py:126-153` `KTensor.__init__`.  Simplification: the factors all come from the same source
and have one element type `dt`; exact arithmetic, so the cast to float32 keeps values. -/
def init [One α] (src : Src) (dt : DType) (factors : List (Tensor α)) (lambdas : Option (Arr α)) :
    Res (KTensor α) :=
  match factors with
  | [] => .error .indexError
  | f0 :: _ =>
    let ud := match src with
      | .np => DType.float32
      | .tf => dt
    match lambdas with
    | none => do
        let r ← ops.dimOf f0 1
        .ok ⟨factors, ud, tf.ones [r, 1], .float32⟩
    | some a =>
        .ok ⟨factors, ud, if a.val.order = 1 then expandLast a.val else a.val, a.dtype⟩

/-- `type.py:155-168` `KTensor.extract`. -/
def extract [Zero α] [tf.Red α] [tf.Ein α] (k : KTensor α) : Res (Tensor α) := do
  let tmp ← ops.khatri k.U
  let back ← ops.dimOfEach k.U 0
  let m ← (if k.udtype = k.ldtype then tf.matmul tmp k.lam else .error .typeError)
  tf.reshape m (back.map fun d : Nat => (d : Int))

end KTensor

/-- `type.py:171-196`: fields of a Tucker tensor. -/
structure TTensor (α : Type) where
  g : Tensor α
  gdtype : DType
  U : List (Tensor α)
  udtype : DType

namespace TTensor
variable {α : Type}

/-- `type.py:180-196` `TTensor.__init__`: `factors[0]` is inspected, so an empty list raises. -/
def init (g : Tensor α) (gd : DType) (U : List (Tensor α)) (ud : DType) : Res (TTensor α) :=
  match U with
  | [] => .error .indexError
  | _ :: _ => .ok ⟨g, gd, U, ud⟩

/-- `type.py:198-208` `TTensor.extract`. -/
def extract [Zero α] [tf.Ein α] (t : TTensor α) : Res (Tensor α) :=
  if t.gdtype = t.udtype then ops.ttm t.g t.U else .error .typeError

end TTensor
end TD
