import Mathlib.Algebra.BigOperators.Group.Finset.Basic
import Mathlib.Algebra.Ring.Defs
import Mathlib.Data.List.Perm.Basic
import Mathlib.Data.List.Dedup
import Verif.Model.Tensor

/-!
# TensorFlow primitives used by TensorD

These definitions are *contracts* of library functions, not TensorD code: they are part of the
trusted base.  Errors are raised when the operation is built.

The scalars are any type with the operations an operation needs.  How sums are evaluated is a parameter (`Red`, `Ein`), since
TensorFlow does not fix the order: in exact arithmetic the order does not matter and the instances below are used; for rounded
arithmetic see `Model/Float.lean`.
-/
namespace TD.tf
open TD Tensor
variable {α : Type}

/-- How TensorFlow evaluates sums of numbers (`total`) and sums of products of pairs (`dot`)
(`ops.py:259`, `ops.py:381`). -/
class Red (α : Type) where
  total : List α → α
  dot : List (α × α) → α

/-- Exact arithmetic. -/
instance [NonUnitalNonAssocSemiring α] : Red α where
  total l := l.sum
  dot l := (l.map fun p => p.1 * p.2).sum

/-- How TensorFlow evaluates an entry of an Einstein sum of `n` operands: the sum, over all values of the summed labels
(a multi-index of the shape `dims`), of the products of the operand entries `f v`
(`ops.py:357`, `ops.py:432`, `ops.py:468`). -/
class Ein (α : Type) where
  contract : (n : Nat) → (dims : List Nat) → (f : List Nat → List α) → α

/-- Exact arithmetic. -/
instance [CommSemiring α] : Ein α where
  contract _ dims f := ((indices dims).map fun v => (f v).prod).sum

/-- `tf.transpose(t, perm)`: `perm` must be a permutation of `range(ndims)`;
`out[i_0,..] = t[..]` with the `j`-th output axis being input axis `perm[j]`
(`ops.py:75`, `ops.py:115`, `ops.py:164`). -/
def transpose [Zero α] (t : Tensor α) (perm : List Nat) : Res (Tensor α) :=
  if perm.Perm (List.range t.order) then
    .ok (Tensor.ofFn (perm.map fun k => t.shape.getD k 0) fun idx =>
      t.at_ ((List.range t.order).map fun k => idx.getD (perm.idxOf k) 0))
  else .error .invalidArgument

/-- Resolution of the target shape of `tf.reshape`: entries below `-1` are rejected, at most one
`-1` is allowed and is inferred (impossible when the known product is zero), and the number of
elements must be preserved (`ops.py:75`, `ops.py:188`, `ops.py:207`). -/
def reshapeDims (n : Nat) (s : List Int) : Res (List Nat) :=
  if s.any (· < -1) then .error .invalidArgument
  else if s.count (-1) = 0 then .ok (s.map Int.toNat)
  else if s.count (-1) = 1 then
    let known := ((s.filter (· ≠ -1)).map Int.toNat).prod
    if known = 0 ∨ n % known ≠ 0 then .error .invalidArgument
    else .ok (s.map fun d => if d = -1 then n / known else d.toNat)
  else .error .invalidArgument

/-- `tf.reshape(t, shape)`: keeps the row-major data (`ops.py:75`, `ops.py:115`, `ops.py:188`). -/
def reshape (t : Tensor α) (s : List Int) : Res (Tensor α) :=
  match reshapeDims t.data.length s with
  | .error e => .error e
  | .ok dims => if h : t.data.length = dims.prod then .ok ⟨dims, t.data, h⟩
                else .error .invalidArgument

/-- `tf.matmul` on matrices, `transpose_a` / `transpose_b` flags as in TensorFlow (`ops.py:259`, `cp.py:85`). -/
def matmul [Zero α] [Red α] (A B : Tensor α) (ta tb : Bool := false) : Res (Tensor α) :=
  match A.shape, B.shape with
  | [a0, a1], [b0, b1] =>
      let m := if ta then a1 else a0
      let k := if ta then a0 else a1
      let k' := if tb then b1 else b0
      let n := if tb then b0 else b1
      if k = k' then
        .ok (Tensor.mat m n fun i j => Red.dot ((List.range k).map fun l =>
          (A.at_ (if ta then [l, i] else [i, l]), B.at_ (if tb then [j, l] else [l, j]))))
      else .error .invalidArgument
  | _, _ => .error .invalidArgument

/-- numpy broadcasting of two shapes given in reversed (last axis first) order (`ops.py:402`, `type.py:85`). -/
def bcastRev : List Nat → List Nat → Option (List Nat)
  | [], b => some b
  | a, [] => some a
  | x :: a, y :: b => (bcastRev a b).bind fun r =>
      if x = y then some (x :: r) else if x = 1 then some (y :: r)
      else if y = 1 then some (x :: r) else none

/-- numpy broadcasting of two shapes (`ops.py:402`, `type.py:85`). -/
def bcastShape (a b : List Nat) : Option (List Nat) :=
  (bcastRev a.reverse b.reverse).map List.reverse

/-- Index into an operand of shape `s` for output index `idx` under broadcasting (`ops.py:402`, `type.py:85`). -/
def bcastIdx (s idx : List Nat) : List Nat :=
  List.zipWith (fun d i => if d = 1 then 0 else i) s (idx.drop (idx.length - s.length))

/-- Broadcasting elementwise binary operation (`+`, `-`, `*`, `/` on `tf.Tensor`) (`ops.py:402`, `type.py:85`). -/
def ewise [Zero α] (f : α → α → α) (A B : Tensor α) : Res (Tensor α) :=
  match bcastShape A.shape B.shape with
  | none => .error .invalidArgument
  | some s => .ok (Tensor.ofFn s fun idx => f (A.at_ (bcastIdx A.shape idx)) (B.at_ (bcastIdx B.shape idx)))

/-- Elementwise unary operation (`tf.nn.relu`, `tf.sqrt`, negation, comparison with a scalar ...)
(`ncp.py:124`, `loss.py:23`). -/
def map {β : Type} (f : α → β) (A : Tensor α) : Tensor β :=
  ⟨A.shape, A.data.map f, by simpa using A.wf⟩

/-- `tf.reduce_sum(t)` over all axes (`ops.py:381`, `loss.py:23`). -/
def reduceSum [Red α] (t : Tensor α) : α := Red.total t.data

/-- `tf.ones(shape)` (`ops.py:505-508`, `type.py:143`). -/
def ones [One α] (s : List Nat) : Tensor α := Tensor.ofFn s fun _ => 1

/-- `tf.slice(t, begin, size)` with non-negative sizes: the block must lie inside the tensor (`ops.py:515-516`). -/
def slice [Zero α] (t : Tensor α) (b sz : List Nat) : Res (Tensor α) :=
  if b.length = t.order ∧ sz.length = t.order ∧
      ∀ k < t.order, b.getD k 0 + sz.getD k 0 ≤ t.shape.getD k 0 then
    .ok (Tensor.ofFn sz fun idx => t.at_ (List.zipWith (· + ·) b idx))
  else .error .invalidArgument

/-- `tf.stack(ts, axis)` for `axis ≤ ndims`: at least one tensor, all of one shape (`ops.py:522`). -/
def stack [Zero α] (ts : List (Tensor α)) (axis : Nat) : Res (Tensor α) :=
  match ts with
  | [] => .error .valueError
  | t :: _ =>
    if axis ≤ t.order ∧ ∀ u ∈ ts, u.shape = t.shape then
      .ok (Tensor.ofFn (t.shape.insertIdx axis ts.length) fun idx =>
        ((ts.map fun u => u.at_ (idx.eraseIdx axis)).getD (idx.getD axis 0) 0))
    else .error .valueError

/-! ### `tf.einsum` -/

/-- Split a list at every occurrence of a separator (Python `str.split`)
(`reader.py:30` and within `tf.einsum`, `ops.py:357`). -/
def splitAll (sep : Char) : List Char → List (List Char)
  | [] => [[]]
  | c :: cs => if c = sep then [] :: splitAll sep cs else
      match splitAll sep cs with
      | [] => [[c]]
      | w :: ws => (c :: w) :: ws

/-- Split an equation at the first `->` (within `tf.einsum`, `ops.py:357`). -/
def splitArrow : List Char → Option (List Char × List Char)
  | '-' :: '>' :: r => some ([], r)
  | c :: r => (splitArrow r).map fun (a, b) => (c :: a, b)
  | [] => none

/-- Index letters accepted by `tf.einsum` (within `tf.einsum`, `ops.py:357`). -/
def isLabel (c : Char) : Bool := ('a' ≤ c && c ≤ 'z') || ('A' ≤ c && c ≤ 'Z')

/-- Parse an equation `ab,cd->acbd`.  Every operand needs at least one letter (within `tf.einsum`, `ops.py:357`). -/
def parseEq (eqn : List Char) : Option (List (List Char) × List Char) :=
  match splitArrow eqn with
  | none => none
  | some (l, out) =>
    let ins := splitAll ',' l
    if ins.all (fun w => !w.isEmpty && w.all isLabel) && out.all isLabel then some (ins, out) else none

/-- The labels `cs` get the values `vs`, the other labels keep their value in `env`
(within `tf.einsum`, `ops.py:357`). -/
def setLabels : List Char → List Nat → (Char → Nat) → Char → Nat
  | c :: cs, v :: vs, env => setLabels cs vs (Function.update env c v)
  | _, _, env => env

/-- Assignment of the values `vs` to the labels `cs` (within `tf.einsum`, `ops.py:357`). -/
def bindLabels (cs : List Char) (vs : List Nat) : Char → Nat := fun c => vs.getD (cs.idxOf c) 0

/-- Dimension of a label according to the operands (within `tf.einsum`, `ops.py:357`). -/
def labelDim (ins : List (List Char)) (shapes : List (List Nat)) : Char → Nat :=
  bindLabels ins.flatten shapes.flatten

/-- The checks `tf.einsum` makes on parsed labels: arity, ranks, no label twice in one operand or in
the output, output labels occur in the input, equal labels have equal dimensions.
Simplification: TensorFlow lets a dimension of size 1 broadcast; here that is an error
(within `tf.einsum`, `ops.py:357`). -/
def einsumOk (ins : List (List Char)) (out : List Char) (shapes : List (List Nat)) : Prop :=
  ins.length = shapes.length ∧ (∀ p ∈ ins.zip shapes, p.1.length = p.2.length) ∧
  (∀ w ∈ ins, w.Nodup) ∧ out.Nodup ∧ (∀ c ∈ out, c ∈ ins.flatten) ∧
  (∀ p ∈ ins.flatten.zip shapes.flatten, labelDim ins shapes p.1 = p.2)

instance (ins : List (List Char)) (out : List Char) (shapes : List (List Nat)) :
    Decidable (einsumOk ins out shapes) := by unfold einsumOk; infer_instance

/-- Einstein summation on parsed labels: labels not in the output are summed
(`ops.py:357`, `ops.py:432`, `ops.py:468`). -/
def einsumL [Zero α] [Ein α] (ins : List (List Char)) (out : List Char) (ts : List (Tensor α)) :
    Res (Tensor α) :=
  let shapes := ts.map Tensor.shape
  if einsumOk ins out shapes then
    let d := labelDim ins shapes
    let summed := ins.flatten.dedup.filter (· ∉ out)
    .ok (Tensor.ofFn (out.map d) fun idx =>
      Ein.contract ts.length (summed.map d) fun vs =>
        List.zipWith (fun w t => t.at_ (w.map (setLabels summed vs (bindLabels out idx)))) ins ts)
  else .error .valueError

/-- `tf.einsum(equation, *ts)` (`ops.py:357`, `ops.py:432`, `ops.py:468`). -/
def einsum [Zero α] [Ein α] (eqn : List Char) (ts : List (Tensor α)) : Res (Tensor α) :=
  match parseEq eqn with
  | none => .error .valueError
  | some (ins, out) => einsumL ins out ts

end TD.tf
