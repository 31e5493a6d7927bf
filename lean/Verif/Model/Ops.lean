import Verif.Model.TF

/-!
# Model of `tensorD/base/ops.py`
-/
namespace TD.ops
open TD Tensor
variable {α : Type}

/-- The value a caller passes for `skip_matrices_index`: `None`, an int or a list (`ops.py:8-13`). -/
inductive Skip where
  | none
  | int (i : Int)
  | list (l : List Int)
  deriving DecidableEq, Repr

/-- `ops.py:8-13` `_skip`. -/
def skip {β : Type} (ms : List β) : Skip → List β
  | .none => ms
  | .int i => (ms.zipIdx.filter fun p => !([i].contains (p.2 : Int))).map Prod.fst
  | .list l => (ms.zipIdx.filter fun p => !(l.contains (p.2 : Int))).map Prod.fst

/-- Python `list.remove(x)`: removes the first occurrence, `ValueError` if absent (`ops.py:38`). -/
def pyRemove (l : List Nat) (x : Int) : Res (List Nat) :=
  if 0 ≤ x ∧ x.toNat ∈ l then .ok (l.erase x.toNat) else .error .valueError

/-- `ops.py:16-40` `_gen_perm`.  `[mode] + tmp`: after a successful `remove` the mode is a
natural number, so `toNat` is exact. -/
def genPerm (order : Nat) (mode : Int) : Res (List Nat) :=
  match pyRemove (List.range order).reverse mode with
  | .error e => .error e
  | .ok tmp => .ok (mode.toNat :: tmp)

/-- `ops.py:43-75` `unfold`. -/
def unfold [Zero α] (t : Tensor α) (mode : Int) : Res (Tensor α) := do
  let perm ← genPerm t.order mode
  let tr ← tf.transpose t perm
  tf.reshape tr [((t.shape.getD mode.toNat 0 : Nat) : Int), -1]

/-- `ops.py:114`: `[item[0] for item in sorted(enumerate(perm), key=lambda x: x[1])]`. -/
def argsort (perm : List Nat) : List Nat :=
  ((perm.zipIdx.mergeSort fun a b => a.1 ≤ b.1)).map Prod.snd

/-- `ops.py:78-115` `fold`. -/
def fold [Zero α] (u : Tensor α) (mode : Int) (shape : List Nat) : Res (Tensor α) := do
  let perm ← genPerm shape.length mode
  let shapeNow := perm.map fun k => ((shape.getD k 0 : Nat) : Int)
  let r ← tf.reshape u shapeNow
  tf.transpose r (argsort perm)

/-- An axis argument: an int, a list or a tuple of ints.
Simplification: negative axes (other than the `-1` meaning of `c_axis`) are in `Model/Negative.lean`; the
docstring requires axes to be "equal or greater than 0" (`ops.py:151-155`, `ops.py:253-256`). -/
inductive Axis where
  | int (i : Nat)
  | list (l : List Nat)
  | tuple (l : List Nat)
  deriving DecidableEq, Repr

/-- The `c_axis` argument of `t2mat`: `-1` or an axis argument (`ops.py:156-163`). -/
inductive CAxis where
  | rest
  | ax (a : Axis)
  deriving DecidableEq, Repr

/-- `[tensor.get_shape()[i].value for i in l]`, `IndexError` when an axis is out of range (`ops.py:152-163`). -/
def dimsAt (shape : List Nat) (l : List Nat) : Res (List Nat) :=
  l.mapM fun i => match shape[i]? with
    | some d => .ok d
    | none => .error .indexError

/-- `ops.py:118-164` `t2mat`.  Second component: the object passed as `r_axis` after the call
(`indies = r_axis` at line 154 is an alias, so `indies.append(c_axis)` at line 159 changes the
caller's list). -/
def t2matSt [Zero α] (t : Tensor α) (r : Axis) (c : CAxis) : Res (Tensor α) × Axis :=
  -- lines 150-155
  let rowDims := match r with
    | .int i => dimsAt t.shape [i]
    | .list l => dimsAt t.shape l
    | .tuple l => dimsAt t.shape l
  match rowDims with
  | .error e => (.error e, r)
  | .ok rd =>
    let rl := match r with | .int i => [i] | .list l => l | .tuple l => l
    -- lines 156-157
    let c' : Axis := match c with
      | .rest => .list ((List.range t.order).filter (· ∉ rl))
      | .ax a => a
    let finish (indies cl : List Nat) : Res (Tensor α) := do
      let cd ← dimsAt t.shape cl
      let tr ← tf.transpose t indies
      tf.reshape tr [((rd.prod : Nat) : Int), ((cd.prod : Nat) : Int)]
    -- lines 158-164
    match c', r with
    | .int k, .int _ => (finish (rl ++ [k]) [k], r)
    | .int k, .list l => (finish (l ++ [k]) [k], .list (l ++ [k]))
    | .int _, .tuple _ => (.error .attributeError, r)
    | .list cl, .int _ => (finish (rl ++ cl) cl, r)
    | .list cl, .list _ => (finish (rl ++ cl) cl, r)
    | .list _, .tuple _ => (.error .typeError, r)
    | .tuple _, .int _ => (.error .typeError, r)
    | .tuple _, .list _ => (.error .typeError, r)
    | .tuple cl, .tuple _ => (finish (rl ++ cl) cl, r)

/-- Return value of `t2mat` (`ops.py:118-164`). -/
def t2mat [Zero α] (t : Tensor α) (r : Axis) (c : CAxis) : Res (Tensor α) := (t2matSt t r c).1

/-- `ops.py:167-188` `vectorize`. -/
def vectorize (t : Tensor α) : Res (Tensor α) := tf.reshape t [-1]

/-- `ops.py:191-207` `vec_to_tensor`. -/
def vecToTensor (v : Tensor α) (shape : List Int) : Res (Tensor α) := tf.reshape v shape

/-- `ops.py:253-256`: an int axis becomes a one-element list; lists and tuples stay. -/
def normAxis : Axis → Axis
  | .int i => .list [i]
  | a => a

/-- Elements of an axis argument (`_ not in a_axis`) (`ops.py:260-261`). -/
def Axis.elems : Axis → List Nat
  | .int i => [i]
  | .list l => l
  | .tuple l => l

/-- `ops.py:210-262` `mul`. -/
def mul [Zero α] [tf.Red α] (A B : Tensor α) (a b : Axis) : Res (Tensor α) := do
  let a := normAxis a
  let b := normAxis b
  let MA ← t2mat A a .rest
  let MB ← t2mat B b .rest
  let d ← tf.matmul MA MB (ta := true)
  let back := (((List.range A.order).filter (· ∉ a.elems)).map fun k => ((A.shape.getD k 0 : Nat) : Int)) ++
    (((List.range B.order).filter (· ∉ b.elems)).map fun k => ((B.shape.getD k 0 : Nat) : Int))
  tf.reshape d back

/-- `ops.py:360-381` `inner`. -/
def inner [Zero α] [Mul α] [tf.Red α] (A B : Tensor α) : Res α :=
  if A.shape ≠ B.shape then .error .valueError
  else do
    let a ← vectorize A
    let b ← vectorize B
    let p ← tf.ewise (· * ·) a b
    .ok (tf.reduceSum p)

/-- `functools.reduce(f, l)`: `TypeError` on the empty list (`ops.py:402`, `ops.py:492`). -/
def pyReduce {β : Type} (f : β → β → Res β) : List β → Res β
  | [] => .error .typeError
  | x :: xs => xs.foldlM f x

/-- `ops.py:384-402` `hadamard`. -/
def hadamard [Mul α] [Zero α] (ms : List (Tensor α)) (s : Skip := .none) : Res (Tensor α) :=
  pyReduce (tf.ewise (· * ·)) (skip ms s)

/-- `chr(n)`: `ValueError` outside the range Python accepts (`ops.py:345-353`, `ops.py:428-430`). -/
def chr (n : Int) : Res Char :=
  if 0 ≤ n then (if n < 0x110000 then .ok (Char.ofNat n.toNat) else .error .valueError)
  else .error .valueError

/-- `','.join(ws)` (`ops.py:347-349`, `ops.py:428`). -/
def joinComma : List (List Char) → List Char
  | [] => []
  | [w] => w
  | w :: ws => w ++ ',' :: joinComma ws

/-- The `for i in axis: target_op[i] = ...` loop of `ops.py:352-354`, `IndexError` out of range. -/
def setAll (base : List Char) : List (Nat × Char) → Res (List Char)
  | [] => .ok base
  | (i, c) :: r => if i < base.length then setAll (base.set i c) r else .error .indexError

/-- `ops.py:343-356`: the equation text built by `ttm`. -/
def ttmEq (order : Nat) (axis : List Nat) (tr : Bool) : Res (List Char) := do
  let tensorStart : Int := 122 - order + 1
  let matsStart : Int := 97
  let tensorOp ← (List.range order).mapM fun (i : Nat) => chr (tensorStart + i)
  let matOps ← axis.mapM fun (i : Nat) => do
    let t ← chr (tensorStart + i)
    let m ← chr (matsStart + i)
    .ok (if tr then [t, m] else [m, t])
  let sets ← axis.mapM fun (i : Nat) => do
    let m ← chr (matsStart + i)
    return (i, m)
  let target ← setAll tensorOp sets
  .ok (tensorOp ++ ',' :: joinComma matOps ++ '-' :: '>' :: target)

/-- Membership test used at `ops.py:335-337`. -/
def Skip.mem (s : Skip) (i : Nat) : Bool := match s with
  | .none => false
  | .int k => (i : Int) == k
  | .list l => l.contains (i : Int)

/-- `ops.py:265-357` `ttm`.  `matrices` is a list (line 325 wraps a single matrix, which is the
one-element list here).  Simplification: negative entries of `axis` are in `Model/Negative.lean`. -/
def ttm [Zero α] [tf.Ein α] (t : Tensor α) (ms : List (Tensor α)) (axis : Option (List Nat) := none)
    (tr : Bool := false) (s : Skip := .none) : Res (Tensor α) := do
  if axis.isSome ∧ s ≠ .none then .error .valueError
  else
    let cnt := ms.length
    let (ms, axis) := match s with
      | .none => (ms, axis)
      | s => (skip ms s, some ((List.range (min t.order cnt)).filter fun i => !s.mem i))
    let axis := axis.getD (List.range cnt)
    let eqn ← ttmEq t.order axis tr
    tf.einsum eqn (t :: ms)

/-- `ops.py:428-431`: the equation text built by `kron` for `n` matrices. -/
def kronEq (n : Nat) : List Char :=
  let ch (i : Nat) : Char := Char.ofNat (97 + i)
  joinComma ((List.range n).map fun i => [ch (2 * i), ch (2 * i + 1)]) ++ '-' :: '>' ::
    ((List.range n).map fun i => ch (2 * i)) ++ ((List.range n).map fun i => ch (2 * i + 1))

/-- `mat.get_shape()[i].value` for each matrix, `IndexError` when the axis does not exist
(`ops.py:433-434`, `ops.py:469`). -/
def dimOfEach (ms : List (Tensor α)) (i : Nat) : Res (List Nat) :=
  ms.mapM fun m => match m.shape[i]? with
    | some d => .ok d
    | none => .error .indexError

/-- `ops.py:405-436` `kron`. -/
def kron [Zero α] [tf.Ein α] (ms : List (Tensor α)) (s : Skip := .none) (rev : Bool := false) :
    Res (Tensor α) := do
  let ms := skip ms s
  let ms := if rev then ms.reverse else ms
  let tmp ← tf.einsum (kronEq ms.length) ms
  let r ← dimOfEach ms 0
  let c ← dimOfEach ms 1
  tf.reshape tmp [((r.prod : Nat) : Int), ((c.prod : Nat) : Int)]

/-- `ops.py:465-467`: the equation text built by `khatri` for `n` matrices. -/
def khatriEq (n : Nat) : List Char :=
  let target := (List.range n).map fun i => Char.ofNat (97 + i)
  joinComma (target.map fun c => [c, 'z']) ++ '-' :: '>' :: target ++ ['z']

/-- `ops.py:439-471` `khatri`. -/
def khatri [Zero α] [tf.Ein α] (ms : List (Tensor α)) (s : Skip := .none) (rev : Bool := false) :
    Res (Tensor α) := do
  let ms := skip ms s
  let ms := if rev then ms.reverse else ms
  let tmp ← tf.einsum (khatriEq ms.length) ms
  let r ← dimOfEach ms 0
  match ms with
  | [] => .error .indexError
  | m :: _ => match m.shape[(1 : Nat)]? with
    | none => .error .indexError
    | some (c : Nat) => tf.reshape tmp [((r.prod : Nat) : Int), (c : Int)]

/-- `ops.py:473-492` `max_single_value_mul`.  `topSv` is `tf.reduce_max(tf.svd(·, compute_uv=False))`. -/
def maxSingleValueMul [Mul α] (topSv : Tensor α → Res α) (ms : List (Tensor α)) (s : Skip := .none) :
    Res α := do
  let vs ← (skip ms s).mapM topSv
  pyReduce (fun a b => .ok (a * b)) vs

/-- `mat.get_shape()[i].value` of one tensor (`ops.py:500-503`). -/
def dimOf (t : Tensor α) (i : Nat) : Res Nat :=
  match t.shape[i]? with
  | some d => .ok d
  | none => .error .indexError

/-- `ops.py:498-522` `xcb`. -/
def xcb [Zero α] [One α] [Mul α] [tf.Red α] [tf.Ein α] [DecidableEq α] (X C B : Tensor α) : Res (Tensor α) := do
  let X ← unfold X 0
  let I ← dimOf X 0
  let J ← dimOf B 0
  let K ← dimOf C 0
  let R ← dimOf C 1
  let I1 : Tensor α := tf.ones [I, 1]
  let J1 : Tensor α := tf.ones [J, 1]
  let K1 : Tensor α := tf.ones [K, 1]
  let JK1 : Tensor α := tf.ones [J * K, 1]
  let binX := tf.map (fun x : α => if x ≠ 0 then (1 : α) else 0) X
  let res ← (List.range R).mapM fun r => do
    let Cr ← tf.slice C [0, r] [K, 1]
    let Br ← tf.slice B [0, r] [J, 1]
    let kc ← kron [Cr, J1]
    let mc ← tf.matmul I1 kc false true
    let N1 ← hadamard [X, mc]
    let kb ← kron [K1, Br]
    let mb ← tf.matmul I1 kb false true
    let N2 ← hadamard [binX, mb]
    let N3 ← hadamard [N1, N2]
    tf.matmul N3 JK1
  let st ← tf.stack res 1
  tf.reshape st [(I : Int), (R : Int)]

end TD.ops
