import Verif.Model.Graph
import Verif.Model.Cp
import Verif.Model.Tucker
import Verif.Model.Bcu

/-!
# The operations of the graphs built by `build_model`

One constructor per operation, or per group of operations without variables in a chain of data inputs.  The
operations of the fetched scalars are left out: they only use the output `full`.
-/
namespace TD.graph
open TD Tensor

/-- The modes `_skip` keeps when mode `k` is skipped (`ops.py:8-13`): operations for the skipped matrix are not
needed by any fetch and do not run. -/
def others (N k : Nat) : List Nat := (List.range N).eraseIdx k

/-- `tf.control_dependencies([assign_op[mode - 1]])` if `mode != 0` (`cp.py:83-84`). -/
def prev {ι : Type} (assign : Nat → ι) (k : Nat) : List ι := if k = 0 then [] else [assign (k - 1)]

/-- The variables `A` of a model; the index is the mode (`cp.py:76`, `tucker.py:138`). -/
def facVars {α : Type} (A : List (Tensor α)) (i : Nat) : Tensor α := A.getD i ⟨[0], [], rfl⟩

/-! ### `CP_ALS` (`cp.py:67-121`) -/
namespace Cp

/-- `gram k i`: `AtA[i]` of mode `k` (85, 89); `kr k i`: the operation of `ops.khatri` that consumes `A[i]`
(87, 90); `xa`: the rest of `XA`; `v`: 92; `nn`: `non_norm_A` (93); `lam`: `lambda_op` (96); `assign`: `assign_op`
(97); `full`: `full_op` (99-101) (`cp.py:82-101`). -/
inductive Op where
  | gram (k i : Nat) | kr (k i : Nat) | xa (k : Nat) | v (k : Nat) | nn (k : Nat) | lam (k : Nat)
  | assign (k : Nat) | full
  deriving DecidableEq

/-- The operations of mode `k` (`cp.py:83-97`). -/
def modeOps (N k : Nat) : List Op :=
  (others N k).map (Op.gram k) ++ (others N k).map (Op.kr k) ++ [.xa k, .v k, .nn k, .lam k, .assign k]

/-- The graph; variable `i` is `A[i]` (`cp.py:76-101`). -/
def build {α : Type} [Field α] [LinearOrder α] (pinv : Tensor α → Res (Tensor α)) (X : Tensor α) (rank : Nat) :
    Graph Op Nat (Tensor α) where
  nodes := (List.range X.order).flatMap (modeOps X.order) ++ [.full]
  deps
    | .gram k _ => prev .assign k
    | .kr k _ => prev .assign k
    | .xa k => (others X.order k).map (.kr k) ++ prev .assign k
    | .v k => (others X.order k).map (.gram k)
    | .nn k => [.xa k, .v k]
    | .lam k => [.nn k]
    | .assign k => [.nn k, .lam k]
    | .full => (List.range X.order).map .assign ++ [.lam (X.order - 1)]
  reads
    | .gram _ i => [i]
    | .kr _ i => [i]
    | _ => []
  writes
    | .assign k => some k
    | _ => none
  kernel
    | .gram _ i, _, A => (tf.matmul (A i) (A i) true false).toOption
    | .kr _ i, _, A => some (A i)
    | .xa k, o, _ => do
        let ms ← (others X.order k).mapM fun i => o (.kr k i)
        (do let mat ← ops.unfold X k
            let K ← ops.khatri ms .none true
            tf.matmul mat K : Res (Tensor α)).toOption
    | .v k, o, _ => do
        let ms ← (others X.order k).mapM fun i => o (.gram k i)
        (ops.hadamard ms).toOption
    | .nn k, o, _ => do
        let XA ← o (.xa k)
        let V ← o (.v k)
        (do let P ← pinv V
            tf.matmul XA P : Res (Tensor α)).toOption
    | .lam k, o, _ => do
        let nonNorm ← o (.nn k)
        (do let N ← tf.reshape nonNorm [(X.shape.getD k 0 : Nat), (rank : Nat)]
            tf.reduceMax0 N : Res (Tensor α)).toOption
    | .assign k, o, _ => do
        let nonNorm ← o (.nn k)
        let lam ← o (.lam k)
        let a ← (tf.div nonNorm lam).toOption
        if a.shape = [X.shape.getD k 0, rank] then some a else none
    | .full, o, _ => do
        let A ← (List.range X.order).mapM fun k => o (.assign k)
        let lam ← o (.lam (X.order - 1))
        (cp.fullOf A lam).toOption

end Cp

/-! ### `HOOI` (`tucker.py:147-167`) -/
namespace Hooi

/-- `use k i`: the operation of `ops.ttm` that consumes `A[i]` in mode `k` (152, 155); `left`: `tmp[:, :ranks[k]]`
(156-158); `assign`: `assign_op` (158); `core`: `g` (161); `full`: `full_op` (165-167) (`tucker.py:148-167`). -/
inductive Op where
  | use (k i : Nat) | left (k : Nat) | assign (k : Nat) | core | full
  deriving DecidableEq

/-- The operations of mode `k` (`tucker.py:149-158`). -/
def modeOps (N k : Nat) : List Op := (others N k).map (Op.use k) ++ [.left k, .assign k]

/-- The graph; variable `i` is `A[i]` (`tucker.py:138-167`). -/
def build {α : Type} [CommSemiring α] (svd : Tensor α → Res (Tensor α × Tensor α × Tensor α)) (X : Tensor α)
    (ranks : List Nat) : Graph Op Nat (Tensor α) where
  nodes := (List.range X.order).flatMap (modeOps X.order) ++ [.core, .full]
  deps
    | .use k _ => prev .assign k
    | .left k => (others X.order k).map (.use k) ++ prev .assign k
    | .assign k => [.left k]
    | .core => (List.range X.order).map .assign
    | .full => .core :: (List.range X.order).map .assign
  reads
    | .use _ i => [i]
    | _ => []
  writes
    | .assign k => some k
    | _ => none
  kernel
    | .use _ i, _, A => some (A i)
    | .left k, o, _ => do
        let ms ← (others X.order k).mapM fun i => o (.use k i)
        (do let Y ← ops.ttm X ms (some (others X.order k)) true
            tucker.leading svd Y ranks k : Res (Tensor α)).toOption
    | .assign k, o, _ => do
        let a ← o (.left k)
        if a.shape = [X.shape.getD k 0, ranks.getD k 0] then some a else none
    | .core, o, _ => do
        let A ← (List.range X.order).mapM fun k => o (.assign k)
        (ops.ttm X A none true).toOption
    | .full, o, _ => do
        let g ← o .core
        let A ← (List.range X.order).mapM fun k => o (.assign k)
        (tucker.fullOf g A).toOption

end Hooi

/-! ### The main runs of `NCP_BCU` (`ncp.py:107-137`) and `NTUCKER_BCU` (`ntucker.py:135-163`) -/
namespace Bcu

/-- A scalar is a tensor without axes (`ncp.py:96-101`). -/
def num (x : ℝ) : Tensor ℝ := ofFn [] fun _ => x

/-- The number in a tensor without axes (`ncp.py:96-101`). -/
def the (t : Tensor ℝ) : ℝ := t.at_ []

/-- The variables of both classes (`ncp.py:72-104`, `ntucker.py:73-117`). -/
inductive Var where
  | A (i : Nat) | A0 (i : Nat) | Am (i : Nat) | L (i : Nat) | L0 (i : Nat) | wA (i : Nat) | t | t0 | g | g0 | gm
  deriving DecidableEq

/-- The variables of `NCP_BCU` (`ncp.py:72-104`). -/
def vars (st : bcu.State) : Var → Tensor ℝ
  | .A i => facVars st.A i
  | .A0 i => facVars st.A0 i
  | .Am i => facVars st.Am i
  | .L i => num (st.L i)
  | .L0 i => num (st.L0 i)
  | .wA i => num (st.wA i)
  | .t => num st.t
  | .t0 => num st.t0
  | _ => num 0

/-- The variables of `NTUCKER_BCU` (`ntucker.py:73-117`). -/
def tvars (st : bcu.TState) : Var → Tensor ℝ
  | .g => st.g
  | .g0 => st.g0
  | .gm => st.gm
  | v => vars st.toState v

/-- What differs between the two classes.  `grams`: `AtA` is computed (`ncp.py:111-113`); `core`: the core variable is
consumed. -/
structure Kind where
  N : Nat
  shape : Nat → List Nat
  grams : Bool
  core : Bool
  /-- from the other factors (and the core): `ops.khatri(A, mode, True)` or `B` -/
  bOf : Nat → List (Tensor ℝ) → Tensor ℝ → Res (Tensor ℝ)
  /-- from that: `XA` or `XB` -/
  xaOf : Nat → Tensor ℝ → Res (Tensor ℝ)
  /-- from the Gram matrices, or from `B`: `V` or `Bsq_A` -/
  vOf : Nat → List (Tensor ℝ) → Tensor ℝ → Res (Tensor ℝ)
  fullOf : Tensor ℝ → List (Tensor ℝ) → Res (Tensor ℝ)

/-- `NCP_BCU` (`ncp.py:107-128`). -/
def ncp (X : Tensor ℝ) (rank : Nat) : Kind where
  N := X.order
  shape k := [X.shape.getD k 0, rank]
  grams := true
  core := false
  bOf _ ms _ := ops.khatri ms .none true
  xaOf k b := do
    let mat ← ops.unfold X k
    tf.matmul mat b
  vOf _ gs _ := ops.hadamard gs
  fullOf _ A := bcu.NCP.fullOf A

/-- `NTUCKER_BCU` (`ntucker.py:118-154`). -/
def ntucker (X : Tensor ℝ) (ranks : List Nat) : Kind where
  N := X.order
  shape k := [X.shape.getD k 0, ranks.getD k 0]
  grams := false
  core := true
  bOf k ms g := do
    let Y ← ops.ttm g ms (some (others X.order k))
    ops.unfold Y k
  xaOf k b := do
    let mat ← ops.unfold X k
    tf.matmul mat b false true
  vOf _ _ b := tf.matmul b b false true
  fullOf g A := bcu.NTUCKER.fullOf g A

/-- `gram k i`: `AtA[i]` of mode `k`; `use k i`: the operation of `ops.khatri` or `ops.ttm` that consumes `A[i]`;
`core k`: the operation of `ops.ttm` that consumes `g`; `b`: the rest of `ops.khatri` or `B`; `xa`: `XA` or `XB`; `v`: `V`
or `Bsq_A`; `sv`: its largest singular value; `l0`: `L0_update_op`; `l`: `L_update_op`; `grad`: `Gn` or `GradA`;
`assign`: `A_update_op`; `full`: `full_op`; `tupd`: `t_update_op` (`ncp.py:108-137`, `ntucker.py:135-163`). -/
inductive Op where
  | gram (k i : Nat) | use (k i : Nat) | core (k : Nat) | b (k : Nat) | xa (k : Nat) | v (k : Nat) | sv (k : Nat)
  | l0 (k : Nat) | l (k : Nat) | grad (k : Nat) | assign (k : Nat) | full | tupd
  deriving DecidableEq

/-- The operations of mode `k` (`ncp.py:109-124`, `ntucker.py:136-150`). -/
def modeOps (K : Kind) (k : Nat) : List Op :=
  (if K.grams then (others K.N k).map (.gram k) else []) ++ (others K.N k).map (.use k) ++
    (if K.core then [.core k] else []) ++ [.b k, .xa k, .v k, .sv k, .l0 k, .l k, .grad k, .assign k]

/-- The graph of the main run (`ncp.py:107-137`, `ntucker.py:135-163`). -/
noncomputable def build (topSv : Tensor ℝ → Res ℝ) (K : Kind) : Graph Op Var (Tensor ℝ) where
  nodes := (List.range K.N).flatMap (modeOps K) ++ [.full, .tupd]
  deps
    | .gram k _ => prev .assign k
    | .use k _ => prev .assign k
    | .core k => prev .assign k
    | .b k => (others K.N k).map (.use k) ++ (if K.core then [.core k] else []) ++ prev .assign k
    | .xa k => [.b k]
    | .v k => if K.grams then (others K.N k).map (.gram k) else [.b k]
    | .sv k => [.v k]
    | .l0 _ => []
    | .l k => [.l0 k, .sv k]
    | .grad k => [.v k, .xa k]
    | .assign k => [.grad k, .l k]
    | .full => (List.range K.N).map .assign
    | .tupd => []
  reads
    | .gram _ i => [.A i]
    | .use _ i => [.A i]
    | .core _ => [.g]
    | .l0 k => [.L k]
    | .grad k => [.Am k]
    | .assign k => [.Am k]
    | .full => if K.core then [.g] else []
    | .tupd => [.t0]
    | _ => []
  writes
    | .l0 k => some (.L0 k)
    | .l k => some (.L k)
    | .assign k => some (.A k)
    | .tupd => some .t
    | _ => none
  kernel
    | .gram _ i, _, x => (tf.matmul (x (.A i)) (x (.A i)) true false).toOption
    | .use _ i, _, x => some (x (.A i))
    | .core _, _, x => some (x .g)
    | .b k, o, _ => do
        let ms ← (others K.N k).mapM fun i => o (.use k i)
        let g ← (if K.core then o (.core k) else some (num 0))
        (K.bOf k ms g).toOption
    | .xa k, o, _ => do
        let b ← o (.b k)
        (K.xaOf k b).toOption
    | .v k, o, _ =>
        if K.grams then do
          let gs ← (others K.N k).mapM fun i => o (.gram k i)
          (K.vOf k gs (num 0)).toOption
        else do
          let b ← o (.b k)
          (K.vOf k [] b).toOption
    | .sv k, o, _ => do
        let v ← o (.v k)
        (topSv v).toOption.map num
    | .l0 k, _, x => some (x (.L k))
    | .l k, o, _ => o (.sv k)
    | .grad k, o, x => do
        let v ← o (.v k)
        let xa ← o (.xa k)
        (do let mV ← tf.matmul (x (.Am k)) v
            tf.ewise (· - ·) mV xa : Res (Tensor ℝ)).toOption
    | .assign k, o, x => do
        let G ← o (.grad k)
        let l ← o (.l k)
        let a ← (bcu.proxStep (x (.Am k)) G (the l)).toOption
        if a.shape = K.shape k then some a else none
    | .full, o, x => do
        let A ← (List.range K.N).mapM fun k => o (.assign k)
        (K.fullOf (if K.core then x .g else num 0) A).toOption
    | .tupd, _, x => some (num ((1 + Real.sqrt (1 + 4 * the (x .t0) ^ 2)) / 2))

end Bcu

end TD.graph
