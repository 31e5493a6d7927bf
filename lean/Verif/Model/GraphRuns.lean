import Verif.Model.Graphs

/-!
# The other session runs of `NCP_BCU` and `NTUCKER_BCU` as graphs

`other_init_op` (`ncp.py:162`, `ntucker.py:191`), the core run (`ntucker.py:233`), `train_op1` and `train_op2`
(`ncp.py:227-231`, `ntucker.py:261-265`).  None of the assignments has a control dependency on the *reads* of the
variables it overwrites; that no schedule can tell is what `Props/Runs.lean` proves.
-/
namespace TD.graph.Bcu
open TD Tensor

/-- The value an `assign` accepts: the shape of the variable is fixed (`ncp.py:93-94`, `ntucker.py:178-179`). -/
def fits (sh : List Nat) (v : Tensor ℝ) : Option (Tensor ℝ) := if v.shape = sh then some v else none

/-- Slot `k` of a model with `N` modes: factor `k`, or the core for `k = N` (`ncp.py:74`, `ntucker.py:75`). -/
def cur (N k : Nat) : Var := if k < N then .A k else .g
/-- The best value kept for slot `k` (`ncp.py:80`, `ntucker.py:81`). -/
def best (N k : Nat) : Var := if k < N then .A0 k else .g0
/-- The extrapolated value of slot `k` (`ncp.py:78`, `ntucker.py:79`). -/
def mid (N k : Nat) : Var := if k < N then .Am k else .gm

/-- The slots: the modes and, for `NTUCKER_BCU`, the core (`ncp.py:142`, `ntucker.py:167-179`). -/
def slots (N : Nat) (core : Bool) : List Nat := List.range (if core then N + 1 else N)

/-! ### `train_op1` (`ncp.py:138-153`, `ntucker.py:164-182`) -/
namespace Op1

/-- `w`: line 139 (165); `cap k`: `tf.minimum(w, tf.sqrt(L0[k] / L[k]))` (146; 172, 176); `wA k`: `wA_update_op1` (146;
172, 176); `diff k`: `A[k] - A0[k]` (147; 173, 178); `ext k`: the rest of `Am_update_op1`, `gm_update_op1` (147; 173,
178); `keep k`: `A0_update_op1`, `g0_update_op1` (149; 175, 180); `t0`: `t0_update_op1` (153; 182)
(`ncp.py:139-153`, `ntucker.py:165-182`). -/
inductive Op where
  | w | cap (k : Nat) | wA (k : Nat) | diff (k : Nat) | ext (k : Nat) | keep (k : Nat) | t0
  deriving DecidableEq

/-- The operations of one slot (`ncp.py:146-149`, `ntucker.py:172-179`). -/
def slotOps (k : Nat) : List Op := [.cap k, .wA k, .diff k, .ext k, .keep k]

/-- The graph; `shape k` is the shape of the variables of slot `k` (`ncp.py:139-153`, `ntucker.py:165-182`). -/
noncomputable def build (N : Nat) (core : Bool) (shape : Nat → List Nat) : Graph Op Var (Tensor ℝ) where
  nodes := .w :: (slots N core).flatMap slotOps ++ [.t0]
  deps
    | .w => []
    | .cap _ => [.w]
    | .wA k => [.cap k]
    | .diff _ => []
    | .ext k => [.wA k, .diff k]
    | .keep k => [.ext k]
    | .t0 => [.ext (N - 1)]
  reads
    | .w => [.t0, .t]
    | .cap k => [.L0 k, .L k]
    | .wA _ => []
    | .diff k => [cur N k, best N k]
    | .ext k => [cur N k]
    | .keep k => [cur N k]
    | .t0 => [.t]
  writes
    | .wA k => some (.wA k)
    | .ext k => some (mid N k)
    | .keep k => some (best N k)
    | .t0 => some .t0
    | _ => none
  kernel
    | .w, _, x => (loss.fdiv (the (x .t0) - 1) (the (x .t))).map num
    | .cap k, o, x => do
        let w ← o .w
        (loss.fsqrt (loss.fdiv (the (x (.L0 k))) (the (x (.L k))))).map fun r => num (min (the w) r)
    | .wA k, o, _ => o (.cap k)
    | .diff k, _, x => (tf.ewise (· - ·) (x (cur N k)) (x (best N k))).toOption
    | .ext k, o, x => do
        let w ← o (.wA k)
        let d ← o (.diff k)
        let v ← (tf.ewise (· + ·) (x (cur N k)) (tf.map (the w * ·) d)).toOption
        fits (shape k) v
    | .keep k, _, x => fits (shape k) (x (cur N k))
    | .t0, _, x => some (x .t)

end Op1

/-! ### `train_op2` (`ncp.py:144`, `ntucker.py:169-170`) -/
namespace Op2

/-- `Am_update_op2[k]`, or `gm_update_op2`.  `ntucker.py:170` makes one `gm_update_op2` per mode; only the last one is
in the group. -/
inductive Op where
  | back (k : Nat)
  deriving DecidableEq

/-- The graph (`ncp.py:144`, `ntucker.py:169-170`). -/
def build (N : Nat) (core : Bool) (shape : Nat → List Nat) : Graph Op Var (Tensor ℝ) where
  nodes := (slots N core).map .back
  deps _ := []
  reads | .back k => [best N k]
  writes | .back k => some (mid N k)
  kernel | .back k, _, x => fits (shape k) (x (best N k))

end Op2

/-! ### `other_init_op` (`ncp.py:86-94`, `ntucker.py:88-107`) -/

/-- The variables after `init_op` (`ncp.py:72-104`): drawn factors, zeros, ones. -/
noncomputable def fresh (draws : List (Tensor ℝ)) : bcu.State :=
  ⟨draws.map bcu.relu, draws.map (tf.map fun _ => 0), draws.map (tf.map fun _ => 0), fun _ => 1, fun _ => 1, fun _ => 1, 1, 1⟩

/-- The variables of `NTUCKER_BCU` after `init_op` (`ntucker.py:73-117`). -/
noncomputable def tfresh (draws : List (Tensor ℝ)) (gdraw : Tensor ℝ) : bcu.TState :=
  { toState := fresh draws, g := bcu.relu gdraw, g0 := tf.map (fun _ => 0) gdraw, gm := tf.map (fun _ => 0) gdraw }

namespace Init

/-- `nrm k`: `tf.norm(A[k])`; `quot k`: the division, which reads the variable again, and the product; `scale k`: the
assignment, `norm_init_op[k]` or `g_norm_init` (`ncp.py:91-92`, `ntucker.py:93-94`, `ntucker.py:101`); `to0 k`:
`A0_init_op`, `g0_init_op`; `toM k`: `Am_init_op`, `gm_init_op`. -/
inductive Op where
  | nrm (k : Nat) | quot (k : Nat) | scale (k : Nat) | to0 (k : Nat) | toM (k : Nat)
  deriving DecidableEq

/-- The operations of one slot (`ncp.py:91-94`, `ntucker.py:93-103`). -/
def slotOps (k : Nat) : List Op := [.nrm k, .quot k, .scale k, .to0 k, .toM k]

/-- The graph; `p` is the exponent's denominator (`ncp.py:86-94`, `ntucker.py:88-107`). -/
noncomputable def build (X : Tensor ℝ) (p N : Nat) (core : Bool) (shape : Nat → List Nat) : Graph Op Var (Tensor ℝ) where
  nodes := (slots N core).flatMap slotOps
  deps
    | .nrm _ => []
    | .quot k => [.nrm k]
    | .scale k => [.quot k]
    | .to0 k => [.scale k]
    | .toM k => [.scale k]
  reads
    | .nrm k => [cur N k]
    | .quot k => [cur N k]
    | _ => []
  writes
    | .scale k => some (cur N k)
    | .to0 k => some (best N k)
    | .toM k => some (mid N k)
    | _ => none
  kernel
    | .nrm k, _, x => some (num (tf.norm (x (cur N k))))
    | .quot k, o, x => do
        let r ← o (.nrm k)
        if the r = 0 then none
        else some (tf.map (fun y => y / the r * Real.rpow (tf.norm X) (1 / (p : ℝ))) (x (cur N k)))
    | .scale k, o, _ => do
        let v ← o (.quot k)
        fits (shape k) v
    | .to0 k, o, _ => do
        let v ← o (.scale k)
        fits (shape k) v
    | .toM k, o, _ => do
        let v ← o (.scale k)
        fits (shape k) v

end Init

/-! ### The core run (`ntucker.py:126-133`, fetched at 233) -/
namespace Core

/-- `gram i`: `AtA_g[i]` (126); `l0`: `L0_update_op[order]` (128); `sv`: `ops.max_single_value_mul` (130); `l`:
`L_update_op[order]` (130); `bsq`: `Bsq_update_op_g` (131); `use i`: the operation of `ops.ttm(input_data, A)` that
consumes `A[i]` (132); `xa`: the rest of it; `grad`: `Grad_g_update_op` (132); `assign`: `g_update_op` (133).
Simplification: the variables `Bsq` and `Grad_g` are not kept, `bsq` and `grad` only pass their value on
(`ntucker.py:126-133`). -/
inductive Op where
  | gram (i : Nat) | l0 | sv | l | bsq | use (i : Nat) | xa | grad | assign
  deriving DecidableEq

/-- The graph (`ntucker.py:126-133`). -/
noncomputable def build (topSv : Tensor ℝ → Res ℝ) (X : Tensor ℝ) (ranks : List Nat) : Graph Op Var (Tensor ℝ) where
  nodes := (List.range X.order).map .gram ++ (List.range X.order).map .use ++ [.l0, .sv, .l, .bsq, .xa, .grad, .assign]
  deps
    | .sv => (List.range X.order).map .gram
    | .l => [.l0, .sv]
    | .bsq => (List.range X.order).map .gram
    | .xa => (List.range X.order).map .use
    | .grad => [.bsq, .xa]
    | .assign => [.grad, .l]
    | _ => []
  reads
    | .gram i => [.A i]
    | .l0 => [.L X.order]
    | .bsq => [.gm]
    | .use i => [.A i]
    | .assign => [.gm]
    | _ => []
  writes
    | .l0 => some (.L0 X.order)
    | .l => some (.L X.order)
    | .assign => some .g
    | _ => none
  kernel
    | .gram i, _, x => (tf.matmul (x (.A i)) (x (.A i)) true false).toOption
    | .l0, _, x => some (x (.L X.order))
    | .sv, o, _ => do
        let gs ← (List.range X.order).mapM fun i => o (.gram i)
        (ops.maxSingleValueMul topSv gs).toOption.map num
    | .l, o, _ => o .sv
    | .bsq, o, x => do
        let gs ← (List.range X.order).mapM fun i => o (.gram i)
        let b ← (ops.ttm (x .gm) gs).toOption
        fits ranks b
    | .use i, _, x => some (x (.A i))
    | .xa, o, _ => do
        let A ← (List.range X.order).mapM fun i => o (.use i)
        (ops.ttm X A none true).toOption
    | .grad, o, _ => do
        let b ← o .bsq
        let xa ← o .xa
        let d ← (tf.ewise (· - ·) b xa).toOption
        fits ranks d
    | .assign, o, x => do
        let d ← o .grad
        let l ← o .l
        let v ← (bcu.proxStep (x .gm) d (the l)).toOption
        fits ranks v

end Core

end TD.graph.Bcu
