import Mathlib.Analysis.SpecialFunctions.Pow.Real
import Mathlib.Logic.Function.Basic
import Verif.Model.Cp

/-!
# The graphs built by `NCP_BCU.build_model` and `NTUCKER_BCU.build_model`
(`factorization/ncp.py:64-170`, `factorization/ntucker.py:64-202`)

Sequential (mode by mode) semantics, see `Props/Schedule.lean`.  `tf.reduce_max(tf.svd(·, compute_uv=False))` is
the argument `topSv`.  Real numbers for floats; a division by zero stops the model (`nonFinite`).
-/
namespace TD.bcu
open TD Tensor

/-- The variables of `NCP_BCU` (`ncp.py:72-105`); those of `NTUCKER_BCU` contain them (`ntucker.py:72-117`).
Simplification: a list of scalar variables is a function of its index. -/
structure State where
  A : List (Tensor ℝ)
  A0 : List (Tensor ℝ)
  Am : List (Tensor ℝ)
  L : Nat → ℝ
  L0 : Nat → ℝ
  wA : Nat → ℝ
  t : ℝ
  t0 : ℝ

/-- `variables[k]` (`ncp.py:74-81`, `ntucker.py:75-82`). -/
def getVar (vars : List (Tensor ℝ)) (k : Nat) : Res (Tensor ℝ) :=
  match vars[k]? with
  | some v => .ok v
  | none => .error .indexError

/-- `tf.nn.relu` (`ncp.py:74`, `ncp.py:124`). -/
noncomputable def relu (t : Tensor ℝ) : Tensor ℝ := tf.map (fun x => max x 0) t

/-- `tf.nn.relu(m - G / L)` (`ncp.py:124`, `ntucker.py:133`, `ntucker.py:150`). -/
noncomputable def proxStep (m G : Tensor ℝ) (L : ℝ) : Res (Tensor ℝ) :=
  if L = 0 then .error .nonFinite
  else do
    let d ← tf.ewise (· - ·) m (tf.map (· / L) G)
    return relu d

/-- `v / tf.norm(v) * tf.pow(input_norm, 1 / p)` (`ncp.py:91-92`, `ntucker.py:93-94`, `ntucker.py:101`). -/
noncomputable def normInit (X : Tensor ℝ) (p : Nat) (v : Tensor ℝ) : Res (Tensor ℝ) :=
  if tf.norm v = 0 then .error .nonFinite
  else .ok (tf.map (fun x => x / tf.norm v * Real.rpow (tf.norm X) (1 / (p : ℝ))) v)

/-- The factor variables after `init_op` and `other_init_op` (`ncp.py:72-94`, `ntucker.py:73-96`).  `draws k` is
what `tf.random_uniform` returned for mode `k`; the caller gives it the shape of the variable. -/
noncomputable def init (X : Tensor ℝ) (p : Nat) (draws : List (Tensor ℝ)) : Res State := do
  let A ← draws.mapM fun d => normInit X p (relu d)
  return ⟨A, A, A, fun _ => 1, fun _ => 1, fun _ => 1, 1, 1⟩

/-- Lines `ncp.py:119-124` and `ntucker.py:144-150`: gradient step of factor `mode`, given
`V` (the Gram matrix) and `XA` (the unfolding times the other factors). -/
noncomputable def factorStep (topSv : Tensor ℝ → Res ℝ) (st : State) (mode : Nat) (V XA : Tensor ℝ) : Res State := do
  let l ← topSv V
  let m ← getVar st.Am mode
  let mV ← tf.matmul m V
  let G ← tf.ewise (· - ·) mV XA
  let v ← proxStep m G l
  let A ← tf.assign st.A mode v
  return { st with
    A := A
    L0 := Function.update st.L0 mode (st.L mode)
    L := Function.update st.L mode l }

/-- `t.assign((1 + tf.sqrt(1 + 4 * tf.square(t0))) / 2)` (`ncp.py:137`, `ntucker.py:163`). -/
noncomputable def tUpdate (st : State) : State := { st with t := (1 + Real.sqrt (1 + 4 * st.t0 ^ 2)) / 2 }

/-- `w = (t0 - 1) / t` (`ncp.py:139`, `ntucker.py:165`). -/
noncomputable def weight (st : State) : Res ℝ :=
  match loss.fdiv (st.t0 - 1) st.t with
  | some w => .ok w
  | none => .error .nonFinite

/-- `tf.minimum(w, tf.sqrt(L0[k] / L[k]))` (`ncp.py:146`, `ntucker.py:172`, `ntucker.py:176`). -/
noncomputable def cappedWeight (st : State) (w : ℝ) (k : Nat) : Res ℝ :=
  match loss.fsqrt (loss.fdiv (st.L0 k) (st.L k)) with
  | some r => .ok (min w r)
  | none => .error .nonFinite

/-- `v + w * (v - v0)` (`ncp.py:147`, `ntucker.py:173`, `ntucker.py:178`). -/
noncomputable def extrapolate (w : ℝ) (v v0 : Tensor ℝ) : Res (Tensor ℝ) := do
  let d ← tf.ewise (· - ·) v v0
  tf.ewise (· + ·) v (tf.map (w * ·) d)

/-- One pass of the loop `ncp.py:142-149` restricted to `train_op1` (also `ntucker.py:167-175`). -/
noncomputable def extrapolateMode (w : ℝ) (st : State) (k : Nat) : Res State := do
  let wk ← cappedWeight st w k
  let a ← getVar st.A k
  let a0 ← getVar st.A0 k
  let m ← extrapolate wk a a0
  let Am ← tf.assign st.Am k m
  let A0 ← tf.assign st.A0 k a
  return { st with wA := Function.update st.wA k wk, Am := Am, A0 := A0 }

/-- `train_op1` of `NCP_BCU` (`ncp.py:142-153`): the objective decreased. -/
noncomputable def NCP.op1 (order : Nat) (st : State) : Res State := do
  let w ← weight st
  let st ← (List.range order).foldlM (extrapolateMode w) st
  return { st with t0 := st.t }

/-- `train_op2` of `NCP_BCU` (`ncp.py:144`): the objective did not decrease.  `A` is not written. -/
def NCP.op2 (st : State) : Res State := .ok { st with Am := st.A0 }

/-- The loop `ncp.py:108-124` for one `mode`. -/
noncomputable def NCP.modeUpdate (topSv : Tensor ℝ → Res ℝ) (X : Tensor ℝ) (st : State) (mode : Nat) : Res State := do
  let mat ← ops.unfold X mode
  let AtA ← st.A.mapM fun a => tf.matmul a a true false
  let K ← ops.khatri st.A (.int mode) true
  let XA ← tf.matmul mat K
  let V ← ops.hadamard AtA (.int mode)
  factorStep topSv st mode V XA

/-- `KTensor(A_update_op).extract()` (`ncp.py:126-128`). -/
def NCP.fullOf {α : Type} [CommSemiring α] (A : List (Tensor α)) : Res (Tensor α) := do
  let k ← KTensor.init .tf .float32 A none
  k.extract

/-- One run of the fetch list of `ncp.py:203-206`. -/
noncomputable def NCP.main (topSv : Tensor ℝ → Res ℝ) (X : Tensor ℝ) (st : State) :
    Res (State × fact.Out (List (Tensor ℝ)) (Tensor ℝ) (Tensor ℝ) ℝ) := do
  let st ← (List.range X.order).foldlM (NCP.modeUpdate topSv X) st
  let full ← NCP.fullOf st.A
  let (l, obj, rel) ← cp.scalars X full
  return (tUpdate st, ⟨st.A, none, full, l, obj, rel⟩)

/-- `np.ones(shape=(1, args.rank))` (`ncp.py:233`). -/
def NCP.ones (R : Nat) : Tensor ℝ := ofFn [1, R] fun _ => 1

/-- `NCP_BCU.train` with this graph (`ncp.py:172-237`). -/
noncomputable def NCP.cls (topSv : Tensor ℝ → Res ℝ) (X : Tensor ℝ) (R : Nat) :=
  fact.NCP_BCU.cls (NCP.main topSv X) (NCP.op1 X.order) NCP.op2 (NCP.ones R)

/-! ### `NTUCKER_BCU` -/

/-- The variables of `NTUCKER_BCU`; index `order` of `L`, `L0`, `wA` belongs to the core.  Simplification: the
variables `Bsq` and `Grad_g` are not kept, every read of them is of the value just assigned (`ntucker.py:72-117`). -/
structure TState extends State where
  g : Tensor ℝ
  g0 : Tensor ℝ
  gm : Tensor ℝ

/-- `init_op` and `other_init_op` (`ntucker.py:73-107`). -/
noncomputable def NTUCKER.init (X : Tensor ℝ) (draws : List (Tensor ℝ)) (gdraw : Tensor ℝ) : Res TState := do
  let st ← bcu.init X (X.order + 1) draws
  let g ← normInit X (X.order + 1) (relu gdraw)
  return { toState := st, g := g, g0 := g, gm := g }

/-- Assigning a core variable (`ntucker.py:133`, `ntucker.py:178-179`). -/
def assignCore (old v : Tensor ℝ) : Res (Tensor ℝ) :=
  if v.shape = old.shape then .ok v else .error .invalidArgument

/-- The run of `core_update_op` and `core_train_op` (`ntucker.py:125-133`). -/
noncomputable def NTUCKER.core (topSv : Tensor ℝ → Res ℝ) (X : Tensor ℝ) (st : TState) : Res (TState × Tensor ℝ) := do
  let AtA ← st.A.mapM fun a => tf.matmul a a true false
  let l ← ops.maxSingleValueMul topSv AtA
  let B ← ops.ttm st.gm AtA
  let B ← assignCore st.g B
  let XA ← ops.ttm X st.A none true
  let G ← tf.ewise (· - ·) B XA
  let G ← assignCore st.g G
  let v ← proxStep st.gm G l
  let g ← assignCore st.g v
  return ({ st with
    g := g
    L0 := Function.update st.L0 X.order (st.L X.order)
    L := Function.update st.L X.order l }, g)

/-- The loop `ntucker.py:136-150` for one `mode`. -/
noncomputable def NTUCKER.modeUpdate (topSv : Tensor ℝ → Res ℝ) (X g : Tensor ℝ) (st : State) (mode : Nat) :
    Res State := do
  let mat ← ops.unfold X mode
  let Y ← ops.ttm g st.A none false (.int mode)
  let B ← ops.unfold Y mode
  let XB ← tf.matmul mat B false true
  let V ← tf.matmul B B false true
  factorStep topSv st mode V XB

/-- `TTensor(g, A_update_op).extract()` (`ntucker.py:152-154`); `g` is the variable, which this run does not
write. -/
def NTUCKER.fullOf {α : Type} [CommSemiring α] (g : Tensor α) (A : List (Tensor α)) : Res (Tensor α) := do
  let t ← TTensor.init g .float32 A .float32
  t.extract

/-- One run of the fetch list of `ntucker.py:238-240`. -/
noncomputable def NTUCKER.main (topSv : Tensor ℝ → Res ℝ) (X : Tensor ℝ) (st : TState) :
    Res (TState × fact.Out (List (Tensor ℝ)) (Tensor ℝ) (Tensor ℝ) ℝ) := do
  let s ← (List.range X.order).foldlM (NTUCKER.modeUpdate topSv X st.g) st.toState
  let full ← NTUCKER.fullOf st.g s.A
  let (l, obj, rel) ← cp.scalars X full
  return ({ st with toState := tUpdate s }, ⟨s.A, none, full, l, obj, rel⟩)

/-- `train_op1` of `NTUCKER_BCU` (`ntucker.py:167-182`). -/
noncomputable def NTUCKER.op1 (order : Nat) (st : TState) : Res TState := do
  let w ← weight st.toState
  let s ← (List.range order).foldlM (extrapolateMode w) st.toState
  let wk ← cappedWeight s w order
  let m ← extrapolate wk st.g st.g0
  let gm ← assignCore st.gm m
  return { toState := { s with wA := Function.update s.wA order wk, t0 := s.t }, g := st.g, g0 := st.g, gm := gm }

/-- `train_op2` of `NTUCKER_BCU` (`ntucker.py:169-170`). -/
def NTUCKER.op2 (st : TState) : Res TState := .ok { st with Am := st.A0, gm := st.g0 }

/-- `NTUCKER_BCU.train` with this graph (`ntucker.py:204-269`). -/
noncomputable def NTUCKER.cls (topSv : Tensor ℝ → Res ℝ) (X : Tensor ℝ) :=
  fact.NTUCKER_BCU.cls (NTUCKER.core topSv X) (NTUCKER.main topSv X) (NTUCKER.op1 X.order) NTUCKER.op2

end TD.bcu
