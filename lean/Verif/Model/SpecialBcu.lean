import Mathlib.Analysis.SpecialFunctions.Pow.Real
import Mathlib.Logic.Function.Basic
import Verif.Model.SpecialLoss
import Verif.Model.Bcu

/-!
# The graphs of `NCP_BCU` and `NTUCKER_BCU` with rounding, overflow, infinities and NaN
(`factorization/ncp.py:64-170`, `factorization/ntucker.py:64-202`)

The text of `Model/Bcu.lean` on the numbers of `Model/Special.lean`: every operation is rounded, divisions by zero give infinities
or NaN and do not stop the run.  The singular value routine is any function `topSv`.

Simplifications: those of `Model/Special.lean` and `Model/Bcu.lean`; `relu` of NaN is NaN and `minimum` is C++'s `std::min` (no
theorem depends on the second).
-/
namespace TD.sp
open TD Tensor
variable {F : Fmt}

/-- The variables, as in `bcu.State` (`ncp.py:72-105`). -/
structure State (F : Fmt) where
  A : List (Tensor (Num F))
  A0 : List (Tensor (Num F))
  Am : List (Tensor (Num F))
  L : Nat → Num F
  L0 : Nat → Num F
  wA : Nat → Num F
  t : Num F
  t0 : Num F

/-- `variables[k]` (`ncp.py:74-81`). -/
def getVar (vars : List (Tensor (Num F))) (k : Nat) : Res (Tensor (Num F)) :=
  match vars[k]? with
  | some v => .ok v
  | none => .error .indexError

/-- `tf.nn.relu` of one number (`ncp.py:124`). -/
noncomputable def relu1 (x : Num F) : Num F := if x.lt 0 then 0 else x

/-- `tf.nn.relu` (`ncp.py:74`, `ncp.py:124`). -/
noncomputable def relu (t : Tensor (Num F)) : Tensor (Num F) := tf.map relu1 t

/-- `tf.pow(x, 1 / p)` of a number that is not negative; the power is rounded once (`ncp.py:92`, `ntucker.py:94`). -/
noncomputable def root (p : Nat) : Num F → Num F
  | .fin x _ => if x < 0 then .nan else .round F (Real.rpow x (1 / (p : ℝ)))
  | .inf s => if s then .nan else .inf false
  | .nan => .nan

/-- `tf.minimum` (`ncp.py:146`). -/
noncomputable def minimum (x y : Num F) : Num F := if y.lt x then y else x

/-- `tf.nn.relu(m - G / L)` (`ncp.py:124`, `ntucker.py:133`, `ntucker.py:150`). -/
noncomputable def proxStep (m G : Tensor (Num F)) (L : Num F) : Res (Tensor (Num F)) := do
  let d ← tf.ewise (· - ·) m (tf.map (· / L) G)
  return relu d

/-- `v / tf.norm(v) * tf.pow(input_norm, 1 / p)` (`ncp.py:91-92`, `ntucker.py:93-94`, `ntucker.py:101`). -/
noncomputable def normInit (X : Tensor (Num F)) (p : Nat) (v : Tensor (Num F)) : Tensor (Num F) :=
  tf.map (fun x => x / norm v * root p (norm X)) v

/-- The variables after `init_op` and `other_init_op` (`ncp.py:72-105`, `ntucker.py:73-112`). -/
noncomputable def init (X : Tensor (Num F)) (p : Nat) (draws : List (Tensor (Num F))) : State F :=
  let A := draws.map fun d => normInit X p (relu d)
  ⟨A, A, A, fun _ => 1, fun _ => 1, fun _ => 1, 1, 1⟩

/-- Lines `ncp.py:119-124` and `ntucker.py:144-150`. -/
noncomputable def factorStep (topSv : Tensor (Num F) → Res (Num F)) (st : State F) (mode : Nat) (V XA : Tensor (Num F)) :
    Res (State F) := do
  let l ← topSv V
  let m ← getVar st.Am mode
  let mV ← tf.matmul m V
  let G ← tf.ewise (· - ·) mV XA
  let v ← proxStep m G l
  let A ← tf.assign st.A mode v
  return { st with
    A := A
    L0 := Function.update st.L0 mode (st.L mode)
    L := Function.update st.L mode l }

/-- `t.assign((1 + tf.sqrt(1 + 4 * tf.square(t0))) / 2)` (`ncp.py:137`, `ntucker.py:163`). -/
noncomputable def tUpdate (st : State F) : State F :=
  { st with t := (1 + (1 + const F 4 * (st.t0 * st.t0)).sqrt) / const F 2 }

/-- `w = (t0 - 1) / t` (`ncp.py:139`, `ntucker.py:165`). -/
noncomputable def weight (st : State F) : Num F := (st.t0 - 1) / st.t

/-- `tf.minimum(w, tf.sqrt(L0[k] / L[k]))` (`ncp.py:146`, `ntucker.py:172`, `ntucker.py:176`). -/
noncomputable def cappedWeight (st : State F) (w : Num F) (k : Nat) : Num F := minimum w (st.L0 k / st.L k).sqrt

/-- `v + w * (v - v0)` (`ncp.py:147`, `ntucker.py:173`, `ntucker.py:178`). -/
noncomputable def extrapolate (w : Num F) (v v0 : Tensor (Num F)) : Res (Tensor (Num F)) := do
  let d ← tf.ewise (· - ·) v v0
  tf.ewise (· + ·) v (tf.map (w * ·) d)

/-- One pass of the loop `ncp.py:142-149` restricted to `train_op1` (also `ntucker.py:167-175`). -/
noncomputable def extrapolateMode (w : Num F) (st : State F) (k : Nat) : Res (State F) := do
  let wk := cappedWeight st w k
  let a ← getVar st.A k
  let a0 ← getVar st.A0 k
  let m ← extrapolate wk a a0
  let Am ← tf.assign st.Am k m
  let A0 ← tf.assign st.A0 k a
  return { st with wA := Function.update st.wA k wk, Am := Am, A0 := A0 }

/-- `train_op1` of `NCP_BCU` (`ncp.py:142-153`): the objective decreased. -/
noncomputable def NCP.op1 (order : Nat) (st : State F) : Res (State F) := do
  let w := weight st
  let st ← (List.range order).foldlM (extrapolateMode w) st
  return { st with t0 := st.t }

/-- `train_op2` of `NCP_BCU` (`ncp.py:144`): the objective did not decrease.  `A` is not written. -/
def NCP.op2 (st : State F) : Res (State F) := .ok { st with Am := st.A0 }

/-- The loop `ncp.py:108-124` for one `mode`. -/
noncomputable def NCP.modeUpdate (topSv : Tensor (Num F) → Res (Num F)) (X : Tensor (Num F)) (st : State F) (mode : Nat) :
    Res (State F) := do
  let mat ← ops.unfold X mode
  let AtA ← st.A.mapM fun a => tf.matmul a a true false
  let K ← ops.khatri st.A (.int mode) true
  let XA ← tf.matmul mat K
  let V ← ops.hadamard AtA (.int mode)
  factorStep topSv st mode V XA

/-- `KTensor(A_update_op).extract()` (`ncp.py:126-128`). -/
noncomputable def NCP.fullOf (A : List (Tensor (Num F))) : Res (Tensor (Num F)) := do
  let k ← KTensor.init .tf .float32 A none
  k.extract

/-- The scalars fetched by `train` (`ncp.py:129-134`, `ntucker.py:155-160`). -/
noncomputable def scalars (X full : Tensor (Num F)) : Res (Num F × Num F × Num F) := do
  let l ← rmseIgnoreZero X full
  let obj ← objective X full
  let rel ← relResidual X full
  return (l, obj, rel)

/-- One run of the fetch list of `ncp.py:203-206`. -/
noncomputable def NCP.main (topSv : Tensor (Num F) → Res (Num F)) (X : Tensor (Num F)) (st : State F) :
    Res (State F × fact.Out (List (Tensor (Num F))) (Tensor (Num F)) (Tensor (Num F)) (Num F)) := do
  let st ← (List.range X.order).foldlM (NCP.modeUpdate topSv X) st
  let full ← NCP.fullOf st.A
  let (l, obj, rel) ← scalars X full
  return (tUpdate st, ⟨st.A, none, full, l, obj, rel⟩)

/-- `NCP_BCU.train` with this graph (`ncp.py:172-237`). -/
noncomputable def NCP.cls (topSv : Tensor (Num F) → Res (Num F)) (X : Tensor (Num F)) (R : Nat) :=
  fact.NCP_BCU.cls (NCP.main topSv X) (NCP.op1 X.order) NCP.op2 (ofFn [1, R] fun _ => (1 : Num F))

/-! ### `NTUCKER_BCU` -/

/-- The variables of `NTUCKER_BCU`, as in `bcu.TState` (`ntucker.py:72-117`). -/
structure TState (F : Fmt) extends State F where
  g : Tensor (Num F)
  g0 : Tensor (Num F)
  gm : Tensor (Num F)

/-- `init_op` and `other_init_op` (`ntucker.py:73-107`). -/
noncomputable def NTUCKER.init (X : Tensor (Num F)) (draws : List (Tensor (Num F))) (gdraw : Tensor (Num F)) : TState F :=
  let g := normInit X (X.order + 1) (relu gdraw)
  { toState := sp.init X (X.order + 1) draws, g := g, g0 := g, gm := g }

/-- Assigning a core variable (`ntucker.py:133`, `ntucker.py:178-179`). -/
def assignCore (old v : Tensor (Num F)) : Res (Tensor (Num F)) :=
  if v.shape = old.shape then .ok v else .error .invalidArgument

/-- The run of `core_update_op` and `core_train_op` (`ntucker.py:125-133`). -/
noncomputable def NTUCKER.core (topSv : Tensor (Num F) → Res (Num F)) (X : Tensor (Num F)) (st : TState F) :
    Res (TState F × Tensor (Num F)) := do
  let AtA ← st.A.mapM fun a => tf.matmul a a true false
  let l ← ops.maxSingleValueMul topSv AtA
  let B ← ops.ttm st.gm AtA
  let B ← assignCore st.g B
  let XA ← ops.ttm X st.A none true
  let G ← tf.ewise (· - ·) B XA
  let G ← assignCore st.g G
  let v ← proxStep st.gm G l
  let g ← assignCore st.g v
  return ({ st with
    g := g
    L0 := Function.update st.L0 X.order (st.L X.order)
    L := Function.update st.L X.order l }, g)

/-- The loop `ntucker.py:136-150` for one `mode`. -/
noncomputable def NTUCKER.modeUpdate (topSv : Tensor (Num F) → Res (Num F)) (X g : Tensor (Num F)) (st : State F) (mode : Nat) :
    Res (State F) := do
  let mat ← ops.unfold X mode
  let Y ← ops.ttm g st.A none false (.int mode)
  let B ← ops.unfold Y mode
  let XB ← tf.matmul mat B false true
  let V ← tf.matmul B B false true
  factorStep topSv st mode V XB

/-- `TTensor(g, A_update_op).extract()` (`ntucker.py:152-154`). -/
noncomputable def NTUCKER.fullOf (g : Tensor (Num F)) (A : List (Tensor (Num F))) : Res (Tensor (Num F)) := do
  let t ← TTensor.init g .float32 A .float32
  t.extract

/-- One run of the fetch list of `ntucker.py:238-240`. -/
noncomputable def NTUCKER.main (topSv : Tensor (Num F) → Res (Num F)) (X : Tensor (Num F)) (st : TState F) :
    Res (TState F × fact.Out (List (Tensor (Num F))) (Tensor (Num F)) (Tensor (Num F)) (Num F)) := do
  let s ← (List.range X.order).foldlM (NTUCKER.modeUpdate topSv X st.g) st.toState
  let full ← NTUCKER.fullOf st.g s.A
  let (l, obj, rel) ← scalars X full
  return ({ st with toState := tUpdate s }, ⟨s.A, none, full, l, obj, rel⟩)

/-- `train_op1` of `NTUCKER_BCU` (`ntucker.py:167-182`). -/
noncomputable def NTUCKER.op1 (order : Nat) (st : TState F) : Res (TState F) := do
  let w := weight st.toState
  let s ← (List.range order).foldlM (extrapolateMode w) st.toState
  let wk := cappedWeight s w order
  let m ← extrapolate wk st.g st.g0
  let gm ← assignCore st.gm m
  return { toState := { s with wA := Function.update s.wA order wk, t0 := s.t }, g := st.g, g0 := st.g, gm := gm }

/-- `train_op2` of `NTUCKER_BCU` (`ntucker.py:169-170`). -/
def NTUCKER.op2 (st : TState F) : Res (TState F) := .ok { st with Am := st.A0, gm := st.g0 }

/-- `NTUCKER_BCU.train` with this graph (`ntucker.py:204-269`). -/
noncomputable def NTUCKER.cls (topSv : Tensor (Num F) → Res (Num F)) (X : Tensor (Num F)) :=
  fact.NTUCKER_BCU.cls (NTUCKER.core topSv X) (NTUCKER.main topSv X) (NTUCKER.op1 X.order) NTUCKER.op2

end TD.sp
