import Verif.Model.Experiment
import Verif.Model.FloatText
import Verif.Model.SpecialTucker
import Verif.Model.SpecialCp
import Verif.Model.SpecialBcu

/-!
# The rating scripts (`ex/ml_cp.py`, `ex/ml_ncp.py`, `ex/ml_tucker.py`, `ex/ml_ntucker.py`)

Each script reads one file of ratings, trains on it and writes the history to a file of its own.  The model of files is that
of `Verif/Model/Experiment.lean`.
-/
namespace TD.ex
open TD reader fact sp

/-- `full_shape` (`ml_cp.py:9`, `ml_ncp.py:18`, `ml_tucker.py:18`, `ml_ntucker.py:17`). -/
def mlShape : List Nat := [943, 1682, 31]

/-- The file of ratings (`ml_cp.py:10`, `ml_ncp.py:19`, `ml_tucker.py:19`, `ml_ntucker.py:18`). -/
def mlIn : List Char := "/root/tensorD_f/data_out_tmp/u1.base.csv".toList

/-- `out_path` (`ml_cp.py:21`, `ml_ncp.py:30`, `ml_tucker.py:30`, `ml_ntucker.py:29`). -/
def mlOut : Alg → List Char
  | .cp => "/root/tensorD_f/data_out_tmp/python_out/cp_ml_20.txt".toList
  | .ncp => "/root/tensorD_f/data_out_tmp/python_out/ncp_ml_20.txt".toList
  | .tucker => "/root/tensorD_f/data_out_tmp/python_out/hooi_ml_20.txt".toList
  | .ntucker => "/root/tensorD_f/data_out_tmp/python_out/ntucker_ml_20.txt".toList

/-- A script (`ml_cp.py:8-26`, `ml_ncp.py:17-35`, `ml_tucker.py:17-35`, `ml_ntucker.py:16-34`).  `trained` is `build_model` and
`train` on the tensor that was read; `toPy` is the conversion of a value of the history to a Python float. -/
def ml {α : Type} [Zero α] (pyFloat : List Char → Option α) (toPy : α → PyFloat) (alg : Alg)
    (trained : Tensor α → Res (List (α × α))) (fs : Files) : Files × Res Unit :=
  match fs mlIn with
  | none => (fs, .error .fileNotFound)
  | some content =>
    match fullData pyFloat mlIn content (some mlShape) with
    | .error e => (fs, .error e)
    | .ok T =>
      match trained T with
      | .error e => (fs, .error e)
      | .ok hist => (Function.update fs (mlOut alg) (some (report (hist.map fun p => (toPy p.1, toPy p.2)))), .ok ())

/-- Several of the scripts, one after the other (`ml_cp.py:8-26` and the others). -/
def mls {α : Type} [Zero α] (pyFloat : List Char → Option α) (toPy : α → PyFloat)
    (rs : List (Alg × (Tensor α → Res (List (α × α))))) (fs : Files) : Files :=
  rs.foldl (fun fs r => (ml pyFloat toPy r.1 r.2 fs).1) fs

/-- What the trainings use besides the data: the linear algebra routines, the arithmetic of the stopping test, the tolerance and
the random draws of the four scripts (`cp.py:71-73`, `ncp.py:72-74`, `ntucker.py:73-76`). -/
structure World (F : Fmt) where
  Ar : Arith (Num F)
  tol : Num F
  pinv : Tensor (Num F) → Res (Tensor (Num F))
  topSv : Tensor (Num F) → Res (Num F)
  svd : Svd F
  cp : List (Tensor (Num F))
  ncp : List (Tensor (Num F))
  ntucker : List (Tensor (Num F))
  core : Tensor (Num F)

/-- `build_model(args)` and `train(steps)` of each script (`ml_cp.py:17-20`, `ml_ncp.py:26-29`, `ml_tucker.py:26-29`,
`ml_ntucker.py:25-28`). -/
noncomputable def mlTrain {F : Fmt} (w : World F) (alg : Alg) (T : Tensor (Num F)) : Res (List (Num F × Num F)) :=
  match alg with
  | .cp => (train w.Ar (CP.cls w.pinv T 20) ⟨1, false, w.tol⟩ 100 (.ok w.cp) {}).2.2
  | .ncp => (train w.Ar (NCP.cls w.topSv T 20) ⟨1, false, w.tol⟩ 100 (.ok (sp.init T T.order w.ncp)) {}).2.2
  | .tucker =>
    (train w.Ar (HOOI.cls w.svd T [20, 20, 20]) ⟨1, false, w.tol⟩ 100 (tucker.HOOI.init w.svd T [20, 20, 20]) {}).2.2
  | .ntucker =>
    (train w.Ar (NTUCKER.cls w.topSv T) ⟨20, false, w.tol⟩ 2000 (.ok (NTUCKER.init T w.ntucker w.core)) {}).2.2

/-- `build_model(args)` and `train(steps)` of the experiment scripts, on the data `T` they have generated (`cp_ex.py:26-29`,
`ncp_ex.py:23-26`, `tucker_ex.py:22-25`, `ntucker_ex.py:23-26`).  Simplification: the rank is not negative. -/
noncomputable def exTrain {F : Fmt} (w : World F) (j : Job) (T : Tensor (Num F)) : Res (List (Num F × Num F)) :=
  let r := j.dR.toNat
  match j.alg with
  | .cp => (train w.Ar (CP.cls w.pinv T r) ⟨50, false, w.tol⟩ 600 (.ok w.cp) {}).2.2
  | .ncp => (train w.Ar (NCP.cls w.topSv T r) ⟨200, false, w.tol⟩ 6000 (.ok (sp.init T T.order w.ncp)) {}).2.2
  | .tucker => (train w.Ar (HOOI.cls w.svd T [r, r, r]) ⟨10, false, w.tol⟩ 100 (tucker.HOOI.init w.svd T [r, r, r]) {}).2.2
  | .ntucker => (train w.Ar (NTUCKER.cls w.topSv T) ⟨500, false, w.tol⟩ 10000 (.ok (NTUCKER.init T w.ntucker w.core)) {}).2.2

/-- A whole experiment script: train, then write (`cp_ex.py:26-36`, `ncp_ex.py:23-33`, `tucker_ex.py:22-32`, `ntucker_ex.py:23-33`). -/
noncomputable def exRun {F : Fmt} (toPy : Num F → PyFloat) (w : World F) (T : Tensor (Num F)) (j : Job) (fs : Files) : Files × Res Unit :=
  run j ((exTrain w j T).map fun hist => hist.map fun p => (toPy p.1, toPy p.2)) fs

end TD.ex
