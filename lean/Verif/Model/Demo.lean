import Verif.Model.Process
import Verif.Model.Tucker
import Verif.Model.Ratings

/-!
# The demonstration programs (`demo/multigraph_demo.py`, `cp_demo.py`, `ncp_demo.py`, `tucker_demo.py`, `ntucker_demo.py`)
-/
namespace TD.demo
open TD Tensor fact process sp

/-- `np.arange(60).reshape(3, 4, 5) + i` (`multigraph_demo.py:18`). -/
noncomputable def arange (i : Nat) : Tensor ℝ := ofFn [3, 4, 5] fun idx => ((ravel [3, 4, 5] idx + i : Nat) : ℝ)

/-- The types of a process with models of the class `HOOI`. -/
abbrev HooiProcess := Process (List (Tensor ℝ)) (List (Tensor ℝ)) (Tensor ℝ) (Tensor ℝ) ℝ

/-- One pass of the loop of `multigraph_demo.py:15-27`: a new graph, a new model, the printed sum, a new default graph.  Graphs are
numbered: `2 * i + 1` is `g1`, `2 * i + 2` the default graph after `tf.reset_default_graph()`. -/
noncomputable def pass (A : Arith ℝ) (svd : Tensor ℝ → Res (Tensor ℝ × Tensor ℝ × Tensor ℝ)) (p : HooiProcess) (i : Nat) : Res (HooiProcess × ℝ) := do
  let X := arange i
  let p := p.step A (.enter (2 * i + 1))
  let p := p.step A (.build i (.loop (fact.HOOI.cls (tucker.HOOI.main svd X [2, 2, 2])) { validationInternal := 5, verbose := false, tol := 1 / 10 ^ 4 }))
  let _ ← (p.train A i 100 (tucker.HOOI.init svd X [2, 2, 2])).2.2
  let p := p.step A (.train i 100 (tucker.HOOI.init svd X [2, 2, 2]))
  match (p.self i).full with
  | none => .error .typeError
  | some Y => do
    let d ← tf.ewise (· - ·) Y X
    return (p.step A (.enter (2 * i + 2)), tf.reduceSum d)

/-- `multigraph_demo.py:15-27` with `n` passes (the program makes 3): the numbers printed. -/
noncomputable def multigraph (A : Arith ℝ) (svd : Tensor ℝ → Res (Tensor ℝ × Tensor ℝ × Tensor ℝ)) (n : Nat) : Res (List ℝ) := do
  let r ← (List.range n).foldlM (init := (({}, []) : HooiProcess × List ℝ)) fun st i => do
    let (p, v) ← pass A svd st.1 i
    return (p, st.2 ++ [v])
  return r.2

/-- Training and end of the other programs, on the data `T` they have generated: `cp_demo.py:22-26`, `ncp_demo.py:22-26`,
`tucker_demo.py:21-25`, `ntucker_demo.py:22-26`.  The result is the outcome of `train`; the programs ignore the history and read
attributes, which cannot raise. -/
noncomputable def single {F : Fmt} (w : ex.World F) (alg : ex.Alg) (T : Tensor (Num F)) : Res Unit :=
  match alg with
  | .cp => (train w.Ar (CP.cls w.pinv T 10) ⟨5, false, w.tol⟩ 100 (.ok w.cp) {}).2.2.map fun _ => ()
  | .ncp => (train w.Ar (NCP.cls w.topSv T 10) ⟨10, false, w.tol⟩ 1000 (.ok (sp.init T T.order w.ncp)) {}).2.2.map fun _ => ()
  | .tucker => (train w.Ar (sp.HOOI.cls w.svd T [10, 10, 10]) ⟨5, false, w.tol⟩ 50 (tucker.HOOI.init w.svd T [10, 10, 10]) {}).2.2.map fun _ => ()
  | .ntucker => (train w.Ar (NTUCKER.cls w.topSv T) ⟨10, false, w.tol⟩ 2000 (.ok (NTUCKER.init T w.ntucker w.core)) {}).2.2.map fun _ => ()

end TD.demo
