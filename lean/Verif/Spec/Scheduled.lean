import Verif.Model.Graphs
import Verif.Model.GraphRuns

/-!
# A session whose executor schedules the operations as it likes
-/
namespace TD.graph
open TD Tensor

/-- `r` is a possible outcome of one `sess.run` on the variables `x`.  A run that returns has executed every operation,
in some order the graph allows, and none has failed; `fetch` reads the fetched values off the finished operations.
A run that raises has met a failed operation, perhaps long before the others were finished, or has finished with a
value that cannot be fetched. -/
def Outcome {ι ν β γ : Type} [DecidableEq ι] [DecidableEq ν] (G : Graph ι ν β) (fetch : Cfg ι ν β → Option γ) (x : ν → β) :
    Res ((ν → β) × γ) → Prop
  | .ok (x', o) => ∃ c, Reaches G x c ∧ Complete G c ∧ ¬ Failed G c ∧ c.vars = x' ∧ fetch c = some o
  | .error _ => ∃ c, Reaches G x c ∧ (Failed G c ∨ Complete G c ∧ fetch c = none)

/-- Forget what the executor keeps besides the variables. -/
def forget {ν β Ω γ : Type} (r : Res (((ν → β) × Ω) × γ)) : Res ((ν → β) × γ) := r.map fun p => (p.1.1, p.2)

/-- The session keeps the variables and some `ω : Ω`, on which the choices of the executor may depend (thread
timing, a random seed, the history of earlier runs); `run` is a session run of the graph `G`. -/
def Schedules {ι ν β γ Ω : Type} [DecidableEq ι] [DecidableEq ν] (G : Graph ι ν β) (fetch : Cfg ι ν β → Option γ)
    (run : (ν → β) × Ω → Res (((ν → β) × Ω) × γ)) : Prop := ∀ x ω, Outcome G fetch x (forget (run (x, ω)))

/-- The same for a run that fetches nothing but operations. -/
def SchedulesOp {ι ν β Ω : Type} [DecidableEq ι] [DecidableEq ν] (G : Graph ι ν β) (run : (ν → β) × Ω → Res ((ν → β) × Ω)) :
    Prop := Schedules G (fun _ => some ()) fun s => (run s).map fun s' => (s', ())

/-- What the main run fetches: the assigned factors, `lambdas` or `core`, the full tensor and the scalars computed
from it (`cp.py:152-159`, `tucker.py:229-238`, `ncp.py:203-211`, `ntucker.py:238-246`).  Simplification: the scalars
are a function of the full tensor and the fed data, so they are not operations of the graph. -/
noncomputable def fetchMain {ι ν : Type} (X : Tensor ℝ) (assign : Nat → ι) (full : ι)
    (aux : Cfg ι ν (Tensor ℝ) → Option (Option (Tensor ℝ))) (c : Cfg ι ν (Tensor ℝ)) :
    Option (fact.Out (List (Tensor ℝ)) (Tensor ℝ) (Tensor ℝ) ℝ) := do
  let F ← (List.range X.order).mapM fun k => c.val (assign k)
  let k ← aux c
  let Y ← c.val full
  let (l, obj, rel) ← (cp.scalars X Y).toOption
  return ⟨F, k, Y, l, obj, rel⟩

/-- The fetch list of `CP_ALS` (`cp.py:152-159`): `lambdas` is the output of the last mode's maximum. -/
noncomputable def Cp.fetch (X : Tensor ℝ) (c : Cfg Cp.Op Nat (Tensor ℝ)) :=
  fetchMain X .assign .full (fun c => (c.val (.lam (X.order - 1))).map some) c

/-- The fetch list of `HOOI` (`tucker.py:229-238`). -/
noncomputable def Hooi.fetch (X : Tensor ℝ) (c : Cfg Hooi.Op Nat (Tensor ℝ)) :=
  fetchMain X .assign .full (fun c => (c.val .core).map some) c

/-- The fetch lists of `NCP_BCU` (`ncp.py:203-211`) and `NTUCKER_BCU` (`ntucker.py:238-246`). -/
noncomputable def Bcu.fetch (X : Tensor ℝ) (c : Cfg Bcu.Op Bcu.Var (Tensor ℝ)) :=
  fetchMain X .assign .full (fun _ => some none) c

/-- The outcomes of two calls of `train` agree: the object, the steps reported to the event file, and the history if
one is returned.  (Which exception is raised may depend on the schedule.) -/
def SameCall {F K X R : Type} (a b : fact.Self F K X × List Int × Res (List (R × R))) : Prop :=
  a.1 = b.1 ∧ a.2.1 = b.2.1 ∧ a.2.2.toOption = b.2.2.toOption

end TD.graph
