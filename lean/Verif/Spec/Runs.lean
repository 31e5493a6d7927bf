import Verif.Model.GraphRuns

/-!
# The shapes of the variables of `NCP_BCU` and `NTUCKER_BCU`
-/
namespace TD.bcu
open TD Tensor

/-- The variables `A`, `A0` and `Am` have the shapes `sh` they are created with (`ncp.py:74-81`, `ntucker.py:75-85`). -/
structure AllShapes (sh : List (List Nat)) (st : State) : Prop where
  A : st.A.map Tensor.shape = sh
  A0 : st.A0.map Tensor.shape = sh
  Am : st.Am.map Tensor.shape = sh

/-- The variables of `NCP_BCU`: `(shape[k], rank)`. -/
def NcpVars (X : Tensor ℝ) (rank : Nat) (st : State) : Prop := AllShapes (X.shape.map fun d => [d, rank]) st

/-- The variables of `NTUCKER_BCU`: `(shape[k], ranks[k])`, and `ranks` for the core. -/
structure NtuckerVars (X : Tensor ℝ) (ranks : List Nat) (st : TState) : Prop where
  factors : AllShapes (List.zipWith (fun d r => [d, r]) X.shape ranks) st.toState
  g : st.g.shape = ranks
  g0 : st.g0.shape = ranks
  gm : st.gm.shape = ranks

/-- The shape of the variables of a slot of `NCP_BCU`. -/
def ncpShape (X : Tensor ℝ) (rank k : Nat) : List Nat := [X.shape.getD k 0, rank]

/-- The shape of the variables of a slot of `NTUCKER_BCU`; the last slot is the core. -/
def ntuckerShape (X : Tensor ℝ) (ranks : List Nat) (k : Nat) : List Nat :=
  if k < X.order then [X.shape.getD k 0, ranks.getD k 0] else ranks

end TD.bcu
