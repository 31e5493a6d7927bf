import Verif.Model.Objects

/-!
# Specification for C142: the same program written with functions on tensors

There are no objects: a program works on a list of tensors, each statement applies a function of `tensorD.base.ops` (or an
arithmetic operator) to tensors of the list and appends the result.
-/
namespace TD.Spec
open TD Tensor DTensor
variable {α : Type}

/-- The tensor with a number. -/
def val (ts : List (Tensor α)) (i : Nat) : Res (Tensor α) :=
  match ts[i]? with
  | none => .error .unboundLocal
  | some t => .ok t

/-- The tensor a right operand stands for. -/
def opdVal (ts : List (Tensor α)) : Opd α → Res (Tensor α)
  | .obj i => val ts i
  | .raw t => .ok t

/-- The tensor a statement computes. -/
def compute [Zero α] [Add α] [Mul α] [Sub α] [tf.Red α] [tf.Ein α] (ts : List (Tensor α)) : Stmt α → Res (Tensor α)
  | .new t => .ok t
  | .mul d e a b => do ops.mul (← val ts d) (← val ts e) a b
  | .unfold d m => do ops.unfold (← val ts d) m
  | .t2mat d r c => do ops.t2mat (← val ts d) r c
  | .vectorize d => do ops.vectorize (← val ts d)
  | .kron d o => do ops.kron [← val ts d, ← opdVal ts o]
  | .khatri d o => do ops.khatri [← val ts d, ← opdVal ts o]
  | .fold d m s => do ops.fold (← val ts d) m s
  | .add d o => do tf.ewise (· + ·) (← val ts d) (← opdVal ts o)
  | .hmul d o => do tf.ewise (· * ·) (← val ts d) (← opdVal ts o)
  | .sub d o => do tf.ewise (· - ·) (← val ts d) (← opdVal ts o)
  | .item d idx => do tf.item (← val ts d) idx

/-- A program: the tensors afterwards, and what each statement gave. -/
def functional [Zero α] [Add α] [Mul α] [Sub α] [tf.Red α] [tf.Ein α] (ts : List (Tensor α)) :
    List (Stmt α) → List (Tensor α) × List (Res (Tensor α))
  | [] => (ts, [])
  | s :: p => match compute ts s with
    | .ok t => let q := functional (ts ++ [t]) p; (q.1, .ok t :: q.2)
    | .error e => let q := functional ts p; (q.1, .error e :: q.2)

/-- No object is unfolded along two different modes. -/
def OneMode (p : List (Stmt α)) : Prop :=
  ∀ d m m', Stmt.unfold d m ∈ p → Stmt.unfold d m' ∈ p → m = m'

/-- `j` is the index that `i` means on an axis of size `d`: itself, or counted from the end if negative. -/
def Means (d : Nat) (i : Int) (j : Nat) : Prop := j < d ∧ ((j : Int) = i ∨ (j : Int) = i + d)

end TD.Spec
