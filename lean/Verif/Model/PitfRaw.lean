import Verif.Model.Pitf
import Verif.Model.Objects

/-!
# Calls of the numpy sampling operators with any arguments (`base/pitf_ops_numpy.py`)

`Model/Pitf.lean` models these operators for positions that exist and `dim` = 0, 1, 2.  Here the sample list is a list of lists of
integers, the number of samples any integer, `dim` any integer or `None`, and the matrices need not have the sizes of the tensor.
-/
namespace TD.pitf.raw
open TD Spec

/-- `l[i]` on a list, a tuple or an array with one axis (`pitf_ops_numpy.py:76`, `78`, `104`). -/
def item {α : Type} (l : List α) (i : Int) : Res α :=
  match (tf.wrap l.length i).bind (l[·]?) with
  | some x => .ok x
  | none => .error .indexError

/-- The index `i` on an axis of size `n` (`pitf_ops_numpy.py:76`, `104`, `128`). -/
def axisIndex (n : Nat) (i : Int) : Res (Fin n) :=
  match tf.wrap n i with
  | some k => if h : k < n then .ok ⟨k, h⟩ else .error .indexError
  | none => .error .indexError

/-- `spl[r][i]`, used as an index of an axis of size `n` (`pitf_ops_numpy.py:76`, `104`, `128`). -/
def sample (spl : List (List Int)) (r : Int) (n i : Nat) : Res (Fin n) := do
  let l ← item spl r
  let a ← item l i
  axisIndex n a

/-- The loop of a branch of `Pomega_mat` (`pitf_ops_numpy.py:74-77`, `82-85`, `90-93`). -/
def gather {p q : Nat} (spl : List (List Int)) (mat : Mat p q) (r c : Int) (m : Int) : Res (List ℝ) :=
  (List.range m.toNat).mapM fun i => do
    let a ← sample spl r p i
    let b ← sample spl c q i
    .ok (mat a b)

/-- `pitf_ops_numpy.py:67-95` `Pomega_mat`; `none` is `None` (falling off the end).  An entry that is not a number (a size 0 under the
root) is `none`.  Simplification: `mat` has two axes. -/
noncomputable def PomegaMat {p q : Nat} (spl : List (List Int)) (mat : Mat p q) (shape : List Nat) (m : Int) (dim : Option Int) :
    Res (Option (List (Option ℝ))) :=
  if dim = some 0 then do
    let v ← gather spl mat 0 1 m
    let s ← item shape 2
    .ok (some (v.map fun x => loss.fdiv x √s))
  else if dim = some 1 then do
    let v ← gather spl mat 1 2 m
    let s ← item shape 0
    .ok (some (v.map fun x => loss.fdiv x √s))
  else if dim = some 2 then do
    let v ← gather spl mat 2 0 m
    let s ← item shape 1
    .ok (some (v.map fun x => loss.fdiv x √s))
  else .ok none

/-- What `adjoint_operator` returns: a matrix, or the number -1 (`pitf_ops_numpy.py:120`). -/
inductive Adjoint
  | minusOne
  | mat (p q : Nat) (M : Mat p q)

/-- The loop of a branch of `adjoint_operator` (`pitf_ops_numpy.py:103-104`, `109-110`, `115-116`). -/
def scatter (spl : List (List Int)) (y : List ℝ) (p q : Nat) (r c : Int) (m : Int) : Res (Mat p q) :=
  (List.range m.toNat).foldlM (fun X (i : Nat) => do
    let v ← item y i
    let a ← sample spl r p i
    let b ← sample spl c q i
    .ok (np.assign X (a, b) v)) 0

/-- `pitf_ops_numpy.py:98-120` `adjoint_operator`. -/
def adjointOperator (spl : List (List Int)) (y : List ℝ) (shape : List Nat) (m : Int) (dim : Option Int) : Res Adjoint :=
  if dim = some 0 then do
    let p ← item shape 0
    let q ← item shape 1
    let X ← scatter spl y p q 0 1 m
    .ok (.mat p q X)
  else if dim = some 1 then do
    let p ← item shape 1
    let q ← item shape 2
    let Y ← scatter spl y p q 1 2 m
    .ok (.mat p q Y)
  else if dim = some 2 then do
    let p ← item shape 2
    let q ← item shape 0
    let Z ← scatter spl y p q 2 0 m
    .ok (.mat p q Z)
  else .ok .minusOne

/-- `pitf_ops_numpy.py:123-130` `Pomega_tensor`; `np.zeros` refuses a negative length.  Simplification: `tensor` has three axes. -/
def PomegaTensor {p q r : Nat} (spl : List (List Int)) (T : Fin p → Fin q → Fin r → ℝ) (m : Int) : Res (List ℝ) :=
  if m < 0 then .error .valueError
  else (List.range m.toNat).mapM fun i => do
    let a ← sample spl 0 p i
    let b ← sample spl 1 q i
    let c ← sample spl 2 r i
    .ok (T a b c)

/-- Sum of two values of which one may not be a number (`pitf_ops_numpy.py:137`). -/
noncomputable def addNum : Option ℝ → Option ℝ → Option ℝ
  | some a, some b => some (a + b)
  | _, _ => none

/-- `pitf_ops_numpy.py:133-139` `Pomega_Pair`; the three vectors have the same length. -/
noncomputable def PomegaPair {p0 q0 p1 q1 p2 q2 : Nat} (spl : List (List Int)) (X : Mat p0 q0) (Y : Mat p1 q1) (Z : Mat p2 q2) (shape : List Nat)
    (m : Int) : Res (List (Option ℝ)) := do
  let A ← PomegaMat spl X shape m (some 0)
  let B ← PomegaMat spl Y shape m (some 1)
  let C ← PomegaMat spl Z shape m (some 2)
  match A, B, C with
  | some A, some B, some C => .ok (List.zipWith addNum (List.zipWith addNum A B) C)
  | _, _, _ => .error .typeError

end TD.pitf.raw
