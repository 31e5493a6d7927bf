import Verif.Model.Type

/-!
# `DTensor` objects: indexing, iteration and programs (`tensorD/base/type.py:7-114`)

`tf.Tensor.__getitem__` is a library contract, as the definitions of `Model/TF.lean`.
-/
namespace TD
open Tensor

namespace tf
variable {α : Type}

/-- The index `i` on an axis of size `d`, where negative indices count from the end (within `self.T[index]`, `type.py:114`). -/
def wrap (d : Nat) (i : Int) : Option Nat :=
  if 0 ≤ i ∧ i < d then some i.toNat else if -(d : Int) ≤ i ∧ i < 0 then some (i + d).toNat else none

/-- The indices of the leading axes; `none` if there are more indices than axes or one is out of range
(within `self.T[index]`, `type.py:114`). -/
def wraps : List Nat → List Int → Option (List Nat)
  | _, [] => some []
  | [], _ :: _ => none
  | d :: s, i :: is => (wrap d i).bind fun j => (wraps s is).map (j :: ·)

/-- `t[i_0, .., i_k]` on a `tf.Tensor`, one or several integers (`type.py:114`): the indexed axes are dropped; TensorFlow 1 raises a
`ValueError` for an index out of range, never an `IndexError`.
Simplification: slices, `...` and `newaxis` are not modelled. -/
def item [Zero α] (t : Tensor α) (idx : List Int) : Res (Tensor α) :=
  match wraps t.shape idx with
  | none => .error .valueError
  | some js => .ok (ofFn (t.shape.drop idx.length) fun k => t.at_ (js ++ k))

/-- An index that is in range is smaller than the size of the first axis (of `self.T[index]`, `type.py:114`; used for termination below). -/
theorem item_lt [Zero α] {t u : Tensor α} {i : Nat} (h : item t [(i : Int)] = .ok u) : i < t.shape.headD 0 := by
  unfold item at h
  cases hs : t.shape with
  | nil => rw [hs] at h; simp [wraps] at h
  | cons d s =>
      rw [hs] at h
      simp only [wraps, wrap] at h
      split_ifs at h with h1 h2
      · simpa using h1.2
      · omega
      · simp at h

end tf

namespace DTensor
variable {α : Type}

/-- `type.py:113-114`: `d[index]`, a `tf.Tensor`. -/
def getitem [Zero α] (d : DTensor α) (idx : List Int) : Res (Tensor α) := tf.item d.T idx

/-- `for x in d`: the class has `__getitem__` (`type.py:113-114`) and no `__iter__`, so Python calls `d[0]`, `d[1]`, ... and ends the
loop normally when `IndexError` is raised; any other exception leaves the loop.  The values that the loop gets from index `i` on, and
the exception that leaves the loop, if any. -/
def iterFrom [Zero α] (d : DTensor α) (i : Nat) : List (Tensor α) × Option PyErr :=
  match h : tf.item d.T [(i : Int)] with
  | .ok x => let r := iterFrom d (i + 1); (x :: r.1, r.2)
  | .error .indexError => ([], none)
  | .error e => ([], some e)
termination_by d.T.shape.headD 0 - i
decreasing_by have := tf.item_lt h; omega

/-- `list(d)` (`type.py:113-114`): the values and the exception that ends the iteration, if any. -/
def iter [Zero α] (d : DTensor α) : List (Tensor α) × Option PyErr := iterFrom d 0

/-- A right operand written in a program: an object or a raw tensor (`type.py:65`, `type.py:84`). -/
inductive Opd (α : Type) where
  | obj (i : Nat)
  | raw (t : Tensor α)

/-- Statements `x = ...` over `DTensor` objects (`type.py:12-114`).  Objects are numbered in the order of their creation; several names of one
object are the same number. -/
inductive Stmt (α : Type) where
  | new (t : Tensor α)
  | mul (d e : Nat) (a b : ops.Axis)
  | unfold (d : Nat) (mode : Int)
  | t2mat (d : Nat) (r : ops.Axis) (c : ops.CAxis)
  | vectorize (d : Nat)
  | kron (d : Nat) (o : Opd α)
  | khatri (d : Nat) (o : Opd α)
  | fold (d : Nat) (mode : Int) (shape : List Nat)
  | add (d : Nat) (o : Opd α)
  | hmul (d : Nat) (o : Opd α)
  | sub (d : Nat) (o : Opd α)
  | item (d : Nat) (idx : List Int)

/-- The object with a number; a name that was never bound raises (any use of a `DTensor`, e.g. `type.py:48`).
Simplification: `UnboundLocalError` stands for every `NameError`. -/
def obj (h : List (DTensor α)) (i : Nat) : Res (DTensor α) :=
  match h[i]? with
  | none => .error .unboundLocal
  | some d => .ok d

/-- The right operand of a statement (`type.py:65`, `type.py:84`). -/
def opd (h : List (DTensor α)) : Opd α → Res (Rhs α)
  | .obj i => (obj h i).map .dtensor
  | .raw t => .ok (.raw t)

/-- One statement: the objects afterwards, without the new one, and the new object (`type.py:12-114`).  The value of an indexing is put into a
new `DTensor`, so that it can be used further.  Simplification: axis arguments are written out at the call, so that no list is shared. -/
def call [Zero α] [Add α] [Mul α] [Sub α] [tf.Red α] [tf.Ein α] (h : List (DTensor α)) : Stmt α → Res (List (DTensor α) × DTensor α)
  | .new t => .ok (h, init t)
  | .mul d e a b => do let x ← obj h d; let y ← obj h e; let r ← x.mul y a b; return (h, r)
  | .unfold d m => do let x ← obj h d; let r ← x.unfold m; return (h.set d r.1, r.2)
  | .t2mat d r c => do let x ← obj h d; let r ← x.t2mat r c; return (h, r)
  | .vectorize d => do let x ← obj h d; let r ← x.vectorize; return (h, r)
  | .kron d o => do let x ← obj h d; let y ← opd h o; let r ← x.kron y; return (h, r)
  | .khatri d o => do let x ← obj h d; let y ← opd h o; let r ← x.khatri y; return (h, r)
  | .fold d m s => do let x ← obj h d; let r ← fold x.T m s; return (h, r)
  | .add d o => do let x ← obj h d; let y ← opd h o; let r ← x.add y; return (h, r)
  | .hmul d o => do let x ← obj h d; let y ← opd h o; let r ← x.hmul y; return (h, r)
  | .sub d o => do let x ← obj h d; let y ← opd h o; let r ← x.sub y; return (h, r)
  | .item d idx => do let x ← obj h d; let r ← x.getitem idx; return (h, init r)

/-- A program in which every exception is caught: a statement that raises creates no object (`type.py:12-114`).  The objects afterwards, and
what each statement gave: the tensor in the new object or the exception. -/
def run [Zero α] [Add α] [Mul α] [Sub α] [tf.Red α] [tf.Ein α] (h : List (DTensor α)) :
    List (Stmt α) → List (DTensor α) × List (Res (Tensor α))
  | [] => (h, [])
  | s :: p => match call h s with
    | .ok (h', r) => let q := run (h' ++ [r]) p; (q.1, .ok r.T :: q.2)
    | .error e => let q := run h p; (q.1, .error e :: q.2)

end DTensor
end TD
