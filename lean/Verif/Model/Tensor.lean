import Mathlib.Algebra.BigOperators.Group.List.Basic
import Verif.Model.Py

/-!
# Dense tensors

A tensor is a shape and its entries in row-major order (numpy / TensorFlow layout).
This file models no code of /repo; it is the value domain of the model.
-/
namespace TD

/-- All multi-indices of a shape in row-major order (last index fastest) (the layout of `tf.reshape`, `ops.py:75`). -/
def indices : List Nat → List (List Nat)
  | [] => [[]]
  | n :: s => (List.range n).flatMap fun i => (indices s).map (i :: ·)

/-- Row-major position of a multi-index (the layout of `tf.reshape`, `ops.py:75`). -/
def ravel : List Nat → List Nat → Nat
  | _ :: s, i :: is => i * s.prod + ravel s is
  | _, _ => 0

/-- Multi-index of a row-major position (mixed-radix digits, first digit most significant)
(the layout of `tf.reshape`, `ops.py:75`). -/
def unravel : List Nat → Nat → List Nat
  | [], _ => []
  | _ :: s, k => (k / s.prod) :: unravel s (k % s.prod)

/-- `idx` is a valid index of shape `s`: same length and every coordinate in bounds
(as in `self._full_tensor.item(key)`, `cp.py:49`). -/
def InB (s idx : List Nat) : Prop := List.Forall₂ (· < ·) idx s

instance (s idx : List Nat) : Decidable (InB s idx) := by unfold InB; infer_instance

theorem length_indices : ∀ s : List Nat, (indices s).length = s.prod
  | [] => rfl
  | n :: s => by
      simp [indices, List.length_flatMap, length_indices s]

/-- Dense tensor: shape and row-major entries (the `tensor` of `ops.py:43`). -/
structure Tensor (α : Type) where
  shape : List Nat
  data : List α
  wf : data.length = shape.prod
  deriving DecidableEq

namespace Tensor
variable {α : Type}

/-- Order (number of modes); `tensor.get_shape().ndims` (`ops.py:73`). -/
def order (t : Tensor α) : Nat := t.shape.length

/-- The tensor of a given shape with given entries (the `tensor` of `ops.py:43`). -/
def ofFn (s : List Nat) (f : List Nat → α) : Tensor α :=
  ⟨s, (indices s).map f, by simp [length_indices]⟩

/-- Entry at a multi-index.  All theorems use it on in-bounds indices only
(as in `self._full_tensor.item(key)`, `cp.py:49`). -/
def at_ [Zero α] (t : Tensor α) (idx : List Nat) : α := t.data.getD (ravel t.shape idx) 0

/-- A matrix given by its entries (the `matrices` of `ops.py:405`). -/
def mat (m n : Nat) (f : Nat → Nat → α) : Tensor α :=
  ofFn [m, n] fun | [i, j] => f i j | _ => f 0 0

end Tensor
end TD
