import Mathlib.Logic.Function.Basic
import Verif.Model.Tensor
import Verif.Model.Py

/-!
# Which array a training reads
(`factorization/env.py:17-25`, `dataproc/provider.py:5-25`, and the first two lines of `build_model`: `cp.py:69-70`,
`tucker.py:30-31`, `tucker.py:131-132`, `ncp.py:66-67`, `ntucker.py:67-68`)

Arrays are objects.  A user sets `provider.full_tensor` (`demo/cp_demo.py:19`, `test/cp_test.py:12`), may set it again, may let
variables of the script name other arrays and may write into arrays.  `build_model` calls `full_tensor()` twice: for the shape
of the placeholder and for the array that is put into `_feed_dict`.  `train` feeds that array.
-/
namespace TD.bind
open TD

/-- What `provider.full_tensor` is: not set (`provider.py:14-23`), a function that returns one array object, a function that
returns whatever array a variable of the script names at the time of the call (`lambda: X`), or a function that makes a new
array in every call. -/
inductive Source (α : Type) where
  | abstract
  | object (ref : Nat)
  | variable (x : Nat)
  | fresh (t : Tensor α)

/-- The script.  `feed i` is the shape of the placeholder and the array in `_feed_dict` of model `i`
(`provider.py:14-23`, `env.py:21-25`, `cp.py:69-70`). -/
structure World (α : Type) where
  heap : List (Tensor α) := []
  vars : Nat → Option Nat := fun _ => none
  source : Nat → Source α := fun _ => .abstract
  feed : Nat → Option (List Nat × Nat) := fun _ => none
  out : List (Nat × Res (Tensor α)) := []

/-- What the user may do: `X = <new array>`, `X = Y`, `A[...] = ...` and the like on an array object, set `full_tensor` of a
provider, and call `build_model` and `train` of model `i` (`provider.py:14-23`, `cp.py:67`, `cp.py:124`). -/
inductive Act (α : Type) where
  | new (x : Nat) (t : Tensor α)
  | assign (x y : Nat)
  | write (ref : Nat) (t : Tensor α)
  | provide (p : Nat) (s : Source α)
  | build (i : Nat)
  | train (i : Nat)

variable {α : Type}

/-- `self._data_provider.full_tensor()` (`env.py:21-25`): the array object, and the heap after the call.  A variable without value
is a `NameError`, here `unboundLocal`. -/
def World.call (w : World α) (p : Nat) : Res (Nat × List (Tensor α)) :=
  match w.source p with
  | .abstract => .error .notImplemented
  | .object r => .ok (r, w.heap)
  | .variable x =>
    match w.vars x with
    | none => .error .unboundLocal
    | some r => .ok (r, w.heap)
  | .fresh t => .ok (w.heap.length, w.heap ++ [t])

/-- The first two lines of `build_model` (`cp.py:69-70`): `full_shape()` (`env.py:24-25`), then `full_data()` (`env.py:21-22`).
If a call raises, `_feed_dict` stays as it was.  `attributeError`: the object is no array. -/
def World.build (prov : Nat → Nat) (w : World α) (i : Nat) : World α × Res Unit :=
  match w.call (prov i) with
  | .error e => (w, .error e)
  | .ok (r, h) =>
    match h[r]? with
    | none => ({ w with heap := h }, .error .attributeError)
    | some t =>
      match ({ w with heap := h } : World α).call (prov i) with
      | .error e => ({ w with heap := h }, .error e)
      | .ok (r', h') => ({ w with heap := h', feed := Function.update w.feed i (some (t.shape, r')) }, .ok ())

/-- The data `sess.run(..., feed_dict=self._feed_dict)` reads in `train` (`cp.py:143`, `cp.py:153`, `cp.py:159`): nothing built:
`TypeError`; an array whose shape is not the one of the placeholder: `ValueError`. -/
def World.train (w : World α) (i : Nat) : Res (Tensor α) :=
  match w.feed i with
  | none => .error .typeError
  | some (s, r) =>
    match w.heap[r]? with
    | none => .error .typeError
    | some t => if t.shape = s then .ok t else .error .valueError

/-- One action.  `prov i` is the provider in the environment model `i` was made with (`cp.py:27-29`). -/
def World.step (prov : Nat → Nat) (w : World α) : Act α → World α
  | .new x t => { w with heap := w.heap ++ [t], vars := Function.update w.vars x (some w.heap.length) }
  | .assign x y => { w with vars := Function.update w.vars x (w.vars y) }
  | .write r t => { w with heap := w.heap.set r t }
  | .provide p s => { w with source := Function.update w.source p s }
  | .build i => (w.build prov i).1
  | .train i => { w with out := w.out ++ [(i, w.train i)] }

/-- A whole script (`cp.py:67-177`, as any script calls it). -/
def run (prov : Nat → Nat) (w : World α) (h : List (Act α)) : World α := h.foldl (World.step prov) w

end TD.bind
