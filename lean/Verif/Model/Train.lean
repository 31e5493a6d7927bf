import Verif.Model.Tensor
import Verif.Model.Py

/-!
# The training loops and `predict`
(`factorization/cp.py`, `factorization/tucker.py`, `factorization/ncp.py`, `factorization/ntucker.py`)

A TensorFlow session is an abstract state machine: a state `S` (the variables) and, for every fetch list the
Python code passes to `sess.run`, a function from states to a new state and the fetched values or to an
exception.  Nothing is assumed about these functions, so the loops are modelled for *every* behaviour of
TensorFlow.  What the graphs compute is modelled separately (`Model/CP.lean` etc.).

Simplification: the fetch list with `full_op` and the one without it (`cp.py:150-159`) run the same assignments
(both contain `loss_op`, which depends on `full_op`), so one function `main` models both and the loop drops
`full` when it was not fetched.  Printing and the content of the event file are not modelled, only the list of
steps reported to the `FileWriter`.
-/
namespace TD.fact
open TD

/-- Python arithmetic on the fetched scalars.  Nothing is assumed about the operations, so numpy `float32`
with infinities and NaN is an instance (numpy scalars do not raise on division by zero) (`cp.py:160-172`). -/
structure Arith (R : Type) where
  one : R
  add : R → R → R
  sub : R → R → R
  div : R → R → R
  abs : R → R
  lt : R → R → Bool

/-- `CP_Args`, `HOOI_Args`, `NCP_Args`, `NTUCKER_Args` as far as `train` uses them
(`cp.py:12-25`, `tucker.py:108-113`, `ncp.py:19-24`, `ntucker.py:20-25`). -/
structure Args (R : Type) where
  validationInternal : Int := -1
  verbose : Bool := false
  tol : R

/-- The values fetched by the main `sess.run` of one step: factors, `lambdas` (CP) or `core` (HOOI), full
tensor, loss, objective, relative residual (`cp.py:152-159`). -/
structure Out (F K X R : Type) where
  factors : F
  aux : Option K
  full : X
  loss : R
  obj : R
  rel : R

/-- The runs `train` performs, per class.
* `core` : the extra run at the start of each step (`ntucker.py:233`)
* `main` : the main run (`cp.py:150-159`, `tucker.py:229-238`, `ncp.py:201-211`, `ntucker.py:236-246`)
* `update` : `train_op1` and `train_op2` (`ncp.py:227-231`, `ntucker.py:261-265`)
* `resets` : `self._is_train_finish = False` at the start (`cp.py:125`, `ncp.py:173`, `ntucker.py:205`;
  absent from `tucker.py:207`)
* `lambdasAfter` : `self._lambdas = np.ones(...)` after the loop (`ncp.py:233`) -/
structure Cls (S F K X R : Type) where
  core : Option (S → Res (S × K)) := none
  main : S → Res (S × Out F K X R)
  update : Option ((S → Res S) × (S → Res S)) := none
  resets : Bool := true
  lambdasAfter : Option K := none

/-- The attributes of the model object that `train` writes (`cp.py:27-44`): `_full_tensor`, `_factors`,
`_lambdas` or `_core`, `_is_train_finish`. -/
structure Self (F K X : Type) where
  full : Option X := none
  factors : Option F := none
  aux : Option K := none
  finish : Bool := false
  deriving DecidableEq

/-- The local variables of `train` together with `self` and the session (`cp.py:124-146`). -/
structure Loc (S F K X R : Type) where
  sess : S
  self : Self F K X
  hist : List (R × R) := []
  obj0 : Option R := none
  nstall : Nat := 0
  events : List Int := []

variable {S F K X R : Type}

/-- The condition of the `if` at `cp.py:148-149` (same text at `tucker.py:227-228`, `ncp.py:199-200`,
`ntucker.py:234-235`), with Python's short-circuit evaluation; `step % 0` raises. -/
def reported (args : Args R) (steps step : Int) : Res Bool :=
  if step = steps then .ok true
  else if args.verbose then .ok true
  else if step = 1 then .ok true
  else if args.validationInternal = 0 then .error .zeroDivision
  else .ok (decide (step % args.validationInternal = 0 ∧ args.validationInternal ≠ -1))

/-- `ntucker.py:233`: `self._core, _ = sess.run([core_update_op, core_train_op])`; other classes: nothing. -/
def coreRun (c : Cls S F K X R) (l : Loc S F K X R) : Loc S F K X R × Option PyErr :=
  match c.core with
  | none => (l, none)
  | some run =>
    match run l.sess with
    | .error e => (l, some e)
    | .ok (s, k) => ({ l with sess := s, self := { l.self with aux := some k } }, none)

/-- The main run: `cp.py:150-159`, `tucker.py:229-238`, `ncp.py:201-211`, `ntucker.py:236-246`. -/
def mainRun (c : Cls S F K X R) (rep : Bool) (step : Int) (l : Loc S F K X R) :
    Res (Loc S F K X R × Out F K X R) :=
  match c.main l.sess with
  | .error e => .error e
  | .ok (s, o) =>
    .ok ({ l with
      sess := s
      self := { l.self with
        factors := some o.factors
        aux := o.aux <|> l.self.aux
        full := if rep then some o.full else l.self.full }
      events := if rep then l.events ++ [step] else l.events }, o)

/-- `relerr1 < args.tol` with `relerr1 = abs(obj - obj0) / (obj0 + 1)` (`cp.py:164-166`). -/
def crit (A : Arith R) (tol obj obj0 : R) : Bool :=
  A.lt (A.div (A.abs (A.sub obj obj0)) (A.add obj0 A.one)) tol

/-- `cp.py:160-172`, `tucker.py:239-251`, `ncp.py:213-225`, `ntucker.py:247-259`: append to `hist`, set `obj0` at step 1, update `nstall`;
the flag is `nstall >= 3 or relerr2 < args.tol`, that is whether the loop breaks. -/
def judge (A : Arith R) (tol : R) (step : Int) (l : Loc S F K X R) (o : Out F K X R) :
    Res (Loc S F K X R × R × Bool) :=
  let l := { l with
    hist := l.hist ++ [(o.loss, o.rel)]
    obj0 := if step = 1 then some (A.add o.obj A.one) else l.obj0 }
  match l.obj0 with
  | none => .error .unboundLocal
  | some obj0 =>
    let l := { l with nstall := if crit A tol o.obj obj0 then l.nstall + 1 else 0 }
    .ok (l, obj0, decide (l.nstall ≥ 3) || A.lt o.rel tol)

/-- `ncp.py:227-231`, `ntucker.py:261-265`: `train_op1` and `obj0 = obj` when `obj < obj0`, else `train_op2`;
nothing in CP and HOOI. -/
def after (A : Arith R) (c : Cls S F K X R) (o : Out F K X R) (obj0 : R) (l : Loc S F K X R) :
    Loc S F K X R × Option PyErr :=
  match c.update with
  | none => (l, none)
  | some (op1, op2) =>
    if A.lt o.obj obj0 then
      match op1 l.sess with
      | .error e => (l, some e)
      | .ok s => ({ l with sess := s, obj0 := some o.obj }, none)
    else
      match op2 l.sess with
      | .error e => (l, some e)
      | .ok s => ({ l with sess := s }, none)

/-- The body of the `for` loop (`cp.py:147-172`, `tucker.py:226-251`, `ncp.py:198-231`,
`ntucker.py:232-265`); `.ok true` is `break`. -/
def body (A : Arith R) (c : Cls S F K X R) (args : Args R) (steps step : Int) (l : Loc S F K X R) :
    Loc S F K X R × Res Bool :=
  match coreRun c l with
  | (l, some e) => (l, .error e)
  | (l, none) =>
    match reported args steps step with
    | .error e => (l, .error e)
    | .ok rep =>
      match mainRun c rep step l with
      | .error e => (l, .error e)
      | .ok (l, o) =>
        match judge A args.tol step l o with
        | .error e => (l, .error e)
        | .ok (l, _, true) => (l, .ok true)
        | .ok (l, obj0, false) =>
          match after A c o obj0 l with
          | (l, some e) => (l, .error e)
          | (l, none) => (l, .ok false)

/-- `for step in range(1, steps + 1)`: `n` iterations are left, `step` is the next value (`cp.py:147`). -/
def loop (A : Arith R) (c : Cls S F K X R) (args : Args R) (steps : Int) :
    Nat → Int → Loc S F K X R → Loc S F K X R × Option PyErr
  | 0, _, l => (l, none)
  | n + 1, step, l =>
    match body A c args steps step l with
    | (l, .error e) => (l, some e)
    | (l, .ok true) => (l, none)
    | (l, .ok false) => loop A c args steps n (step + 1) l

/-- `train(steps)` (`cp.py:124-177`, `tucker.py:207-255`, `ncp.py:172-237`, `ntucker.py:204-269`).
`fresh` is the outcome of opening a session (`env.py:31-33` makes a new one on every access) and running the
initialisers.  The result is the object afterwards, the reported steps and the history or exception.  The
`print` after the loop reads the loop variable `step`, which is unbound when `steps < 1`. -/
def train (A : Arith R) (c : Cls S F K X R) (args : Args R) (steps : Int) (fresh : Res S) (self : Self F K X) :
    Self F K X × List Int × Res (List (R × R)) :=
  let self := if c.resets then { self with finish := false } else self
  match fresh with
  | .error e => (self, [], .error e)
  | .ok s =>
    match loop A c args steps steps.toNat 1 { sess := s, self := self } with
    | (l, some e) => (l.self, l.events, .error e)
    | (l, none) =>
      let self := match c.lambdasAfter with
        | some k => { l.self with aux := some k }
        | none => l.self
      if steps < 1 then (self, l.events, .error .unboundLocal)
      else ({ self with finish := true }, l.events, .ok l.hist)

/-- `CP_ALS.train` (`cp.py:124-177`). -/
def CP_ALS.cls (main : S → Res (S × Out F K X R)) : Cls S F K X R := { main := main }

/-- `HOOI.train` (`tucker.py:207-255`); the flag is not reset. -/
def HOOI.cls (main : S → Res (S × Out F K X R)) : Cls S F K X R := { main := main, resets := false }

/-- `NCP_BCU.train` (`ncp.py:172-237`). -/
def NCP_BCU.cls (main : S → Res (S × Out F K X R)) (op1 op2 : S → Res S) (ones : K) : Cls S F K X R :=
  { main := main, update := some (op1, op2), lambdasAfter := some ones }

/-- `NTUCKER_BCU.train` (`ntucker.py:204-269`). -/
def NTUCKER_BCU.cls (core : S → Res (S × K)) (main : S → Res (S × Out F K X R)) (op1 op2 : S → Res S) :
    Cls S F K X R :=
  { core := some core, main := main, update := some (op1, op2) }

/-- `HOSVD.train` (`tucker.py:56-85`): one run, `steps` ignored, nothing returned. -/
def HOSVD.train (run : S → Res (F × K × X)) (fresh : Res S) (self : Self F K X) : Self F K X × Res Unit :=
  let self := { self with finish := false }
  match fresh with
  | .error e => (self, .error e)
  | .ok s =>
    match run s with
    | .error e => (self, .error e)
    | .ok (f, k, x) => ({ full := some x, factors := some f, aux := some k, finish := true }, .ok ())

/-! ### `predict` -/

/-- One index against a dimension: negative counts from the end, otherwise `IndexError`
(numpy `check_and_adjust_index`) (part of `cp.py:49`). -/
def adjust (n : Nat) (i : Int) : Res Nat :=
  if i < -(n : Int) ∨ (n : Int) ≤ i then .error .indexError
  else .ok (if i < 0 then (i + n).toNat else i.toNat)

/-- `ndarray.item(key)` for a tuple of integers: an empty key needs a size-1 array, a single index into an
array that is not a vector is a flat C-order index, otherwise one index per dimension (`cp.py:49`). -/
def item {α : Type} [Zero α] (T : Tensor α) (key : List Int) : Res α :=
  match key with
  | [] => if T.shape.prod = 1 then .ok (T.at_ (unravel T.shape 0)) else .error .valueError
  | [k] =>
    if T.order = 1 then do
      let i ← adjust (T.shape.getD 0 0) k
      return T.at_ [i]
    else do
      let p ← adjust T.shape.prod k
      return T.at_ (unravel T.shape p)
  | key =>
    if key.length = T.order then do
      let idx ← (T.shape.zip key).mapM fun p => adjust p.1 p.2
      return T.at_ idx
    else .error .valueError

/-- `not self._full_tensor` for `None` or an ndarray: `None` is falsy, an array of more than one element has
no truth value (`ValueError`), one element is tested against 0, an empty array is falsy (deprecated) (`cp.py:47`). -/
def falsy {α : Type} [Zero α] [DecidableEq α] (full : Option (Tensor α)) : Res Bool :=
  match full with
  | none => .ok true
  | some T =>
    if T.shape.prod = 0 then .ok true
    else if T.shape.prod = 1 then .ok (decide (T.at_ (unravel T.shape 0) = 0))
    else .error .valueError

/-- `predict` of `CP_ALS` (`cp.py:46-49`), `NCP_BCU` (`ncp.py:43-46`) and `NTUCKER_BCU`
(`ntucker.py:44-47`). -/
def guardedPredict {α : Type} [Zero α] [DecidableEq α] (full : Option (Tensor α))
    (key : List Int) : Res α := do
  if ← falsy full then .error .tensorErr
  else
    match full with
    | none => .error .attributeError
    | some T => item T key

/-- `predict` of `HOSVD` (`tucker.py:87-88`) and `HOOI` (`tucker.py:192-193`): `None` has no `item`. -/
def barePredict {α : Type} [Zero α] (full : Option (Tensor α)) (key : List Int) : Res α :=
  match full with
  | none => .error .attributeError
  | some T => item T key

/-- `PITF` inherits `BaseFact.predict` (`factorization/factorization.py:32-33`). -/
def PITF.predict {α : Type} (_full : Option (Tensor α)) (_key : List Int) : Res α := .error .notImplemented

end TD.fact
