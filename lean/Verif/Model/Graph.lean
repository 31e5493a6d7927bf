import Mathlib.Logic.Function.Basic
import Mathlib.Logic.Relation
import Verif.Model.Py

/-!
# Executing a TensorFlow graph with `sess.run`

`build_model` in `factorization/cp.py:67-121`, `factorization/tucker.py:129-186`, `factorization/ncp.py:64-170` and
`factorization/ntucker.py:64-202` builds operations joined by data inputs and by control inputs
(`tf.control_dependencies`).  `sess.run` executes those the fetches need.  The executor is multi-threaded: it
starts an operation as soon as the inputs of that operation have finished, in any order and several at a time.

Modelled: an operation reads its inputs and its variables when it starts and makes its output visible (and writes
its variable) when it finishes; anything may happen in between.  A variable named in an expression is read by
the operations that consume it, when they start: TensorFlow 1 reference variables share their buffer with the
cached read and `assign` copies into it (trusted; the graphs with `snapshot` in their name have the other reading).
An operation whose inputs failed fails; a failed `assign` writes nothing.  Simplifications: which exception is
raised is not modelled, and after a failure operations that do not depend on it still run.
-/
namespace TD.graph
open TD

/-- Operations `ι`, variables `ν`, values `β` (what a `build_model` makes, for example `cp.py:67-121`). -/
structure Graph (ι ν β : Type) where
  /-- the operations needed by the fetches -/
  nodes : List ι
  /-- data and control inputs -/
  deps : ι → List ι
  /-- variables an operation reads -/
  reads : ι → List ν
  /-- variable an `assign` writes -/
  writes : ι → Option ν
  /-- the output as a function of the outputs of other operations and of the variables -/
  kernel : ι → (ι → Option β) → (ν → β) → Option β

/-- A moment of an execution (within one `sess.run`, for example `cp.py:152`). -/
structure Cfg (ι ν β : Type) where
  vars : ν → β
  /-- results of started operations, `some none` for failed ones -/
  started : ι → Option (Option β)
  /-- results of finished operations -/
  done : ι → Option (Option β)

/-- The output of an operation that has finished (within one `sess.run`, for example `cp.py:152`). -/
def Cfg.val {ι ν β : Type} (c : Cfg ι ν β) (n : ι) : Option β := (c.done n).join

/-- Nothing has run (the beginning of a `sess.run`, for example `cp.py:152`). -/
def Cfg.init {ι ν β : Type} (vars : ν → β) : Cfg ι ν β := ⟨vars, fun _ => none, fun _ => none⟩

/-- The result of an operation started now (within one `sess.run`, for example `cp.py:152`). -/
def Cfg.result {ι ν β : Type} (G : Graph ι ν β) (c : Cfg ι ν β) (n : ι) : Option β :=
  if (G.deps n).all fun m => (c.val m).isSome then G.kernel n c.val c.vars else none

/-- The variables after an operation with result `d` has finished (the `assign` of `cp.py:97`). -/
def store {ν β : Type} [DecidableEq ν] (vars : ν → β) (w : Option ν) (d : Option β) : ν → β :=
  match w, d with
  | some v, some x => Function.update vars v x
  | _, _ => vars

/-- What the executor may do next (within one `sess.run`, for example `cp.py:152`). -/
inductive Step {ι ν β : Type} [DecidableEq ι] [DecidableEq ν] (G : Graph ι ν β) : Cfg ι ν β → Cfg ι ν β → Prop
  | start (c : Cfg ι ν β) (n : ι) (hn : n ∈ G.nodes) (hs : c.started n = none)
      (hd : ∀ m ∈ G.deps n, (c.done m).isSome) :
      Step G c { c with started := Function.update c.started n (some (c.result G n)) }
  | finish (c : Cfg ι ν β) (n : ι) (d : Option β) (hs : c.started n = some d) (hf : c.done n = none) :
      Step G c { c with vars := store c.vars (G.writes n) d, done := Function.update c.done n (some d) }

/-- `c` can be reached when the variables hold `vars` at the beginning
(within one `sess.run`, for example `cp.py:152`). -/
def Reaches {ι ν β : Type} [DecidableEq ι] [DecidableEq ν] (G : Graph ι ν β) (vars : ν → β)
    (c : Cfg ι ν β) : Prop := Relation.ReflTransGen (Step G) (Cfg.init vars) c

/-- Every operation has finished (the end of a `sess.run`, for example `cp.py:152`). -/
def Complete {ι ν β : Type} (G : Graph ι ν β) (c : Cfg ι ν β) : Prop := ∀ n ∈ G.nodes, (c.done n).isSome

/-- An operation failed: `sess.run` raises (for example at `cp.py:152`). -/
def Failed {ι ν β : Type} (G : Graph ι ν β) (c : Cfg ι ν β) : Prop := ∃ n ∈ G.nodes, c.done n = some none

/-- The same graph when variables are read by snapshot: the read of a variable is an operation of its own, copies
the value and is shared by all consumers.  It was made outside the `tf.control_dependencies` blocks
(`cp.py:76`, `tucker.py:138`, `ncp.py:74`, `ntucker.py:75`), so it has no inputs. -/
def Graph.snapshot {ι ν β : Type} (G : Graph ι ν β) : Graph (ι ⊕ ν) ν β where
  nodes := G.nodes.map .inl ++ (G.nodes.flatMap G.reads).map .inr
  deps
    | .inl n => (G.deps n).map .inl ++ (G.reads n).map .inr
    | .inr _ => []
  reads
    | .inl _ => []
    | .inr v => [v]
  writes
    | .inl n => G.writes n
    | .inr _ => none
  kernel
    | .inl n, o, x => G.kernel n (fun m => o (.inl m)) fun v => (o (.inr v)).getD (x v)
    | .inr v, _, x => some (x v)

end TD.graph
