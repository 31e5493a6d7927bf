import Mathlib.Logic.Function.Basic
import Verif.Model.Train

/-!
# Several models in one Python process
(`build_model` and `train` of `factorization/cp.py`, `tucker.py`, `ncp.py`, `ntucker.py`; `factorization/env.py:31-33`)

TensorFlow 1 keeps a default graph.  `build_model` adds its placeholder, variables and summaries to the graph that is
the default at that time (`cp.py:69-110`); `train` opens a session on the graph that is the default then
(`tf.Session()`, `env.py:33`) and fetches `tf.summary.merge_all()` (`cp.py:140`, `tucker.py:70`, `tucker.py:220`,
`ncp.py:190`, `ntucker.py:224`), which collects the summaries of *all* models of that graph, but feeds only the
placeholder of its own model (`cp.py:70`).
-/
namespace TD.process
open TD fact

/-- What `build_model` prepares: the runs of one of the iterative classes with its arguments, or the run of `HOSVD`
(`cp.py:112-121`, `tucker.py:49-54`). -/
inductive Plan (S F K X R : Type) where
  | loop (c : Cls S F K X R) (args : Args R)
  | once (run : S → Res (F × K × X))

/-- The attributes `build_model` sets: the graph they belong to, the placeholder in `_feed_dict` (`cp.py:70`) and the
operations. -/
structure Built (S F K X R : Type) where
  graph : Nat
  placeholder : Nat
  plan : Plan S F K X R

/-- The process.  `summaries g` lists the placeholders the summaries of graph `g` need.  Simplification: the one or
two `tf.summary.scalar` calls of a model (`cp.py:109-110`, `tucker.py:47`) are one entry. -/
structure Process (S F K X R : Type) where
  cur : Nat := 0
  summaries : Nat → List Nat := fun _ => []
  next : Nat := 0
  model : Nat → Option (Built S F K X R) := fun _ => none
  self : Nat → Self F K X := fun _ => {}
  out : List (Nat × List Int × Res (Option (List (R × R)))) := []

/-- What the user may do: make a graph the default one (`with g.as_default()`, `tf.reset_default_graph()`), call
`build_model` or `train` of object `i`.  `fresh` is what the initialisers of this call give (`cp.py:67`, `cp.py:124`). -/
inductive Call (S F K X R : Type) where
  | enter (g : Nat)
  | build (i : Nat) (plan : Plan S F K X R)
  | train (i : Nat) (steps : Int) (fresh : Res S)

variable {S F K X R : Type}

/-- `train` of a model that has the process for itself (`cp.py:124-177`, `tucker.py:56-85`). -/
def alone (A : Arith R) (plan : Plan S F K X R) (steps : Int) (fresh : Res S) (self : Self F K X) :
    Self F K X × List Int × Res (Option (List (R × R))) :=
  match plan with
  | .loop c args =>
    let r := fact.train A c args steps fresh self
    (r.1, r.2.1, r.2.2.map some)
  | .once run =>
    let r := HOSVD.train run fresh self
    (r.1, if r.2.isOk then [1] else [], r.2.map fun _ => none)

/-- The fetch list with the merged summaries, when one of them needs a placeholder that is not fed:
`InvalidArgumentError`.  The first step of every loop fetches them (`cp.py:148`), so no other run of the main fetch
list takes place. -/
def unfed (plan : Plan S F K X R) : Plan S F K X R :=
  match plan with
  | .loop c args => .loop { c with main := fun _ => .error .invalidArgument } args
  | .once _ => .once fun _ => .error .invalidArgument

/-- `train` (`cp.py:124-177` and so on).  Before `build_model`, `sess.run(None)` raises `TypeError`; the finish flag is
`False` then.  With another default graph `sess.run(init_op)` raises `ValueError`. -/
def Process.train (A : Arith R) (p : Process S F K X R) (i : Nat) (steps : Int) (fresh : Res S) :
    Self F K X × List Int × Res (Option (List (R × R))) :=
  match p.model i with
  | none => (p.self i, [], .error .typeError)
  | some b =>
    if b.graph ≠ p.cur then alone A b.plan steps (.error .valueError) (p.self i)
    else if (p.summaries p.cur).all (· == b.placeholder) then alone A b.plan steps fresh (p.self i)
    else alone A (unfed b.plan) steps fresh (p.self i)

/-- One call (`cp.py:67-177`). -/
def Process.step (A : Arith R) (p : Process S F K X R) : Call S F K X R → Process S F K X R
  | .enter g => { p with cur := g }
  | .build i plan =>
    { p with
      summaries := Function.update p.summaries p.cur (p.summaries p.cur ++ [p.next])
      next := p.next + 1
      model := Function.update p.model i (some ⟨p.cur, p.next, plan⟩) }
  | .train i steps fresh =>
    let r := p.train A i steps fresh
    { p with self := Function.update p.self i r.1, out := p.out ++ [(i, r.2)] }

/-- A whole session of the user (`cp.py:67-177`, as any script calls it). -/
def run (A : Arith R) (h : List (Call S F K X R)) : Process S F K X R := h.foldl (Process.step A) {}

end TD.process
