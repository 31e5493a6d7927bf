import Verif.Model.Train

/-!
# What a training run is, in words of the user

Steps are numbered from 0 here: `o j` is what the session returned in the `(j+1)`-st step.
-/
namespace TD.Spec
open TD fact
variable {S F K X R : Type}

/-- The objective that step `j` is compared with.  It starts as the first objective plus one.  Classes that
extrapolate (`track`) replace it by every objective that is smaller. -/
def refObj (A : Arith R) (track : Bool) (obj : Nat → R) : Nat → R
  | 0 => A.add (obj 0) A.one
  | j + 1 => if track && A.lt (obj j) (refObj A track obj j) then obj j else refObj A track obj j

/-- Step `j` passes the stall test `|obj - ref| / (ref + 1) < tol`. -/
def Stalled (A : Arith R) (track : Bool) (tol : R) (obj : Nat → R) (j : Nat) : Prop :=
  A.lt (A.div (A.abs (A.sub (obj j) (refObj A track obj j))) (A.add (refObj A track obj j) A.one)) tol = true

/-- The stopping test at step `j`: small relative residual, or three stalled steps in a row. -/
def Stop (A : Arith R) (track : Bool) (tol : R) (obj rel : Nat → R) (j : Nat) : Prop :=
  A.lt (rel j) tol = true ∨
    2 ≤ j ∧ Stalled A track tol obj (j - 2) ∧ Stalled A track tol obj (j - 1) ∧ Stalled A track tol obj j

/-- The step with this number (from 0) is reported. -/
def Reported (args : Args R) (steps : Int) (j : Nat) : Prop :=
  (j : Int) + 1 = steps ∨ args.verbose = true ∨ j = 0 ∨
    (args.validationInternal ∣ (j : Int) + 1 ∧ args.validationInternal ≠ -1)

instance (args : Args R) (steps : Int) (j : Nat) : Decidable (Reported args steps j) := by
  unfold Reported; infer_instance

/-- From variables `s`, the runs of one step return `k` (core, if the class has such a run) and `o`, leaving
variables `s'`. -/
def Runs (c : Cls S F K X R) (s : S) (k : Option K) (o : Out F K X R) (s' : S) : Prop :=
  match c.core with
  | none => k = none ∧ c.main s = .ok (s', o)
  | some f => ∃ s1 v, f s = .ok (s1, v) ∧ k = some v ∧ c.main s1 = .ok (s', o)

/-- The update between two steps: nothing, or `op1` when the objective improved on the reference and `op2`
otherwise. -/
def Updates (A : Arith R) (c : Cls S F K X R) (obj ref : R) (s s' : S) : Prop :=
  match c.update with
  | none => s' = s
  | some (op1, op2) => if A.lt obj ref then op1 s = .ok s' else op2 s = .ok s'

/-- A run of `n` steps from variables `s0`: `o j` is returned by step `j`, steps are linked by the updates,
and the stopping test failed before the last step. -/
structure Run (A : Arith R) (c : Cls S F K X R) (tol : R) (s0 : S) (n : Nat)
    (o : Nat → Out F K X R) (k : Nat → Option K) : Prop where
  ran : ∃ σ : Nat → S, σ 0 = s0 ∧ ∀ j < n, ∃ s, Runs c (σ j) (k j) (o j) s ∧
    (j + 1 < n → Updates A c (o j).obj (refObj A c.update.isSome (fun i => (o i).obj) j) s (σ (j + 1)))
  goes : ∀ j, j + 1 < n → ¬ Stop A c.update.isSome tol (fun i => (o i).obj) (fun i => (o i).rel) j

end TD.Spec
