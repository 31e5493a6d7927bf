import Verif.Spec.Train

/-!
# Reachable variables and what a model object exposes
-/
namespace TD.Spec
open TD fact
variable {S F K X R : Type}

/-- Variables reachable by session runs of the class, in any order, from freshly initialised ones. -/
inductive Reach (c : Cls S F K X R) (init : S → Prop) : S → Prop
  | fresh {s : S} : init s → Reach c init s
  | core {s s' : S} {k : K} {f : S → Res (S × K)} : Reach c init s → c.core = some f → f s = .ok (s', k) →
      Reach c init s'
  | main {s s' : S} {o : Out F K X R} : Reach c init s → c.main s = .ok (s', o) → Reach c init s'
  | op1 {s s' : S} {p : (S → Res S) × (S → Res S)} : Reach c init s → c.update = some p → p.1 s = .ok s' →
      Reach c init s'
  | op2 {s s' : S} {p : (S → Res S) × (S → Res S)} : Reach c init s → c.update = some p → p.2 s = .ok s' →
      Reach c init s'

/-- Everything exposed by a model object was returned by a session run from reachable variables (or is the
constant the class assigns after the loop). -/
structure Exposes (c : Cls S F K X R) (init : S → Prop) (m : Self F K X) : Prop where
  factors : ∀ f, m.factors = some f → ∃ s s' o, Reach c init s ∧ c.main s = .ok (s', o) ∧ f = o.factors
  full : ∀ x, m.full = some x → ∃ s s' o, Reach c init s ∧ c.main s = .ok (s', o) ∧ x = o.full
  aux : ∀ k, m.aux = some k → c.lambdasAfter = some k ∨
    (∃ s s' o, Reach c init s ∧ c.main s = .ok (s', o) ∧ some k = o.aux) ∨
    ∃ s s' f, Reach c init s ∧ c.core = some f ∧ f s = .ok (s', k)

end TD.Spec

