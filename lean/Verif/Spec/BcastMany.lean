import Verif.Spec.Bcast

/-!
# Specification of numpy broadcasting of several shapes
-/
namespace TD.Spec

/-- `s` is the common shape of several shapes: aligned at the last axis (missing axes count as 1), every size is 1 or that
of `s`, and on every axis (and in length) one of the shapes is as `s`. -/
def BcastMany (shapes : List (List Nat)) (s : List Nat) : Prop :=
  (∀ a ∈ shapes, a.length ≤ s.length) ∧ (∃ a ∈ shapes, a.length = s.length) ∧
  ∀ k < s.length, (∀ a ∈ shapes, a.reverse.getD k 1 = 1 ∨ a.reverse.getD k 1 = s.reverse.getD k 1) ∧
    ∃ a ∈ shapes, a.reverse.getD k 1 = s.reverse.getD k 1

end TD.Spec
