import Verif.Spec.Fit

/-!
# Specification of rescaled initial factors
-/
namespace TD.Spec
open TD

/-- Every column of `B` is the corresponding column of `A` times a positive number. -/
def ScaledColumns (A B : Tensor ℝ) : Prop :=
  ∃ c : Nat → ℝ, (∀ r, 0 < c r) ∧ B.shape = A.shape ∧ ∀ i r, InB A.shape [i, r] → B.at_ [i, r] = c r * A.at_ [i, r]

/-- The rank-one tensors `a_0^r ∘ a_1^r ∘ …`, `r < R`, of these factors (of this shape) are linearly independent. -/
def Independent (shape : List Nat) (R : Nat) (U : List (Tensor ℝ)) : Prop :=
  ∀ c : Nat → ℝ, (∀ i, InB shape i → ∑ r ∈ Finset.range R, c r * khatriEntry r U i = 0) → ∀ r < R, c r = 0

end TD.Spec
