import Verif.Spec.Kruskal
import Verif.Spec.Kron

/-! # Specification: forms of Kruskal tensors -/
namespace TD.Spec
open Tensor
variable {α : Type}

/-- The `R × ... × R` tensor of order `N` with `w r` at `(r, ..., r)` and 0 elsewhere. -/
def IsSuperdiagonal [Zero α] (G : Tensor α) (N R : Nat) (w : Nat → α) : Prop :=
  G.shape = List.replicate N R ∧ ∀ j, InB (List.replicate N R) j → (∀ r < R, j = List.replicate N r → G.at_ j = w r) ∧
    ((∀ r < R, j ≠ List.replicate N r) → G.at_ j = 0)

/-- The columns of the `m × R` matrix `A`, followed by those of the `m × S` matrix `B`. -/
def IsBeside [Zero α] (A B C : Tensor α) (R S : Nat) : Prop :=
  ∃ m, A.shape = [m, R] ∧ B.shape = [m, S] ∧ C.shape = [m, R + S] ∧
    ∀ i < m, (∀ r < R, C.at_ [i, r] = A.at_ [i, r]) ∧ ∀ s < S, C.at_ [i, R + s] = B.at_ [i, s]

end TD.Spec
