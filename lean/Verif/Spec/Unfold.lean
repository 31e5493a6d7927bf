import Mathlib.Algebra.BigOperators.Group.Finset.Basic
import Verif.Model.Tensor

/-!
# Specification vocabulary for matricization

Written from Kolda & Bader's definition, not from the code.
-/
namespace TD.Spec

/-- Product of the dimensions other than mode `n`. -/
def otherSize (shape : List Nat) (n : Nat) : Nat :=
  ∏ m ∈ (Finset.range shape.length).erase n, shape.getD m 0

/-- Kolda's column index of the mode-`n` unfolding:
`∑_{k ≠ n} i_k · ∏_{m < k, m ≠ n} I_m` (0-based). -/
def koldaCol (shape idx : List Nat) (n : Nat) : Nat :=
  ∑ k ∈ (Finset.range shape.length).erase n,
    idx.getD k 0 * ∏ m ∈ (Finset.range k).erase n, shape.getD m 0

/-- Row-major rank of the index `idx` restricted to the axes `l` (in the order of `l`):
`∑_j i_{l_j} · ∏_{j' > j} I_{l_{j'}}`. -/
def axesRank (shape idx : List Nat) : List Nat → Nat
  | [] => 0
  | a :: l => idx.getD a 0 * (l.map fun k => shape.getD k 0).prod + axesRank shape idx l

/-- Product of the dimensions of the axes `l`. -/
def axesSize (shape : List Nat) (l : List Nat) : Nat := (l.map fun k => shape.getD k 0).prod

end TD.Spec
