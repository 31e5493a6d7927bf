import Mathlib.Algebra.BigOperators.Group.Finset.Basic
import Verif.Model.Tensor

/-!
# Specification vocabulary for sums over index boxes and contraction
-/
namespace TD.Spec
variable {α : Type}

/-- Sum of `f` over all multi-indices of a box: `∑_{i_0 < n_0} ∑_{i_1 < n_1} … f [i_0, i_1, …]`. -/
def boxSum [AddCommMonoid α] : List Nat → (List Nat → α) → α
  | [], f => f []
  | n :: s, f => ∑ i ∈ Finset.range n, boxSum s fun is => f (i :: is)

/-- Axes of an order-`N` tensor that are not in `l`, ascending. -/
def freeAxes (N : Nat) (l : List Nat) : List Nat := (List.range N).filter (· ∉ l)

/-- The full index of an order-`N` tensor whose coordinate on axis `axes[j]` is `vals[j]` and whose
remaining coordinates, in ascending axis order, are `free`. -/
def place (N : Nat) (axes vals free : List Nat) : List Nat :=
  (List.range N).map fun k =>
    if k ∈ axes then vals.getD (axes.idxOf k) 0 else free.getD ((freeAxes N axes).idxOf k) 0

end TD.Spec
