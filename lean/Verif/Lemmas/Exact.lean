import Mathlib.Algebra.BigOperators.Group.Finset.Basic
import Mathlib.Algebra.BigOperators.Group.List.Basic
import Verif.Model.TF

/-! # Sums in exact arithmetic, as finite sums -/
namespace TD.tf
open TD Tensor
variable {α : Type}

theorem total_eq [NonUnitalNonAssocSemiring α] (l : List α) : Red.total l = l.sum := rfl

theorem sum_range_list [AddCommMonoid α] (n : Nat) (f : Nat → α) :
    ∑ l ∈ Finset.range n, f l = ((List.range n).map f).sum := by
  rw [← List.sum_toFinset f List.nodup_range]
  congr 1
  ext; simp

theorem dot_range [NonUnitalNonAssocSemiring α] (n : Nat) (f g : Nat → α) :
    Red.dot ((List.range n).map fun l => (f l, g l)) = ∑ l ∈ Finset.range n, f l * g l := by
  show (((List.range n).map fun l => (f l, g l)).map fun p => p.1 * p.2).sum = _
  rw [List.map_map, sum_range_list]
  rfl

/-- Sum over all values of the labels in a list, the other labels keeping their value in `env`. -/
def sumOver [AddCommMonoid α] (d : Char → Nat) : List Char → ((Char → Nat) → α) → (Char → Nat) → α
  | [], F, env => F env
  | c :: cs, F, env => ∑ v ∈ Finset.range (d c), sumOver d cs F (Function.update env c v)

theorem sum_indices_setLabels [AddCommMonoid α] (d : Char → Nat) (F : (Char → Nat) → α) :
    ∀ (cs : List Char) (env : Char → Nat),
      ((indices (cs.map d)).map fun vs => F (setLabels cs vs env)).sum = sumOver d cs F env
  | [], env => by simp [indices, setLabels, sumOver]
  | c :: cs, env => by
      simp only [List.map_cons, indices, sumOver]
      rw [sum_range_list]
      induction List.range (d c) with
      | nil => rfl
      | cons v l ih =>
          rw [List.flatMap_cons, List.map_append, List.sum_append, ih, List.map_cons, List.sum_cons, List.map_map]
          congr 1
          exact sum_indices_setLabels d F cs (Function.update env c v)

theorem contract_setLabels [CommSemiring α] (n : Nat) (d : Char → Nat) (G : (Char → Nat) → List α) (cs : List Char)
    (env : Char → Nat) :
    Ein.contract n (cs.map d) (fun vs => G (setLabels cs vs env)) = sumOver d cs (fun e => (G e).prod) env :=
  sum_indices_setLabels d (fun e => (G e).prod) cs env

end TD.tf
