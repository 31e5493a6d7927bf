import Verif.Model.Binding

/-! # Specification: the data a provider supplies, and what is written into an array -/
namespace TD.Spec
open TD.bind
variable {α : Type}

/-- A call of `full_tensor()` of provider `p` now returns the existing array object `r`. -/
def Names (w : World α) (p r : Nat) : Prop := w.source p = .object r ∨ ∃ x, w.source p = .variable x ∧ w.vars x = some r

/-- A call of `full_tensor()` of provider `p` now returns an array with the contents `t`. -/
def Supplies (w : World α) (p : Nat) (t : Tensor α) : Prop :=
  (∃ r, Names w p r ∧ w.heap[r]? = some t) ∨ w.source p = .fresh t

/-- The contents of the array object `r`, `t` at first, after what a script writes into it. -/
def written (r : Nat) (t : Tensor α) (h : List (Act α)) : Tensor α :=
  h.foldl (fun t a => match a with
    | .write r' t' => if r' = r then t' else t
    | _ => t) t

end TD.Spec
