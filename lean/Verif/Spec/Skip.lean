import Verif.Model.Ops

/-!
# Specification of the `skip_matrices_index` argument
-/
namespace TD.Spec

/-- Position `i` survives the skip argument: `None` keeps everything, an int `k` drops position `k`,
a list drops the positions it contains. -/
def keeps : ops.Skip → Nat → Prop
  | .none, _ => True
  | .int k, i => (i : Int) ≠ k
  | .list l, i => (i : Int) ∉ l

instance (s : ops.Skip) (i : Nat) : Decidable (keeps s i) := by
  cases s <;> unfold keeps <;> infer_instance

/-- The elements at the surviving positions, in order. -/
def kept {β : Type} (ms : List β) (s : ops.Skip) : List β :=
  ((List.range ms.length).filter fun i => decide (keeps s i)).filterMap (ms[·]?)

end TD.Spec
