import Verif.Model.Tensor
import Verif.Model.Train
import Mathlib.Data.Set.Function
import Mathlib.Order.Interval.Set.Defs

/-!
# Specification vocabulary for renumbering the indices of the data

The indices along a mode are names (users, items, tags).  A renumbering gives, for every mode `k`, a permutation `σ k` of
the indices along that mode.
-/
namespace TD.Spec
open Tensor
variable {α : Type}

/-- For every mode `k`, `σ k` permutes the indices `0, …, I_k - 1` of that mode. -/
def Renumbering (shape : List Nat) (σ : Nat → Nat → Nat) : Prop :=
  ∀ k < shape.length, Set.BijOn (σ k) (Set.Iio (shape.getD k 0)) (Set.Iio (shape.getD k 0))

/-- The renumbered tensor: its entry `(i_0, i_1, …)` is the entry `(σ_0 i_0, σ_1 i_1, …)` of `X`. -/
def renum [Zero α] (σ : Nat → Nat → Nat) (X : Tensor α) : Tensor α :=
  ofFn X.shape fun i => X.at_ (i.mapIdx σ)

/-- The matrix with rows renumbered: its row `i` is row `π i` of `A`. -/
def renumRows [Zero α] (π : Nat → Nat) (A : Tensor α) : Tensor α :=
  renum (fun k => if k = 0 then π else id) A

/-- The rows of the factor of mode `k` renumbered by `σ k`. -/
def renumFactors [Zero α] (σ : Nat → Nat → Nat) (U : List (Tensor α)) : List (Tensor α) :=
  U.mapIdx fun k A => renumRows (σ k) A

/-- The model object with renumbered factors and renumbered full tensor; weights or core and the flag as they are. -/
def renumSelf [Zero α] {K : Type} (σ : Nat → Nat → Nat) (s : fact.Self (List (Tensor α)) K (Tensor α)) :
    fact.Self (List (Tensor α)) K (Tensor α) :=
  { s with full := s.full.map (renum σ), factors := s.factors.map (renumFactors σ) }

end TD.Spec
