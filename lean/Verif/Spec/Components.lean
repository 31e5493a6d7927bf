import Verif.Spec.Renumber

/-!
# Specification vocabulary for renumbering the components of a decomposition

A Kruskal model is a sum of `R` components; the number of a component is the index of its column in every factor and of its
weight.  The numbering of the components of a Tucker model is one numbering per mode: of the columns of the factor and of the
indices of the core along that mode.
-/
namespace TD.Spec
open Tensor
variable {α : Type}

/-- The matrix with columns renumbered: its column `r` is column `π r` of `A`. -/
def renumCols [Zero α] (π : Nat → Nat) (A : Tensor α) : Tensor α :=
  renum (fun k => if k = 1 then π else id) A

/-- The columns of every factor renumbered by `π`. -/
def renumComponents [Zero α] (π : Nat → Nat) (U : List (Tensor α)) : List (Tensor α) := U.map (renumCols π)

/-- The weights renumbered by `π`. -/
def renumWeights [Zero α] (π : Nat → Nat) (w : Tensor α) : Tensor α := renum (fun _ => π) w

/-- The model object with the columns of the factors and the weights renumbered; the full tensor and the flag as they are. -/
def renumKruskal [Zero α] (π : Nat → Nat) (s : fact.Self (List (Tensor α)) (Tensor α) (Tensor α)) :
    fact.Self (List (Tensor α)) (Tensor α) (Tensor α) :=
  { s with factors := s.factors.map (renumComponents π), aux := s.aux.map (renumWeights π) }

/-- The model object with the columns of the factors renumbered; everything else as it is.  For `NCP_BCU`, whose weights are
all one. -/
def renumColumns [Zero α] {K : Type} (π : Nat → Nat) (s : fact.Self (List (Tensor α)) K (Tensor α)) :
    fact.Self (List (Tensor α)) K (Tensor α) :=
  { s with factors := s.factors.map (renumComponents π) }

/-- The columns of the factor of mode `k` renumbered by `τ k`. -/
def renumModes [Zero α] (τ : Nat → Nat → Nat) (U : List (Tensor α)) : List (Tensor α) :=
  U.mapIdx fun k A => renumCols (τ k) A

/-- The model object with the columns of the factors and the indices of the core renumbered. -/
def renumTucker [Zero α] (τ : Nat → Nat → Nat) (s : fact.Self (List (Tensor α)) (Tensor α) (Tensor α)) :
    fact.Self (List (Tensor α)) (Tensor α) (Tensor α) :=
  { s with factors := s.factors.map (renumModes τ), aux := s.aux.map (renum τ) }

end TD.Spec
