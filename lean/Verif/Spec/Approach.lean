import Mathlib.Topology.Instances.Real.Lemmas
import Verif.Spec.Fit

/-!
# Convergence of tensors and of lists of factors

Specification only.
-/
namespace TD.Spec
open Filter Topology

/-- Tensors of one shape whose entries approach those of `L`. -/
def Approaches (A : ℕ → Tensor ℝ) (L : Tensor ℝ) : Prop :=
  (∀ n, (A n).shape = L.shape) ∧ ∀ i, InB L.shape i → Tendsto (fun n => (A n).at_ i) atTop (𝓝 (L.at_ i))

/-- Lists of tensors that approach those of the list `L`. -/
def FactorsApproach (F : ℕ → List (Tensor ℝ)) (L : List (Tensor ℝ)) : Prop :=
  (∀ n, (F n).length = L.length) ∧ ∀ k < L.length, ∃ (M : ℕ → Tensor ℝ) (K : Tensor ℝ),
    (∀ n, (F n)[k]? = some (M n)) ∧ L[k]? = some K ∧ Approaches M K

end TD.Spec
