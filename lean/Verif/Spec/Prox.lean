import Verif.Spec.Pitf
import Mathlib.Algebra.Order.Archimedean.Real.Basic

/-! # Nuclear norm and proximal points -/
namespace TD.Spec
open Matrix

/-- `‖W x‖ ≤ ‖x‖` for all `x`: the spectral norm of `W` is at most one. -/
def Contraction {r c : Nat} (W : Mat r c) : Prop := ∀ x : Fin c → ℝ, ∑ i, (W *ᵥ x) i ^ 2 ≤ ∑ j, x j ^ 2

/-- Nuclear norm, as the dual norm of the spectral norm (it is the sum of the singular values, see
`nuclear_eq_sum`). -/
noncomputable def nuclear {r c : Nat} (M : Mat r c) : ℝ := sSup {t | ∃ W, Contraction W ∧ t = frobInner M W}

/-- `S` is the unique minimiser of `g(N) + ½ ‖N - M‖²` among the matrices in `K`. -/
def IsProx {r c : Nat} (K : Mat r c → Prop) (g : Mat r c → ℝ) (M S : Mat r c) : Prop :=
  K S ∧ ∀ N, K N → N ≠ S → g S + frobSq (S - M) / 2 < g N + frobSq (N - M) / 2

end TD.Spec
