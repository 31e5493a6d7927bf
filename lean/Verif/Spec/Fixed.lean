import Verif.Spec.TuckerFit
import Verif.Spec.TopSv

/-!
# Block-wise optimal factorizations

No single block (one factor matrix, or the core) can be replaced so as to lower the error.
-/
namespace TD.Spec
open TD

/-- No other matrix for one mode, with whatever weights, fits better. -/
def CpOptimal (X : Tensor ℝ) (R : Nat) (A : List (Tensor ℝ)) (w : Nat → ℝ) : Prop :=
  ∀ n < X.order, ∀ B : Tensor ℝ, B.shape = [X.shape.getD n 0, R] → ∀ w',
    cpErr X R A w ≤ cpErr X R (A.set n B) w'

/-- No other nonnegative matrix for one mode fits better. -/
def NcpOptimal (X : Tensor ℝ) (R : Nat) (A : List (Tensor ℝ)) : Prop :=
  ∀ n < X.order, ∀ B : Tensor ℝ, B.shape = [X.shape.getD n 0, R] → Nonneg B →
    cpErr X R A (fun _ => 1) ≤ cpErr X R (A.set n B) fun _ => 1

/-- No other matrix for one mode, orthonormal or not, with whatever core, fits better. -/
def TuckerOptimal (X : Tensor ℝ) (ranks : List Nat) (g : Tensor ℝ) (A : List (Tensor ℝ)) : Prop :=
  ∀ n < X.order, ∀ B g' : Tensor ℝ, B.shape = [X.shape.getD n 0, ranks.getD n 0] → g'.shape = g.shape →
    tkErr X g A ≤ tkErr X g' (A.set n B)

/-- No other nonnegative matrix for one mode, and no other nonnegative core, fits better. -/
def NtuckerOptimal (X : Tensor ℝ) (ranks : List Nat) (g : Tensor ℝ) (A : List (Tensor ℝ)) : Prop :=
  (∀ n < X.order, ∀ B : Tensor ℝ, B.shape = [X.shape.getD n 0, ranks.getD n 0] → Nonneg B →
    tkErr X g A ≤ tkErr X g (A.set n B)) ∧
  ∀ g' : Tensor ℝ, g'.shape = ranks → Nonneg g' → tkErr X g A ≤ tkErr X g' A

end TD.Spec
