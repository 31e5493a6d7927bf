import Verif.Model.SpecialBcu
import Verif.Spec.Fit
import Verif.Spec.TuckerFit

/-!
# Specification: the nonnegative trainings in rounded arithmetic
-/
namespace TD.Spec
open TD sp
variable {F : Fmt}

/-- No entry compares less than zero. -/
def NotNegative (t : Tensor (Num F)) : Prop := ∀ i, InB t.shape i → (t.at_ i).lt 0 = false

/-- Freshly initialised NCP variables: any random draws of the right shapes. -/
def FreshNcp (X : Tensor (Num F)) (R : Nat) (s : State F) : Prop :=
  ∃ draws, FactorsFor X.shape R draws ∧ s = sp.init X X.order draws

/-- Freshly initialised NTUCKER variables: any random draws of the right shapes. -/
def FreshNtucker (X : Tensor (Num F)) (ranks : List Nat) (s : TState F) : Prop :=
  ∃ draws gdraw, draws.map Tensor.shape = tuckerShapes X.shape ranks ∧ gdraw.shape = ranks ∧ s = NTUCKER.init X draws gdraw

end TD.Spec
