import Verif.Model.SpecialLoss
import Verif.Model.FloatLoss
import Verif.Spec.Rounding

/-!
# Specification: overflow, infinities and NaN are not hidden
-/
namespace TD.Spec
open TD sp
variable {F : Fmt}

/-- The same number in the format with unbounded exponents; 0 for infinities and NaN. -/
def wide : Num F → fl.Fl F.arith
  | .fin x h => ⟨x, h.1⟩
  | _ => 0

/-- A tensor in the format with unbounded exponents. -/
def wides (A : Tensor (Num F)) : Tensor (fl.Fl F.arith) := tf.map wide A

/-- All entries are numbers. -/
def AllFinite (A : Tensor (Num F)) : Prop := ∀ i, InB A.shape i → (A.at_ i).Finite

/-- `x` is the number `y`. -/
def IsNum (x : Num F) (y : fl.Fl F.arith) : Prop := ∃ h, x = .fin y.val h

/-- The computed outcome, against the one in the format with unbounded exponents: both raise the same error, or the shapes agree
and every entry that is a number is the same number. -/
def Agrees : Res (Tensor (Num F)) → Res (Tensor (fl.Fl F.arith)) → Prop
  | .ok R, .ok W => R.shape = W.shape ∧ ∀ i, InB R.shape i → (R.at_ i).Finite → IsNum (R.at_ i) (W.at_ i)
  | .error e, .error e' => e = e'
  | _, _ => False

/-- The result `r` shows what is wrong with the operand `x`: it is infinite or NaN if `x` is, and NaN if `x` is. -/
def Reveals (x r : Num F) : Prop := (¬ x.Finite → ¬ r.Finite) ∧ (x = .nan → r = .nan)

end TD.Spec
