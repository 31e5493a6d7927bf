import Mathlib.Data.Real.Basic
import Verif.Model.TF

/-!
# A tensor in other units
-/
namespace TD

/-- A tensor with every entry multiplied by `c`. -/
noncomputable def scl (c : ℝ) (t : Tensor ℝ) : Tensor ℝ := tf.map (c * ·) t

end TD
