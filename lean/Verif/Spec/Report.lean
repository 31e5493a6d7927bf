import Mathlib.Analysis.Real.Sqrt
import Verif.Spec.TuckerFit

/-!
# What the numbers in a training history mean
-/
namespace TD.Spec
open TD Tensor

/-- `Y` is the tensor `∑_r w_r a_0^r ∘ a_1^r ∘ …`. -/
def IsKruskal (shape : List Nat) (R : Nat) (A : List (Tensor ℝ)) (w : Nat → ℝ) (Y : Tensor ℝ) : Prop :=
  Y.shape = shape ∧ ∀ i, InB shape i → Y.at_ i = ∑ r ∈ Finset.range R, w r * khatriEntry r A i

/-- `Y` is the tensor `G ×_0 A_0 ×_1 A_1 …`. -/
def IsTucker (shape : List Nat) (g : Tensor ℝ) (A : List (Tensor ℝ)) (Y : Tensor ℝ) : Prop :=
  Y.shape = shape ∧ ∀ i, InB shape i → Y.at_ i = boxSum g.shape fun j => g.at_ j * kronEntry A i j

/-- A history entry `p` for the approximation `Y` of `X`: the root of the mean squared error over the nonzero entries
of `X`, and `‖X - Y‖ / ‖X‖`. -/
def Reports (X Y : Tensor ℝ) (p : ℝ × ℝ) : Prop :=
  p.1 = Real.sqrt ((boxSum X.shape fun i => if X.at_ i ≠ 0 then (X.at_ i - Y.at_ i) ^ 2 else 0) /
    (boxSum X.shape fun i => if X.at_ i ≠ 0 then 1 else 0)) ∧
  p.2 = Real.sqrt (boxSum X.shape fun i => (X.at_ i - Y.at_ i) ^ 2) / Real.sqrt (boxSum X.shape fun i => X.at_ i ^ 2)

/-- `Y` is a Tucker tensor of the given shape with factors of at most the given numbers of columns. -/
def TuckerRankLe (shape ranks : List Nat) (Y : Tensor ℝ) : Prop :=
  ∃ g B, B.map Tensor.shape = (List.range shape.length).map (fun k => [shape.getD k 0, g.shape.getD k 0]) ∧
    g.shape.length = shape.length ∧ (∀ k < shape.length, g.shape.getD k 0 ≤ ranks.getD k 0) ∧ IsTucker shape g B Y

end TD.Spec
