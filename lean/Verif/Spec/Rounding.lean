import Verif.Model.Float
import Verif.Model.Type

/-!
# Specification of rounding errors
-/
namespace TD.Spec
open TD fl
variable {S : Arith}

/-- The real numbers a floating-point tensor holds. -/
def vals (A : Tensor (Fl S)) : Tensor ℝ := tf.map Fl.val A

/-- Their absolute values. -/
def mags (A : Tensor (Fl S)) : Tensor ℝ := tf.map (fun x => |x.val|) A

/-- The relative error after `k` roundings, all in the same direction. -/
noncomputable def gamma (S : Arith) (k : Nat) : ℝ := (1 + S.u) ^ k - 1

/-- The computed outcome, against the exact one and the exact outcome for the absolute values: both raise the same error, or the
shapes agree and each computed entry differs from the exact one by at most `ε` times the entry for the absolute values. -/
def Within (ε : ℝ) : Res (Tensor (Fl S)) → Res (Tensor ℝ) → Res (Tensor ℝ) → Prop
  | .ok R, .ok X, .ok M => R.shape = X.shape ∧ R.shape = M.shape ∧
      ∀ i, InB R.shape i → |(R.at_ i).val - X.at_ i| ≤ ε * M.at_ i
  | .error e, .error e', .error _ => e = e'
  | _, _, _ => False

/-- All entries are integers. -/
def Integral (A : Tensor (Fl S)) : Prop := ∀ x ∈ A.data, ∃ k : ℤ, x.val = k

/-- Integers up to `P` in absolute value are numbers of the format (`P = 2²⁴` for float32). -/
def Holds (S : Arith) (P : ℝ) : Prop := ∀ k : ℤ, |(k : ℝ)| ≤ P → S.rnd k = k

/-- The computed outcome is the exact one, without any error, at each entry where the sum of the absolute values is at most `P`. -/
def ExactUpTo (P : ℝ) : Res (Tensor (Fl S)) → Res (Tensor ℝ) → Res (Tensor ℝ) → Prop
  | .ok R, .ok X, .ok M => R.shape = X.shape ∧ R.shape = M.shape ∧
      ∀ i, InB R.shape i → M.at_ i ≤ P → (R.at_ i).val = X.at_ i
  | .error e, .error e', .error _ => e = e'
  | _, _, _ => False

/-- A Kruskal tensor with its arrays converted. -/
def onK {α β : Type} (f : Tensor α → Tensor β) (k : KTensor α) : KTensor β := ⟨k.U.map f, k.udtype, f k.lam, k.ldtype⟩

/-- A Tucker tensor with its arrays converted. -/
def onT {α β : Type} (f : Tensor α → Tensor β) (t : TTensor α) : TTensor β := ⟨f t.g, t.gdtype, t.U.map f, t.udtype⟩

/-- Number of components: columns of the first factor. -/
def rankOf {α : Type} (U : List (Tensor α)) : Nat := ((U.head?.map Tensor.shape).getD []).getD 1 0

/-- All entries are at least 0. -/
def NoNegative (A : Tensor (Fl S)) : Prop := ∀ x ∈ A.data, 0 ≤ x.val

/-- `x` is `y` up to `k` roundings: they differ by a factor between `(1 - u)^k` and its inverse. -/
def Roundings (S : Arith) (k : Nat) (x y : ℝ) : Prop := ∃ θ, (1 - S.u) ^ k ≤ θ ∧ θ * (1 - S.u) ^ k ≤ 1 ∧ x = θ * y

end TD.Spec
