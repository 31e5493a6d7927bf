import Verif.Spec.ThinSvd
import Verif.Spec.Kron
import Verif.Model.Tucker
import Verif.Spec.Fit

/-!
# Specification of the subspaces a Tucker decomposition finds

Singular vectors are not unique: every routine may return other signs, or another basis when singular values coincide.  What
can be determined is the subspace they span, that is the orthogonal projection onto it.
-/
namespace TD.Spec
open TD Matrix

/-- The first `r` left singular vectors of `M` span a determined subspace: either they span everything, or the first `r`
singular values are positive and larger than all the others. -/
def Separated {m n : Nat} (M : Mat m n) (r : Nat) : Prop :=
  r = m ∨ ∃ s, SingularValues M s ∧ (∀ i, i.val < r → 0 < s i) ∧ ∀ i j, i.val < r → r ≤ j.val → s j < s i

/-- `A Aᵀ`: for orthonormal columns, the orthogonal projection onto their span. -/
noncomputable def projector (A : Tensor ℝ) : Tensor ℝ :=
  Tensor.mat (A.shape.getD 0 0) (A.shape.getD 0 0) fun i j =>
    ∑ r ∈ Finset.range (A.shape.getD 1 0), A.at_ [i, r] * A.at_ [j, r]

/-- One orthogonal matrix per mode. -/
def Orthogonals (shape : List Nat) (Q : List (Tensor ℝ)) : Prop :=
  Q.length = shape.length ∧ ∀ k M, Q[k]? = some M → OrthoCols M (shape.getD k 0) (shape.getD k 0)

/-- `X ×_0 Q_0 ×_1 Q_1 …` for square matrices: the data in other coordinates. -/
noncomputable def rotate (Q : List (Tensor ℝ)) (X : Tensor ℝ) : Tensor ℝ :=
  Tensor.ofFn X.shape fun i => boxSum X.shape fun j => kronEntry Q i j * X.at_ j

/-- `Q M`. -/
noncomputable def rotateRows (Q M : Tensor ℝ) : Tensor ℝ :=
  Tensor.mat (M.shape.getD 0 0) (M.shape.getD 1 0) fun i r =>
    ∑ j ∈ Finset.range (M.shape.getD 0 0), Q.at_ [i, j] * M.at_ [j, r]

/-- The factors of a model in other coordinates. -/
noncomputable def rotateFactors (Q A : List (Tensor ℝ)) : List (Tensor ℝ) := List.zipWith rotateRows Q A

/-- The factors a training of `HOOI` has when it updates mode `n`. -/
inductive Visits (svd : Tensor ℝ → Res (Tensor ℝ × Tensor ℝ × Tensor ℝ)) (X : Tensor ℝ) (ranks : List Nat) :
    List (Tensor ℝ) → Nat → Prop
  | start {A} : tucker.HOOI.init svd X ranks = .ok A → Visits svd X ranks A 0
  | next {A A' n} : Visits svd X ranks A n → n < X.order → tucker.HOOI.modeUpdate svd X ranks A n = .ok A' →
      Visits svd X ranks A' (n + 1)
  | again {A} : Visits svd X ranks A X.order → Visits svd X ranks A 0

/-- The subspaces of all updates of a training of `HOOI` are determined. -/
def SeparatedTraining (svd : Tensor ℝ → Res (Tensor ℝ × Tensor ℝ × Tensor ℝ)) (X : Tensor ℝ) (ranks : List Nat) : Prop :=
  (∀ n < X.order, ∀ M, ops.unfold X n = .ok M →
    Separated (toMat M (X.shape.getD n 0) (otherSize X.shape n)) (ranks.getD n 0)) ∧
  ∀ A n, Visits svd X ranks A n → n < X.order → ∀ Y M, ops.ttm X A none true (.int n) = .ok Y → ops.unfold Y n = .ok M →
    Separated (toMat M (Y.shape.getD n 0) (otherSize Y.shape n)) (ranks.getD n 0)

/-- What is determined of a model object: the projections of the factors, the squared norm of the core, the full tensor and
the flag. -/
noncomputable def subspaces (s : fact.Self (List (Tensor ℝ)) (Tensor ℝ) (Tensor ℝ)) : fact.Self (List (Tensor ℝ)) ℝ (Tensor ℝ) :=
  ⟨s.full, s.factors.map (List.map projector), s.aux.map normSqT, s.finish⟩

/-- The model object in other coordinates. -/
noncomputable def rotateSelf (Q : List (Tensor ℝ)) (s : fact.Self (List (Tensor ℝ)) (Tensor ℝ) (Tensor ℝ)) :
    fact.Self (List (Tensor ℝ)) (Tensor ℝ) (Tensor ℝ) :=
  { s with full := s.full.map (rotate Q), factors := s.factors.map (rotateFactors Q) }

end TD.Spec
