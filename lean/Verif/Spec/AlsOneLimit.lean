import Verif.Spec.AlsOne
import Verif.Spec.Approach

/-! # Specification: what alternating least squares with one component can converge to -/
namespace TD.Spec
open TD Filter Topology

/-- `L` is the outer product of vectors none of which can be replaced by one that brings the product closer to `X`. -/
def OneOptimal (X L : Tensor ℝ) : Prop :=
  L.shape = X.shape ∧ ∃ u : Nat → Nat → ℝ, (∀ i, InB X.shape i → L.at_ i = outerEntry X.order u i) ∧
    ∀ n < X.order, ∀ w : Nat → ℝ,
      distSqT X L ≤ boxSum X.shape fun i => (X.at_ i - outerEntry X.order (Function.update u n w) i) ^ 2

/-- Reconstructions `Y 0, Y 1, …` move from one history entry to the next by no more than the residual falls:
`‖Y_{j+1} - Y_j‖² ≤ N · (r_j² - r_{j+1}²) · ‖X‖²`, where `N` is the order. -/
def SmallMoves (X : Tensor ℝ) (Y : Nat → Tensor ℝ) (hist : List (ℝ × ℝ)) : Prop :=
  ∀ j p q, hist[j]? = some p → hist[j + 1]? = some q →
    distSqT (Y j) (Y (j + 1)) ≤ X.order * ((p.2 ^ 2 - q.2 ^ 2) * normSqT X)

/-- The reconstructions `Y 0, Y 1, …` come to rest and settle at outer products that are optimal in every mode: a subsequence
converges, the distance between consecutive ones tends to 0, and the limit of any subsequence is optimal, not smaller than any of the
reconstructions, and its distance to the data is the limit of theirs. -/
def SettlesAtOptima (X : Tensor ℝ) (Y : ℕ → Tensor ℝ) : Prop :=
  (∃ (φ : ℕ → ℕ) (L : Tensor ℝ), StrictMono φ ∧ Approaches (fun m => Y (φ m)) L) ∧
  Tendsto (fun n => distSqT (Y n) (Y (n + 1))) atTop (𝓝 0) ∧
  ∀ (φ : ℕ → ℕ) (L : Tensor ℝ), StrictMono φ → Approaches (fun m => Y (φ m)) L →
    OneOptimal X L ∧ (∀ n, normSqT (Y n) ≤ normSqT L) ∧ Tendsto (fun n => distSqT X (Y n)) atTop (𝓝 (distSqT X L))

/-- The reconstructions `Y 0, Y 1, …` come to rest: their squared moves add up to at most `N` times what the squared error falls, so they
tend to 0; a subsequence converges, and the limit of any subsequence is not smaller than any of the reconstructions and its distance to
the data is the limit of theirs. -/
def ComesToRest (X : Tensor ℝ) (Y : ℕ → Tensor ℝ) : Prop :=
  (∀ n, ∑ j ∈ Finset.range n, distSqT (Y j) (Y (j + 1)) ≤ X.order * (distSqT X (Y 0) - distSqT X (Y n))) ∧
  Tendsto (fun n => distSqT (Y n) (Y (n + 1))) atTop (𝓝 0) ∧
  (∃ (φ : ℕ → ℕ) (L : Tensor ℝ), StrictMono φ ∧ Approaches (fun m => Y (φ m)) L) ∧
  ∀ (φ : ℕ → ℕ) (L : Tensor ℝ), StrictMono φ → Approaches (fun m => Y (φ m)) L →
    (∀ n, normSqT (Y n) ≤ normSqT L) ∧ Tendsto (fun n => distSqT X (Y n)) atTop (𝓝 (distSqT X L))

/-! ### Matrices -/

/-- `‖z‖²` of a vector with `n` entries. -/
noncomputable def lengthSq (n : Nat) (z : Nat → ℝ) : ℝ := ∑ b ∈ Finset.range n, z b ^ 2

/-- `‖X z‖²`, for a matrix `X`. -/
noncomputable def stretchSq (X : Tensor ℝ) (z : Nat → ℝ) : ℝ :=
  ∑ a ∈ Finset.range (X.shape.getD 0 0), (∑ b ∈ Finset.range (X.shape.getD 1 0), X.at_ [a, b] * z b) ^ 2

/-- `w` is a leading direction of the matrix `X`: none is stretched more. -/
def Leading (X : Tensor ℝ) (w : Nat → ℝ) : Prop :=
  ∀ z : Nat → ℝ, stretchSq X z * lengthSq (X.shape.getD 1 0) w ≤ stretchSq X w * lengthSq (X.shape.getD 1 0) z

/-- The vector `y`, with one entry for every column of the matrix `X`, is not orthogonal to all leading directions of `X`. -/
def SeesLeading (X : Tensor ℝ) (y : Nat → ℝ) : Prop :=
  ∃ w, Leading X w ∧ ∑ b ∈ Finset.range (X.shape.getD 1 0), w b * y b ≠ 0

/-- `L` is an outer product of vectors, and no outer product of vectors is closer to `X`. -/
def BestOuter (X L : Tensor ℝ) : Prop :=
  L.shape = X.shape ∧ (∃ u : Nat → Nat → ℝ, ∀ i, InB X.shape i → L.at_ i = outerEntry X.order u i) ∧
    ∀ u : Nat → Nat → ℝ, distSqT X L ≤ boxSum X.shape fun i => (X.at_ i - outerEntry X.order u i) ^ 2

end TD.Spec
