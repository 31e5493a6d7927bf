import Verif.Props.PitfSym
import Verif.Props.PitfShrink

/-!
# C149: what the TensorFlow shrinkage takes from the decomposition
-/
namespace TD.Props
open TD TD.pitf Matrix Spec
variable {r c : Nat}

/-- **C149** (partial): the products `S Sᵀ` of the shrunk matrix with its transpose - so its singular values, its norm, the angles and
lengths of its rows - are those of the numpy version and the same for every decomposition.
Missing: the matrix itself, which depends on the decomposition (`C149_solver_false`). -/
theorem C149_gram_partial (svd : tfl.Svd) (hs : TfSvdOk svd) (svd' : np.Svd) (hs' : NpSvdOk svd') (M : Mat r c) (tao : ℝ) (ht : 0 ≤ tao) :
    ∃ S N, tfl.shrink svd M tao "normal" = some S ∧ np.shrink svd' M tao "normal" = some N ∧ S * Sᵀ = N * Nᵀ := by
  have e := shrink_of_svd svd' hs' M (hs (tfl.centralization M)) ht
  refine ⟨_, _, rfl, by simp only [np.shrink, if_true]; rfl, ?_⟩
  rw [e]
  simp only [tfl.SVT, transpose_mul, transpose_transpose]
  have h := hs (tfl.centralization M)
  have hv : (svd (tfl.centralization M)).2.2 * (svd (tfl.centralization M)).2.2ᵀ = 1 := mul_eq_one_comm.1 h.orthV
  generalize (svd (tfl.centralization M)).2.2 = v at *
  generalize (diagRect fun i => max 0 ((svd (tfl.centralization M)).1 i - tao) : Mat r c) = d at *
  generalize (svd (tfl.centralization M)).2.1 = u at *
  calc u * d * v * (vᵀ * (dᵀ * uᵀ)) = u * d * (v * vᵀ) * (dᵀ * uᵀ) := by simp only [Matrix.mul_assoc]
    _ = u * d * (vᵀ * v) * (dᵀ * uᵀ) := by rw [hv, h.orthV]
    _ = _ := by simp only [Matrix.mul_assoc]

/-- Two correct solvers give the same products. -/
theorem C149_same_gram_partial (svd svd' : tfl.Svd) (hs : TfSvdOk svd) (hs' : TfSvdOk svd') (M : Mat r c) (tao : ℝ) (ht : 0 ≤ tao) :
    ∃ S S', tfl.shrink svd M tao "normal" = some S ∧ tfl.shrink svd' M tao "normal" = some S' ∧ S * Sᵀ = S' * S'ᵀ := by
  obtain ⟨w, hw⟩ := exists_npSvd
  obtain ⟨S, N, h1, h2, h3⟩ := C149_gram_partial svd hs w hw M tao ht
  obtain ⟨S', N', h1', h2', h3'⟩ := C149_gram_partial svd' hs' w hw M tao ht
  rw [h2] at h2'
  cases h2'
  exact ⟨S, S', h1, h1', h3.trans h3'.symm⟩

/-- The sign `-1` at the second index. -/
def flipSign (k : Nat) : Fin k → ℝ := fun i => if i.val = 1 then -1 else 1

/-- Another solver: the second columns of both factors with the opposite sign. -/
noncomputable def flipSvd (svd : tfl.Svd) : tfl.Svd := fun {_ _} M =>
  ((svd M).1, (svd M).2.1 * diagonal (flipSign _), (svd M).2.2 * diagonal (flipSign _))

theorem flipSign_sq (k : Nat) : diagonal (flipSign k) * diagonal (flipSign k) = 1 := by
  rw [diagonal_mul_diagonal, ← diagonal_one]
  congr 1
  funext i
  unfold flipSign
  split <;> norm_num

theorem flip_diagRect {k l : Nat} (s : Fin (min k l) → ℝ) :
    diagonal (flipSign k) * (diagRect s : Mat k l) * diagonal (flipSign l) = diagRect s := by
  ext i j
  rw [mul_diagonal, diagonal_mul]
  unfold diagRect
  split
  · next h =>
      unfold flipSign
      rw [← h]
      split <;> ring
  · ring

theorem flipSvd_ok (svd : tfl.Svd) (hs : TfSvdOk svd) : TfSvdOk (flipSvd svd) := by
  intro k l M
  have h := hs M
  refine ⟨?_, ?_, h.nonneg, h.anti, ?_⟩
  · show ((svd M).2.1 * diagonal (flipSign k))ᵀ * ((svd M).2.1 * diagonal (flipSign k)) = 1
    rw [transpose_mul, diagonal_transpose]
    calc _ = diagonal (flipSign k) * ((svd M).2.1ᵀ * (svd M).2.1) * diagonal (flipSign k) := by simp only [Matrix.mul_assoc]
      _ = 1 := by rw [h.orthU, Matrix.mul_one, flipSign_sq]
  · show ((svd M).2.2 * diagonal (flipSign l))ᵀ * ((svd M).2.2 * diagonal (flipSign l)) = 1
    rw [transpose_mul, diagonal_transpose]
    calc _ = diagonal (flipSign l) * ((svd M).2.2ᵀ * (svd M).2.2) * diagonal (flipSign l) := by simp only [Matrix.mul_assoc]
      _ = 1 := by rw [h.orthV, Matrix.mul_one, flipSign_sq]
  · show M = (svd M).2.1 * diagonal (flipSign k) * diagRect (svd M).1 * ((svd M).2.2 * diagonal (flipSign l))ᵀ
    rw [transpose_mul, diagonal_transpose]
    calc M = (svd M).2.1 * diagRect (svd M).1 * (svd M).2.2ᵀ := h.eq
      _ = (svd M).2.1 * (diagonal (flipSign k) * diagRect (svd M).1 * diagonal (flipSign l)) * (svd M).2.2ᵀ := by rw [flip_diagRect]
      _ = _ := by simp only [Matrix.mul_assoc]

/-- A matrix with zero column sums whose columns are not orthogonal. -/
def rowPair : Mat 2 2 := !![1, 1; -1, -1]

/-- **C149** is false: for every correct solver there is another correct solver with which the TensorFlow `shrink` of the same matrix,
with the same threshold, is a different matrix. -/
theorem C149_solver_false (svd : tfl.Svd) (hs : TfSvdOk svd) :
    ∃ svd' : tfl.Svd, TfSvdOk svd' ∧ tfl.shrink svd' rowPair 0 "normal" ≠ tfl.shrink svd rowPair 0 "normal" := by
  refine ⟨flipSvd svd, flipSvd_ok svd hs, fun he => ?_⟩
  have hcen : tfl.centralization rowPair = rowPair := C61_fixed _ fun j => by fin_cases j <;> simp [rowPair]
  simp only [tfl.shrink, tfl.SVT, if_true, hcen, flipSvd] at he
  have he := Option.some.inj he
  have h := hs rowPair
  generalize (svd rowPair).2.1 = u at *
  generalize (svd rowPair).1 = s at *
  generalize (svd rowPair).2.2 = v at *
  have e : (fun i => max 0 (s i - 0)) = s := by
    funext i
    rw [sub_zero, max_eq_right (h.nonneg i)]
  rw [e] at he
  let d : Fin 2 → ℝ := fun i => s ⟨i, by have := i.isLt; omega⟩
  have hd : (diagRect s : Mat 2 2) = diagonal d := by
    ext i j
    by_cases hij : i = j
    · subst hij; simp [diagRect, d]
    · rw [diagonal_apply_ne _ hij, diagRect, dif_neg (fun e => hij (Fin.ext e))]
  -- `d₀ v₀₁ = - d₀ v₀₁`
  have h1 := congrArg (fun X => uᵀ * X) he
  simp only [← Matrix.mul_assoc, h.orthU, Matrix.one_mul] at h1
  rw [hd] at h1
  have h01 := congrFun (congrFun h1 0) 1
  rw [mul_diagonal, diagonal_mul_diagonal, diagonal_mul, diagonal_mul] at h01
  have f0 : flipSign 2 0 = 1 := rfl
  have f1 : flipSign 2 1 = -1 := rfl
  rw [f0, f1] at h01
  -- `MᵀM = v d² vᵀ`
  have h2 : rowPairᵀ * rowPair = v * (diagonal d * diagonal d) * vᵀ := by
    conv_lhs => rw [h.eq, hd]
    simp only [transpose_mul, transpose_transpose, diagonal_transpose]
    calc v * (diagonal d * uᵀ) * (u * diagonal d * vᵀ) = v * (diagonal d * (uᵀ * u) * diagonal d) * vᵀ := by simp only [Matrix.mul_assoc]
      _ = _ := by rw [h.orthU, Matrix.mul_one]
  have hvv : v * vᵀ = 1 := mul_eq_one_comm.1 h.orthV
  have g01 := congrFun (congrFun h2 0) 1
  have v00 := congrFun (congrFun hvv 0) 0
  have v01 := congrFun (congrFun hvv 0) 1
  rw [diagonal_mul_diagonal] at g01
  simp [Matrix.mul_apply, Fin.sum_univ_two, rowPair, Matrix.diagonal] at g01 v00 v01
  have hd01 : d 1 * d 1 ≤ d 0 * d 0 := mul_self_le_mul_self (h.nonneg _) (h.anti _ _ (by simp))
  have hprod : d 0 * v 0 1 = 0 := by linarith
  rcases mul_eq_zero.1 hprod with hz | hz
  · have : d 1 * d 1 = 0 := le_antisymm (by rw [hz] at hd01; simpa using hd01) (mul_self_nonneg _)
    rw [this, hz] at g01
    norm_num at g01
  · rw [hz] at g01 v00 v01
    have : v 1 0 = 0 := by
      rcases mul_eq_zero.1 (by linarith : v 0 0 * v 1 0 = 0) with h | h
      · rw [h] at v00; norm_num at v00
      · exact h
    rw [this] at g01
    norm_num at g01

/-- There are correct solvers. -/
example : ∃ svd svd' : tfl.Svd, TfSvdOk svd ∧ TfSvdOk svd' ∧ tfl.shrink svd' rowPair 0 "normal" ≠ tfl.shrink svd rowPair 0 "normal" := by
  obtain ⟨svd, hs⟩ := exists_tfSvd
  obtain ⟨svd', hs', h⟩ := C149_solver_false svd hs
  exact ⟨svd, svd', hs, hs', h⟩

end TD.Props
