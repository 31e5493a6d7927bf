import Verif.Lemmas.Average
import Verif.Props.Recovery

/-!
# C144 : the random positions of the pairwise-interaction recovery

`sample3D_rule` draws the three index vectors independently and uniformly, so every `Samples n m` is equally likely.
-/
namespace TD.Props
open TD Spec pitf Matrix
variable {n : Fin 3 → Nat} {m : Nat}

/-- A position of the tensor. -/
abbrev Pos (n : Fin 3 → Nat) := Fin (n 0) × Fin (n 1) × Fin (n 2)

/-- Sample lists are lists of positions. -/
def splEquiv (n : Fin 3 → Nat) (m : Nat) : Samples n m ≃ (Fin m → Pos n) where
  toFun spl k := (spl 0 k, spl 1 k, spl 2 k)
  invFun f d k := match d with
    | 0 => (f k).1
    | 1 => (f k).2.1
    | 2 => (f k).2.2
  left_inv spl := by funext d k; fin_cases d <;> rfl
  right_inv f := rfl

theorem pos_nonempty (hn : ∀ d, 0 < n d) : Nonempty (Pos n) :=
  ⟨⟨0, hn 0⟩, ⟨0, hn 1⟩, ⟨0, hn 2⟩⟩

/-- **C144**: the mean of the sampled entries is on average over all draws the mean of all entries of the tensor, and its mean square deviation
is the variance of the entries divided by the number of samples. -/
theorem C144_mean (hn : ∀ d, 0 < n d) (hm : 0 < m) (T : Tensor3 n) :
    average (fun spl : Samples n m => (∑ k, np.PomegaTensor spl T k) / m) = average (fun p : Pos n => T p.1 p.2.1 p.2.2) ∧
    average (fun spl : Samples n m => ((∑ k, np.PomegaTensor spl T k) / m - average (fun p : Pos n => T p.1 p.2.1 p.2.2)) ^ 2)
      = average (fun p : Pos n => (T p.1 p.2.1 p.2.2 - average (fun p : Pos n => T p.1 p.2.1 p.2.2)) ^ 2) / m := by
  have := pos_nonempty hn
  constructor
  · rw [← average_mean hm (fun p : Pos n => T p.1 p.2.1 p.2.2), ← average_equiv (splEquiv n m)]
    rfl
  · rw [← average_variance hm (fun p : Pos n => T p.1 p.2.1 p.2.2), ← average_equiv (splEquiv n m)]
    rfl

/-- The cell of the matrix with number `dim` that a position of the tensor meets. -/
def cell (n : Fin 3 → Nat) : (dim : Fin 3) → Pos n → Fin (rowDim n dim) × Fin (colDim n dim)
  | 0 => fun p => (p.1, p.2.1)
  | 1 => fun p => (p.2.1, p.2.2)
  | 2 => fun p => (p.2.2, p.1)

theorem position_cell (spl : Samples n m) (dim : Fin 3) (k : Fin m) : position spl dim k = cell n dim (splEquiv n m spl k) := by
  match dim with
  | 0 => rfl
  | 1 => rfl
  | 2 => rfl

theorem average_cell (hn : ∀ d, 0 < n d) (dim : Fin 3) (c : Fin (rowDim n dim) × Fin (colDim n dim)) :
    average (fun p : Pos n => if cell n dim p = c then (1 : ℝ) else 0) = 1 / ((rowDim n dim : ℝ) * colDim n dim) := by
  match dim, c with
  | 0, (i, j) => exact average_cell01 (hn 0) (hn 1) (hn 2) i j
  | 1, (i, j) => exact average_cell12 (hn 0) (hn 1) (hn 2) i j
  | 2, (i, j) => exact average_cell20 (hn 0) (hn 1) (hn 2) i j

/-- Sampling a matrix and scattering the samples back gives its entries at the cells that were drawn, and zero elsewhere. -/
theorem adjoint_sample (spl : Samples n m) (dim : Fin 3) (M : Mat (rowDim n dim) (colDim n dim)) (i j) :
    np.adjointOperator spl (np.PomegaMat spl dim M) dim i j
      = M i j / √(thirdSize n dim) * if ∃ k, position spl dim k = (i, j) then 1 else 0 := by
  rw [adjoint_apply]
  split
  · rename_i h
    obtain ⟨k, hk⟩ := h
    rw [mul_one]
    generalize hl : (List.finRange m).filter (fun k => position spl dim k = (i, j)) = l
    have hmem : ∀ x ∈ l, position spl dim x = (i, j) := by
      intro x hx
      rw [← hl, List.mem_filter] at hx
      simpa using hx.2
    have hne : l ≠ [] := by
      intro h
      have : k ∈ l := by rw [← hl, List.mem_filter]; exact ⟨List.mem_finRange k, by simpa using hk⟩
      rw [h] at this
      cases this
    have he : l.map (np.PomegaMat spl dim M) = List.replicate l.length (M i j / √(thirdSize n dim)) := by
      rw [List.eq_replicate_iff]
      refine ⟨by simp, fun x hx => ?_⟩
      obtain ⟨y, hy, rfl⟩ := List.mem_map.1 hx
      rw [pomega_apply, hmem y hy]
    rw [he]
    cases hz : l.length with
    | zero => exact absurd (List.length_eq_zero_iff.1 hz) hne
    | succ p => simp [List.getLastD_eq_getLast?, List.getLast?_replicate]
  · rename_i h
    rw [mul_zero, List.filter_eq_nil_iff.2]
    · rfl
    · intro k _ hk
      exact h ⟨k, by simpa using hk⟩

/-- **C144**: sampling a matrix at random positions and applying the adjoint operator gives, on average over all draws, the matrix back up to one
factor: the chance `1 - (1 - 1/(rows * columns)) ^ m` that a cell is drawn at all, divided by the square root in the sampling operator. -/
theorem C144_adjoint (hn : ∀ d, 0 < n d) (dim : Fin 3) (M : Mat (rowDim n dim) (colDim n dim)) (i j) :
    average (fun spl : Samples n m => np.adjointOperator spl (np.PomegaMat spl dim M) dim i j)
      = (1 - (1 - 1 / ((rowDim n dim : ℝ) * colDim n dim)) ^ m) / √(thirdSize n dim) * M i j := by
  have := pos_nonempty hn
  rw [average_congr fun spl => adjoint_sample spl dim M i j, average_mul]
  have e : ∀ spl : Samples n m, (if ∃ k, position spl dim k = (i, j) then (1 : ℝ) else 0)
      = (fun f : Fin m → Pos n => if ∃ k, cell n dim (f k) = (i, j) then (1 : ℝ) else 0) (splEquiv n m spl) := by
    intro spl
    simp only [position_cell]
  have e2 : average (fun spl : Samples n m => if ∃ k, position spl dim k = (i, j) then (1 : ℝ) else 0)
      = 1 - (1 - 1 / ((rowDim n dim : ℝ) * colDim n dim)) ^ m := by
    rw [average_congr e]
    refine (average_equiv (splEquiv n m) (fun f : Fin m → Pos n => if ∃ k, cell n dim (f k) = (i, j) then (1 : ℝ) else 0)).trans ?_
    rw [average_none (fun p : Pos n => cell n dim p = (i, j)), average_cell hn]
  rw [e2]
  ring

/-- **C144**: the same for the TensorFlow operators. -/
theorem C144_adjoint_tensorflow (hn : ∀ d, 0 < n d) (dim : Fin 3) (M : Mat (rowDim n dim) (colDim n dim)) (i j) :
    average (fun spl : Samples n m => tfl.adjointOperator spl (tfl.PomegaMat spl dim M) dim i j)
      = (1 - (1 - 1 / ((rowDim n dim : ℝ) * colDim n dim)) ^ m) / √(thirdSize n dim) * M i j := by
  rw [← C144_adjoint hn dim M i j]
  refine average_congr fun spl => ?_
  obtain ⟨-, h, -, -, h'⟩ := C65_agree_partial spl
  rw [h, h']

theorem shrink_zero {svd : np.Svd} (hs : NpSvdOk svd) {r c : Nat} (hr : 0 < r) {tao : ℝ} (ht : 0 ≤ tao) (mode : String)
    {S : Mat r c} (h : np.shrink svd 0 tao mode = some S) : S = 0 := by
  have hz : np.centralization (0 : Mat r c) = 0 := by simp [np.centralization]
  obtain ⟨N, hN, -, hf⟩ := C67_normal hr svd hs (0 : Mat r c) tao ht
  have hN0 : N = 0 := by
    rw [hz] at hf
    have h0 : frobSq (0 : Mat r c) = 0 := by simp [frobSq]
    rw [h0] at hf
    ext i j
    have h1 : ∀ i, 0 ≤ ∑ j, N i j ^ 2 := fun i => Finset.sum_nonneg fun j _ => sq_nonneg _
    have h2 : frobSq N = 0 := le_antisymm hf (Finset.sum_nonneg fun i _ => h1 i)
    have h3 := (Finset.sum_eq_zero_iff_of_nonneg fun i _ => h1 i).1 h2 i (Finset.mem_univ _)
    have h4 := (Finset.sum_eq_zero_iff_of_nonneg fun j _ => sq_nonneg _).1 h3 j (Finset.mem_univ _)
    exact pow_eq_zero_iff (two_ne_zero) |>.1 h4
  subst hN0
  unfold np.shrink at h hN
  simp only [if_true] at hN
  by_cases h1 : mode = "normal"
  · simp only [h1, if_true] at h
    rw [hN] at h
    exact (Option.some.inj h).symm
  · by_cases h2 : mode = "complicated"
    · simp only [h2, if_true] at h
      rw [if_neg (by decide)] at h
      rw [← Option.some.inj h, Option.some.inj hN]
      simp [ht]
    · simp [h1, h2] at h

/-- **C144**: in the first iteration of `exact_recovery` the square of the recorded loss is on average over all draws the mean square of the tensor,
and the recorded relative error is 1 whenever a sampled entry is not zero. -/
theorem C144_first_loss (svd : np.Svd) (hs : NpSvdOk svd) (hn : ∀ d, 0 < n d) (hm : 0 < m) (argDelt argTao : ℝ) (ht : 0 ≤ argTao) (steps : Nat)
    (hsteps : 0 < steps) (T : Tensor3 n) :
    ∃ (loss : Samples n m → ℝ), (∀ spl, ∃ R, np.exactRecovery svd argDelt argTao steps T spl = .ok R ∧ R.Rf[0]? = some (some (loss spl)) ∧
        ((∃ i, T (spl 0 i) (spl 1 i) (spl 2 i) ≠ 0) → R.Ef[0]? = some (some 1))) ∧
      average (fun spl => loss spl ^ 2) = average (fun p : Pos n => T p.1 p.2.1 p.2.2 ^ 2) := by
  have hp := pos_nonempty hn
  refine ⟨fun spl => √((∑ i, T (spl 0 i) (spl 1 i) (spl 2 i) ^ 2) / m), fun spl => ?_, ?_⟩
  · obtain ⟨R, y, X, Y, Z, h1, -, -, -, h2, h3, h4, h5, -, h6, h7, -⟩ := C69_records svd argDelt argTao steps hsteps hm T spl
    have hz : ∀ dim, np.adjointOperator spl (y 0) dim = 0 := by
      intro dim
      rw [h2]
      ext i j
      rw [adjoint_apply]
      generalize (List.finRange m).filter (fun k => position spl dim k = (i, j)) = l
      rw [show l.map (0 : Fin m → ℝ) = List.replicate l.length 0 from
        List.eq_replicate_iff.2 ⟨by simp, fun x hx => by obtain ⟨y, -, rfl⟩ := List.mem_map.1 hx; rfl⟩]
      cases l.length <;> simp [List.getLastD_eq_getLast?, List.getLast?_replicate]
    have htao : 0 ≤ argTao * √((n 0 : ℝ) * n 1 * n 2) := mul_nonneg ht (Real.sqrt_nonneg _)
    obtain ⟨S, hS, hX⟩ := h3 0
    obtain ⟨S', hS', hY⟩ := h4 0
    obtain ⟨S'', hS'', hZ⟩ := h5 0
    rw [hz] at hS hS' hS''
    have e : ∀ i, sampleError T (spl 0) (spl 1) (spl 2) (X 0) (Y 0) (Z 0) i = T (spl 0 i) (spl 1 i) (spl 2 i) := by
      intro i
      have x0 : X 0 = 0 := by
        have := shrink_zero hs (hn 0) htao _ hS
        subst this
        rw [hX]
        ext i j
        exact mul_zero _
      have y0 : Y 0 = 0 := by
        have := shrink_zero hs (hn 1) htao _ hS'
        subst this
        rw [hY]
        ext i j
        exact mul_zero _
      have z0 : Z 0 = 0 := by
        have := shrink_zero hs (hn 2) htao _ hS''
        subst this
        rw [hZ]
        ext i j
        exact mul_zero _
      rw [x0, y0, z0]
      simp [sampleError]
    refine ⟨R, h1, ?_, fun hi => ?_⟩
    · rw [h6 0 hsteps]
      simp only [e]
    · rw [h7 0 hsteps hi]
      simp only [e]
      rw [div_self]
      obtain ⟨i, hi⟩ := hi
      refine (Real.sqrt_pos.2 ?_).ne'
      exact Finset.sum_pos' (fun i _ => sq_nonneg _) ⟨i, Finset.mem_univ _, by positivity⟩
  · rw [← average_mean hm (fun p : Pos n => T p.1 p.2.1 p.2.2 ^ 2), ← average_equiv (splEquiv n m)]
    refine average_congr fun spl => ?_
    rw [Real.sq_sqrt (div_nonneg (Finset.sum_nonneg fun i _ => sq_nonneg _) (Nat.cast_nonneg _))]
    rfl

/-- Hypotheses of C144: a `2 x 3 x 4` tensor and five samples; there is an SVD. -/
example : (∀ d, 0 < (![2, 3, 4] : Fin 3 → Nat) d) ∧ ∃ svd : np.Svd, NpSvdOk svd := ⟨by decide, exists_npSvd⟩

end TD.Props
