import Verif.Props.Prox
import Verif.Props.Recovery
import Verif.Lemmas.Dual

/-! # `exact_recovery` as dual ascent: the problem it solves -/
namespace TD.Props
open TD TD.pitf Matrix Spec

/-! ## The projections -/
section
variable {r c : Nat}

/-- Projection onto the constraint set of matrix `d`. -/
noncomputable def projOf (d : Fin 3) (M : Mat r c) : Mat r c := if d = 0 then equalPart M else colCentered M

/-- Constraint on matrix `d`. -/
def constr (d : Fin 3) (M : Mat r c) : Prop := if d = 0 then EqualColSums M else ZeroColSums M

/-- Norm of matrix `d`. -/
noncomputable def gauge (d : Fin 3) (M : Mat r c) : ℝ := if d = 0 then splitNorm M else nuclear M

def modeOf (d : Fin 3) : String := if d = 0 then "complicated" else "normal"

/-- The matrix shrunk in dimension `d`. -/
noncomputable def sh (svd : np.Svd) (tao : ℝ) (d : Fin 3) (M : Mat r c) : Mat r c :=
  (np.shrink svd M tao (modeOf d)).getD 0

theorem colCentered_zero (hr : 0 < r) (M : Mat r c) : ZeroColSums (colCentered M) := by
  rw [← centralization_colCentered]; exact (C61_zero_column_sums hr M).1

theorem proj_constr (hr : 0 < r) (d : Fin 3) (M : Mat r c) : constr d (projOf d M) := by
  unfold constr projOf
  split
  · exact equalPart_equal hr M
  · exact colCentered_zero hr M

theorem inner_proj (hr : 0 < r) (hc : 0 < c) (d : Fin 3) {N : Mat r c} (hN : constr d N) (M : Mat r c) :
    frobInner N (M - projOf d M) = 0 := by
  unfold constr at hN
  unfold projOf
  split at hN
  · rename_i h; rw [if_pos h]; exact inner_equalPart hr hc hN M
  · rename_i h; rw [if_neg h]
    have e : M - colCentered M = constCols r fun j => (∑ k, M k j) / r := by
      ext i j; simp [colCentered, constCols]
    rw [e, inner_const_cols hN]

theorem proj_inner (hr : 0 < r) (hc : 0 < c) (d : Fin 3) (N M : Mat r c) :
    frobInner (projOf d N) M = frobInner N (projOf d M) := by
  have a := inner_proj hr hc d (proj_constr hr d N) M
  have b := inner_proj hr hc d (proj_constr hr d M) N
  rw [frobInner_sub_right] at a b
  rw [frobInner_comm _ N, frobInner_comm _ (projOf d N)] at b
  linarith

theorem proj_fix (hr : 0 < r) (hc : 0 < c) (d : Fin 3) {N : Mat r c} (hN : constr d N) : projOf d N = N := by
  have h1 : frobInner N (N - projOf d N) = 0 := inner_proj hr hc d hN N
  have h2 : frobInner (projOf d N) (N - projOf d N) = 0 := inner_proj hr hc d (proj_constr hr d N) N
  by_contra h
  have h3 := frobSq_pos (sub_ne_zero.2 (Ne.symm h))
  rw [← frobInner_self, frobInner_sub_left] at h3
  linarith

theorem proj_le (hr : 0 < r) (hc : 0 < c) (d : Fin 3) (M : Mat r c) : frobSq (projOf d M) ≤ frobSq M := by
  have h := inner_proj hr hc d (proj_constr hr d M) M
  have h2 := frobSq_nonneg' (M - projOf d M)
  rw [← frobInner_self, frobInner_sub_left, frobInner_sub_right, frobInner_sub_right, frobInner_comm M (projOf d M)] at h2
  rw [frobInner_sub_right] at h
  rw [frobInner_self, frobInner_self] at *
  linarith

/-- The projection as a linear map. -/
noncomputable def projL (r c : Nat) (d : Fin 3) : Mat r c →ₗ[ℝ] Mat r c where
  toFun := projOf d
  map_add' M N := by
    unfold projOf
    split
    · ext i j
      simp only [equalPart, colCentered, ones, total, Matrix.add_apply, Matrix.smul_apply, smul_eq_mul,
        Finset.sum_add_distrib]
      ring
    · ext i j
      simp only [colCentered, Matrix.add_apply, Finset.sum_add_distrib]
      ring
  map_smul' a M := by
    unfold projOf
    split
    · ext i j
      simp only [equalPart, colCentered, ones, total, Matrix.add_apply, Matrix.smul_apply, smul_eq_mul,
        ← Finset.mul_sum, RingHom.id_apply]
      ring
    · ext i j
      simp only [colCentered, Matrix.smul_apply, smul_eq_mul, ← Finset.mul_sum, RingHom.id_apply]
      ring

variable {svd : np.Svd} {tao : ℝ}

theorem sh_spec (hr : 0 < r) (hc : 0 < c) (hs : NpSvdOk svd) (ht : 0 ≤ tao) (d : Fin 3) (M : Mat r c) :
    constr d (sh svd tao d M) ∧ Aligned (fun N => tao * gauge d N) (projOf d M) (sh svd tao d M) := by
  unfold constr sh gauge projOf modeOf
  by_cases h : d = 0
  · simp only [if_pos h]
    obtain ⟨S, h1, h2, h3⟩ := shrink_complicated hr hc svd hs M tao ht
    rw [h1]; exact ⟨h2, h3⟩
  · simp only [if_neg h]
    obtain ⟨S, h1, h2, h3⟩ := shrink_normal hr svd hs M tao ht
    rw [h1, ← centralization_colCentered]; exact ⟨h2, h3⟩

theorem sh_firm (hr : 0 < r) (hc : 0 < c) (hs : NpSvdOk svd) (ht : 0 ≤ tao) (d : Fin 3) (M M' : Mat r c) :
    frobSq (sh svd tao d M - sh svd tao d M') ≤
      frobInner (sh svd tao d M - sh svd tao d M') (projOf d M - projOf d M') :=
  (sh_spec hr hc hs ht d M).2.firm (sh_spec hr hc hs ht d M').2

theorem sh_proj (hr : 0 < r) (hc : 0 < c) (hs : NpSvdOk svd) (ht : 0 ≤ tao) (d : Fin 3) (M : Mat r c) :
    sh svd tao d (projOf d M) = sh svd tao d M := by
  have h := sh_firm hr hc hs ht d (projOf d M) M
  rw [proj_fix hr hc d (proj_constr hr d M), sub_self] at h
  by_contra hne
  have := frobSq_pos (sub_ne_zero.2 hne)
  have e : frobInner (sh svd tao d (projOf d M) - sh svd tao d M) 0 = 0 := by simp [frobInner]
  linarith

theorem sh_nonexpansive (hr : 0 < r) (hc : 0 < c) (hs : NpSvdOk svd) (ht : 0 ≤ tao) (d : Fin 3) (M M' : Mat r c) :
    frobSq (sh svd tao d M - sh svd tao d M') ≤ frobSq (M - M') := by
  have h := sh_firm hr hc hs ht d M M'
  have h0 : projOf d M - projOf d M' = projOf d (M - M') := ((projL r c d).map_sub M M').symm
  rw [h0] at h
  generalize sh svd tao d M - sh svd tao d M' = D at *
  have h1 := frobSq_nonneg' (D - projOf d (M - M'))
  rw [← frobInner_self, frobInner_sub_left, frobInner_sub_right, frobInner_sub_right,
    frobInner_comm (projOf d (M - M')), frobInner_self, frobInner_self] at h1
  have h2 := proj_le hr hc d (M - M')
  linarith

theorem frob_cauchy (M N : Mat r c) : frobInner M N ≤ √(frobSq M) * √(frobSq N) := by
  have h : frobInner M N ^ 2 ≤ frobSq M * frobSq N := by
    have := Finset.sum_mul_sq_le_sq_mul_sq (Finset.univ : Finset (Fin r × Fin c)) (fun p => M p.1 p.2) (fun p => N p.1 p.2)
    simpa only [Fintype.sum_prod_type, frobInner, frobSq] using this
  rw [← Real.sqrt_mul (frobSq_nonneg' M)]
  exact Real.le_sqrt_of_sq_le h

theorem contraction_frob {W : Mat r c} (hW : Contraction W) : frobSq W ≤ c := by
  have h : ∀ j, ∑ i, W i j ^ 2 ≤ 1 := by
    intro j
    have := hW (Pi.single j 1)
    have e : ∑ k, (Pi.single j (1 : ℝ) : Fin c → ℝ) k ^ 2 = 1 := by
      rw [Finset.sum_eq_single j]
      · simp
      · intro k _ hk; simp [Pi.single_eq_of_ne hk]
      · simp
    rw [e] at this
    simpa using this
  rw [frobSq, Finset.sum_comm]
  calc ∑ j, ∑ i, W i j ^ 2 ≤ ∑ _j : Fin c, (1 : ℝ) := Finset.sum_le_sum fun j _ => h j
    _ = c := by simp

theorem zero_contraction : Contraction (0 : Mat r c) := fun x => by
  simp only [zero_mulVec, Pi.zero_apply, ne_eq, OfNat.ofNat_ne_zero, not_false_eq_true, zero_pow, Finset.sum_const_zero]
  exact Finset.sum_nonneg fun j _ => sq_nonneg (x j)

theorem nuclear_le_frob (M : Mat r c) : nuclear M ≤ √c * √(frobSq M) := by
  refine csSup_le ⟨_, 0, zero_contraction, rfl⟩ ?_
  rintro t ⟨W, hW, rfl⟩
  refine (frob_cauchy M W).trans ?_
  rw [mul_comm]
  exact mul_le_mul_of_nonneg_right (Real.sqrt_le_sqrt (contraction_frob hW)) (Real.sqrt_nonneg _)

theorem nuclear_smul_le {a : ℝ} (ha : 0 ≤ a) (M : Mat r c) : nuclear (a • M) ≤ a * nuclear M := by
  refine csSup_le ⟨_, 0, zero_contraction, rfl⟩ ?_
  rintro t ⟨W, hW, rfl⟩
  rw [frobInner_smul_left]
  exact mul_le_mul_of_nonneg_left (inner_le_nuclear M hW) ha

theorem nuclear_smul {a : ℝ} (ha : 0 < a) (M : Mat r c) : nuclear (a • M) = a * nuclear M := by
  refine le_antisymm (nuclear_smul_le ha.le M) ?_
  have h := nuclear_smul_le (inv_nonneg.2 ha.le) (a • M)
  rw [smul_smul, inv_mul_cancel₀ ha.ne', one_smul] at h
  calc a * nuclear M ≤ a * (a⁻¹ * nuclear (a • M)) := mul_le_mul_of_nonneg_left h ha.le
    _ = nuclear (a • M) := by rw [← mul_assoc, mul_inv_cancel₀ ha.ne', one_mul]

theorem gauge_smul {a : ℝ} (ha : 0 < a) (d : Fin 3) (M : Mat r c) : gauge d (a • M) = a * gauge d M := by
  unfold gauge
  split
  · have e : colCentered (a • M) = a • colCentered M := by
      ext i j
      simp only [colCentered, Matrix.smul_apply, smul_eq_mul, ← Finset.mul_sum]
      ring
    have e2 : total (a • M) = a * total M := by
      simp only [total, Matrix.smul_apply, smul_eq_mul, ← Finset.mul_sum]
    rw [splitNorm, splitNorm, e, e2, nuclear_smul ha, abs_mul, abs_of_pos ha]
    ring
  · exact nuclear_smul ha M

theorem gauge_le (hr : 0 < r) (hc : 0 < c) (d : Fin 3) (M : Mat r c) : gauge d M ≤ (√c + 1) * √(frobSq M) := by
  have h0 := Real.sqrt_nonneg (frobSq M)
  unfold gauge
  split
  · have h1 := nuclear_le_frob (colCentered M)
    have h2 : frobSq (colCentered M) ≤ frobSq M := by
      have := proj_le hr hc 1 M
      simpa [projOf] using this
    have hrc : (0 : ℝ) < (r : ℝ) * c := mul_pos (Nat.cast_pos.2 hr) (Nat.cast_pos.2 hc)
    have h3 : |total M| ≤ √(frobSq M) * √((r : ℝ) * c) := by
      have e : frobSq (ones r c) = (r : ℝ) * c := by simp [frobSq, ones]
      refine abs_le'.2 ⟨?_, ?_⟩
      · have := frob_cauchy M (ones r c)
        rwa [frobInner_ones, e] at this
      · have := frob_cauchy M ((-1 : ℝ) • ones r c)
        rw [frobInner_smul_right, frobInner_ones] at this
        have e' : frobSq ((-1 : ℝ) • ones r c) = (r : ℝ) * c := by simp [frobSq, ones]
        rw [e'] at this
        linarith
    have h4 : |total M| / √((r : ℝ) * c) ≤ √(frobSq M) := by
      rw [div_le_iff₀ (Real.sqrt_pos.2 hrc)]; exact h3
    have h5 : √c * √(frobSq (colCentered M)) ≤ √c * √(frobSq M) :=
      mul_le_mul_of_nonneg_left (Real.sqrt_le_sqrt h2) (Real.sqrt_nonneg _)
    unfold splitNorm
    linarith
  · have := nuclear_le_frob M
    linarith

end

/-! ## The three matrices as one vector -/
section
variable {n : Fin 3 → Nat} {m : Nat}

abbrev Idx (n : Fin 3 → Nat) := Σ d : Fin 3, Fin (rowDim n d) × Fin (colDim n d)

def comp (v : Idx n → ℝ) (d : Fin 3) : Mat (rowDim n d) (colDim n d) := fun i j => v ⟨d, i, j⟩

def pack (x : ∀ d : Fin 3, Mat (rowDim n d) (colDim n d)) : Idx n → ℝ := fun p => x p.1 p.2.1 p.2.2

@[simp] theorem comp_pack (x : ∀ d : Fin 3, Mat (rowDim n d) (colDim n d)) (d : Fin 3) : comp (pack x) d = x d := rfl
theorem comp_sub (v w : Idx n → ℝ) (d : Fin 3) : comp (v - w) d = comp v d - comp w d := rfl

theorem dot_comp (v w : Idx n → ℝ) : v ⬝ᵥ w = ∑ d, frobInner (comp v d) (comp w d) := by
  rw [dotProduct, Fintype.sum_sigma]
  exact Finset.sum_congr rfl fun d _ => by rw [Fintype.sum_prod_type]; rfl

theorem dot_self_comp (v : Idx n → ℝ) : v ⬝ᵥ v = ∑ d, frobSq (comp v d) := by
  rw [dot_comp]; exact Finset.sum_congr rfl fun d _ => frobInner_self _

/-- The matrix that is 1 at the position of sample `k`. -/
def spot (spl : Samples n m) (d : Fin 3) (k : Fin m) : Mat (rowDim n d) (colDim n d) :=
  fun i j => if position spl d k = (i, j) then 1 else 0

theorem inner_spot (spl : Samples n m) (d : Fin 3) (k : Fin m) (M : Mat (rowDim n d) (colDim n d)) :
    frobInner M (spot spl d k) = M (position spl d k).1 (position spl d k).2 := by
  have : frobInner M (spot spl d k) = ∑ p : Fin (rowDim n d) × Fin (colDim n d),
      if position spl d k = p then M p.1 p.2 else 0 := by
    rw [frobInner, Fintype.sum_prod_type]
    refine Finset.sum_congr rfl fun i _ => Finset.sum_congr rfl fun j _ => ?_
    unfold spot
    split <;> simp
  rw [this, Finset.sum_ite_eq, if_pos (Finset.mem_univ _)]

theorem adjoint_spots (spl : Samples n m) (d : Fin 3) (hd : Function.Injective (position spl d)) (y : Fin m → ℝ) :
    np.adjointOperator spl y d = ∑ k, y k • spot spl d k := by
  ext i j
  rw [adjoint_apply, getLastD_distinct _ hd, Matrix.sum_apply]
  refine Finset.sum_congr rfl fun k _ => ?_
  rw [Matrix.smul_apply, smul_eq_mul]
  unfold spot
  split <;> simp

/-- `1 / √(third size)`. -/
noncomputable def wt (n : Fin 3 → Nat) (d : Fin 3) : ℝ := 1 / √(thirdSize n d)

theorem rowDim_pos (hn : ∀ d, 0 < n d) (d : Fin 3) : 0 < rowDim n d := by
  match d with
  | 0 => exact hn 0
  | 1 => exact hn 1
  | 2 => exact hn 2

theorem colDim_pos (hn : ∀ d, 0 < n d) (d : Fin 3) : 0 < colDim n d := by
  match d with
  | 0 => exact hn 1
  | 1 => exact hn 2
  | 2 => exact hn 0

theorem wt_pos (hn : ∀ d, 0 < n d) (d : Fin 3) : 0 < wt n d := by
  refine one_div_pos.2 (Real.sqrt_pos.2 (Nat.cast_pos.2 ?_))
  match d with
  | 0 => exact hn 2
  | 1 => exact hn 0
  | 2 => exact hn 1

/-- The operator from sample vectors to constrained matrices. -/
noncomputable def opA (spl : Samples n m) : Matrix (Idx n) (Fin m) ℝ :=
  fun p k => wt n p.1 * projOf p.1 (spot spl p.1 k) p.2.1 p.2.2

theorem opA_mulVec (spl : Samples n m) (hd : ∀ d, Function.Injective (position spl d)) (y : Fin m → ℝ) (d : Fin 3) :
    comp (opA spl *ᵥ y) d = wt n d • projOf d (np.adjointOperator spl y d) := by
  have e : projOf d (np.adjointOperator spl y d) = ∑ k, y k • projOf d (spot spl d k) := by
    rw [adjoint_spots spl d (hd d)]
    have := map_sum (projL (rowDim n d) (colDim n d) d) (fun k => y k • spot spl d k) Finset.univ
    refine this.trans (Finset.sum_congr rfl fun k _ => ?_)
    exact (projL _ _ d).map_smul (y k) (spot spl d k)
  rw [e]
  ext i j
  rw [Matrix.smul_apply, Matrix.sum_apply, smul_eq_mul, Finset.mul_sum]
  change ∑ k, opA spl ⟨d, i, j⟩ k * y k = _
  refine Finset.sum_congr rfl fun k _ => ?_
  rw [Matrix.smul_apply, smul_eq_mul, opA]
  ring

theorem opA_vecMul (hn : ∀ d, 0 < n d) (spl : Samples n m) (x : Idx n → ℝ) (k : Fin m) :
    (x ᵥ* opA spl) k = ∑ d, wt n d * projOf d (comp x d) (position spl d k).1 (position spl d k).2 := by
  have : (x ᵥ* opA spl) k = x ⬝ᵥ fun p => opA spl p k := rfl
  rw [this, dot_comp]
  refine Finset.sum_congr rfl fun d _ => ?_
  have e : comp (fun p => opA spl p k) d = wt n d • projOf d (spot spl d k) := rfl
  rw [e, frobInner_smul_right, ← proj_inner (rowDim_pos hn d) (colDim_pos hn d), inner_spot]

/-- Sum of the reciprocals of the sizes. -/
noncomputable def recipSum (n : Fin 3 → Nat) : ℝ := 1 / (n 0 : ℝ) + 1 / n 1 + 1 / n 2

theorem sum_wt_sq (n : Fin 3 → Nat) : ∑ d, wt n d ^ 2 = recipSum n := by
  simp only [Fin.sum_univ_three, wt, thirdSize, div_pow, one_pow, Real.sq_sqrt (Nat.cast_nonneg _), recipSum]
  ring

theorem opA_bound (hn : ∀ d, 0 < n d) (spl : Samples n m) (hd : ∀ d, Function.Injective (position spl d)) (x : Idx n → ℝ) :
    (x ᵥ* opA spl) ⬝ᵥ (x ᵥ* opA spl) ≤ recipSum n * (x ⬝ᵥ x) := by
  have h1 : ∀ k, (x ᵥ* opA spl) k * (x ᵥ* opA spl) k ≤
      recipSum n * ∑ d, projOf d (comp x d) (position spl d k).1 (position spl d k).2 ^ 2 := by
    intro k
    rw [opA_vecMul hn, ← sq, ← sum_wt_sq]
    exact Finset.sum_mul_sq_le_sq_mul_sq _ _ _
  have h0 : 0 ≤ recipSum n := by unfold recipSum; positivity
  refine (Finset.sum_le_sum fun k _ => h1 k).trans ?_
  rw [← Finset.mul_sum, Finset.sum_comm, dot_self_comp]
  refine mul_le_mul_of_nonneg_left (Finset.sum_le_sum fun d _ => ?_) h0
  refine le_trans ?_ (proj_le (rowDim_pos hn d) (colDim_pos hn d) d (comp x d))
  have e : frobSq (projOf d (comp x d)) = ∑ p : Fin (rowDim n d) × Fin (colDim n d), projOf d (comp x d) p.1 p.2 ^ 2 := by
    rw [frobSq, Fintype.sum_prod_type]
  rw [e]
  have := Finset.sum_map Finset.univ ⟨position spl d, hd d⟩
    (fun p : Fin (rowDim n d) × Fin (colDim n d) => projOf d (comp x d) p.1 p.2 ^ 2)
  refine (le_of_eq this.symm).trans ?_
  exact Finset.sum_le_univ_sum_of_nonneg fun p => sq_nonneg _

/-- The proximal map on the three matrices. -/
noncomputable def opPr (svd : np.Svd) (tao : ℝ) (v : Idx n → ℝ) : Idx n → ℝ :=
  pack fun d => wt n d • sh svd tao d (√(thirdSize n d) • comp v d)

theorem sqrt_wt (hn : ∀ d, 0 < n d) (d : Fin 3) : √(thirdSize n d) * wt n d = 1 := by
  have h := wt_pos hn d
  unfold wt at *
  have : √(thirdSize n d : ℝ) ≠ 0 := fun h0 => by rw [h0] at h; simp at h
  field_simp

theorem opPr_comp {svd : np.Svd} {tao : ℝ} (hn : ∀ d, 0 < n d) (hs : NpSvdOk svd) (ht : 0 ≤ tao) (spl : Samples n m)
    (hd : ∀ d, Function.Injective (position spl d)) (y : Fin m → ℝ) (d : Fin 3) :
    comp (opPr svd tao (opA spl *ᵥ y)) d = wt n d • sh svd tao d (np.adjointOperator spl y d) := by
  rw [opPr, comp_pack, opA_mulVec spl hd, smul_smul, sqrt_wt hn, one_smul,
    sh_proj (rowDim_pos hn d) (colDim_pos hn d) hs ht]

theorem opPr_continuous {svd : np.Svd} {tao : ℝ} (hn : ∀ d, 0 < n d) (hs : NpSvdOk svd) (ht : 0 ≤ tao) :
    Continuous (opPr (n := n) svd tao) := by
  refine dual.Problem.continuous_of_nonexpansive fun v w => ?_
  rw [dot_self_comp, dot_self_comp]
  refine Finset.sum_le_sum fun d _ => ?_
  have hsm : ∀ {r c : Nat} (a : ℝ) (M : Mat r c), frobSq (a • M) = a ^ 2 * frobSq M := by
    intro r c a M
    rw [← frobInner_self, frobInner_smul_left, frobInner_smul_right, frobInner_self]; ring
  have h := sh_nonexpansive (rowDim_pos hn d) (colDim_pos hn d) hs ht d (√(thirdSize n d) • comp v d)
    (√(thirdSize n d) • comp w d)
  rw [← smul_sub, hsm] at h
  rw [comp_sub, comp_sub, opPr, opPr, comp_pack, comp_pack, ← smul_sub, hsm]
  have h1 := sqrt_wt hn d
  have h2 := sq_nonneg (wt n d)
  calc wt n d ^ 2 * _ ≤ wt n d ^ 2 * (√(thirdSize n d) ^ 2 * frobSq (comp v d - comp w d)) := mul_le_mul_of_nonneg_left h h2
    _ = (√(thirdSize n d) * wt n d) ^ 2 * frobSq (comp v d - comp w d) := by ring
    _ = _ := by rw [h1]; ring

/-- The problem. -/
noncomputable def recProblem (svd : np.Svd) (tao : ℝ) (hn : ∀ d, 0 < n d) (hs : NpSvdOk svd) (ht : 0 ≤ tao)
    (spl : Samples n m) (hd : ∀ d, Function.Injective (position spl d)) : dual.Problem (Idx n) (Fin m) where
  A := opA spl
  h := fun v => ∑ d, wt n d * (tao * gauge d (comp v d))
  pr := opPr svd tao
  L := recipSum n
  c := ∑ d, wt n d * (tao * (√(colDim n d) + 1))
  align_le y N := by
    rw [dot_comp]
    refine Finset.sum_le_sum fun d _ => ?_
    rw [comp_sub, opA_mulVec spl hd, opPr_comp hn hs ht spl hd, ← smul_sub, frobInner_smul_right]
    exact mul_le_mul_of_nonneg_left ((sh_spec (rowDim_pos hn d) (colDim_pos hn d) hs ht d _).2.le _) (wt_pos hn d).le
  align_eq y := by
    rw [dot_comp]
    refine Finset.sum_congr rfl fun d _ => ?_
    rw [comp_sub, opA_mulVec spl hd, opPr_comp hn hs ht spl hd, ← smul_sub, frobInner_smul_right, frobInner_smul_left,
      gauge_smul (wt_pos hn d), (sh_spec (rowDim_pos hn d) (colDim_pos hn d) hs ht d _).2.eq]
    ring
  bound := opA_bound hn spl hd
  hbound N := by
    rw [Finset.sum_mul]
    refine Finset.sum_le_sum fun d _ => ?_
    have h1 := gauge_le (rowDim_pos hn d) (colDim_pos hn d) d (comp N d)
    have h2 : √(frobSq (comp N d)) ≤ √(N ⬝ᵥ N) := by
      refine Real.sqrt_le_sqrt ?_
      rw [dot_self_comp]
      exact Finset.single_le_sum (f := fun d => frobSq (comp N d)) (fun d _ => frobSq_nonneg' _) (Finset.mem_univ d)
    have h3 : gauge d (comp N d) ≤ (√(colDim n d) + 1) * √(N ⬝ᵥ N) :=
      h1.trans (mul_le_mul_of_nonneg_left h2 (by positivity))
    have h4 : wt n d * (tao * gauge d (comp N d)) ≤ wt n d * (tao * ((√(colDim n d) + 1) * √(N ⬝ᵥ N))) :=
      mul_le_mul_of_nonneg_left (mul_le_mul_of_nonneg_left h3 ht) (wt_pos hn d).le
    exact h4.trans (le_of_eq (by ring))

/-- Packing the three matrices. -/
def pack3 (X : Mat (n 0) (n 1)) (Y : Mat (n 1) (n 2)) (Z : Mat (n 2) (n 0)) :
    ∀ d : Fin 3, Mat (rowDim n d) (colDim n d)
  | 0 => X
  | 1 => Y
  | 2 => Z

theorem vecMul_pack3 (hn : ∀ d, 0 < n d) (spl : Samples n m) {X : Mat (n 0) (n 1)} {Y : Mat (n 1) (n 2)}
    {Z : Mat (n 2) (n 0)} (hX : EqualColSums X) (hY : ZeroColSums Y) (hZ : ZeroColSums Z) :
    pack (pack3 X Y Z) ᵥ* opA spl = np.PomegaPair spl X Y Z := by
  funext k
  rw [opA_vecMul hn, Fin.sum_univ_three]
  have hX' : projOf 0 (comp (pack (pack3 X Y Z)) 0) = X :=
    proj_fix (rowDim_pos hn 0) (colDim_pos hn 0) 0 (N := X) (by unfold constr; rw [if_pos rfl]; exact hX)
  have hY' : projOf 1 (comp (pack (pack3 X Y Z)) 1) = Y :=
    proj_fix (rowDim_pos hn 1) (colDim_pos hn 1) 1 (N := Y) (by unfold constr; rw [if_neg (by decide)]; exact hY)
  have hZ' : projOf 2 (comp (pack (pack3 X Y Z)) 2) = Z :=
    proj_fix (rowDim_pos hn 2) (colDim_pos hn 2) 2 (N := Z) (by unfold constr; rw [if_neg (by decide)]; exact hZ)
  rw [hX', hY', hZ']
  simp only [np.PomegaPair, np.PomegaMat, Pi.add_apply, position, wt, thirdSize]
  ring

variable {svd : np.Svd} {tao : ℝ}

theorem constr_smul {r c : Nat} (a : ℝ) (d : Fin 3) {M : Mat r c} (h : constr d M) : constr d (a • M) := by
  unfold constr at *
  split at h
  · rename_i h0; rw [if_pos h0]
    intro j j'
    simp only [Matrix.smul_apply, smul_eq_mul, ← Finset.mul_sum]
    rw [h j j']
  · rename_i h0; rw [if_neg h0]
    intro j
    simp only [Matrix.smul_apply, smul_eq_mul, ← Finset.mul_sum, h j, mul_zero]

/-- The matrices of one iteration are the primal point. -/
theorem recProblem_x (hn : ∀ d, 0 < n d) (hs : NpSvdOk svd) (ht : 0 ≤ tao) (spl : Samples n m)
    (hd : ∀ d, Function.Injective (position spl d)) (T : Tensor3 n) (delt : ℝ) (y : Fin m → ℝ) :
    (recProblem svd tao hn hs ht spl hd).x y = pack (pack3 (np.recoveryStep svd spl T delt tao y).X
      (np.recoveryStep svd spl T delt tao y).Y (np.recoveryStep svd spl T delt tao y).Z) := by
  funext p
  obtain ⟨d, i, j⟩ := p
  have h := congrFun (congrFun (opPr_comp hn hs ht spl hd y d) i) j
  refine h.trans ?_
  match d with
  | 0 => rfl
  | 1 => rfl
  | 2 => rfl

theorem step_constr (hn : ∀ d, 0 < n d) (hs : NpSvdOk svd) (ht : 0 ≤ tao) (spl : Samples n m)
    (T : Tensor3 n) (delt : ℝ) (y : Fin m → ℝ) :
    EqualColSums (np.recoveryStep svd spl T delt tao y).X ∧ ZeroColSums (np.recoveryStep svd spl T delt tao y).Y ∧
      ZeroColSums (np.recoveryStep svd spl T delt tao y).Z := by
  have h := fun d => constr_smul (wt n d) d
    (sh_spec (rowDim_pos hn d) (colDim_pos hn d) hs ht d (np.adjointOperator spl y d)).1
  refine ⟨?_, ?_, ?_⟩
  · have := h 0; unfold constr at this; rw [if_pos rfl] at this; exact this
  · have := h 1; unfold constr at this; rw [if_neg (by decide)] at this; exact this
  · have := h 2; unfold constr at this; rw [if_neg (by decide)] at this; exact this

theorem recProblem_vec (hn : ∀ d, 0 < n d) (hs : NpSvdOk svd) (ht : 0 ≤ tao) (spl : Samples n m)
    (hd : ∀ d, Function.Injective (position spl d)) (T : Tensor3 n) (delt : ℝ) (y : Fin m → ℝ) :
    (recProblem svd tao hn hs ht spl hd).x y ᵥ* opA spl = np.PomegaPair spl (np.recoveryStep svd spl T delt tao y).X
      (np.recoveryStep svd spl T delt tao y).Y (np.recoveryStep svd spl T delt tao y).Z := by
  obtain ⟨h1, h2, h3⟩ := step_constr hn hs ht spl T delt y
  rw [recProblem_x hn hs ht spl hd T delt, vecMul_pack3 hn spl h1 h2 h3]

theorem recProblem_iter (hn : ∀ d, 0 < n d) (hs : NpSvdOk svd) (ht : 0 ≤ tao) (spl : Samples n m)
    (hd : ∀ d, Function.Injective (position spl d)) (T : Tensor3 n) (delt : ℝ) (y0 : Fin m → ℝ) (k : Nat) :
    (recProblem svd tao hn hs ht spl hd).iter (np.PomegaTensor spl T) delt y0 k =
      recoveryY svd spl T delt tao y0 k := by
  induction k with
  | zero => rfl
  | succ k ih =>
      have h := recProblem_vec hn hs ht spl hd T delt (recoveryY svd spl T delt tao y0 k)
      have e : (recProblem svd tao hn hs ht spl hd).iter (np.PomegaTensor spl T) delt y0 (k + 1) =
        (recProblem svd tao hn hs ht spl hd).step (np.PomegaTensor spl T) delt
          ((recProblem svd tao hn hs ht spl hd).iter (np.PomegaTensor spl T) delt y0 k) := rfl
      rw [e, ih, dual.Problem.step]
      change _ + delt • (_ - (recProblem svd tao hn hs ht spl hd).x _ ᵥ* opA spl) = _
      rw [h]
      rfl

end
end TD.Props
