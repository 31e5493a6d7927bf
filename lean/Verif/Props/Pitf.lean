import Mathlib.Algebra.BigOperators.Fin
import Mathlib.Tactic.NormNum
import Mathlib.Tactic.FinCases
import Verif.Lemmas.Pitf
import Verif.Spec.Pitf

/-! # Pairwise-interaction operators -/
namespace TD.Props
open TD TD.pitf Matrix Spec

/-! ## C61 -/

theorem C61_zero_column_sums {r c : Nat} (hr : 0 < r) (M : Mat r c) :
    ZeroColSums (np.centralization M) ∧ ZeroColSums (tfl.centralization M) := by
  have h : ZeroColSums (np.centralization M) := by
    intro j
    have : (r : ℝ) ≠ 0 := Nat.cast_ne_zero.2 hr.ne'
    rw [centralization_fun]
    simp only [Finset.sum_sub_distrib, Finset.sum_const, Finset.card_univ, Fintype.card_fin, nsmul_eq_mul]
    rw [mul_div_cancel₀ _ this, sub_self]
  exact ⟨h, h⟩

theorem C61_linear {r c : Nat} (a b : ℝ) (M N : Mat r c) :
    np.centralization (a • M + b • N) = a • np.centralization M + b • np.centralization N := by
  ext i j
  simp only [Matrix.add_apply, Matrix.smul_apply, centralization_apply, smul_eq_mul, Finset.sum_add_distrib,
    ← Finset.mul_sum]
  ring

theorem C61_fixed {r c : Nat} (M : Mat r c) (h : ZeroColSums M) : np.centralization M = M := by
  ext i j
  rw [centralization_apply, h j, zero_div, sub_zero]

theorem C61_idempotent {r c : Nat} (hr : 0 < r) (M : Mat r c) :
    np.centralization (np.centralization M) = np.centralization M :=
  C61_fixed _ (C61_zero_column_sums hr M).1

theorem C61_nearest {r c : Nat} (hr : 0 < r) (M N : Mat r c) (hN : ZeroColSums N) :
    frobSq (M - np.centralization M) ≤ frobSq (M - N) := by
  rw [← frobSq_transpose (M - _), ← frobSq_transpose (M - N)]
  refine Finset.sum_le_sum fun j _ => ?_
  have hz := (C61_zero_column_sums hr M).1 j
  have hn := hN j
  have hd : ∑ i, (np.centralization M i j - N i j) = 0 := by rw [Finset.sum_sub_distrib, hz, hn, sub_zero]
  have h1 : ∀ i, (M - N)ᵀ j i ^ 2 = (M - np.centralization M)ᵀ j i ^ 2
      + 2 * ((∑ k, M k j) / r) * (np.centralization M i j - N i j) + (np.centralization M i j - N i j) ^ 2 := by
    intro i
    simp only [transpose_apply, Matrix.sub_apply, centralization_apply]
    ring
  rw [Finset.sum_congr rfl fun i _ => h1 i, Finset.sum_add_distrib, Finset.sum_add_distrib, ← Finset.mul_sum, hd]
  have : 0 ≤ ∑ i, (np.centralization M i j - N i j) ^ 2 := Finset.sum_nonneg fun _ _ => sq_nonneg _
  linarith

example : ∃ (M : Mat 2 1), np.centralization M ≠ M ∧ ZeroColSums (np.centralization M) :=
  ⟨fun i _ => i, fun h => by
    have := (centralization_apply _ 1 0).symm.trans (congrFun (congrFun h 1) 0)
    simp at this, (C61_zero_column_sums (by decide) _).1⟩

/-! ## C62 -/

theorem C62_modes_B_C {r c k : Nat} (hr : 0 < r) (U : Mat r k) (V : Mat c k) (mode : String)
    (hm : mode = "B" ∨ mode = "C") :
    ∃ S, np.subspace U V mode = some S ∧ tfl.subspace U V mode = some S ∧ ZeroColSums S := by
  refine ⟨np.centralization (U * Vᵀ), ?_, ?_, (C61_zero_column_sums hr _).1⟩
  · rcases hm with rfl | rfl
    · simp [np.subspace]
    · simp [np.subspace]
  · rcases hm with rfl | rfl
    · simp [tfl.subspace, tfl.centralization, np.centralization]
    · simp [tfl.subspace, tfl.centralization, np.centralization]

theorem total_eq {r c : Nat} (M : Mat r c) : ((ones r 1)ᵀ * M * ones c 1) 0 0 = total M := by
  simp only [Matrix.mul_apply, ones, transpose_apply, one_mul, mul_one, total]
  exact Finset.sum_comm

theorem total_comm {r c : Nat} (M : Mat r c) : total M = ∑ j, ∑ i, M i j := Finset.sum_comm

theorem C62_mode_A {r c k : Nat} (hr : 0 < r) (hc : 0 < c) (U : Mat r k) (V : Mat c k) :
    ∃ S, np.subspace U V "A" = some S ∧ tfl.subspace U V "A" = some S ∧ EqualColSums S
      ∧ total S = total (U * Vᵀ) := by
  have hr' : (r : ℝ) ≠ 0 := Nat.cast_ne_zero.2 hr.ne'
  have hc' : (c : ℝ) ≠ 0 := Nat.cast_ne_zero.2 hc.ne'
  have e1 : ("A" : String) ≠ "B" := by decide
  have e2 : ("A" : String) ≠ "C" := by decide
  refine ⟨np.centralization (U * Vᵀ) + (total (U * Vᵀ) / ((r : ℝ) * c)) • (ones r 1 * (ones c 1)ᵀ), ?_, ?_, ?_⟩
  · simp only [np.subspace, if_neg e1, if_neg e2, if_pos, total_eq]
  · simp only [tfl.subspace, if_neg e1, if_neg e2, if_pos, total_eq]
    rfl
  · have hcol : ∀ j, ∑ i, (np.centralization (U * Vᵀ)
        + (total (U * Vᵀ) / ((r : ℝ) * c)) • (ones r 1 * (ones c 1)ᵀ)) i j = total (U * Vᵀ) / c := by
      intro j
      have hz := (C61_zero_column_sums hr (U * Vᵀ)).1 j
      simp only [Matrix.add_apply, Finset.sum_add_distrib, hz, Matrix.smul_apply, ones, Matrix.mul_apply,
        transpose_apply, mul_one, Finset.sum_const, Finset.card_univ, Fintype.card_fin, smul_eq_mul,
        nsmul_eq_mul, Nat.cast_one]
      field_simp
      ring
    refine ⟨fun j j' => (hcol j).trans (hcol j').symm, ?_⟩
    rw [total_comm, Finset.sum_congr rfl fun j _ => hcol j]
    simp only [Finset.sum_const, Finset.card_univ, Fintype.card_fin, nsmul_eq_mul]
    field_simp

theorem C62_other_modes {r c k : Nat} (U : Mat r k) (V : Mat c k) (mode : String)
    (hm : mode ≠ "A" ∧ mode ≠ "B" ∧ mode ≠ "C") :
    np.subspace U V mode = none ∧ tfl.subspace U V mode = none := by
  simp [np.subspace, tfl.subspace, hm]

theorem C62_sample_rule4mat (n : Fin 3 → Nat) (hn : ∀ d, 0 < n d) {ra rb rc : Nat} (UA : Mat (n 0) ra)
    (VA : Mat (n 1) ra) (UB : Mat (n 1) rb) (VB : Mat (n 2) rb) (UC : Mat (n 2) rc) (VC : Mat (n 0) rc) :
    ∃ A B C, np.sampleRule4mat n UA VA UB VB UC VC = (some A, some B, some C)
      ∧ tfl.sampleRule4mat n UA VA UB VB UC VC = (some A, some B, some C) ∧ EqualColSums A ∧ ZeroColSums B ∧ ZeroColSums C := by
  obtain ⟨A, hA, tA, hA', _⟩ := C62_mode_A (hn 0) (hn 1) UA VA
  obtain ⟨B, hB, tB, hB'⟩ := C62_modes_B_C (hn 1) UB VB "B" (.inl rfl)
  obtain ⟨C, hC, tC, hC'⟩ := C62_modes_B_C (hn 2) UC VC "C" (.inr rfl)
  exact ⟨A, B, C, by rw [np.sampleRule4mat, hA, hB, hC], by rw [tfl.sampleRule4mat, tA, tB, tC], hA', hB', hC'⟩

/-! ## C63 -/

theorem C63_sampling_commutes {n : Fin 3 → Nat} {m : Nat} (A : Mat (n 0) (n 1)) (B : Mat (n 1) (n 2))
    (C : Mat (n 2) (n 0)) (T : Tensor3 n)
    (hT : ∀ i j k, T i j k = A i j / √(n 2) + B j k / √(n 0) + C k i / √(n 1)) (spl : Samples n m) :
    np.PomegaTensor spl T = np.PomegaPair spl A B C ∧ tfl.PomegaTensor spl T = tfl.PomegaPair spl A B C :=
  ⟨funext fun _ => hT _ _ _, funext fun _ => hT _ _ _⟩

example : ∃ (T : Tensor3 ![2, 1, 1]) (A : Mat 2 1) (B : Mat 1 1) (C : Mat 1 2) (spl : Samples ![2, 1, 1] 3),
    (∀ i j k, T i j k = A i j / √((![2, 1, 1] : Fin 3 → Nat) 2) + B j k / √((![2, 1, 1] : Fin 3 → Nat) 0)
      + C k i / √((![2, 1, 1] : Fin 3 → Nat) 1))
    ∧ np.PomegaTensor spl T ≠ 0 :=
  ⟨fun i _ _ => i.val, fun i _ => i.val, fun _ _ => 0, fun _ _ => 0, fun d _ => match d with | 0 => (1 : Fin 2) | 1 => (0 : Fin 1) | 2 => (0 : Fin 1),
    by intro i j k; simp, fun h => by have := congrFun h 0; simp [np.PomegaTensor] at this⟩

/-! ## C64 -/

/-- Positions sampled in the matrix of each `dim`. -/
def position {n : Fin 3 → Nat} {m : Nat} (spl : Samples n m) :
    (dim : Fin 3) → Fin m → Fin (rowDim n dim) × Fin (colDim n dim)
  | 0 => fun i => (spl 0 i, spl 1 i)
  | 1 => fun i => (spl 1 i, spl 2 i)
  | 2 => fun i => (spl 2 i, spl 0 i)

/-- The size under the square root. -/
def thirdSize (n : Fin 3 → Nat) : Fin 3 → Nat
  | 0 => n 2
  | 1 => n 0
  | 2 => n 1

theorem adjoint_apply {n : Fin 3 → Nat} {m : Nat} (spl : Samples n m) (y : Fin m → ℝ) (dim : Fin 3) (i j) :
    np.adjointOperator spl y dim i j
      = (((List.finRange m).filter fun k => position spl dim k = (i, j)).map y).getLastD 0 := by
  match dim with
  | 0 => exact foldl_assign (position spl 0) y _ _ _ _
  | 1 => exact foldl_assign (position spl 1) y _ _ _ _
  | 2 => exact foldl_assign (position spl 2) y _ _ _ _

theorem pomega_apply {n : Fin 3 → Nat} {m : Nat} (spl : Samples n m) (dim : Fin 3)
    (M : Mat (rowDim n dim) (colDim n dim)) (i : Fin m) :
    np.PomegaMat spl dim M i = M (position spl dim i).1 (position spl dim i).2 / √(thirdSize n dim) := by
  match dim with
  | 0 => rfl
  | 1 => rfl
  | 2 => rfl

theorem thirdSize_pos {n : Fin 3 → Nat} {m : Nat} (spl : Samples n m) (dim : Fin 3) (i : Fin m) :
    0 < thirdSize n dim := by
  match dim with
  | 0 => exact Fin.pos (spl 2 i)
  | 1 => exact Fin.pos (spl 0 i)
  | 2 => exact Fin.pos (spl 1 i)

theorem C64_adjoint_distinct_partial {n : Fin 3 → Nat} {m : Nat} (spl : Samples n m) (dim : Fin 3)
    (hd : Function.Injective (position spl dim)) (M : Mat (rowDim n dim) (colDim n dim)) (y : Fin m → ℝ) :
    (∑ i, np.PomegaMat spl dim M i * y i) * √(thirdSize n dim) = frobInner M (np.adjointOperator spl y dim) := by
  have e : frobInner M (np.adjointOperator spl y dim)
      = ∑ p : Fin (rowDim n dim) × Fin (colDim n dim), ∑ k, if position spl dim k = p then M p.1 p.2 * y k else 0 := by
    rw [frobInner, Fintype.sum_prod_type]
    refine Finset.sum_congr rfl fun i _ => Finset.sum_congr rfl fun j _ => ?_
    rw [adjoint_apply, getLastD_distinct _ hd, Finset.mul_sum]
    exact Finset.sum_congr rfl fun k _ => by split <;> simp
  rw [e, Finset.sum_comm, Finset.sum_mul]
  refine Finset.sum_congr rfl fun k _ => ?_
  rw [Finset.sum_ite_eq, if_pos (Finset.mem_univ _), pomega_apply]
  have : √(thirdSize n dim : ℝ) ≠ 0 := (Real.sqrt_pos.2 (Nat.cast_pos.2 (thirdSize_pos spl dim k))).ne'
  field_simp

/-- A repeated position keeps only the last sample, so the identity fails. -/
theorem C64_adjoint_repeated_false : ∃ (n : Fin 3 → Nat) (spl : Samples n 2) (M : Mat (rowDim n 0) (colDim n 0)) (y : Fin 2 → ℝ),
    (∑ i, np.PomegaMat spl 0 M i * y i) * √(thirdSize n 0) ≠ frobInner M (np.adjointOperator spl y 0) := by
  refine ⟨fun _ => 1, fun _ _ => (0 : Fin 1), fun _ _ => 1, fun _ => 1, ?_⟩
  have hP : ∀ i, np.PomegaMat (n := fun _ => 1) (m := 2) (fun _ _ => (0 : Fin 1)) 0 (fun _ _ => 1) i = 1 := by
    intro i; simp [np.PomegaMat]
  have hA : np.adjointOperator (n := fun _ => 1) (m := 2) (fun _ _ => (0 : Fin 1)) (fun _ => 1) 0 (0 : Fin 1) (0 : Fin 1)
      = 1 := by
    simp [np.adjointOperator, List.finRange, np.assign]
  have hI : frobInner (r := 1) (c := 1) (fun _ _ => 1)
      (np.adjointOperator (n := fun _ => 1) (m := 2) (fun _ _ => (0 : Fin 1)) (fun _ => 1) 0) = 1 := by
    exact (Fin.sum_univ_one _).trans ((Fin.sum_univ_one _).trans (by rw [one_mul]; exact hA))
  intro h
  have h2 := h.trans hI
  rw [Finset.sum_congr rfl fun i _ => by rw [hP i]] at h2
  simp [thirdSize] at h2

/-! ## C65 -/

theorem C65_agree_partial {n : Fin 3 → Nat} {m : Nat} (spl : Samples n m) :
    (∀ r c (M : Mat r c), tfl.centralization M = np.centralization M)
    ∧ (∀ dim M, tfl.PomegaMat spl dim M = np.PomegaMat spl dim M)
    ∧ (∀ T, tfl.PomegaTensor spl T = np.PomegaTensor spl T)
    ∧ (∀ X Y Z, tfl.PomegaPair spl X Y Z = np.PomegaPair spl X Y Z)
    ∧ (∀ y dim, tfl.adjointOperator spl y dim = np.adjointOperator spl y dim) := by
  refine ⟨fun _ _ _ => rfl, ?_, fun _ => rfl, fun _ _ _ => rfl, ?_⟩
  · intro dim M
    match dim with
    | 0 => rfl
    | 1 => rfl
    | 2 => rfl
  · intro y dim
    ext i j
    rw [adjoint_apply]
    match dim, i, j with
    | 0, i, j => exact (zero_add _).trans (sparseToDense_append (spl 0) (spl 1) y i j)
    | 1, i, j => exact (zero_add _).trans (sparseToDense_append (spl 1) (spl 2) y i j)
    | 2, i, j => exact (zero_add _).trans (sparseToDense_append (spl 2) (spl 0) y i j)

/-- `numpy.linalg.svd` returns a decomposition with the second factor transposed. -/
def NpSvdOk (svd : np.Svd) : Prop := ∀ {m n : Nat} (M : Mat m n), IsSVD M (svd M).1 (svd M).2.1 (svd M).2.2ᵀ

/-- `tf.svd` returns a decomposition. -/
def TfSvdOk (svd : tfl.Svd) : Prop := ∀ {m n : Nat} (M : Mat m n), IsSVD M (svd M).2.1 (svd M).1 (svd M).2.2

theorem exists_npSvd : ∃ svd : np.Svd, NpSvdOk svd := by
  refine ⟨fun {m n} M => ((exists_svd M).choose, (exists_svd M).choose_spec.choose,
    (exists_svd M).choose_spec.choose_spec.chooseᵀ), fun {m n} M => ?_⟩
  exact (exists_svd M).choose_spec.choose_spec.choose_spec

theorem exists_tfSvd : ∃ svd : tfl.Svd, TfSvdOk svd := by
  refine ⟨fun {m n} M => ((exists_svd M).choose_spec.choose, (exists_svd M).choose,
    (exists_svd M).choose_spec.choose_spec.choose), fun {m n} M => ?_⟩
  exact (exists_svd M).choose_spec.choose_spec.choose_spec

/-! ## C66 -/

theorem C66_numpy_shrink_zero_partial (svd : np.Svd) (hs : NpSvdOk svd) {r c : Nat} (M : Mat r c) :
    np.shrink svd M 0 = some (np.centralization M) := by
  have h := hs (np.centralization M)
  have e : (fun i => max 0 ((svd (np.centralization M)).2.1 i - 0)) = (svd (np.centralization M)).2.1 := by
    funext i
    rw [sub_zero, max_eq_right (h.nonneg i)]
  have := h.eq
  rw [transpose_transpose] at this
  simp only [np.shrink, np.SVT, if_true, e]
  rw [← this]

example : ∃ svd : np.Svd, NpSvdOk svd := exists_npSvd

/-- Counterexample matrix. -/
def badMat : Mat 3 3 := !![0, 2, 1; 0, -2, 1; 0, 0, -2]

theorem badMat_zero : ZeroColSums badMat := by
  intro j
  fin_cases j <;> simp [badMat, Fin.sum_univ_three]; norm_num

/-- Whatever decomposition `tf.svd` returns, the TensorFlow `shrink` is not the identity on `badMat`. -/
theorem C66_tensorflow_false (svd : tfl.Svd) (hs : TfSvdOk svd) :
    tfl.shrink svd badMat 0 ≠ some (tfl.centralization badMat) := by
  have hcen : tfl.centralization badMat = badMat := C61_fixed _ badMat_zero
  have h := hs badMat
  rw [hcen]
  simp only [tfl.shrink, tfl.SVT, if_true, hcen]
  intro he
  have he := Option.some.inj he
  generalize hu : (svd badMat).2.1 = u at *
  generalize hsv : (svd badMat).1 = s at *
  generalize hv : (svd badMat).2.2 = v at *
  have e : (fun i => max 0 (s i - 0)) = s := by
    funext i
    rw [sub_zero, max_eq_right (h.nonneg i)]
  rw [e] at he
  have hvv : v * vᵀ = 1 := mul_eq_one_comm.1 h.orthV
  let d : Fin 3 → ℝ := fun i => s ⟨i, by simp⟩
  have hd : (diagRect s : Mat 3 3) = diagonal d := by
    ext i j
    by_cases hij : i = j
    · subst hij; simp [diagRect, d]
    · rw [diagonal_apply_ne _ hij, diagRect, dif_neg (fun e => hij (Fin.ext e))]
  have hnn : ∀ i, 0 ≤ d i := fun i => h.nonneg _
  have han : ∀ i j : Fin 3, i ≤ j → d j ≤ d i := fun i j hij => h.anti _ _ hij
  -- `D v = D vᵀ`
  have h1 : diagonal d * v = diagonal d * vᵀ := by
    have := he.trans h.eq
    rw [hd, Matrix.mul_assoc, Matrix.mul_assoc] at this
    have := congrArg (fun X => uᵀ * X) this
    simpa [← Matrix.mul_assoc, h.orthU] using this
  have hsym : ∀ i j, d i * v i j = d i * v j i := fun i j => by
    have := congrFun (congrFun h1 i) j
    rwa [diagonal_mul, diagonal_mul, transpose_apply] at this
  -- `MᵀM v = v D²`
  have h2 : (badMatᵀ * badMat) * v = v * (diagonal d * diagonal d) := by
    rw [h.eq, hd]
    simp only [transpose_mul, transpose_transpose, diagonal_transpose]
    calc v * (diagonal d * uᵀ) * (u * diagonal d * vᵀ) * v
        = v * (diagonal d * (uᵀ * u) * diagonal d) * (vᵀ * v) := by simp only [Matrix.mul_assoc]
      _ = _ := by rw [h.orthU, h.orthV, Matrix.mul_one, Matrix.mul_one]
  have hM : badMatᵀ * badMat = diagonal ![0, 8, 6] := by
    ext i j
    fin_cases i <;> fin_cases j <;> simp [badMat, Matrix.mul_apply, Fin.sum_univ_three] <;> norm_num
  have hev : ∀ i j, ![(0:ℝ), 8, 6] i * v i j = v i j * (d j * d j) := fun i j => by
    have := congrFun (congrFun h2 i) j
    rwa [hM, diagonal_mul, diagonal_mul_diagonal, mul_diagonal] at this
  -- every row of `v` has a nonzero entry
  have hrow : ∀ i, ∃ j, v i j ≠ 0 := by
    intro i
    by_contra hcon
    push Not at hcon
    have := congrFun (congrFun hvv i) i
    rw [Matrix.mul_apply, Finset.sum_eq_zero (fun j _ => by rw [hcon j, zero_mul]), one_apply_eq] at this
    exact zero_ne_one this
  have hex : ∀ i, ∃ j, v i j ≠ 0 ∧ d j * d j = ![(0:ℝ), 8, 6] i := fun i => by
    obtain ⟨j, hj⟩ := hrow i
    exact ⟨j, hj, (mul_left_cancel₀ hj ((mul_comm _ _).trans (hev i j))).symm⟩
  obtain ⟨j0, hj0, hd0⟩ := hex 0
  obtain ⟨j1, -, hd1⟩ := hex 1
  obtain ⟨j2, -, hd2⟩ := hex 2
  simp at hd0 hd1 hd2
  have hsq : ∀ i j : Fin 3, i ≤ j → d j * d j ≤ d i * d i := fun i j hij =>
    mul_self_le_mul_self (hnn j) (han i j hij)
  have q01 := hsq 0 1 (by decide)
  have q12 := hsq 1 2 (by decide)
  have m2 : d 2 = 0 := by
    have := han j0 2 (Fin.le_last j0)
    have := hnn 2
    linarith
  have a0 : d 0 * d 0 = 8 ∧ d 1 * d 1 = 6 := by
    rw [m2] at q12
    fin_cases j1 <;> fin_cases j2 <;> simp [m2] at hd1 hd2 <;> constructor <;> linarith
  have hj : j0 = 2 := by
    fin_cases j0
    · simp at hd0; rw [hd0] at a0; norm_num at a0
    · simp at hd0; rw [hd0] at a0; norm_num at a0
    · rfl
  subst hj
  have h20 : v 2 0 ≠ 0 := by
    have := hsym 0 2
    intro hz
    rw [hz, mul_zero] at this
    have hd0' : d 0 ≠ 0 := fun e => by rw [e] at a0; norm_num at a0
    exact hj0 ((mul_eq_zero.1 this).resolve_left hd0')
  have := hev 2 0
  rw [a0.1] at this
  simp at this
  have := mul_left_cancel₀ h20 ((mul_comm _ _).trans this)
  norm_num at this

example : ∃ svd : tfl.Svd, TfSvdOk svd := exists_tfSvd

/-- So the two implementations of `shrink` differ for every pair of correct solvers. -/
theorem C65_shrink_false (svd : np.Svd) (hs : NpSvdOk svd) (svd' : tfl.Svd) (hs' : TfSvdOk svd') :
    tfl.shrink svd' badMat 0 ≠ np.shrink svd badMat 0 := by
  rw [C66_numpy_shrink_zero_partial svd hs]
  exact C66_tensorflow_false svd' hs'

/-! ## C67 -/

theorem C67_normal {r c : Nat} (hr : 0 < r) (svd : np.Svd) (hs : NpSvdOk svd) (M : Mat r c) (tao : ℝ)
    (ht : 0 ≤ tao) :
    ∃ S, np.shrink svd M tao "normal" = some S ∧ ZeroColSums S ∧ frobSq S ≤ frobSq (np.centralization M) := by
  have h := hs (np.centralization M)
  generalize hu : (svd (np.centralization M)).1 = u at *
  generalize hsv : (svd (np.centralization M)).2.1 = s at *
  generalize hv : (svd (np.centralization M)).2.2 = vh at *
  refine ⟨u * (diagRect fun i => max 0 (s i - tao)) * vh, by simp [np.shrink, np.SVT, hu, hsv, hv], ?_, ?_⟩
  · have hvv : vhᵀ * vh = 1 := by have := mul_eq_one_comm.1 h.orthV; rwa [transpose_transpose] at this
    have hvv' : vh * vhᵀ = 1 := by have := h.orthV; rwa [transpose_transpose] at this
    have hz : ones 1 r * (u * diagRect s) = 0 := by
      have h0 : ones 1 r * np.centralization M = 0 := by
        ext i j
        simpa [Matrix.mul_apply, ones] using (C61_zero_column_sums hr M).1 j
      rw [h.eq, transpose_transpose] at h0
      have := congrArg (fun X => X * vhᵀ) h0
      simpa [Matrix.mul_assoc, hvv'] using this
    have hz' : ones 1 r * (u * (diagRect fun i => max 0 (s i - tao))) = 0 := by
      ext i j
      have := congrFun (congrFun hz i) j
      rw [← Matrix.mul_assoc, mul_diagRect_apply] at this ⊢
      by_cases hj : j.val < r
      · rw [dif_pos hj] at this ⊢
        rcases mul_eq_zero.1 this with h1 | h1
        · rw [h1, zero_mul]; rfl
        · rw [h1, zero_sub, max_eq_left (neg_nonpos.2 ht), mul_zero]; rfl
      · rw [dif_neg hj]; rfl
    intro j
    have : (ones 1 r * (u * (diagRect fun i => max 0 (s i - tao)) * vh)) 0 j = 0 := by
      rw [← Matrix.mul_assoc, hz', Matrix.zero_mul]; rfl
    simpa [Matrix.mul_apply, ones] using this
  · rw [h.eq, ← transpose_transpose vh]
    have hV : vhᵀᵀ * vhᵀ = 1 := h.orthV
    rw [frobSq_mul_orth hV, transpose_transpose]
    conv_rhs => rw [frobSq_mul_orth hV]
    rw [frobSq_orth_mul h.orthU, frobSq_orth_mul h.orthU, frobSq_diagRect, frobSq_diagRect]
    refine Finset.sum_le_sum fun i _ => ?_
    have h0 := h.nonneg i
    exact pow_le_pow_left₀ (le_max_left _ _) (max_le h0 (by linarith)) 2

theorem max_min_soft {tao : ℝ} (ht : 0 ≤ tao) (x : ℝ) : max 0 (x - tao) + min 0 (x + tao) = soft x tao := by
  unfold soft
  by_cases h1 : x > tao
  · rw [if_pos h1, max_eq_right (by linarith), min_eq_left (by linarith), add_zero]
  · rw [if_neg h1]
    by_cases h2 : x < -tao
    · rw [if_pos h2, max_eq_left (by linarith), min_eq_right (by linarith), zero_add]
    · rw [if_neg h2, max_eq_left (by linarith), min_eq_left (by linarith), add_zero]

theorem C67_complicated {r c : Nat} (hr : 0 < r) (hc : 0 < c) (svd : np.Svd) (hs : NpSvdOk svd) (M : Mat r c)
    (tao : ℝ) (ht : 0 ≤ tao) :
    ∃ S, np.shrink svd M tao "complicated" = some S ∧ EqualColSums S
      ∧ total S = √((r : ℝ) * c) * soft (total M / √((r : ℝ) * c)) tao := by
  obtain ⟨N, hN, hz, -⟩ := C67_normal hr svd hs M tao ht
  have e1 : ("complicated" : String) ≠ "normal" := by decide
  have hrc : (0 : ℝ) < (r : ℝ) * c := mul_pos (Nat.cast_pos.2 hr) (Nat.cast_pos.2 hc)
  have hq : √((r : ℝ) * c) ≠ 0 := (Real.sqrt_pos.2 hrc).ne'
  have hqq : √((r : ℝ) * c) * √((r : ℝ) * c) = (r : ℝ) * c := Real.mul_self_sqrt hrc.le
  have hsoft : ∀ x : ℝ, max 0 (x - tao) + min 0 (x + tao) = soft x tao := max_min_soft ht
  refine ⟨N + (soft (total M / √((r : ℝ) * c)) tao / √((r : ℝ) * c)) • ones r c, ?_, ?_⟩
  · have hN' := hN
    simp only [np.shrink, if_true] at hN'
    simp only [np.shrink, if_neg e1, if_true, total_eq, hsoft]
    rw [Option.some.inj hN']
  · have hcol : ∀ j, ∑ i, (N + (soft (total M / √((r : ℝ) * c)) tao / √((r : ℝ) * c)) • ones r c) i j
        = r * (soft (total M / √((r : ℝ) * c)) tao / √((r : ℝ) * c)) := by
      intro j
      simp [Finset.sum_add_distrib, hz j, ones]
    refine ⟨fun j j' => (hcol j).trans (hcol j').symm, ?_⟩
    rw [total_comm, Finset.sum_congr rfl fun j _ => hcol j]
    simp only [Finset.sum_const, Finset.card_univ, Fintype.card_fin, nsmul_eq_mul]
    generalize soft _ _ = q
    generalize √((r : ℝ) * c) = s at hq hqq
    have : (c : ℝ) * (r * (q / s)) = (r * c) * q / s := by ring
    rw [this, ← hqq]
    field_simp

/-! ## C68 -/

theorem cauchy {k : Nat} (x z : Fin k → ℝ) : ∑ i, x i * z i ≤ √(∑ i, x i ^ 2) * √(∑ i, z i ^ 2) := by
  rw [← Real.sqrt_mul (Finset.sum_nonneg fun _ _ => sq_nonneg _)]
  exact Real.le_sqrt_of_sq_le (Finset.sum_mul_sq_le_sq_mul_sq _ _ _)

theorem C68_cone_projection {k : Nat} (x : Fin k → ℝ) (t : ℝ) :
    ∃ x' t', np.coneProjection x t = some (x', t') ∧ InCone x' t'
      ∧ (InCone x t → x' = x ∧ t' = t)
      ∧ ∀ z w, InCone z w → distSq x t x' t' ≤ distSq x t z w := by
  have hnn : 0 ≤ np.norm x := Real.sqrt_nonneg _
  have hsq : np.norm x ^ 2 = ∑ i, x i ^ 2 := Real.sq_sqrt (Finset.sum_nonneg fun _ _ => sq_nonneg _)
  by_cases h1 : np.norm x ≤ t
  · refine ⟨x, t, by simp only [np.coneProjection, if_pos h1], h1, fun _ => ⟨rfl, rfl⟩, fun z w _ => ?_⟩
    have : distSq x t x t = 0 := by simp [distSq]
    rw [this]
    exact add_nonneg (Finset.sum_nonneg fun _ _ => sq_nonneg _) (sq_nonneg _)
  have hexp : ∀ z w, distSq x t z w = np.norm x ^ 2 - 2 * ∑ i, x i * z i + ∑ i, z i ^ 2 + (t - w) ^ 2 := by
    intro z w
    rw [distSq, hsq, Finset.mul_sum, ← Finset.sum_sub_distrib, ← Finset.sum_add_distrib]
    congr 1
    exact Finset.sum_congr rfl fun i _ => by ring
  have hlow : ∀ z w, InCone z w → ∃ b, 0 ≤ b ∧ b ≤ w ∧
      (np.norm x - b) ^ 2 + (t - w) ^ 2 ≤ distSq x t z w := by
    intro z w hz
    refine ⟨√(∑ i, z i ^ 2), Real.sqrt_nonneg _, hz, ?_⟩
    rw [hexp]
    have hb : √(∑ i, z i ^ 2) ^ 2 = ∑ i, z i ^ 2 := Real.sq_sqrt (Finset.sum_nonneg fun _ _ => sq_nonneg _)
    have := cauchy x z
    change _ ≤ np.norm x * _ at this
    have e : (np.norm x - √(∑ i, z i ^ 2)) ^ 2
        = np.norm x ^ 2 - 2 * (np.norm x * √(∑ i, z i ^ 2)) + ∑ i, z i ^ 2 := by rw [sub_sq, hb]; ring
    rw [e]
    linarith
  by_cases h2 : t ≤ -np.norm x
  · refine ⟨0, 0, by simp only [np.coneProjection, if_neg h1, if_pos h2], by simp [InCone],
      fun h => absurd h h1, fun z w hz => ?_⟩
    obtain ⟨b, hb, hbw, hle⟩ := hlow z w hz
    refine le_trans ?_ hle
    have e : distSq x t 0 0 = np.norm x ^ 2 + t ^ 2 := by rw [hexp]; simp
    rw [e]
    nlinarith [mul_nonneg hb (sub_nonneg.2 hbw), mul_nonneg hb hnn, mul_nonneg (sub_nonneg.2 h2) (hb.trans hbw),
      mul_nonneg (hb.trans hbw) hnn]
  · push Not at h1 h2
    have hpos : 0 < np.norm x := by linarith
    have h3 : t ≥ -np.norm x ∧ t ≤ np.norm x := ⟨h2.le, h1.le⟩
    have htmp : 0 ≤ (np.norm x + t) / (2 * np.norm x) := div_nonneg (by linarith) (by linarith)
    have hmul : (np.norm x + t) / (2 * np.norm x) * np.norm x = (np.norm x + t) / 2 := by field_simp
    have hn' : ∀ a : ℝ, ∑ i, (a • x) i ^ 2 = a ^ 2 * np.norm x ^ 2 := by
      intro a
      rw [hsq, Finset.mul_sum]
      exact Finset.sum_congr rfl fun i _ => by simp [mul_pow]
    refine ⟨((np.norm x + t) / (2 * np.norm x)) • x, (np.norm x + t) / (2 * np.norm x) * np.norm x,
      by simp only [np.coneProjection, if_neg (not_le.2 h1), if_neg (not_le.2 h2), if_pos h3], ?_,
      fun h => absurd h (not_le.2 h1), fun z w hz => ?_⟩
    · rw [InCone, hn', ← mul_pow, Real.sqrt_sq (mul_nonneg htmp hnn)]
    · obtain ⟨b, hb, hbw, hle⟩ := hlow z w hz
      refine le_trans ?_ hle
      have e1 : ∑ i, x i * (((np.norm x + t) / (2 * np.norm x)) • x) i
          = (np.norm x + t) / (2 * np.norm x) * np.norm x ^ 2 := by
        rw [hsq, Finset.mul_sum]
        exact Finset.sum_congr rfl fun i _ => by simp; ring
      rw [hexp, hn', e1, ← mul_pow, sq (np.norm x), ← mul_assoc, hmul]
      nlinarith [mul_nonneg (sub_nonneg.2 hbw) (sub_nonneg.2 h1.le), sq_nonneg (b + w - np.norm x - t),
        sq_nonneg (w - b)]

example : ∃ (x : Fin 2 → ℝ) (t : ℝ), ¬ InCone x t :=
  ⟨0, -1, by simp [InCone]⟩

/-- The TensorFlow version always raises. -/
theorem C68_tensorflow_false {k : Nat} (x : Fin k → ℝ) (t : ℝ) :
    ¬ ∃ p, tfl.coneProjection x t = .ok p := by
  rintro ⟨_, h⟩; cases h

end TD.Props
