import Verif.Lemmas.Loss

/-!
# C31 - C34 : `loss.py`
-/
namespace TD.Props
open TD Tensor Spec loss

/-- Sum of squared differences over all entries. -/
noncomputable def sqDist (A B : Tensor ℝ) : ℝ := boxSum A.shape fun i => (A.at_ i - B.at_ i) ^ 2

/-- Number of nonzero entries. -/
noncomputable def nnz (A : Tensor ℝ) : Nat := (indices A.shape).countP fun i => decide (A.at_ i ≠ 0)

/-- Sum of squared differences over the nonzero entries of the reference. -/
noncomputable def sqDistOn (A B : Tensor ℝ) : ℝ :=
  boxSum A.shape fun i => if A.at_ i ≠ 0 then (A.at_ i - B.at_ i) ^ 2 else 0

/-- **C31**, formula: `rmse(A,B) = sqrt(∑ (A-B)² / count)`. -/
theorem C31_rmse_formula (A B : Tensor ℝ) (h : A.shape = B.shape) (hne : A.shape.prod ≠ 0) :
    rmse A B = .ok (some (Real.sqrt (sqDist A B / A.shape.prod))) := by
  unfold rmse
  rw [if_neg (by simpa using h), tf.ewise_same _ h, ok_bind, reduceSum_map]
  have hc : ((ofFn A.shape fun idx => A.at_ idx - B.at_ idx).shape.prod : ℝ) ≠ 0 := by exact_mod_cast hne
  rw [fdiv, if_neg hc]
  have : boxSum (ofFn A.shape fun idx => A.at_ idx - B.at_ idx).shape
      (fun i => (ofFn A.shape fun idx => A.at_ idx - B.at_ idx).at_ i ^ 2) = sqDist A B :=
    boxSum_congr fun i hi => by rw [at_ofFn _ (show InB A.shape i from hi)]
  rw [this]
  rfl

theorem sqDist_nonneg (A B : Tensor ℝ) : 0 ≤ sqDist A B := boxSum_nonneg _ fun _ _ => sq_nonneg _

/-- **C31**: nonnegative. -/
theorem C31_nonneg (A B : Tensor ℝ) (x : ℝ) (h : rmse A B = .ok (some x)) : 0 ≤ x := by
  unfold rmse at h
  split at h
  · cases h
  · cases hd : tf.ewise (· - ·) A B with
    | error e => rw [hd] at h; cases h
    | ok d =>
        rw [hd, ok_bind] at h
        simp only [pure, Except.pure, Except.ok.injEq, fsqrt, Option.map_eq_some_iff] at h
        obtain ⟨y, -, rfl⟩ := h
        exact Real.sqrt_nonneg _

/-- **C31**: symmetric (including when it raises). -/
theorem C31_symm (A B : Tensor ℝ) (hne : A.shape.prod ≠ 0) : rmse A B = rmse B A := by
  by_cases h : A.shape = B.shape
  · rw [C31_rmse_formula A B h hne, C31_rmse_formula B A h.symm (h ▸ hne)]
    have : sqDist A B = sqDist B A := by
      unfold sqDist
      rw [h]
      exact boxSum_congr fun i _ => by ring
    rw [this, h]
  · unfold rmse
    rw [if_pos h, if_pos (fun e => h e.symm)]

/-- **C31**: zero exactly on equal tensors. -/
theorem C31_zero_iff (A B : Tensor ℝ) (h : A.shape = B.shape) (hne : A.shape.prod ≠ 0) :
    rmse A B = .ok (some 0) ↔ A = B := by
  rw [C31_rmse_formula A B h hne]
  have hp : (0 : ℝ) < A.shape.prod := by exact_mod_cast Nat.pos_of_ne_zero hne
  simp only [Except.ok.injEq, Option.some.injEq]
  rw [Real.sqrt_eq_zero (div_nonneg (sqDist_nonneg A B) hp.le), div_eq_zero_iff, or_iff_left hp.ne', sqDist,
    boxSum_eq_zero _ fun _ _ => sq_nonneg _]
  constructor
  · intro hi
    exact ext_at h fun i hb => by
      have := hi i hb
      rw [pow_eq_zero_iff (by norm_num), sub_eq_zero] at this
      exact this
  · rintro rfl i _
    simp

/-- **C31**: triangle inequality. -/
theorem C31_triangle (A B C : Tensor ℝ) (h1 : A.shape = B.shape) (h2 : B.shape = C.shape)
    (hne : A.shape.prod ≠ 0) :
    ∃ ab bc ac, rmse A B = .ok (some ab) ∧ rmse B C = .ok (some bc) ∧ rmse A C = .ok (some ac) ∧
      ac ≤ ab + bc := by
  refine ⟨_, _, _, C31_rmse_formula A B h1 hne, C31_rmse_formula B C h2 (h1 ▸ hne),
    C31_rmse_formula A C (h1.trans h2) hne, ?_⟩
  have hp : (0 : ℝ) ≤ A.shape.prod := by positivity
  rw [← h1, Real.sqrt_div' _ hp, Real.sqrt_div' _ hp, Real.sqrt_div' _ hp, ← add_div]
  apply div_le_div_of_nonneg_right _ (Real.sqrt_nonneg _)
  have := sqrt_boxSum_triangle A.shape (fun i => A.at_ i - B.at_ i) (fun i => B.at_ i - C.at_ i)
  unfold sqDist
  rw [← h1]
  refine le_trans (le_of_eq ?_) this
  congr 1
  exact boxSum_congr fun i _ => by ring

/-- **C31**: `l2(A,B) = ½ ∑ (A-B)²`, hence `count · rmse² / 2`. -/
theorem C31_l2 (A B : Tensor ℝ) (h : A.shape = B.shape) (hne : A.shape.prod ≠ 0) :
    ∃ x y, rmse A B = .ok (some x) ∧ l2 A B = .ok y ∧ y = sqDist A B / 2 ∧ y = A.shape.prod * x ^ 2 / 2 := by
  refine ⟨_, _, C31_rmse_formula A B h hne, ?_, rfl, ?_⟩
  · unfold l2
    rw [tf.ewise_same _ h, ok_bind, reduceSum_map]
    have : boxSum (ofFn A.shape fun idx => A.at_ idx - B.at_ idx).shape
        (fun i => (ofFn A.shape fun idx => A.at_ idx - B.at_ idx).at_ i ^ 2) = sqDist A B :=
      boxSum_congr fun i hi => by rw [at_ofFn _ (show InB A.shape i from hi)]
    rw [this]
    change Except.ok _ = Except.ok _
    congr 1
    ring
  · have hp : (0 : ℝ) < A.shape.prod := by exact_mod_cast Nat.pos_of_ne_zero hne
    rw [Real.sq_sqrt (div_nonneg (sqDist_nonneg A B) hp.le)]
    field_simp

noncomputable def exA : Tensor ℝ := ofFn [2, 2] fun i => (i.getD 0 0 : ℝ)
noncomputable def exB : Tensor ℝ := ofFn [2, 2] fun _ => 1

/-- Hypotheses of C31 on concrete, different tensors. -/
example : exA.shape = exB.shape ∧ exA.shape.prod ≠ 0 := ⟨rfl, by decide⟩

/-! ### `rmse_ignore_zero` -/

theorem sum_nonzero (A : Tensor ℝ) : tf.reduceSum (nonzero A) = nnz A := by
  unfold nonzero
  rw [reduceSum_map, boxSum_eq_list_sum]
  unfold nnz
  generalize indices A.shape = l
  induction l with
  | nil => simp
  | cons i l ih =>
      rw [List.map_cons, List.sum_cons, ih, List.countP_cons]
      by_cases h : A.at_ i = 0
      · simp [h]
      · simp [h]; ring

theorem nnz_ne_zero (A : Tensor ℝ) : nnz A ≠ 0 ↔ ∃ i, InB A.shape i ∧ A.at_ i ≠ 0 := by
  unfold nnz
  rw [← Nat.pos_iff_ne_zero, List.countP_pos_iff]
  simp [mem_indices]

theorem riz_eq (A B : Tensor ℝ) (h : A.shape = B.shape) :
    rmseIgnoreZero A B = .ok (fsqrt (fdiv (sqDistOn A B) (nnz A))) := by
  unfold rmseIgnoreZero
  have h1 : B.shape = (nonzero A).shape := h.symm
  rw [if_neg (by simpa using h), tf.ewise_same _ h1, ok_bind]
  have h2 : A.shape = (ofFn B.shape fun idx => B.at_ idx * (nonzero A).at_ idx).shape := h
  rw [tf.ewise_same _ h2, ok_bind, reduceSum_map, sum_nonzero]
  have : boxSum (ofFn A.shape fun idx => A.at_ idx -
      (ofFn B.shape fun idx => B.at_ idx * (nonzero A).at_ idx).at_ idx).shape
      (fun i => (ofFn A.shape fun idx => A.at_ idx -
      (ofFn B.shape fun idx => B.at_ idx * (nonzero A).at_ idx).at_ idx).at_ i ^ 2) = sqDistOn A B := by
    refine boxSum_congr fun i hi => ?_
    have hi : InB A.shape i := hi
    rw [at_ofFn _ hi, at_ofFn _ (show InB B.shape i from h ▸ hi), nonzero, at_map _ _ hi]
    by_cases hz : A.at_ i = 0
    · simp [hz]
    · simp [hz]
  rw [this]
  rfl

/-- **C32**, formula: `sqrt(∑_{A[i]≠0} (A[i]-B[i])² / #{A[i]≠0})`. -/
theorem C32_formula (A B : Tensor ℝ) (h : A.shape = B.shape) (hne : ∃ i, InB A.shape i ∧ A.at_ i ≠ 0) :
    rmseIgnoreZero A B = .ok (some (Real.sqrt (sqDistOn A B / nnz A))) := by
  rw [riz_eq A B h, fdiv, if_neg]
  · rfl
  · exact_mod_cast (nnz_ne_zero A).2 hne

/-- **C32**: changing `B` where `A` is zero changes nothing. -/
theorem C32_ignores_zeros (A B B' : Tensor ℝ) (h : A.shape = B.shape) (h' : A.shape = B'.shape)
    (he : ∀ i, InB A.shape i → A.at_ i ≠ 0 → B.at_ i = B'.at_ i) :
    rmseIgnoreZero A B = rmseIgnoreZero A B' := by
  rw [riz_eq A B h, riz_eq A B' h']
  have : sqDistOn A B = sqDistOn A B' := by
    refine boxSum_congr fun i hi => ?_
    by_cases hz : A.at_ i ≠ 0
    · rw [if_pos hz, if_pos hz, he i hi hz]
    · rw [if_neg hz, if_neg hz]
  rw [this]

/-- **C32**: zero exactly when `B` agrees with `A` on the support of `A`. -/
theorem C32_zero_iff (A B : Tensor ℝ) (h : A.shape = B.shape) (hne : ∃ i, InB A.shape i ∧ A.at_ i ≠ 0) :
    rmseIgnoreZero A B = .ok (some 0) ↔ ∀ i, InB A.shape i → A.at_ i ≠ 0 → B.at_ i = A.at_ i := by
  rw [C32_formula A B h hne]
  have hp : (0 : ℝ) < nnz A := by exact_mod_cast Nat.pos_of_ne_zero ((nnz_ne_zero A).2 hne)
  have hnn : ∀ i, InB A.shape i → 0 ≤ if A.at_ i ≠ 0 then (A.at_ i - B.at_ i) ^ 2 else 0 := by
    intro i _
    split
    · exact sq_nonneg _
    · exact le_refl _
  simp only [Except.ok.injEq, Option.some.injEq]
  rw [sqDistOn, Real.sqrt_eq_zero (div_nonneg (boxSum_nonneg _ hnn) hp.le), div_eq_zero_iff, or_iff_left hp.ne',
    boxSum_eq_zero _ hnn]
  refine forall_congr' fun i => forall_congr' fun hi => ?_
  by_cases hz : A.at_ i = 0
  · simp [hz]
  · simp only [hz, ne_eq, not_false_eq_true, if_true, forall_const]
    rw [pow_eq_zero_iff (by norm_num), sub_eq_zero, eq_comm]

/-- **C32**: equal to `rmse` when `A` has no zero entry. -/
theorem C32_eq_rmse (A B : Tensor ℝ) (h : A.shape = B.shape) (hne : A.shape.prod ≠ 0)
    (hz : ∀ i, InB A.shape i → A.at_ i ≠ 0) : rmseIgnoreZero A B = rmse A B := by
  have h1 : sqDistOn A B = sqDist A B := boxSum_congr fun i hi => by rw [if_pos (hz i hi)]
  have h2 : nnz A = A.shape.prod := by
    have h3 : nnz A = (indices A.shape).length :=
      List.countP_eq_length.2 fun i hi => by simpa using hz i (mem_indices.1 hi)
    rw [h3, indices_eq_map_unravel]; simp
  have hne' : ∃ i, InB A.shape i ∧ A.at_ i ≠ 0 := by
    have := unravel_inB (s := A.shape) (k := 0) (Nat.pos_of_ne_zero hne)
    exact ⟨_, this, hz _ this⟩
  rw [C32_formula A B h hne', C31_rmse_formula A B h hne, h1, h2]

/-- Hypotheses of C32: `exA` has zero and nonzero entries. -/
example : exA.shape = exB.shape ∧ (∃ i, InB exA.shape i ∧ exA.at_ i ≠ 0) ∧ ∃ i, InB exA.shape i ∧ exA.at_ i = 0 := by
  refine ⟨rfl, ⟨[1, 0], ?_, ?_⟩, ⟨[0, 1], ?_, ?_⟩⟩
  · simp [exA]
  · rw [exA, at_ofFn _ (by simp)]; simp
  · simp [exA]
  · rw [exA, at_ofFn _ (by simp)]; simp

/-- **C33**: both losses raise `TensorErr` exactly when the shapes differ (and raise nothing else). -/
theorem C33_shape_check (A B : Tensor ℝ) (e : PyErr) :
    (rmse A B = .error e ↔ A.shape ≠ B.shape ∧ e = .tensorErr) ∧
    (rmseIgnoreZero A B = .error e ↔ A.shape ≠ B.shape ∧ e = .tensorErr) := by
  by_cases h : A.shape = B.shape
  · constructor
    · unfold rmse
      rw [if_neg (by simpa using h), tf.ewise_same _ h]
      simp [h, pure, Except.pure]
    · rw [riz_eq A B h]; simp [h]
  · constructor
    · unfold rmse
      rw [if_pos h]
      simp only [Except.error.injEq]
      exact ⟨fun he => ⟨h, he.symm⟩, fun he => he.2.symm⟩
    · unfold rmseIgnoreZero
      rw [if_pos h]
      simp only [Except.error.injEq]
      exact ⟨fun he => ⟨h, he.symm⟩, fun he => he.2.symm⟩

example : (ofFn [2] fun _ => (1 : ℝ)).shape ≠ (ofFn [3] fun _ => (1 : ℝ)).shape := by simp

/-- **C34** is false: with an all-zero reference the result is `0/0`, not a number, whatever `B` is. -/
theorem C34_zero_reference_false (s : List Nat) (B : Tensor ℝ) (h : B.shape = s) :
    rmseIgnoreZero (ofFn s fun _ => 0) B = .ok none := by
  rw [riz_eq _ _ (by simpa using h.symm), fdiv, if_pos]
  · rfl
  · have : ¬ nnz (ofFn s fun _ => 0) ≠ 0 := by
      rw [nnz_ne_zero]
      rintro ⟨i, hi, hz⟩
      exact hz (at_ofFn _ hi)
    exact_mod_cast not_not.1 this

/-- **C34**, the part that holds, and exactly when: the result is a number iff the reference has a nonzero
entry.  Missing: all-zero (or empty) references. -/
theorem C34_defined_iff_partial (A B : Tensor ℝ) (h : A.shape = B.shape) :
    (∃ x, rmseIgnoreZero A B = .ok (some x)) ↔ ∃ i, InB A.shape i ∧ A.at_ i ≠ 0 := by
  constructor
  · rintro ⟨x, hx⟩
    rw [riz_eq A B h] at hx
    rw [← nnz_ne_zero]
    intro hz
    rw [fdiv, if_pos (by exact_mod_cast hz)] at hx
    cases hx
  · intro hne
    exact ⟨_, C32_formula A B h hne⟩

end TD.Props
