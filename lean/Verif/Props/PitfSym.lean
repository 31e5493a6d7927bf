import Verif.Props.Prox
import Verif.Props.DualAscent

/-!
# C148: what the result of `exact_recovery` depends on
-/
namespace TD.Props
open TD TD.pitf Matrix Spec
variable {r c : Nat} {n : Fin 3 → Nat} {m : Nat}

/-! ### The singular value decomposition -/

theorem aligned_unique {g : Mat r c → ℝ} {C S S' : Mat r c} (h : Aligned g C S) (h' : Aligned g C S') : S = S' := by
  by_contra hne
  have a := h.three_point S'
  have b := h'.three_point S
  have p := frobSq_pos (sub_ne_zero.2 hne)
  have q := frobSq_pos (sub_ne_zero.2 (Ne.symm hne))
  linarith

/-- Any decomposition of the centred matrix gives the shrunk matrix. -/
theorem shrink_of_svd (svd : np.Svd) (hs : NpSvdOk svd) (M : Mat r c) {U s V} (h : IsSVD (np.centralization M) U s V) {t : ℝ}
    (ht : 0 ≤ t) :
    (np.SVT svd M t).1 * diagRect (np.SVT svd M t).2.1 * (np.SVT svd M t).2.2 = U * diagRect (fun i => max 0 (s i - t)) * Vᵀ := by
  have a := threshold_aligned (hs (np.centralization M)) ht
  rw [transpose_transpose] at a
  exact aligned_unique a (threshold_aligned h ht)

/-- **C148** (the operator): the choice of the decomposition - signs, bases of the spaces of equal singular values - does not show in
`shrink`. -/
theorem C148_shrink_solver (svd svd' : np.Svd) (hs : NpSvdOk svd) (hs' : NpSvdOk svd') (M : Mat r c) (t : ℝ) (ht : 0 ≤ t)
    (mode : String) : np.shrink svd M t mode = np.shrink svd' M t mode := by
  have e := shrink_of_svd svd hs M (hs' (np.centralization M)) ht
  rw [transpose_transpose] at e
  have e' : (np.SVT svd' M t).1 * diagRect (np.SVT svd' M t).2.1 * (np.SVT svd' M t).2.2 =
    (svd' (np.centralization M)).1 * diagRect (fun i => max 0 ((svd' (np.centralization M)).2.1 i - t)) * (svd' (np.centralization M)).2.2 := rfl
  unfold np.shrink
  simp only [e, e']

/-! ### The unit of the data -/

theorem centralization_smul (a : ℝ) (M : Mat r c) : np.centralization (a • M) = a • np.centralization M := by
  ext i j
  rw [Matrix.smul_apply, centralization_apply, centralization_apply]
  simp only [Matrix.smul_apply, smul_eq_mul, ← Finset.mul_sum]
  ring

theorem isSVD_smul {A : Mat r c} {U s V} (h : IsSVD A U s V) (a : ℝ) (ha : a ≠ 0) :
    IsSVD (a • A) U (fun i => |a| * s i) ((SignType.sign a : ℝ) • V) := by
  have hsq : (SignType.sign a : ℝ) * (SignType.sign a : ℝ) = 1 := by
    rcases lt_or_gt_of_ne ha with h | h <;> simp [h]
  refine ⟨h.orthU, ?_, fun i => mul_nonneg (abs_nonneg _) (h.nonneg i),
    fun i j hij => mul_le_mul_of_nonneg_left (h.anti i j hij) (abs_nonneg _), ?_⟩
  · rw [transpose_smul, Matrix.smul_mul, Matrix.mul_smul, smul_smul, hsq, one_smul, h.orthV]
  · have e : (diagRect (fun i => |a| * s i) : Mat r c) = |a| • diagRect s := by
      ext i j
      simp only [diagRect, Matrix.smul_apply, smul_eq_mul]
      split <;> simp
    rw [e, transpose_smul, Matrix.mul_smul, Matrix.mul_smul, Matrix.smul_mul, smul_smul, sign_mul_abs, ← h.eq]

theorem soft_smul (a x t : ℝ) (ha : a ≠ 0) (ht : 0 ≤ t) :
    max 0 (a * x - |a| * t) + min 0 (a * x + |a| * t) = a * (max 0 (x - t) + min 0 (x + t)) := by
  rw [max_min_soft ht, max_min_soft (mul_nonneg (abs_nonneg _) ht)]
  unfold soft
  rcases lt_or_gt_of_ne ha with h | h
  · rw [abs_of_neg h]
    by_cases h1 : x > t
    · rw [if_pos h1, if_neg (by nlinarith), if_pos (by nlinarith)]; ring
    · by_cases h2 : x < -t
      · rw [if_pos (by nlinarith), if_neg h1, if_pos h2]; ring
      · rw [if_neg (by nlinarith), if_neg (by nlinarith), if_neg h1, if_neg h2, mul_zero]
  · rw [abs_of_pos h]
    by_cases h1 : x > t
    · rw [if_pos h1, if_pos (by nlinarith)]; ring
    · by_cases h2 : x < -t
      · rw [if_neg (by nlinarith), if_pos (by nlinarith), if_neg h1, if_pos h2]; ring
      · rw [if_neg (by nlinarith), if_neg (by nlinarith), if_neg h1, if_neg h2, mul_zero]

theorem shrink_smul (svd : np.Svd) (hs : NpSvdOk svd) (M : Mat r c) (t : ℝ) (ht : 0 ≤ t) (a : ℝ) (ha : a ≠ 0) (mode : String) :
    np.shrink svd (a • M) (|a| * t) mode = (np.shrink svd M t mode).map (a • ·) := by
  have h := isSVD_smul (hs (np.centralization M)) a ha
  rw [← centralization_smul] at h
  have e := shrink_of_svd svd hs (a • M) h (mul_nonneg (abs_nonneg a) ht)
  have e2 : (diagRect (fun i => max 0 (|a| * (svd (np.centralization M)).2.1 i - |a| * t)) : Mat r c) =
      |a| • diagRect (fun i => max 0 ((svd (np.centralization M)).2.1 i - t)) := by
    ext i j
    simp only [diagRect, Matrix.smul_apply, smul_eq_mul]
    split
    · rw [← mul_sub, mul_max_of_nonneg _ _ (abs_nonneg a), mul_zero]
    · simp
  rw [e2, transpose_smul, transpose_transpose, Matrix.mul_smul, Matrix.mul_smul, Matrix.smul_mul, smul_smul, sign_mul_abs] at e
  have e3 : (svd (np.centralization M)).1 * diagRect (fun i => max 0 ((svd (np.centralization M)).2.1 i - t)) * (svd (np.centralization M)).2.2 =
    (np.SVT svd M t).1 * diagRect (np.SVT svd M t).2.1 * (np.SVT svd M t).2.2 := rfl
  rw [e3] at e
  unfold np.shrink
  simp only [e]
  split
  · rfl
  · split
    · have ht' : ((ones r 1)ᵀ * (a • M) * ones c 1) 0 0 = a * ((ones r 1)ᵀ * M * ones c 1) 0 0 := by
        rw [Matrix.mul_smul, Matrix.smul_mul]; rfl
      rw [ht', mul_div_assoc, soft_smul a _ t ha ht, Option.map_some, smul_add, smul_smul, mul_div_assoc]
    · rfl

/-! ### The numbering of the indices -/

theorem centralization_submatrix (e : Equiv.Perm (Fin r)) (f : Equiv.Perm (Fin c)) (M : Mat r c) :
    np.centralization (M.submatrix e f) = (np.centralization M).submatrix e f := by
  ext i j
  rw [Matrix.submatrix_apply, centralization_apply, centralization_apply]
  simp only [Matrix.submatrix_apply]
  rw [Equiv.sum_comp e fun k => M k (f j)]

theorem isSVD_submatrix {A : Mat r c} {U s V} (h : IsSVD A U s V) (e : Equiv.Perm (Fin r)) (f : Equiv.Perm (Fin c)) :
    IsSVD (A.submatrix e f) (U.submatrix e id) s (V.submatrix f id) := by
  refine ⟨?_, ?_, h.nonneg, h.anti, ?_⟩
  · rw [transpose_submatrix, submatrix_mul_equiv, h.orthU, submatrix_id_id]
  · rw [transpose_submatrix, submatrix_mul_equiv, h.orthV, submatrix_id_id]
  · conv_lhs => rw [h.eq]
    ext i j
    simp [Matrix.mul_apply]

theorem shrink_submatrix (svd : np.Svd) (hs : NpSvdOk svd) (M : Mat r c) (t : ℝ) (ht : 0 ≤ t) (e : Equiv.Perm (Fin r))
    (f : Equiv.Perm (Fin c)) (mode : String) :
    np.shrink svd (M.submatrix e f) t mode = (np.shrink svd M t mode).map (·.submatrix e f) := by
  have h := isSVD_submatrix (hs (np.centralization M)) e f
  rw [← centralization_submatrix] at h
  have e1 := shrink_of_svd svd hs (M.submatrix e f) h ht
  have e2 : (svd (np.centralization M)).1.submatrix e id * diagRect (fun i => max 0 ((svd (np.centralization M)).2.1 i - t)) *
      ((svd (np.centralization M)).2.2ᵀ.submatrix f id)ᵀ =
      ((np.SVT svd M t).1 * diagRect (np.SVT svd M t).2.1 * (np.SVT svd M t).2.2).submatrix e f := by
    ext i j
    simp [Matrix.mul_apply, np.SVT]
  rw [e2] at e1
  unfold np.shrink
  simp only [e1]
  split
  · rfl
  · split
    · have ht' : ((ones r 1)ᵀ * (M.submatrix e f) * ones c 1) 0 0 = ((ones r 1)ᵀ * M * ones c 1) 0 0 := by
        rw [total_eq, total_eq]
        unfold total
        simp only [Matrix.submatrix_apply]
        rw [Equiv.sum_comp e fun k => ∑ j, M k (f j)]
        exact Finset.sum_congr rfl fun i _ => Equiv.sum_comp f fun k => M i k
      rw [ht', Option.map_some]
      rfl
    · rfl

/-! ### The loop -/

theorem recoveryLoop_map {svd svd' : np.Svd} {spl spl' : Samples n m} {T T' : Tensor3 n} {delt tao tao' : ℝ}
    (gy : (Fin m → ℝ) → Fin m → ℝ) (g : np.Iter n m → np.Iter n m) (fl : Option ℝ → Option ℝ)
    (hstep : ∀ y, np.recoveryStep svd' spl' T' delt tao' (gy y) = g (np.recoveryStep svd spl T delt tao y))
    (hy : ∀ it, (g it).y = gy it.y) (he : ∀ it, (g it).erate = it.erate) (hl : ∀ it, (g it).loss = fl it.loss) :
    ∀ k i y last If Ef Rf, np.recoveryLoop svd' spl' T' delt tao' k i (gy y) (last.map g) (If, Ef, Rf.map fl) =
      ((np.recoveryLoop svd spl T delt tao k i y last (If, Ef, Rf)).1.map g,
        (np.recoveryLoop svd spl T delt tao k i y last (If, Ef, Rf)).2.1,
        (np.recoveryLoop svd spl T delt tao k i y last (If, Ef, Rf)).2.2.1,
        (np.recoveryLoop svd spl T delt tao k i y last (If, Ef, Rf)).2.2.2.map fl)
  | 0, i, y, last, If, Ef, Rf => rfl
  | k + 1, i, y, last, If, Ef, Rf => by
      rw [np.recoveryLoop, np.recoveryLoop]
      rw [hstep y, hy, he, hl]
      have := recoveryLoop_map gy g fl hstep hy he hl k (i + 1) (np.recoveryStep svd spl T delt tao y).y
        (some (np.recoveryStep svd spl T delt tao y)) (If ++ [i]) (Ef ++ [(np.recoveryStep svd spl T delt tao y).erate])
        (Rf ++ [(np.recoveryStep svd spl T delt tao y).loss])
      rw [List.map_append] at this
      exact this

/-- The whole run, when every step is transformed by `g` and `fl`. -/
theorem exactRecovery_map {svd svd' : np.Svd} {spl spl' : Samples n m} {T T' : Tensor3 n} {argDelt argTao argTao' : ℝ} {steps : Nat}
    (gy : (Fin m → ℝ) → Fin m → ℝ) (g : np.Iter n m → np.Iter n m) (fl : Option ℝ → Option ℝ) (h0 : gy 0 = 0)
    (hstep : ∀ y, np.recoveryStep svd' spl' T' (argDelt * m / √((n 0 : ℝ) * n 1 * n 2)) (argTao' * √((n 0 : ℝ) * n 1 * n 2)) (gy y) =
      g (np.recoveryStep svd spl T (argDelt * m / √((n 0 : ℝ) * n 1 * n 2)) (argTao * √((n 0 : ℝ) * n 1 * n 2)) y))
    (hy : ∀ it, (g it).y = gy it.y) (he : ∀ it, (g it).erate = it.erate) (hl : ∀ it, (g it).loss = fl it.loss) :
    np.exactRecovery svd' argDelt argTao' steps T' spl' =
      (np.exactRecovery svd argDelt argTao steps T spl).map fun R => ⟨g R.last, R.If, R.Ef, R.Rf.map fl⟩ := by
  have := recoveryLoop_map gy g fl hstep hy he hl steps 0 0 none [] [] []
  rw [h0] at this
  unfold np.exactRecovery
  simp only
  split
  · rfl
  rw [Option.map_none, List.map_nil] at this
  rw [this]
  cases h : (np.recoveryLoop svd spl T (argDelt * m / √((n 0 : ℝ) * n 1 * n 2)) (argTao * √((n 0 : ℝ) * n 1 * n 2)) steps 0 0 none
      ([], [], [])).1 with
  | none =>
      have e : ∀ p : Option (np.Iter n m) × List Nat × List (Option ℝ) × List (Option ℝ), p.1 = none → p = (none, p.2) :=
        fun p hp => by rw [← hp]
      rw [e _ h]; rfl
  | some it =>
      have e : ∀ p : Option (np.Iter n m) × List Nat × List (Option ℝ) × List (Option ℝ), p.1 = some it → p = (some it, p.2) :=
        fun p hp => by rw [← hp]
      rw [e _ h]; rfl

/-- **C148**: `exact_recovery` returns the same for every correct singular value decomposition. -/
theorem C148_solver (svd svd' : np.Svd) (hs : NpSvdOk svd) (hs' : NpSvdOk svd') (argDelt argTao : ℝ) (ht : 0 ≤ argTao) (steps : Nat)
    (T : Tensor3 n) (spl : Samples n m) :
    np.exactRecovery svd argDelt argTao steps T spl = np.exactRecovery svd' argDelt argTao steps T spl := by
  have ht' : 0 ≤ argTao * √((n 0 : ℝ) * n 1 * n 2) := mul_nonneg ht (Real.sqrt_nonneg _)
  rw [exactRecovery_map (svd := svd') (svd' := svd) (T := T) (spl := spl) (argTao := argTao) id id id rfl ?_ (fun _ => rfl) (fun _ => rfl)
    fun _ => rfl]
  · cases np.exactRecovery svd' argDelt argTao steps T spl with
    | error e => rfl
    | ok R => simp [Except.map]
  · intro y
    unfold np.recoveryStep
    simp only [id, C148_shrink_solver svd svd' hs hs' _ _ ht']

theorem adjoint_smul (spl : Samples n m) (a : ℝ) (y : Fin m → ℝ) (dim : Fin 3) :
    np.adjointOperator spl (a • y) dim = a • np.adjointOperator spl y dim := by
  ext i j
  rw [Matrix.smul_apply, adjoint_apply, adjoint_apply]
  generalize (List.finRange m).filter (fun k => position spl dim k = (i, j)) = l
  rw [List.getLastD_eq_getLast?, List.getLastD_eq_getLast?, List.getLast?_map, List.getLast?_map]
  cases l.getLast? <;> simp

theorem getD_smul (o : Option (Mat r c)) (a : ℝ) : (o.map (a • ·)).getD 0 = a • o.getD 0 := by
  cases o <;> simp

/-- The iteration for data in another unit. -/
noncomputable def scaleIter (a : ℝ) (it : np.Iter n m) : np.Iter n m :=
  ⟨a • it.y, a • it.X, a • it.Y, a • it.Z, it.erate, it.loss.map (|a| * ·)⟩

/-- What a step does with the three shrunk matrices. -/
noncomputable def afterShrink (spl : Samples n m) (T : Tensor3 n) (delt : ℝ) (y : Fin m → ℝ) (X : Mat (n 0) (n 1)) (Y : Mat (n 1) (n 2))
    (Z : Mat (n 2) (n 0)) : np.Iter n m :=
  { y := y + delt • (np.PomegaTensor spl T - np.PomegaPair spl X Y Z)
    X := X
    Y := Y
    Z := Z
    erate := loss.fdiv (np.norm (np.PomegaTensor spl T - np.PomegaPair spl X Y Z)) (np.norm (np.PomegaTensor spl T))
    loss := loss.fsqrt (loss.fdiv (∑ i, (np.PomegaTensor spl T - np.PomegaPair spl X Y Z) i ^ 2) m) }

/-- The scattered sample vector with its sizes written out. -/
noncomputable def adj0 (spl : Samples n m) (y : Fin m → ℝ) : Mat (n 0) (n 1) := np.adjointOperator spl y 0
@[inherit_doc adj0] noncomputable def adj1 (spl : Samples n m) (y : Fin m → ℝ) : Mat (n 1) (n 2) := np.adjointOperator spl y 1
@[inherit_doc adj0] noncomputable def adj2 (spl : Samples n m) (y : Fin m → ℝ) : Mat (n 2) (n 0) := np.adjointOperator spl y 2

theorem step_afterShrink (svd : np.Svd) (spl : Samples n m) (T : Tensor3 n) (delt tao : ℝ) (y : Fin m → ℝ) :
    np.recoveryStep svd spl T delt tao y = afterShrink spl T delt y
      ((1 / √(n 2)) • (np.shrink svd (adj0 spl y) tao "complicated").getD 0) ((1 / √(n 0)) • (np.shrink svd (adj1 spl y) tao "normal").getD 0)
      ((1 / √(n 1)) • (np.shrink svd (adj2 spl y) tao "normal").getD 0) := rfl

theorem afterShrink_smul (spl : Samples n m) (T : Tensor3 n) (delt a : ℝ) (ha : a ≠ 0) (y : Fin m → ℝ) (X : Mat (n 0) (n 1))
    (Y : Mat (n 1) (n 2)) (Z : Mat (n 2) (n 0)) :
    afterShrink spl (fun i j k => a * T i j k) delt (a • y) (a • X) (a • Y) (a • Z) = scaleIter a (afterShrink spl T delt y X Y Z) := by
  have eT : np.PomegaTensor spl (fun i j k => a * T i j k) = a • np.PomegaTensor spl T := rfl
  have eP : np.PomegaPair spl (a • X) (a • Y) (a • Z) = a • np.PomegaPair spl X Y Z := by
    funext i
    show (a * X (spl 0 i) (spl 1 i)) / √(n 2) + (a * Y (spl 1 i) (spl 2 i)) / √(n 0) + (a * Z (spl 2 i) (spl 0 i)) / √(n 1) =
      a * (X (spl 0 i) (spl 1 i) / √(n 2) + Y (spl 1 i) (spl 2 i) / √(n 0) + Z (spl 2 i) (spl 0 i) / √(n 1))
    ring
  unfold afterShrink scaleIter
  rw [eT, eP, ← smul_sub]
  set e := np.PomegaTensor spl T - np.PomegaPair spl X Y Z
  have hn : ∀ v : Fin m → ℝ, np.norm (a • v) = |a| * np.norm v := by
    intro v
    unfold np.norm
    simp only [Pi.smul_apply, smul_eq_mul, mul_pow, ← Finset.mul_sum]
    rw [Real.sqrt_mul (sq_nonneg a), Real.sqrt_sq_eq_abs]
  have hq : ∑ i, (a • e) i ^ 2 = a ^ 2 * ∑ i, e i ^ 2 := by
    simp only [Pi.smul_apply, smul_eq_mul, mul_pow, ← Finset.mul_sum]
  have ha' : |a| ≠ 0 := abs_ne_zero.2 ha
  congr 1
  · rw [smul_add, smul_comm]
  · rw [hn, hn]
    unfold loss.fdiv
    by_cases h : np.norm (np.PomegaTensor spl T) = 0
    · rw [if_pos h, if_pos (by rw [h, mul_zero])]
    · rw [if_neg h, if_neg (mul_ne_zero ha' h), mul_div_mul_left _ _ ha']
  · rw [hq]
    unfold loss.fdiv loss.fsqrt
    by_cases h : (m : ℝ) = 0
    · rw [if_pos h, if_pos h]; rfl
    · rw [if_neg h, if_neg h, Option.map_some, Option.map_some, Option.map_some, mul_div_assoc, Real.sqrt_mul (sq_nonneg a),
        Real.sqrt_sq_eq_abs]

theorem step_smul (svd : np.Svd) (hs : NpSvdOk svd) (spl : Samples n m) (T : Tensor3 n) (delt tao : ℝ) (ht : 0 ≤ tao) (a : ℝ)
    (ha : a ≠ 0) (y : Fin m → ℝ) :
    np.recoveryStep svd spl (fun i j k => a * T i j k) delt (|a| * tao) (a • y) = scaleIter a (np.recoveryStep svd spl T delt tao y) := by
  have key : ∀ {r c : Nat} (M : Mat r c) (w : ℝ) (mode : String),
      w • (np.shrink svd (a • M) (|a| * tao) mode).getD 0 = a • (w • (np.shrink svd M tao mode).getD 0) := by
    intro r c M w mode
    rw [shrink_smul svd hs _ _ ht a ha, getD_smul, smul_comm]
  rw [step_afterShrink, step_afterShrink, ← afterShrink_smul spl T delt a ha,
    show adj0 spl (a • y) = a • adj0 spl y from adjoint_smul spl a y 0,
    show adj1 spl (a • y) = a • adj1 spl y from adjoint_smul spl a y 1,
    show adj2 spl (a • y) = a • adj2 spl y from adjoint_smul spl a y 2, key, key, key]

/-- **C148** (unit of the data): with the data and the threshold in another unit `exact_recovery` returns the matrices and the losses in
this unit and the same relative errors; a negative factor is allowed for the data. -/
theorem C148_unit (svd : np.Svd) (hs : NpSvdOk svd) (argDelt argTao : ℝ) (ht : 0 ≤ argTao) (steps : Nat) (T : Tensor3 n)
    (spl : Samples n m) (a : ℝ) (ha : a ≠ 0) (R : np.Recovery n m) (hR : np.exactRecovery svd argDelt argTao steps T spl = .ok R) :
    ∃ R', np.exactRecovery svd argDelt (|a| * argTao) steps (fun i j k => a * T i j k) spl = .ok R' ∧
      R'.last.X = a • R.last.X ∧ R'.last.Y = a • R.last.Y ∧ R'.last.Z = a • R.last.Z ∧ R'.last.y = a • R.last.y ∧
      R'.If = R.If ∧ R'.Ef = R.Ef ∧ R'.Rf = R.Rf.map (Option.map (|a| * ·)) := by
  have ht' : 0 ≤ argTao * √((n 0 : ℝ) * n 1 * n 2) := mul_nonneg ht (Real.sqrt_nonneg _)
  have hst : ∀ y : Fin m → ℝ, np.recoveryStep svd spl (fun i j k => a * T i j k) (argDelt * m / √((n 0 : ℝ) * n 1 * n 2))
      (|a| * argTao * √((n 0 : ℝ) * n 1 * n 2)) ((fun y => a • y) y) =
      scaleIter a (np.recoveryStep svd spl T (argDelt * m / √((n 0 : ℝ) * n 1 * n 2)) (argTao * √((n 0 : ℝ) * n 1 * n 2)) y) := fun y => by
    rw [mul_assoc |a| argTao]
    exact step_smul svd hs spl T _ _ ht' a ha y
  have h0 : (fun y : Fin m → ℝ => a • y) 0 = 0 := smul_zero a
  have := exactRecovery_map (steps := steps) (fun y => a • y) (scaleIter a) (Option.map (|a| * ·)) h0 hst (fun _ => rfl) (fun _ => rfl)
    fun _ => rfl
  rw [hR] at this
  exact ⟨_, this, rfl, rfl, rfl, rfl, rfl, rfl, rfl⟩

/-! ### Numbering -/

/-- The iteration for renumbered indices. -/
def relabelIter (σ : (d : Fin 3) → Equiv.Perm (Fin (n d))) (it : np.Iter n m) : np.Iter n m :=
  ⟨it.y, it.X.submatrix (σ 0) (σ 1), it.Y.submatrix (σ 1) (σ 2), it.Z.submatrix (σ 2) (σ 0), it.erate, it.loss⟩

theorem scatter_submatrix (p : Fin m → Fin r × Fin c) (e : Equiv.Perm (Fin r)) (f : Equiv.Perm (Fin c)) (y : Fin m → ℝ) :
    (List.finRange m).foldl (fun X k => np.assign X (e.symm (p k).1, f.symm (p k).2) (y k)) 0 =
      ((List.finRange m).foldl (fun X k => np.assign X (p k) (y k)) 0).submatrix e f := by
  ext i j
  rw [Matrix.submatrix_apply, foldl_assign (fun k => (e.symm (p k).1, f.symm (p k).2)), foldl_assign]
  congr 3
  funext k
  simp only [Prod.ext_iff, Equiv.symm_apply_eq]

theorem getD_submatrix (o : Option (Mat r c)) (e : Equiv.Perm (Fin r)) (f : Equiv.Perm (Fin c)) :
    (o.map (·.submatrix e f)).getD 0 = (o.getD 0).submatrix e f := by
  cases o <;> rfl

theorem afterShrink_relabel (spl : Samples n m) (T : Tensor3 n) (delt : ℝ) (σ : (d : Fin 3) → Equiv.Perm (Fin (n d))) (y : Fin m → ℝ)
    (X : Mat (n 0) (n 1)) (Y : Mat (n 1) (n 2)) (Z : Mat (n 2) (n 0)) :
    afterShrink (fun d k => (σ d).symm (spl d k)) (fun i j k => T (σ 0 i) (σ 1 j) (σ 2 k)) delt y (X.submatrix (σ 0) (σ 1))
      (Y.submatrix (σ 1) (σ 2)) (Z.submatrix (σ 2) (σ 0)) = relabelIter σ (afterShrink spl T delt y X Y Z) := by
  have eT : np.PomegaTensor (fun d k => (σ d).symm (spl d k)) (fun i j k => T (σ 0 i) (σ 1 j) (σ 2 k)) = np.PomegaTensor spl T := by
    funext k; simp [np.PomegaTensor]
  have eP : np.PomegaPair (fun d k => (σ d).symm (spl d k)) (X.submatrix (σ 0) (σ 1)) (Y.submatrix (σ 1) (σ 2))
      (Z.submatrix (σ 2) (σ 0)) = np.PomegaPair spl X Y Z := by
    funext k
    show X (σ 0 ((σ 0).symm (spl 0 k))) (σ 1 ((σ 1).symm (spl 1 k))) / √(n 2) + Y (σ 1 ((σ 1).symm (spl 1 k))) (σ 2 ((σ 2).symm (spl 2 k))) / √(n 0)
      + Z (σ 2 ((σ 2).symm (spl 2 k))) (σ 0 ((σ 0).symm (spl 0 k))) / √(n 1) = X (spl 0 k) (spl 1 k) / √(n 2) + Y (spl 1 k) (spl 2 k) / √(n 0) +
        Z (spl 2 k) (spl 0 k) / √(n 1)
    simp only [Equiv.apply_symm_apply]
  unfold afterShrink relabelIter
  rw [eT, eP]

theorem step_relabel (svd : np.Svd) (hs : NpSvdOk svd) (spl : Samples n m) (T : Tensor3 n) (delt tao : ℝ) (ht : 0 ≤ tao)
    (σ : (d : Fin 3) → Equiv.Perm (Fin (n d))) (y : Fin m → ℝ) :
    np.recoveryStep svd (fun d k => (σ d).symm (spl d k)) (fun i j k => T (σ 0 i) (σ 1 j) (σ 2 k)) delt tao y =
      relabelIter σ (np.recoveryStep svd spl T delt tao y) := by
  have key : ∀ {r c : Nat} (M : Mat r c) (e : Equiv.Perm (Fin r)) (f : Equiv.Perm (Fin c)) (w : ℝ) (mode : String),
      w • (np.shrink svd (M.submatrix e f) tao mode).getD 0 = (w • (np.shrink svd M tao mode).getD 0).submatrix e f := by
    intro r c M e f w mode
    rw [shrink_submatrix svd hs _ _ ht, getD_submatrix]; rfl
  rw [step_afterShrink, step_afterShrink, ← afterShrink_relabel spl T delt σ y,
    show adj0 (fun d k => (σ d).symm (spl d k)) y = (adj0 spl y).submatrix (σ 0) (σ 1) from
      scatter_submatrix (fun k => (spl 0 k, spl 1 k)) (σ 0) (σ 1) y,
    show adj1 (fun d k => (σ d).symm (spl d k)) y = (adj1 spl y).submatrix (σ 1) (σ 2) from
      scatter_submatrix (fun k => (spl 1 k, spl 2 k)) (σ 1) (σ 2) y,
    show adj2 (fun d k => (σ d).symm (spl d k)) y = (adj2 spl y).submatrix (σ 2) (σ 0) from
      scatter_submatrix (fun k => (spl 2 k, spl 0 k)) (σ 2) (σ 0) y, key, key, key]

/-- **C148** (numbering): when the indices of the three modes are renumbered in the tensor and in the drawn positions, `exact_recovery`
returns the renumbered matrices and the same histories. -/
theorem C148_relabel (svd : np.Svd) (hs : NpSvdOk svd) (argDelt argTao : ℝ) (ht : 0 ≤ argTao) (steps : Nat) (T : Tensor3 n)
    (spl : Samples n m) (σ : (d : Fin 3) → Equiv.Perm (Fin (n d))) (R : np.Recovery n m)
    (hR : np.exactRecovery svd argDelt argTao steps T spl = .ok R) :
    ∃ R', np.exactRecovery svd argDelt argTao steps (fun i j k => T (σ 0 i) (σ 1 j) (σ 2 k)) (fun d k => (σ d).symm (spl d k)) = .ok R' ∧
      (∀ i j, R'.last.X i j = R.last.X (σ 0 i) (σ 1 j)) ∧ (∀ j k, R'.last.Y j k = R.last.Y (σ 1 j) (σ 2 k)) ∧
      (∀ k i, R'.last.Z k i = R.last.Z (σ 2 k) (σ 0 i)) ∧ R'.last.y = R.last.y ∧ R'.If = R.If ∧ R'.Ef = R.Ef ∧ R'.Rf = R.Rf := by
  have ht' : 0 ≤ argTao * √((n 0 : ℝ) * n 1 * n 2) := mul_nonneg ht (Real.sqrt_nonneg _)
  have := exactRecovery_map (svd := svd) (svd' := svd) (spl := spl) (spl' := fun d k => (σ d).symm (spl d k)) (T := T)
    (T' := fun i j k => T (σ 0 i) (σ 1 j) (σ 2 k))
    (argDelt := argDelt) (argTao := argTao) (argTao' := argTao) (steps := steps) id (relabelIter σ) id
    rfl (fun y => step_relabel svd hs spl T _ _ ht' σ y) (fun _ => rfl) (fun _ => rfl) fun _ => rfl
  rw [hR] at this
  exact ⟨_, this, fun _ _ => rfl, fun _ _ => rfl, fun _ _ => rfl, rfl, rfl, rfl, List.map_id _⟩

/-! ### The order of the draws -/

/-- The iteration for draws in another order. -/
def reorderIter (π : Equiv.Perm (Fin m)) (it : np.Iter n m) : np.Iter n m := ⟨it.y ∘ π, it.X, it.Y, it.Z, it.erate, it.loss⟩

theorem adjoint_reorder (spl : Samples n m) (dim : Fin 3) (hd : Function.Injective (position spl dim)) (π : Equiv.Perm (Fin m))
    (y : Fin m → ℝ) : np.adjointOperator (fun d k => spl d (π k)) (y ∘ π) dim = np.adjointOperator spl y dim := by
  have hp : position (fun d k => spl d (π k)) dim = position spl dim ∘ π := by
    match dim with
    | 0 => rfl
    | 1 => rfl
    | 2 => rfl
  ext i j
  rw [adjoint_apply, adjoint_apply, hp, getLastD_distinct _ (hd.comp π.injective), getLastD_distinct _ hd]
  exact Equiv.sum_comp π fun k => if position spl dim k = (i, j) then y k else 0

theorem afterShrink_reorder (spl : Samples n m) (T : Tensor3 n) (delt : ℝ) (π : Equiv.Perm (Fin m)) (y : Fin m → ℝ)
    (X : Mat (n 0) (n 1)) (Y : Mat (n 1) (n 2)) (Z : Mat (n 2) (n 0)) :
    afterShrink (fun d k => spl d (π k)) T delt (y ∘ π) X Y Z = reorderIter π (afterShrink spl T delt y X Y Z) := by
  have eT : np.PomegaTensor (fun d k => spl d (π k)) T = np.PomegaTensor spl T ∘ π := rfl
  have eP : np.PomegaPair (fun d k => spl d (π k)) X Y Z = np.PomegaPair spl X Y Z ∘ π := rfl
  have hn : ∀ v : Fin m → ℝ, ∑ i, (v ∘ π) i ^ 2 = ∑ i, v i ^ 2 := fun v => Equiv.sum_comp π fun i => v i ^ 2
  have hs : ∀ u v : Fin m → ℝ, u ∘ π - v ∘ π = (u - v) ∘ π := fun _ _ => rfl
  unfold afterShrink reorderIter np.norm
  rw [eT, eP, hs]
  simp only [hn]
  rfl

/-- **C148** (order of the draws): when no pair of indices is drawn twice, the order in which the positions were drawn does not matter to
the matrices and to the histories. -/
theorem C148_order (svd : np.Svd) (argDelt argTao : ℝ) (steps : Nat) (T : Tensor3 n) (spl : Samples n m)
    (hd : DistinctPairs (spl 0) (spl 1) (spl 2)) (π : Equiv.Perm (Fin m)) (R : np.Recovery n m)
    (hR : np.exactRecovery svd argDelt argTao steps T spl = .ok R) :
    ∃ R', np.exactRecovery svd argDelt argTao steps T (fun d k => spl d (π k)) = .ok R' ∧
      R'.last.X = R.last.X ∧ R'.last.Y = R.last.Y ∧ R'.last.Z = R.last.Z ∧ (∀ k, R'.last.y k = R.last.y (π k)) ∧
      R'.If = R.If ∧ R'.Ef = R.Ef ∧ R'.Rf = R.Rf := by
  have hst : ∀ delt tao (y : Fin m → ℝ), np.recoveryStep svd (fun d k => spl d (π k)) T delt tao ((fun y => y ∘ π) y) =
      reorderIter π (np.recoveryStep svd spl T delt tao y) := fun delt tao y => by
    rw [step_afterShrink, step_afterShrink, ← afterShrink_reorder]
    simp only
    rw [show adj0 (fun d k => spl d (π k)) (y ∘ π) = adj0 spl y from adjoint_reorder spl 0 (distinct_position hd 0) π y,
      show adj1 (fun d k => spl d (π k)) (y ∘ π) = adj1 spl y from adjoint_reorder spl 1 (distinct_position hd 1) π y,
      show adj2 (fun d k => spl d (π k)) (y ∘ π) = adj2 spl y from adjoint_reorder spl 2 (distinct_position hd 2) π y]
  have := exactRecovery_map (steps := steps) (fun y => y ∘ π) (reorderIter π) id rfl (hst (argDelt * m / √((n 0 : ℝ) * n 1 * n 2))
    (argTao * √((n 0 : ℝ) * n 1 * n 2))) (fun _ => rfl) (fun _ => rfl) fun _ => rfl
  rw [hR] at this
  exact ⟨_, this, rfl, rfl, rfl, fun _ => rfl, rfl, rfl, List.map_id _⟩

/-- The hypotheses are met: a `2x2x2` tensor, two draws, three steps. -/
example : ∃ (svd : np.Svd) (R R' : np.Recovery ![2, 2, 2] 2), NpSvdOk svd ∧ np.exactRecovery svd 1 1 3 okT okSpl = .ok R ∧
    np.exactRecovery svd 1 (|(-2)| * 1) 3 (fun i j k => -2 * okT i j k) okSpl = .ok R' ∧ R'.last.X = (-2 : ℝ) • R.last.X := by
  obtain ⟨svd, hs⟩ := exists_npSvd
  obtain ⟨R', h1, h2, -⟩ := C148_unit svd hs 1 1 (by norm_num) 3 okT okSpl (-2) (by norm_num) _ (recovery_run svd 1 1 okT okSpl (by decide) 2)
  exact ⟨svd, _, R', hs, recovery_run svd 1 1 okT okSpl (by decide) 2, h1, h2⟩

example : ∃ (svd : np.Svd) (R R' : np.Recovery ![2, 2, 2] 2), NpSvdOk svd ∧ np.exactRecovery svd 1 1 3 okT okSpl = .ok R ∧
    np.exactRecovery svd 1 1 3 okT (fun d k => okSpl d (Equiv.swap 0 1 k)) = .ok R' ∧ R'.last.X = R.last.X := by
  obtain ⟨svd, hs⟩ := exists_npSvd
  obtain ⟨R', h1, h2, -⟩ := C148_order svd 1 1 3 okT okSpl ok_distinct (Equiv.swap 0 1) _ (recovery_run svd 1 1 okT okSpl (by decide) 2)
  exact ⟨svd, _, R', hs, recovery_run svd 1 1 okT okSpl (by decide) 2, h1, h2⟩

end TD.Props
