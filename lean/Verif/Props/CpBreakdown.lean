import Verif.Props.Cp

/-!
# C73 : rank 1 is needed
-/
namespace TD.Props
open TD Spec Tensor tf ops fact

/-- A positive 2 × 2 matrix on which rank 2 breaks down. -/
noncomputable def turnX : Tensor ℝ := mat 2 2 fun i j => if i = 1 ∧ j = 0 then 3 else 2
/-- The draw for it. -/
noncomputable def turnA : Tensor ℝ := mat 2 2 fun i j => if i = 1 ∧ j = 1 then 2 else 1

theorem turn_step {pinv : Tensor ℝ → Res (Tensor ℝ)} (hp : PinvOk pinv) (A : Tensor ℝ) (hA : A.shape = [2, 2]) :
    cp.modeUpdate pinv turnX 2 [A, turnA] 0 = .error .nonFinite := by
  have hF : FactorsFor turnX.shape 2 [A, turnA] := by simp [FactorsFor, hA, turnX, turnA, mat, ofFn]
  obtain ⟨K, N, lam, P, hK, hKs, hNs, hls, hP, hN, hmax, he⟩ := cp.modeUpdate_eq (n := 0) hp hF (by decide) (by decide) (by decide) (by decide)
  obtain ⟨K', hK', -, hKe⟩ := khatri_skip_reverse (n := 0) hF.allMat hF.cols (by simp) (by simp) (by simp)
  obtain rfl : K = K' := Except.ok.inj (hK.symm.trans hK')
  have ho : otherSize turnX.shape 0 = 2 := by decide
  have hn : turnX.shape.getD 0 0 = 2 := rfl
  have hKv : ∀ j r, j < 2 → r < 2 → K.at_ [j, r] = if j = 1 ∧ r = 1 then 2 else 1 := by
    intro j r hj hr
    have := hKe [0, j] r (by rw [hF.rowDims]; simp [InB, turnX, mat, ofFn, hj]) hr
    have e : K.at_ [j, r] = turnA.at_ [j, r] := by simpa [ravel, hF.rowDims, turnX, mat, ofFn, khatriEntry] using this
    rw [e]; exact at_mat _ hj hr
  have hXv : ∀ i j, i < 2 → j < 2 → turnX.at_ (unkolda turnX.shape 0 i j) = if i = 1 ∧ j = 0 then 3 else 2 := by
    intro i j hi hj
    have : unkolda turnX.shape 0 i j = [i, j] := by
      interval_cases i <;> interval_cases j <;> decide
    rw [this]; exact at_mat _ hi hj
  revert hP hN
  generalize hJ : otherSize turnX.shape 0 = J at *
  subst ho
  rw [hn]
  intro hP hN
  have hG : (toMat K 2 2).transpose * toMat K 2 2 = !![2, 3; 3, 5] := by
    ext i j
    fin_cases i <;> fin_cases j <;> simp [Matrix.mul_apply, Fin.sum_univ_two, toMat, hKv] <;> norm_num
  rw [hG] at hP
  have hinv : (!![5, -3; -3, 2] : Matrix (Fin 2) (Fin 2) ℝ) * !![2, 3; 3, 5] = 1 := by
    ext i j; fin_cases i <;> fin_cases j <;> simp [Matrix.mul_apply, Fin.sum_univ_two] <;> norm_num
  have hinv' : (!![2, 3; 3, 5] : Matrix (Fin 2) (Fin 2) ℝ) * !![5, -3; -3, 2] = 1 := by
    ext i j; fin_cases i <;> fin_cases j <;> simp [Matrix.mul_apply, Fin.sum_univ_two] <;> norm_num
  have hPe : P = !![5, -3; -3, 2] := by
    have := congrArg (fun M => !![5, -3; -3, 2] * M * !![5, -3; -3, 2]) hP
    simp only [Matrix.mul_assoc, hinv', Matrix.mul_one] at this
    rwa [← Matrix.mul_assoc, hinv, Matrix.one_mul] at this
  have hNv : ∀ i < 2, N.at_ [i, 1] = if i = 0 then 0 else -1 := by
    intro i hi
    have e := congrFun (congrFun hN ⟨i, hi⟩) (1 : Fin 2)
    rw [hPe] at e
    have e' : N.at_ [i, 1] = _ := e
    rw [e']
    interval_cases i <;> simp [Matrix.mul_apply, Fin.sum_univ_two, toMat, hKv, hXv] <;> norm_num
  have hl : lam.at_ [1] = 0 := by
    obtain ⟨h1, i, hi, h2⟩ := hmax 1 (by omega)
    have a := h1 0 (by decide)
    rw [hNv 0 (by decide)] at a
    rw [hNv i hi] at h2
    split_ifs at h2 <;> simp at a <;> linarith
  rw [he, if_pos]
  by_contra h0
  exact cp.at_ne_zero h0 (by rw [hls]; simp) hl

/-- **C73 is sharp in the rank**: with rank 2 the same positive data and draws may break down in the first step, whatever the tolerance,
the number of steps and the pseudo-inverse: a column of the new factor has the maximum 0, and the code divides by it. -/
theorem C73_rank_one_needed {pinv : Tensor ℝ → Res (Tensor ℝ)} (hp : PinvOk pinv) (Ar : Arith ℝ) (args : Args ℝ) (steps : Int) (h1 : 1 ≤ steps)
    (self : Self (List (Tensor ℝ)) (Tensor ℝ) (Tensor ℝ)) :
    ∃ (X : Tensor ℝ) (A0 : List (Tensor ℝ)), X.order = 2 ∧ (∀ d ∈ X.shape, 0 < d) ∧ (∀ i, InB X.shape i → 0 < X.at_ i) ∧
      FactorsFor X.shape 2 A0 ∧ (∀ M ∈ A0, ∀ i < M.shape.getD 0 0, ∀ r < 2, 0 < M.at_ [i, r]) ∧
      (train Ar (CP_ALS.cls (cp.main pinv X 2)) args steps (.ok A0) self).2.2 = .error .nonFinite := by
  refine ⟨turnX, [turnA, turnA], rfl, by decide, ?_, rfl, ?_, ?_⟩
  · intro i hi
    obtain ⟨a, b, rfl, ha, hb⟩ := InB_pair.1 hi
    rw [turnX, at_mat _ ha hb]
    split_ifs <;> norm_num
  · intro M hM i hi r hr
    simp only [List.mem_cons, List.not_mem_nil, or_false, or_self] at hM
    subst hM
    have hi : i < 2 := hi
    rw [turnA, at_mat _ hi hr]
    split_ifs <;> norm_num
  · obtain ⟨n, hn⟩ : ∃ n, steps.toNat = n + 1 := ⟨steps.toNat - 1, by omega⟩
    have hm : cp.main pinv turnX 2 [turnA, turnA] = .error .nonFinite := by
      have hs : cp.sweep pinv turnX 2 [turnA, turnA] = .error .nonFinite := by
        unfold cp.sweep
        have : List.range turnX.order = [0, 1] := rfl
        rw [this, List.foldlM_cons, turn_step hp turnA rfl]
        rfl
      unfold cp.main
      rw [hs]; rfl
    unfold train
    rw [hn]
    have hr : ∃ b, reported args steps 1 = .ok b := by
      unfold reported; split_ifs <;> simp_all
    obtain ⟨b, hr⟩ := hr
    simp only [loop, body, coreRun, mainRun, hr, CP_ALS.cls, hm]
end TD.Props
