import Verif.Props.PitfTrain

/-! # What the TensorFlow shrinkage keeps, and the truncated shrinkage of the numpy version -/
namespace TD.Props
open TD TD.pitf Matrix Spec

variable {n : Fin 3 → Nat} {m : Nat}

/-- Shrinking the singular values keeps the column sums zero whatever orthogonal matrix is used on the right. -/
theorem shrunk_cols {r c : Nat} {M : Mat r c} {u : Mat r r} {s : Fin (min r c) → ℝ} {v : Mat c c} (h : IsSVD M u s v)
    (w : Mat c c) (hz : ZeroColSums M) (tao : ℝ) (ht : 0 ≤ tao) :
    ZeroColSums (u * (diagRect fun i => max 0 (s i - tao)) * w) := by
  have hz1 : ones 1 r * (u * diagRect s) = 0 := by
    have h0 : ones 1 r * M = 0 := by
      ext i j
      simpa [Matrix.mul_apply, ones] using hz j
    rw [h.eq] at h0
    have := congrArg (fun X : Mat 1 c => X * v) h0
    simpa [Matrix.mul_assoc, h.orthV] using this
  have hz' : ones 1 r * (u * (diagRect fun i => max 0 (s i - tao))) = 0 := by
    ext i j
    have := congrFun (congrFun hz1 i) j
    rw [← Matrix.mul_assoc, mul_diagRect_apply] at this ⊢
    by_cases hj : j.val < r
    · rw [dif_pos hj] at this ⊢
      rcases mul_eq_zero.1 this with h1 | h1
      · rw [h1, zero_mul]; rfl
      · rw [h1, zero_sub, max_eq_left (neg_nonpos.2 ht), mul_zero]; rfl
    · rw [dif_neg hj]; rfl
  intro j
  have : (ones 1 r * (u * (diagRect fun i => max 0 (s i - tao)) * w)) 0 j = 0 := by
    rw [← Matrix.mul_assoc, hz', Matrix.zero_mul]; rfl
  simpa [Matrix.mul_apply, ones] using this

theorem frobSq_mul_orth' {a b : Nat} (A : Mat a b) {w : Mat b b} (hw : wᵀ * w = 1) : frobSq (A * w) = frobSq A := by
  have h : wᵀᵀ * wᵀ = 1 := by rw [transpose_transpose]; exact mul_eq_one_comm.1 hw
  have := frobSq_mul_orth (M := A) h
  rwa [transpose_transpose] at this

/-! ## C97 -/

/-- The TensorFlow shrinkage is not the singular value thresholding (C66), but it keeps the constraint set: zero
column sums, and exactly the thresholded singular values. -/
theorem C97_normal {r c : Nat} (hr : 0 < r) (svd : tfl.Svd) (hs : TfSvdOk svd) (M : Mat r c) (tao : ℝ) (ht : 0 ≤ tao) :
    ∃ S, tfl.shrink svd M tao "normal" = some S ∧ ZeroColSums S
      ∧ (∃ U V, IsSVD S U (fun i => max 0 ((svd (tfl.centralization M)).1 i - tao)) V)
      ∧ frobSq S = ∑ i, max 0 ((svd (tfl.centralization M)).1 i - tao) ^ 2
      ∧ frobSq S ≤ frobSq (tfl.centralization M) := by
  have h := hs (tfl.centralization M)
  refine ⟨(svd (tfl.centralization M)).2.1 * (diagRect fun i => max 0 ((svd (tfl.centralization M)).1 i - tao))
    * (svd (tfl.centralization M)).2.2, by simp [tfl.shrink, tfl.SVT], ?_, ?_, ?_⟩
  · exact shrunk_cols h _ (C61_zero_column_sums hr M).1 tao ht
  · refine ⟨_, (svd (tfl.centralization M)).2.2ᵀ, h.orthU, ?_, fun i => le_max_left _ _, fun i j hij => ?_, ?_⟩
    · rw [transpose_transpose]; exact mul_eq_one_comm.1 h.orthV
    · exact max_le_max le_rfl (sub_le_sub_right (h.anti i j hij) _)
    · rw [transpose_transpose]
  · have e : frobSq ((svd (tfl.centralization M)).2.1 * (diagRect fun i => max 0 ((svd (tfl.centralization M)).1 i - tao))
        * (svd (tfl.centralization M)).2.2) = ∑ i, max 0 ((svd (tfl.centralization M)).1 i - tao) ^ 2 := by
      rw [frobSq_mul_orth' _ h.orthV, frobSq_orth_mul h.orthU, frobSq_diagRect]
    refine ⟨e, ?_⟩
    rw [e]
    conv_rhs => rw [h.eq]
    rw [frobSq_mul_orth h.orthV, frobSq_orth_mul h.orthU, frobSq_diagRect]
    refine Finset.sum_le_sum fun i _ => ?_
    have h0 := h.nonneg i
    exact pow_le_pow_left₀ (le_max_left _ _) (max_le h0 (by linarith)) 2

theorem C97_complicated {r c : Nat} (hr : 0 < r) (hc : 0 < c) (svd : tfl.Svd) (hs : TfSvdOk svd) (M : Mat r c)
    (tao : ℝ) (ht : 0 ≤ tao) :
    ∃ S, tfl.shrink svd M tao "complicated" = some S ∧ EqualColSums S
      ∧ total S = √((r : ℝ) * c) * soft (total M / √((r : ℝ) * c)) tao := by
  obtain ⟨N, hN, hz, -⟩ := C97_normal hr svd hs M tao ht
  have e1 : ("complicated" : String) ≠ "normal" := by decide
  have hrc : (0 : ℝ) < (r : ℝ) * c := mul_pos (Nat.cast_pos.2 hr) (Nat.cast_pos.2 hc)
  have hq : √((r : ℝ) * c) ≠ 0 := (Real.sqrt_pos.2 hrc).ne'
  have hqq : √((r : ℝ) * c) * √((r : ℝ) * c) = (r : ℝ) * c := Real.mul_self_sqrt hrc.le
  refine ⟨N + (soft (total M / √((r : ℝ) * c)) tao / √((r : ℝ) * c)) • ones r c, ?_, ?_⟩
  · have hN' := hN
    simp only [tfl.shrink, if_true] at hN'
    simp only [tfl.shrink, if_neg e1, if_true, total_eq, max_min_soft ht]
    rw [Option.some.inj hN']
  · have hcol : ∀ j, ∑ i, (N + (soft (total M / √((r : ℝ) * c)) tao / √((r : ℝ) * c)) • ones r c) i j
        = r * (soft (total M / √((r : ℝ) * c)) tao / √((r : ℝ) * c)) := by
      intro j
      simp [Finset.sum_add_distrib, hz j, ones]
    refine ⟨fun j j' => (hcol j).trans (hcol j').symm, ?_⟩
    rw [total_comm, Finset.sum_congr rfl fun j _ => hcol j]
    simp only [Finset.sum_const, Finset.card_univ, Fintype.card_fin, nsmul_eq_mul]
    generalize soft _ _ = q
    generalize √((r : ℝ) * c) = s at hq hqq
    have : (c : ℝ) * (r * (q / s)) = (r * c) * q / s := by ring
    rw [this, ← hqq]
    field_simp

example : ∃ (svd : tfl.Svd) (S : Mat 3 3), tfl.shrink svd badMat 1 "normal" = some S ∧ ZeroColSums S := by
  obtain ⟨svd, hs⟩ := exists_tfSvd
  obtain ⟨S, h, h', -⟩ := C97_normal (by decide) svd hs badMat 1 zero_le_one
  exact ⟨svd, S, h, h'⟩

theorem tf_np_shrink (svd : np.Svd) {r c : Nat} (M : Mat r c) (tao : ℝ) (mode : String) :
    tfl.shrink (fun M => ((svd M).2.1, (svd M).1, (svd M).2.2)) M tao mode = np.shrink svd M tao mode := rfl

theorem tf_np_fetch (svd : np.Svd) (T : Tensor3 n) (delt tao : ℝ) (y : Fin m → ℝ) (spl : Samples n m) :
    (tfl.fetch (fun M => ((svd M).2.1, (svd M).1, (svd M).2.2)) T delt tao y spl).y
      = (np.recoveryStep svd spl T delt tao y).y
    ∧ (tfl.fetch (fun M => ((svd M).2.1, (svd M).1, (svd M).2.2)) T delt tao y spl).erate
      = (np.recoveryStep svd spl T delt tao y).erate
    ∧ (tfl.fetch (fun M => ((svd M).2.1, (svd M).1, (svd M).2.2)) T delt tao y spl).loss
      = (np.recoveryStep svd spl T delt tao y).loss := by
  have ha := fun dim => (C65_agree_partial spl).2.2.2.2 y dim
  have ht := (C65_agree_partial spl).2.2.1 T
  have h0 : tfl.adjointOperator spl y 0 = np.adjointOperator spl y 0 := ha 0
  have h1 : tfl.adjointOperator spl y 1 = np.adjointOperator spl y 1 := ha 1
  have h2 : tfl.adjointOperator spl y 2 = np.adjointOperator spl y 2 := ha 2
  simp only [tfl.fetch, np.recoveryStep, h0, h1, h2, ht, tf_np_shrink]
  exact ⟨rfl, rfl, rfl⟩

/-- Up to the transposed right factor and the redrawing, `PITF.train` is `exact_recovery`: with a solver that
returns the right factor transposed and the same positions in all steps, both end with the same sample vector and
report the same errors. -/
theorem C97_same_run_partial (svd : np.Svd) (argDelt argTao : ℝ) (vi : Int) (steps : Nat) (hvi : vi ≠ 0 ∨ steps ≤ 2)
    (T : Tensor3 n) (spl : Samples n m) (R : np.Recovery n m)
    (hR : np.exactRecovery svd argDelt argTao steps T spl = .ok R) :
    ∃ R', tfl.train (fun M => ((svd M).2.1, (svd M).1, (svd M).2.2)) argDelt argTao vi steps T (fun _ => spl) = .ok R'
      ∧ R'.y = R.last.y ∧ ∀ k f, (k, f) ∈ R'.log → R.Ef[k - 1]? = some f.erate ∧ R.Rf[k - 1]? = some f.loss := by
  have hsteps : 0 < steps := by
    rcases Nat.eq_zero_or_pos steps with rfl | h
    · rw [C69_zero_steps] at hR; cases hR
    · exact h
  have hm : 0 < m := by
    rcases Nat.eq_zero_or_pos m with h | h
    · rw [np.exactRecovery, if_pos ⟨h, hsteps.ne'⟩] at hR; cases hR
    · exact h
  let delt := argDelt * m / √((n 0 : ℝ) * n 1 * n 2)
  let tao := argTao * √((n 0 : ℝ) * n 1 * n 2)
  have hy : ∀ k, pitfY (fun M => ((svd M).2.1, (svd M).1, (svd M).2.2)) T delt tao (fun _ => spl) k
      = recoveryY svd spl T delt tao 0 k := by
    intro k
    induction k with
    | zero => rfl
    | succ k ih => rw [pitfY, recoveryY, ih]; exact (tf_np_fetch svd T delt tao _ spl).1
  refine ⟨_, pitf_train _ argDelt argTao vi steps hsteps hm hvi T _, ?_⟩
  rw [np.exactRecovery] at hR
  simp only [if_neg (fun h : m = 0 ∧ steps ≠ 0 => hm.ne' h.1)] at hR
  simp only [recoveryLoop_eq, if_neg hsteps.ne', List.nil_append] at hR
  have hR := Except.ok.inj hR
  subst hR
  refine ⟨?_, ?_⟩
  · refine (hy steps).trans ?_
    obtain ⟨k, rfl⟩ : ∃ k, steps = k + 1 := ⟨steps - 1, by omega⟩
    rfl
  · intro k f hf
    obtain ⟨k', hk', he⟩ := List.mem_map.1 hf
    obtain ⟨rfl, rfl⟩ := Prod.mk.inj he
    have hk1 := (List.mem_filter.1 hk').1
    rw [List.mem_range'_1] at hk1
    have hk2 : k' - 1 < steps := by omega
    have hf := tf_np_fetch svd T delt tao (recoveryY svd spl T delt tao 0 (k' - 1)) spl
    simp only [List.getElem?_map, List.getElem?_range hk2, Option.map_some]
    have hyk := hy (k' - 1)
    refine ⟨congrArg some ?_, congrArg some ?_⟩
    · refine hf.2.1.symm.trans ?_
      rw [← hyk]
    · refine hf.2.2.symm.trans ?_
      rw [← hyk]

example : ∃ (svd : np.Svd) (R : np.Recovery ![2, 1, 1] 1) (T : Tensor3 ![2, 1, 1]) (spl : Samples ![2, 1, 1] 1),
    np.exactRecovery svd 1 1 3 T spl = .ok R ∧ ∃ R' : tfl.Trained 1,
      tfl.train (fun M => ((svd M).2.1, (svd M).1, (svd M).2.2)) 1 1 (-1) 3 T (fun _ => spl) = .ok R'
      ∧ R'.y = R.last.y := by
  obtain ⟨svd, _⟩ := exists_npSvd
  obtain ⟨R, _, _, _, _, h, _⟩ := C69_records (n := ![2, 1, 1]) (m := 1) svd 1 1 3 (by decide) (by decide) (fun i _ _ => i.val)
    (fun d _ => match d with | 0 => (1 : Fin 2) | 1 => (0 : Fin 1) | 2 => (0 : Fin 1))
  obtain ⟨R', h1, h2, -⟩ := C97_same_run_partial svd 1 1 (-1) 3 (.inl (by decide)) _ _ R h
  exact ⟨svd, R, _, _, h, R', h1, h2⟩

end TD.Props
