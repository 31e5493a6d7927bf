import Verif.Lemmas.Recovery
import Verif.Spec.Recovery

/-!
# C86, C87: `exact_recovery` is dual ascent
-/
namespace TD.Props
open TD TD.pitf Matrix Spec Filter Topology

variable {n : Fin 3 → Nat} {m : Nat}

theorem distinct_position {spl : Samples n m} (h : DistinctPairs (spl 0) (spl 1) (spl 2)) (d : Fin 3) :
    Function.Injective (position spl d) := by
  intro i j hij
  by_contra hne
  obtain ⟨h0, h1, h2⟩ := h i j hne
  match d with
  | 0 => exact h0 hij
  | 1 => exact h1 hij
  | 2 => exact h2 hij

/-- Step size and threshold used by `exact_recovery`. -/
noncomputable def stepOf (n : Fin 3 → Nat) (m : Nat) (argDelt : ℝ) : ℝ := argDelt * m / √((n 0 : ℝ) * n 1 * n 2)
noncomputable def taoOf (n : Fin 3 → Nat) (argTao : ℝ) : ℝ := argTao * √((n 0 : ℝ) * n 1 * n 2)

/-- Iteration `k`. -/
noncomputable def recIt (svd : np.Svd) (argDelt argTao : ℝ) (T : Tensor3 n) (spl : Samples n m) (k : Nat) : np.Iter n m :=
  np.recoveryStep svd spl T (stepOf n m argDelt) (taoOf n argTao)
    (recoveryY svd spl T (stepOf n m argDelt) (taoOf n argTao) 0 k)

theorem recovery_run (svd : np.Svd) (argDelt argTao : ℝ) (T : Tensor3 n) (spl : Samples n m) (hm : 0 < m) (s : Nat) :
    np.exactRecovery svd argDelt argTao (s + 1) T spl = .ok ⟨recIt svd argDelt argTao T spl s, List.range (s + 1),
      (List.range (s + 1)).map fun k => (recIt svd argDelt argTao T spl k).erate,
      (List.range (s + 1)).map fun k => (recIt svd argDelt argTao T spl k).loss⟩ := by
  rw [np.exactRecovery]
  simp only [if_neg (fun h : m = 0 ∧ s + 1 ≠ 0 => hm.ne' h.1)]
  simp only [recoveryLoop_eq, if_neg (Nat.succ_ne_zero s), List.nil_append, Nat.add_sub_cancel]
  rw [List.range_eq_range']
  rfl

/-- Sample errors of iteration `k`. -/
noncomputable def recErr (svd : np.Svd) (argDelt argTao : ℝ) (T : Tensor3 n) (spl : Samples n m) (k : Nat) : Fin m → ℝ :=
  np.PomegaTensor spl T - np.PomegaPair spl (recIt svd argDelt argTao T spl k).X (recIt svd argDelt argTao T spl k).Y
    (recIt svd argDelt argTao T spl k).Z

theorem recIt_loss (svd : np.Svd) (argDelt argTao : ℝ) (T : Tensor3 n) (spl : Samples n m) (k : Nat) (hm : 0 < m) :
    (recIt svd argDelt argTao T spl k).loss = some (√((∑ i, recErr svd argDelt argTao T spl k i ^ 2) / m)) := by
  have : (recIt svd argDelt argTao T spl k).loss = loss.fsqrt (loss.fdiv
      (∑ i, recErr svd argDelt argTao T spl k i ^ 2) m) := rfl
  rw [this, loss.fdiv, if_neg (Nat.cast_ne_zero.2 hm.ne')]
  rfl

theorem recIt_erate (svd : np.Svd) (argDelt argTao : ℝ) (T : Tensor3 n) (spl : Samples n m) (k : Nat)
    (h : ∃ i, T (spl 0 i) (spl 1 i) (spl 2 i) ≠ 0) :
    (recIt svd argDelt argTao T spl k).erate = some (√(∑ i, recErr svd argDelt argTao T spl k i ^ 2)
      / √(∑ i, T (spl 0 i) (spl 1 i) (spl 2 i) ^ 2)) := by
  obtain ⟨i0, hi0⟩ := h
  have : (recIt svd argDelt argTao T spl k).erate = loss.fdiv
      (√(∑ i, recErr svd argDelt argTao T spl k i ^ 2))
      (√(∑ i, T (spl 0 i) (spl 1 i) (spl 2 i) ^ 2)) := rfl
  rw [this, loss.fdiv, if_neg]
  have hpos : 0 < ∑ i, T (spl 0 i) (spl 1 i) (spl 2 i) ^ 2 :=
    Finset.sum_pos' (fun _ _ => sq_nonneg _) ⟨i0, Finset.mem_univ _, by positivity⟩
  exact (Real.sqrt_pos.2 hpos).ne'

theorem recErr_dual {svd : np.Svd} (hs : NpSvdOk svd) (hn : ∀ d, 0 < n d) {argDelt argTao : ℝ}
    (ht : 0 ≤ taoOf n argTao) (T : Tensor3 n) (spl : Samples n m) (hd : ∀ d, Function.Injective (position spl d)) (k : Nat) :
    recErr svd argDelt argTao T spl k = np.PomegaTensor spl T - (recProblem svd (taoOf n argTao) hn hs ht spl hd).x
      ((recProblem svd (taoOf n argTao) hn hs ht spl hd).iter (np.PomegaTensor spl T) (stepOf n m argDelt) 0 k) ᵥ*
        (recProblem svd (taoOf n argTao) hn hs ht spl hd).A := by
  rw [recProblem_iter]
  exact congrArg (np.PomegaTensor spl T - ·) (recProblem_vec hn hs ht spl hd T (stepOf n m argDelt) _).symm

/-- **C86**: when no two samples share a position and the step size is small enough for the sizes, the errors that
`exact_recovery` records never increase from one step to the next.  Missing for the full property: draws that repeat a
pair, for which it fails (`C86_repeated_false`). -/
theorem C86_error_decreases_partial (hn : ∀ d, 0 < n d) (svd : np.Svd) (hs : NpSvdOk svd) (argDelt argTao : ℝ)
    (hdelt : 0 ≤ argDelt) (htao : 0 ≤ argTao) (T : Tensor3 n) (spl : Samples n m)
    (hd : DistinctPairs (spl 0) (spl 1) (spl 2))
    (hstep : argDelt * m / √((n 0 : ℝ) * n 1 * n 2) * (1 / (n 0 : ℝ) + 1 / n 1 + 1 / n 2) ≤ 2) (steps : Nat)
    (hsteps : 0 < steps) (hm : 0 < m) :
    ∃ R, np.exactRecovery svd argDelt argTao steps T spl = .ok R ∧ ∀ k, k + 1 < steps →
      (∃ u v, R.Rf[k]? = some (some u) ∧ R.Rf[k + 1]? = some (some v) ∧ 0 ≤ v ∧ v ≤ u) ∧
      ((∃ i, T (spl 0 i) (spl 1 i) (spl 2 i) ≠ 0) →
        ∃ u v, R.Ef[k]? = some (some u) ∧ R.Ef[k + 1]? = some (some v) ∧ 0 ≤ v ∧ v ≤ u) := by
  obtain ⟨s, rfl⟩ : ∃ s, steps = s + 1 := ⟨steps - 1, by omega⟩
  refine ⟨_, recovery_run svd argDelt argTao T spl hm s, fun k hk => ?_⟩
  have ht : 0 ≤ taoOf n argTao := mul_nonneg htao (Real.sqrt_nonneg _)
  have hdl : 0 ≤ stepOf n m argDelt := div_nonneg (mul_nonneg hdelt (Nat.cast_nonneg _)) (Real.sqrt_nonneg _)
  have hp := distinct_position hd
  have key : ∑ i, recErr svd argDelt argTao T spl (k + 1) i ^ 2 ≤ ∑ i, recErr svd argDelt argTao T spl k i ^ 2 := by
    have h := (recProblem svd (taoOf n argTao) hn hs ht spl hp).error_decreases (np.PomegaTensor spl T) hdl hstep
      ((recProblem svd (taoOf n argTao) hn hs ht spl hp).iter (np.PomegaTensor spl T) (stepOf n m argDelt) 0 k)
    have e := recErr_dual hs hn (argDelt := argDelt) ht T spl hp
    have e1 := e k
    have e2 := e (k + 1)
    rw [← e1] at h
    have h' : recErr svd argDelt argTao T spl (k + 1) ⬝ᵥ recErr svd argDelt argTao T spl (k + 1) ≤
        recErr svd argDelt argTao T spl k ⬝ᵥ recErr svd argDelt argTao T spl k := by rw [e2]; exact h
    simpa only [dotProduct, sq] using h'
  have hk' : k < s + 1 := by omega
  refine ⟨⟨√((∑ i, recErr svd argDelt argTao T spl k i ^ 2) / m),
    √((∑ i, recErr svd argDelt argTao T spl (k + 1) i ^ 2) / m), ?_, ?_, Real.sqrt_nonneg _, ?_⟩,
    fun h0 => ⟨√(∑ i, recErr svd argDelt argTao T spl k i ^ 2) / √(∑ i, T (spl 0 i) (spl 1 i) (spl 2 i) ^ 2),
      √(∑ i, recErr svd argDelt argTao T spl (k + 1) i ^ 2) / √(∑ i, T (spl 0 i) (spl 1 i) (spl 2 i) ^ 2), ?_, ?_, ?_, ?_⟩⟩
  · simp only [List.getElem?_map, List.getElem?_range hk', Option.map_some, recIt_loss svd argDelt argTao T spl _ hm]
  · simp only [List.getElem?_map, List.getElem?_range hk, Option.map_some, recIt_loss svd argDelt argTao T spl _ hm]
  · exact Real.sqrt_le_sqrt (div_le_div_of_nonneg_right key (Nat.cast_nonneg _))
  · simp only [List.getElem?_map, List.getElem?_range hk', Option.map_some, recIt_erate svd argDelt argTao T spl _ h0]
  · simp only [List.getElem?_map, List.getElem?_range hk, Option.map_some, recIt_erate svd argDelt argTao T spl _ h0]
  · positivity
  · exact div_le_div_of_nonneg_right (Real.sqrt_le_sqrt key) (Real.sqrt_nonneg _)

theorem objective_pack (tao : ℝ) (X : Mat (n 0) (n 1)) (Y : Mat (n 1) (n 2)) (Z : Mat (n 2) (n 0)) :
    (∑ d, wt n d * (tao * gauge d (comp (pack (pack3 X Y Z)) d))) +
      (pack (pack3 X Y Z) ⬝ᵥ pack (pack3 X Y Z)) / 2 = recoveryObjective n tao X Y Z := by
  rw [dot_self_comp, Fin.sum_univ_three, Fin.sum_univ_three]
  have h0 : gauge 0 (comp (pack (pack3 X Y Z)) 0) = splitNorm X := by unfold gauge; rw [if_pos rfl]; rfl
  have h1 : gauge 1 (comp (pack (pack3 X Y Z)) 1) = nuclear Y := by unfold gauge; rw [if_neg (by decide)]; rfl
  have h2 : gauge 2 (comp (pack (pack3 X Y Z)) 2) = nuclear Z := by unfold gauge; rw [if_neg (by decide)]; rfl
  rw [h0, h1, h2]
  change _ + (frobSq X + frobSq Y + frobSq Z) / 2 = _
  rw [recoveryObjective]
  simp only [wt, thirdSize]
  ring

theorem dist_pack (X X' : Mat (n 0) (n 1)) (Y Y' : Mat (n 1) (n 2)) (Z Z' : Mat (n 2) (n 0)) :
    (pack (pack3 X Y Z) - pack (pack3 X' Y' Z')) ⬝ᵥ (pack (pack3 X Y Z) - pack (pack3 X' Y' Z')) =
      frobSq (X - X') + frobSq (Y - Y') + frobSq (Z - Z') := by
  rw [dot_self_comp, Fin.sum_univ_three]
  rfl

theorem fits_vec (hn : ∀ d, 0 < n d) (spl : Samples n m) (T : Tensor3 n) {X : Mat (n 0) (n 1)} {Y : Mat (n 1) (n 2)}
    {Z : Mat (n 2) (n 0)} (h : Fits T (spl 0) (spl 1) (spl 2) X Y Z) :
    pack (pack3 X Y Z) ᵥ* opA spl = np.PomegaTensor spl T := by
  rw [vecMul_pack3 hn spl h.equal h.zero1 h.zero2]
  funext i
  exact (sub_eq_zero.1 (h.agree i)).symm

/-- **C87**: suppose no two samples share a position, the step size is positive and small enough, and some matrices with
the column constraints reproduce the tensor at the samples.  Then there is exactly one triple minimising the objective
among these, the matrices returned by `exact_recovery` converge to it as the number of steps grows, and the last
recorded loss tends to zero. -/
theorem C87_converges (hn : ∀ d, 0 < n d) (svd : np.Svd) (hs : NpSvdOk svd) (argDelt argTao : ℝ)
    (hdelt : 0 < argDelt) (htao : 0 ≤ argTao) (T : Tensor3 n) (spl : Samples n m) (hm : 0 < m)
    (hd : DistinctPairs (spl 0) (spl 1) (spl 2))
    (hstep : argDelt * m / √((n 0 : ℝ) * n 1 * n 2) * (1 / (n 0 : ℝ) + 1 / n 1 + 1 / n 2) < 2)
    (hfit : ∃ A B C, Fits T (spl 0) (spl 1) (spl 2) A B C) :
    ∃ X Y Z, Fits T (spl 0) (spl 1) (spl 2) X Y Z ∧
      (∀ A B C, Fits T (spl 0) (spl 1) (spl 2) A B C → (A, B, C) ≠ (X, Y, Z) →
        recoveryObjective n (argTao * √((n 0 : ℝ) * n 1 * n 2)) X Y Z <
          recoveryObjective n (argTao * √((n 0 : ℝ) * n 1 * n 2)) A B C) ∧
      ∃ R : Nat → np.Recovery n m, (∀ s, np.exactRecovery svd argDelt argTao (s + 1) T spl = .ok (R s)) ∧
        (∀ i j, Tendsto (fun s => (R s).last.X i j) atTop (𝓝 (X i j))) ∧
        (∀ i j, Tendsto (fun s => (R s).last.Y i j) atTop (𝓝 (Y i j))) ∧
        (∀ i j, Tendsto (fun s => (R s).last.Z i j) atTop (𝓝 (Z i j))) ∧
        (∃ l : Nat → ℝ, (∀ s, (R s).Rf[s]? = some (some (l s))) ∧ Tendsto l atTop (𝓝 0)) := by
  have ht : 0 ≤ taoOf n argTao := mul_nonneg htao (Real.sqrt_nonneg _)
  have hnn : (0 : ℝ) < (n 0 : ℝ) * n 1 * n 2 :=
    mul_pos (mul_pos (Nat.cast_pos.2 (hn 0)) (Nat.cast_pos.2 (hn 1))) (Nat.cast_pos.2 (hn 2))
  have hdl : 0 < stepOf n m argDelt := div_pos (mul_pos hdelt (Nat.cast_pos.2 hm)) (Real.sqrt_pos.2 hnn)
  have hp := distinct_position hd
  set P := recProblem svd (taoOf n argTao) hn hs ht spl hp with hP
  have hL : 0 ≤ P.L := by
    have : P.L = recipSum n := rfl
    rw [this, recipSum]; positivity
  obtain ⟨A0, B0, C0, h0⟩ := hfit
  obtain ⟨y, hy⟩ := P.exists_multiplier hL (fits_vec hn spl T h0) (opPr_continuous hn hs ht)
  -- the limit
  set it := np.recoveryStep svd spl T (stepOf n m argDelt) (taoOf n argTao) y with hit
  have hx : P.x y = pack (pack3 it.X it.Y it.Z) := recProblem_x hn hs ht spl hp T (stepOf n m argDelt) y
  obtain ⟨c1, c2, c3⟩ := step_constr hn hs ht spl T (stepOf n m argDelt) y
  have hv : P.x y ᵥ* opA spl = np.PomegaPair spl it.X it.Y it.Z := recProblem_vec hn hs ht spl hp T (stepOf n m argDelt) y
  have hfitX : Fits T (spl 0) (spl 1) (spl 2) it.X it.Y it.Z := by
    refine ⟨c1, c2, c3, fun i => ?_⟩
    have := congrFun (hv.symm.trans hy) i
    exact sub_eq_zero.2 this.symm
  refine ⟨it.X, it.Y, it.Z, hfitX, fun A B C hF hne => ?_,
    fun s => ⟨recIt svd argDelt argTao T spl s, List.range (s + 1),
      (List.range (s + 1)).map fun k => (recIt svd argDelt argTao T spl k).erate,
      (List.range (s + 1)).map fun k => (recIt svd argDelt argTao T spl k).loss⟩,
    recovery_run svd argDelt argTao T spl hm, ?_, ?_, ?_, ?_⟩
  · have h := P.optimal hy (fits_vec hn spl T hF)
    rw [hx, dist_pack] at h
    have e1 := objective_pack (taoOf n argTao) it.X it.Y it.Z
    have e2 := objective_pack (taoOf n argTao) A B C
    have hpos : 0 < frobSq (A - it.X) + frobSq (B - it.Y) + frobSq (C - it.Z) := by
      have a := frobSq_nonneg' (A - it.X)
      have b := frobSq_nonneg' (B - it.Y)
      have c := frobSq_nonneg' (C - it.Z)
      by_contra hc
      refine hne ?_
      have a0 : A = it.X := by
        by_contra hq
        have := frobSq_pos (sub_ne_zero.2 hq)
        linarith
      have b0 : B = it.Y := by
        by_contra hq
        have := frobSq_pos (sub_ne_zero.2 hq)
        linarith
      have c0 : C = it.Z := by
        by_contra hq
        have := frobSq_pos (sub_ne_zero.2 hq)
        linarith
      rw [a0, b0, c0]
    change recoveryObjective n (taoOf n argTao) it.X it.Y it.Z < recoveryObjective n (taoOf n argTao) A B C
    rw [← e1, ← e2]
    have h' : (∑ d, wt n d * (taoOf n argTao * gauge d (comp (pack (pack3 it.X it.Y it.Z)) d))) +
      (pack (pack3 it.X it.Y it.Z) ⬝ᵥ pack (pack3 it.X it.Y it.Z)) / 2 +
        (frobSq (A - it.X) + frobSq (B - it.Y) + frobSq (C - it.Z)) / 2 ≤
      (∑ d, wt n d * (taoOf n argTao * gauge d (comp (pack (pack3 A B C)) d))) +
        (pack (pack3 A B C) ⬝ᵥ pack (pack3 A B C)) / 2 := h
    linarith
  all_goals
    have hstep' : ∀ k, P.x (P.iter (np.PomegaTensor spl T) (stepOf n m argDelt) 0 k) =
        pack (pack3 (recIt svd argDelt argTao T spl k).X (recIt svd argDelt argTao T spl k).Y
          (recIt svd argDelt argTao T spl k).Z) := by
      intro k
      rw [hP, recProblem_iter]
      exact recProblem_x hn hs ht spl hp T (stepOf n m argDelt) _
    have hlim := P.primal_tendsto hy hdl hstep 0
    simp only [hstep', hx] at hlim
  · exact fun i j => hlim ⟨0, i, j⟩
  · exact fun i j => hlim ⟨1, i, j⟩
  · exact fun i j => hlim ⟨2, i, j⟩
  · refine ⟨fun s => √((∑ i, recErr svd argDelt argTao T spl s i ^ 2) / m), fun s => ?_, ?_⟩
    · simp only [List.getElem?_map, List.getElem?_range (Nat.lt_succ_self s), Option.map_some,
        recIt_loss svd argDelt argTao T spl s hm]
    · have he := P.error_tendsto hL (fits_vec hn spl T h0) hdl hstep 0
      have h1 : Tendsto (fun s => ∑ i, recErr svd argDelt argTao T spl s i ^ 2) atTop (𝓝 0) := by
        refine he.congr fun s => ?_
        rw [hP, ← recErr_dual hs hn (argDelt := argDelt) ht T spl hp s]
        simp only [dotProduct, sq]
      have h2 := (Real.continuous_sqrt.tendsto _).comp (h1.div_const (m : ℝ))
      rwa [zero_div, Real.sqrt_zero] at h2

/-! ### Repeated pairs -/

theorem sh_zero {r c : Nat} (hr : 0 < r) (hc : 0 < c) {svd : np.Svd} (hs : NpSvdOk svd) (d : Fin 3) (M : Mat r c) :
    sh svd 0 d M = projOf d M := by
  have h := (sh_spec hr hc hs le_rfl d M).2.le (projOf d M - sh svd 0 d M)
  rw [zero_mul, frobInner_self] at h
  by_contra hne
  have := frobSq_pos (sub_ne_zero.2 (Ne.symm hne))
  linarith

/-- Sizes 20, 20, 2. -/
def repN : Fin 3 → Nat := ![20, 20, 2]

/-- Two samples at `(0, 0, 0)` and `(0, 0, 1)`. -/
def repSpl : Samples repN 2
  | 0 => fun _ => (0 : Fin 20)
  | 1 => fun _ => (0 : Fin 20)
  | 2 => fun k => (k : Fin 2)

/-- The tensor is -3 where the last index is 0 and 1 where it is 1. -/
def repT : Tensor3 repN := fun _ _ k => if k.val = 0 then -3 else 1

theorem repN_pos : ∀ d, 0 < repN d := by intro d; fin_cases d <;> decide

theorem rep_adj0 (y : Fin 2 → ℝ) : np.adjointOperator repSpl y 0 = y 1 • spot repSpl 0 0 := by
  funext i j
  rw [adjoint_apply]
  change _ = y 1 * (if position repSpl 0 0 = (i, j) then 1 else 0)
  have e : ∀ k, position repSpl 0 k = position repSpl 0 0 := fun k => rfl
  simp only [e]
  by_cases h : position repSpl 0 0 = (i, j)
  · simp [h, List.finRange]
  · simp [h]

theorem rep_inj1 : Function.Injective (position repSpl 1) := by
  intro i j h
  exact (Prod.ext_iff.1 h).2

theorem rep_inj2 : Function.Injective (position repSpl 2) := by
  intro i j h
  exact (Prod.ext_iff.1 h).1

theorem spot_col {n : Fin 3 → Nat} {m : Nat} (spl : Samples n m) (d : Fin 3) (k : Fin m) (j : Fin (colDim n d)) :
    ∑ i, spot spl d k i j = if (position spl d k).2 = j then 1 else 0 := by
  unfold spot
  by_cases h : (position spl d k).2 = j
  · rw [if_pos h, Finset.sum_eq_single (position spl d k).1]
    · rw [if_pos]
      exact Prod.ext_iff.2 ⟨rfl, h⟩
    · intro i _ hi
      rw [if_neg]
      intro e
      exact hi (Prod.ext_iff.1 e).1.symm
    · simp
  · rw [if_neg h]
    refine Finset.sum_eq_zero fun i _ => if_neg ?_
    intro e
    exact h (Prod.ext_iff.1 e).2

theorem spot_total {n : Fin 3 → Nat} {m : Nat} (spl : Samples n m) (d : Fin 3) (k : Fin m) : total (spot spl d k) = 1 := by
  rw [total_comm]
  simp only [spot_col]
  rw [Finset.sum_ite_eq, if_pos (Finset.mem_univ _)]

theorem proj_spot {n : Fin 3 → Nat} {m : Nat} (spl : Samples n m) (d : Fin 3) (k l : Fin m) :
    projOf d (spot spl d k) (position spl d l).1 (position spl d l).2 =
      (if position spl d k = position spl d l then 1 else 0)
        - (if (position spl d k).2 = (position spl d l).2 then 1 else 0) / (rowDim n d : ℝ)
        + if d = 0 then 1 / ((rowDim n d : ℝ) * colDim n d) else 0 := by
  unfold projOf
  split
  · rw [equalPart, Matrix.add_apply, Matrix.smul_apply, colCentered, spot_col, spot_total]
    simp [spot, ones]
  · rw [colCentered, spot_col]
    simp [spot]

theorem err_tao_zero (hn : ∀ d, 0 < n d) {svd : np.Svd} (hs : NpSvdOk svd) (T : Tensor3 n) (spl : Samples n m) (delt : ℝ)
    (y : Fin m → ℝ) (k : Fin m) :
    np.PomegaPair spl (np.recoveryStep svd spl T delt 0 y).X (np.recoveryStep svd spl T delt 0 y).Y
      (np.recoveryStep svd spl T delt 0 y).Z k =
    ∑ d, wt n d ^ 2 * projOf d (np.adjointOperator spl y d) (position spl d k).1 (position spl d k).2 := by
  have h : ∀ d, sh svd 0 d (np.adjointOperator spl y d) = projOf d (np.adjointOperator spl y d) := fun d =>
    sh_zero (rowDim_pos hn d) (colDim_pos hn d) hs d _
  rw [Fin.sum_univ_three, ← h 0, ← h 1, ← h 2]
  have e : np.PomegaPair spl (np.recoveryStep svd spl T delt 0 y).X (np.recoveryStep svd spl T delt 0 y).Y
      (np.recoveryStep svd spl T delt 0 y).Z k =
    wt n 0 * sh svd 0 0 (np.adjointOperator spl y 0) (position spl 0 k).1 (position spl 0 k).2 / √(n 2) +
    wt n 1 * sh svd 0 1 (np.adjointOperator spl y 1) (position spl 1 k).1 (position spl 1 k).2 / √(n 0) +
    wt n 2 * sh svd 0 2 (np.adjointOperator spl y 2) (position spl 2 k).1 (position spl 2 k).2 / √(n 1) := rfl
  rw [e]
  have e0 : wt n 0 = 1 / √(n 2) := rfl
  have e1 : wt n 1 = 1 / √(n 0) := rfl
  have e2 : wt n 2 = 1 / √(n 1) := rfl
  rw [e0, e1, e2]
  ring

/-- **C86** fails for repeated pairs: for every solver, on this draw two samples share the pair of the first two
indices, the step size satisfies the bound, and the second recorded loss is larger than the first. -/
theorem C86_repeated_false (svd : np.Svd) (hs : NpSvdOk svd) :
    ∃ argDelt, 0 < argDelt ∧
      argDelt * (2 : ℕ) / √((repN 0 : ℝ) * repN 1 * repN 2) * (1 / (repN 0 : ℝ) + 1 / repN 1 + 1 / repN 2) ≤ 2 ∧
      ∃ R u v, np.exactRecovery svd argDelt 0 2 repT repSpl = .ok R ∧ R.Rf = [some u, some v] ∧ u < v := by
  have hN : √((repN 0 : ℝ) * repN 1 * repN 2) = √800 := by
    congr 1
    simp [repN]; norm_num
  have h800 : 0 < √(800 : ℝ) := Real.sqrt_pos.2 (by norm_num)
  have hone : stepOf repN 2 (√800 / 2) = 1 := by
    rw [stepOf, hN]; push_cast; field_simp
  have htao : taoOf repN 0 = 0 := zero_mul _
  have hb : np.PomegaTensor repSpl repT = ![-3, 1] := by
    funext k
    fin_cases k <;> rfl
  have hw0 : wt repN 0 ^ 2 = 1 / 2 := by
    rw [wt, div_pow, Real.sq_sqrt (Nat.cast_nonneg _)]; simp [thirdSize, repN]
  have hw1 : wt repN 1 ^ 2 = 1 / 20 := by
    rw [wt, div_pow, Real.sq_sqrt (Nat.cast_nonneg _)]; simp [thirdSize, repN]
  have hw2 : wt repN 2 ^ 2 = 1 / 20 := by
    rw [wt, div_pow, Real.sq_sqrt (Nat.cast_nonneg _)]; simp [thirdSize, repN]
  -- the prediction for a sample vector
  have hpred : ∀ (y : Fin 2 → ℝ) (k : Fin 2),
      np.PomegaPair repSpl (np.recoveryStep svd repSpl repT 1 0 y).X (np.recoveryStep svd repSpl repT 1 0 y).Y
        (np.recoveryStep svd repSpl repT 1 0 y).Z k =
      1 / 2 * (y 1 * (1 - 1 / 20 + 1 / 400)) + 1 / 20 * (y k * (1 - 1 / 20)) + 1 / 20 * (y k - (y 0 + y 1) / 2) := by
    intro y k
    rw [err_tao_zero repN_pos hs, Fin.sum_univ_three, hw0, hw1, hw2]
    have lin : ∀ d : Fin 3, projOf d (∑ k, y k • spot repSpl d k) = ∑ k, y k • projOf d (spot repSpl d k) := by
      intro d
      have := map_sum (projL (rowDim repN d) (colDim repN d) d) (fun k => y k • spot repSpl d k) Finset.univ
      refine this.trans (Finset.sum_congr rfl fun k _ => ?_)
      exact (projL _ _ d).map_smul (y k) (spot repSpl d k)
    have h0 : projOf 0 (np.adjointOperator repSpl y 0) (position repSpl 0 k).1 (position repSpl 0 k).2 =
        y 1 * (1 - 1 / 20 + 1 / 400) := by
      rw [rep_adj0]
      have : projOf 0 (y 1 • spot repSpl 0 0) = y 1 • projOf 0 (spot repSpl 0 0) :=
        (projL (rowDim repN 0) (colDim repN 0) 0).map_smul (y 1) (spot repSpl 0 0)
      rw [this, Matrix.smul_apply, smul_eq_mul, proj_spot]
      have e : position repSpl 0 0 = position repSpl 0 k := rfl
      rw [if_pos e, if_pos (by rw [e]), if_pos rfl]
      have er : (rowDim repN 0 : ℝ) = 20 := by simp [rowDim, repN]
      have ec : (colDim repN 0 : ℝ) = 20 := by simp [colDim, repN]
      rw [er, ec]; norm_num
    have h1 : projOf 1 (np.adjointOperator repSpl y 1) (position repSpl 1 k).1 (position repSpl 1 k).2 =
        y k * (1 - 1 / 20) := by
      rw [adjoint_spots repSpl 1 rep_inj1, lin, Matrix.sum_apply]
      simp only [Matrix.smul_apply, smul_eq_mul, proj_spot]
      have er : (rowDim repN 1 : ℝ) = 20 := by simp [rowDim, repN]
      rw [er]
      rw [Finset.sum_eq_single k]
      · simp
      · intro l _ hl
        rw [if_neg (fun e => hl (rep_inj1 e)), if_neg (show ¬ (position repSpl 1 l).2 = (position repSpl 1 k).2 from fun e => hl e),
          if_neg (by decide)]
        ring
      · simp
    have h2 : projOf 2 (np.adjointOperator repSpl y 2) (position repSpl 2 k).1 (position repSpl 2 k).2 =
        y k - (y 0 + y 1) / 2 := by
      rw [adjoint_spots repSpl 2 rep_inj2, lin, Matrix.sum_apply]
      simp only [Matrix.smul_apply, smul_eq_mul, proj_spot]
      have er : (rowDim repN 2 : ℝ) = 2 := by simp [rowDim, repN]
      have ed : ¬ ((2 : Fin 3) = 0) := by decide
      have ec : ∀ l, (position repSpl 2 l).2 = (position repSpl 2 k).2 := fun l => rfl
      have ep : ∀ l, (position repSpl 2 l = position repSpl 2 k) ↔ l = k := fun l => rep_inj2.eq_iff
      simp only [er, ed, ec, ep, if_true, if_false, add_zero, mul_sub, Finset.sum_sub_distrib, Fin.sum_univ_two]
      fin_cases k <;> simp <;> ring
    rw [h0, h1, h2]
  have hit : ∀ k, recIt svd (√800 / 2) 0 repT repSpl k = np.recoveryStep svd repSpl repT 1 0
      (recoveryY svd repSpl repT 1 0 0 k) := by
    intro k; rw [recIt, hone, htao]
  have hy1 : recoveryY svd repSpl repT 1 0 0 1 = ![-3, 1] := by
    have : recoveryY svd repSpl repT 1 0 0 1 = 0 + (1 : ℝ) • (np.PomegaTensor repSpl repT -
        np.PomegaPair repSpl (np.recoveryStep svd repSpl repT 1 0 0).X (np.recoveryStep svd repSpl repT 1 0 0).Y
          (np.recoveryStep svd repSpl repT 1 0 0).Z) := rfl
    rw [this, hb]
    funext k
    rw [Pi.add_apply, Pi.smul_apply, Pi.sub_apply, hpred]
    simp
  have he0 : ∑ i, recErr svd (√800 / 2) 0 repT repSpl 0 i ^ 2 = 10 := by
    have e : ∀ k, recErr svd (√800 / 2) 0 repT repSpl 0 k = (![-3, 1] : Fin 2 → ℝ) k := by
      intro k
      rw [recErr, hit, Pi.sub_apply, hb]
      have : recoveryY svd repSpl repT 1 0 0 0 = 0 := rfl
      rw [this, hpred]
      simp
    simp only [e, Fin.sum_univ_two, Matrix.cons_val_zero, Matrix.cons_val_one]
    norm_num
  have he1 : (10 : ℝ) < ∑ i, recErr svd (√800 / 2) 0 repT repSpl 1 i ^ 2 := by
    have e : ∀ k, recErr svd (√800 / 2) 0 repT repSpl 1 k = (![-3, 1] : Fin 2 → ℝ) k -
        (1 / 2 * (1 * (1 - 1 / 20 + 1 / 400)) + 1 / 20 * ((![-3, 1] : Fin 2 → ℝ) k * (1 - 1 / 20)) +
          1 / 20 * ((![-3, 1] : Fin 2 → ℝ) k - (-3 + 1) / 2)) := by
      intro k
      rw [recErr, hit, Pi.sub_apply, hb, hy1, hpred]
      simp
    simp only [e, Fin.sum_univ_two, Matrix.cons_val_zero, Matrix.cons_val_one]
    norm_num
  refine ⟨√800 / 2, by positivity, ?_, _, √((∑ i, recErr svd (√800 / 2) 0 repT repSpl 0 i ^ 2) / (2 : ℕ)),
    √((∑ i, recErr svd (√800 / 2) 0 repT repSpl 1 i ^ 2) / (2 : ℕ)), recovery_run svd (√800 / 2) 0 repT repSpl (by decide) 1, ?_, ?_⟩
  · rw [hN]
    have : √800 / 2 * (2 : ℕ) / √800 = (1 : ℝ) := by
      push_cast; field_simp
    rw [this]
    simp [repN]; norm_num
  · simp [List.range_succ, recIt_loss svd (√800 / 2) 0 repT repSpl _ (by norm_num : 0 < 2)]
  · refine Real.sqrt_lt_sqrt (by positivity) ?_
    rw [he0]
    exact div_lt_div_of_pos_right he1 (by norm_num)

/-! ### The hypotheses can be met -/

/-- A tensor of shape 2, 2, 2 with two samples that share no pair. -/
def okSpl : Samples ![2, 2, 2] 2
  | 0 => fun k => (k : Fin 2)
  | 1 => fun k => (k : Fin 2)
  | 2 => fun k => (k : Fin 2)

def okT : Tensor3 ![2, 2, 2] := fun i _ _ => if i.val = 0 then 1 else 2

theorem ok_distinct : DistinctPairs (okSpl 0) (okSpl 1) (okSpl 2) := by
  intro i j h
  exact ⟨fun e => h (Prod.ext_iff.1 e).1, fun e => h (Prod.ext_iff.1 e).1, fun e => h (Prod.ext_iff.1 e).1⟩

/-- The tensor is reproduced at the samples by a matrix with equal column sums. -/
theorem ok_fits : ∃ A B C, Fits okT (okSpl 0) (okSpl 1) (okSpl 2) A B C := by
  refine ⟨(fun i _ => √2 * (if i.val = 0 then 1 else 2) : Mat 2 2), (0 : Mat 2 2), (0 : Mat 2 2), ?_, ?_, ?_, ?_⟩
  · intro j j'
    simp
  · intro j; exact Finset.sum_eq_zero fun i _ => rfl
  · intro j; exact Finset.sum_eq_zero fun i _ => rfl
  · intro i
    have h2 : √(2 : ℝ) ≠ 0 := (Real.sqrt_pos.2 (by norm_num)).ne'
    have e : ∀ k : Fin 2, sampleError okT (okSpl 0) (okSpl 1) (okSpl 2)
        (fun i _ => √2 * (if i.val = 0 then 1 else 2) : Mat 2 2) (0 : Mat 2 2) (0 : Mat 2 2) k =
        (if k.val = 0 then 1 else 2) - (√2 * (if k.val = 0 then 1 else 2) / √(2 : ℕ) + (0 : ℝ) / √(2 : ℕ) + (0 : ℝ) / √(2 : ℕ)) :=
      fun k => rfl
    rw [e, Nat.cast_ofNat, zero_div, add_zero, add_zero, mul_div_cancel_left₀ _ h2, sub_self]

example : ∃ svd : np.Svd, NpSvdOk svd ∧ ∃ R, np.exactRecovery svd 1 1 5 okT okSpl = .ok R ∧
    ∃ u v, R.Rf[3]? = some (some u) ∧ R.Rf[4]? = some (some v) ∧ 0 ≤ v ∧ v ≤ u := by
  obtain ⟨svd, hs⟩ := exists_npSvd
  have h8 : (2 : ℝ) ≤ √((((![2, 2, 2] : Fin 3 → Nat) 0 : ℕ) : ℝ) * ((![2, 2, 2] : Fin 3 → Nat) 1 : ℕ)
      * ((![2, 2, 2] : Fin 3 → Nat) 2 : ℕ)) := by
    refine Real.le_sqrt_of_sq_le ?_
    simp; norm_num
  obtain ⟨R, h1, h2⟩ := C86_error_decreases_partial (n := ![2, 2, 2]) (by intro d; fin_cases d <;> decide) svd hs 1 1
    (by norm_num) (by norm_num) okT okSpl ok_distinct (by
      have h3 : (1 : ℝ) * (2 : ℕ) / √((((![2, 2, 2] : Fin 3 → Nat) 0 : ℕ) : ℝ) * ((![2, 2, 2] : Fin 3 → Nat) 1 : ℕ)
        * ((![2, 2, 2] : Fin 3 → Nat) 2 : ℕ)) ≤ 1 := by
        rw [div_le_one (by linarith), Nat.cast_ofNat, one_mul]; exact h8
      refine (mul_le_mul_of_nonneg_right h3 (by positivity)).trans ?_
      simp; norm_num) 5 (by norm_num) (by norm_num)
  exact ⟨svd, hs, R, h1, (h2 3 (by norm_num)).1⟩

example : ∃ (svd : np.Svd) (X : Mat 2 2) (R : Nat → np.Recovery ![2, 2, 2] 2), NpSvdOk svd ∧
    (∀ s, np.exactRecovery svd 1 1 (s + 1) okT okSpl = .ok (R s)) ∧
    ∀ i j, Tendsto (fun s => (R s).last.X i j) atTop (𝓝 (X i j)) := by
  obtain ⟨svd, hs⟩ := exists_npSvd
  have h8 : (2 : ℝ) ≤ √((((![2, 2, 2] : Fin 3 → Nat) 0 : ℕ) : ℝ) * ((![2, 2, 2] : Fin 3 → Nat) 1 : ℕ)
      * ((![2, 2, 2] : Fin 3 → Nat) 2 : ℕ)) := by
    refine Real.le_sqrt_of_sq_le ?_
    simp; norm_num
  obtain ⟨X, Y, Z, -, -, R, h1, h2, -⟩ := C87_converges (n := ![2, 2, 2]) (by intro d; fin_cases d <;> decide) svd hs 1 1
    (by norm_num) (by norm_num) okT okSpl (by norm_num) ok_distinct (by
      have h3 : (1 : ℝ) * (2 : ℕ) / √((((![2, 2, 2] : Fin 3 → Nat) 0 : ℕ) : ℝ) * ((![2, 2, 2] : Fin 3 → Nat) 1 : ℕ)
        * ((![2, 2, 2] : Fin 3 → Nat) 2 : ℕ)) ≤ 1 := by
        rw [div_le_one (by linarith), Nat.cast_ofNat, one_mul]; exact h8
      refine (mul_le_mul_of_nonneg_right h3 (by positivity)).trans_lt ?_
      simp; norm_num) ok_fits
  exact ⟨svd, X, R, hs, h1, h2⟩

end TD.Props
