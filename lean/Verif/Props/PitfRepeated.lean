import Verif.Props.DualAscent

/-!
# C87: why no pair of indices may be drawn twice

With a repeated pair `adjoint_operator` keeps only the last value (C64), and `exact_recovery` does not find the minimiser of its
convex program any more.
-/
namespace TD.Props
open TD TD.pitf Matrix Spec Filter Topology

theorem shrink_zero_complicated (svd : np.Svd) (hs : NpSvdOk svd) {r c : Nat} (M : Mat r c) :
    np.shrink svd M 0 "complicated" = some (np.centralization M +
      ((((ones r 1)ᵀ * M * ones c 1) 0 0 / √((r : ℝ) * c)) / √((r : ℝ) * c)) • ones r c) := by
  have h := C66_numpy_shrink_zero_partial svd hs M
  rw [np.shrink] at h
  simp only [if_true] at h
  have h := Option.some.inj h
  rw [np.shrink]
  simp only [if_neg (show ¬ "complicated" = "normal" by decide), if_true, h, sub_zero, add_zero]
  rw [max_add_min, zero_add]

/-- The sizes of the example. -/
abbrev mixN : Fin 3 → Nat := ![1, 2, 2]

/-- Two positions with the same first and second index. -/
def mixSpl : Samples mixN 2 := fun d i => match d with
  | 0 => (0 : Fin 1)
  | 1 => (0 : Fin 2)
  | 2 => i

/-- The data: 2 at the first position, 0 at the second. -/
noncomputable def mixT : Tensor3 mixN := fun _ _ k => if k.val = 0 then 2 else 0

theorem mix_step (svd : np.Svd) (hs : NpSvdOk svd) (delt : ℝ) (y : Fin 2 → ℝ) :
    (np.recoveryStep svd mixSpl mixT delt 0 y).Y (0 : Fin 2) (1 : Fin 2) =
      √2 * (np.recoveryStep svd mixSpl mixT delt 0 y).X (0 : Fin 1) (0 : Fin 2) := by
  have hA : np.adjointOperator mixSpl y 0 = (!![y 1, 0] : Mat 1 2) := by
    funext i j
    fin_cases i; fin_cases j <;> rfl
  have hB : np.adjointOperator mixSpl y 1 = (!![y 0, y 1; 0, 0] : Mat 2 2) := by
    funext i j
    fin_cases i <;> fin_cases j <;> rfl
  have hX : (np.recoveryStep svd mixSpl mixT delt 0 y).X (0 : Fin 1) (0 : Fin 2) = 1 / √2 * (y 1 / 2) := by
    have e : (np.recoveryStep svd mixSpl mixT delt 0 y).X =
        (1 / √((2 : Nat) : ℝ)) • (np.shrink svd (!![y 1, 0] : Mat 1 2) 0 "complicated").getD 0 := by
      rw [← hA]; rfl
    rw [e, shrink_zero_complicated svd hs, Option.getD_some]
    have h2 : √(2 : ℝ) * √2 = 2 := Real.mul_self_sqrt (by norm_num)
    simp [np.centralization, Matrix.mul_apply, ones, Fin.sum_univ_two, div_div, h2]
  have hY : (np.recoveryStep svd mixSpl mixT delt 0 y).Y (0 : Fin 2) (1 : Fin 2) = y 1 / 2 := by
    have e : (np.recoveryStep svd mixSpl mixT delt 0 y).Y =
        (1 / √((1 : Nat) : ℝ)) • (np.shrink svd (!![y 0, y 1; 0, 0] : Mat 2 2) 0 "normal").getD 0 := by
      rw [← hB]; rfl
    rw [e, C66_numpy_shrink_zero_partial svd hs, Option.getD_some]
    simp [np.centralization, Matrix.mul_apply, ones, Fin.sum_univ_two]
    ring
  rw [hX, hY]
  have : √(2 : ℝ) ≠ 0 := by positivity
  field_simp

theorem mix_fits (A : Mat 1 2) (B : Mat 2 2) (C : Mat 2 1) :
    Fits (n := mixN) mixT (mixSpl 0) (mixSpl 1) (mixSpl 2) A B C ↔
      A 0 0 = A 0 1 ∧ B 0 0 + B 1 0 = 0 ∧ B 0 1 + B 1 1 = 0 ∧ C 0 0 + C 1 0 = 0 ∧
        A 0 0 / √2 + B 0 0 + C 0 0 / √2 = 2 ∧ A 0 0 / √2 + B 0 1 + C 1 0 / √2 = 0 := by
  have e1 : EqualColSums A ↔ A 0 0 = A 0 1 := by simp [EqualColSums, Fin.forall_fin_two, eq_comm]
  have e2 : ZeroColSums B ↔ B 0 0 + B 1 0 = 0 ∧ B 0 1 + B 1 1 = 0 := by
    simp [ZeroColSums, Fin.forall_fin_two, Fin.sum_univ_two]
  have e3 : ZeroColSums C ↔ C 0 0 + C 1 0 = 0 := by
    simp [ZeroColSums, Fin.sum_univ_two]
  have e4 : sampleError (n := mixN) mixT (mixSpl 0) (mixSpl 1) (mixSpl 2) A B C 0 =
      2 - (A 0 0 / √2 + B 0 0 + C 0 0 / √2) := by
    have : sampleError (n := mixN) mixT (mixSpl 0) (mixSpl 1) (mixSpl 2) A B C 0 =
      2 - (A 0 0 / √((2 : Nat) : ℝ) + B 0 0 / √((1 : Nat) : ℝ) + C 0 0 / √((2 : Nat) : ℝ)) := rfl
    rw [this]; simp
  have e5 : sampleError (n := mixN) mixT (mixSpl 0) (mixSpl 1) (mixSpl 2) A B C 1 =
      0 - (A 0 0 / √2 + B 0 1 + C 1 0 / √2) := by
    have : sampleError (n := mixN) mixT (mixSpl 0) (mixSpl 1) (mixSpl 2) A B C 1 =
      0 - (A 0 0 / √((2 : Nat) : ℝ) + B 0 1 / √((1 : Nat) : ℝ) + C 1 0 / √((2 : Nat) : ℝ)) := rfl
    rw [this]; simp
  constructor
  · rintro ⟨h1, h2, h3, h4⟩
    have a := h4 0
    have b := h4 1
    rw [e4] at a; rw [e5] at b
    obtain ⟨h2, h2'⟩ := e2.1 h2
    exact ⟨e1.1 h1, h2, h2', e3.1 h3, by linarith, by linarith⟩
  · rintro ⟨h1, h2, h3, h4, h5, h6⟩
    refine ⟨e1.2 h1, e2.2 ⟨h2, h3⟩, e3.2 h4, Fin.forall_fin_two.2 ⟨?_, ?_⟩⟩
    · rw [e4, h5, sub_self]
    · rw [e5, h6, sub_self]

theorem mix_objective (A : Mat 1 2) (B : Mat 2 2) (C : Mat 2 1) :
    recoveryObjective mixN 0 A B C =
      (A 0 0 ^ 2 + A 0 1 ^ 2 + (B 0 0 ^ 2 + B 0 1 ^ 2 + (B 1 0 ^ 2 + B 1 1 ^ 2)) + (C 0 0 ^ 2 + C 1 0 ^ 2)) / 2 := by
  have a : frobSq A = A 0 0 ^ 2 + A 0 1 ^ 2 := by simp [frobSq, Fin.sum_univ_two]
  have b : frobSq B = B 0 0 ^ 2 + B 0 1 ^ 2 + (B 1 0 ^ 2 + B 1 1 ^ 2) := by simp [frobSq, Fin.sum_univ_two]
  have c : frobSq C = C 0 0 ^ 2 + C 1 0 ^ 2 := by simp [frobSq, Fin.sum_univ_two]
  have e : recoveryObjective mixN 0 A B C = 0 * (splitNorm A / √((2 : Nat) : ℝ) + nuclear B / √((1 : Nat) : ℝ) +
      nuclear C / √((2 : Nat) : ℝ)) + (frobSq A + frobSq B + frobSq C) / 2 := rfl
  rw [e, zero_mul, zero_add, ← a, ← b, ← c]

theorem four_squares {a b c d : ℝ} (h : a ^ 2 + b ^ 2 + c ^ 2 + d ^ 2 = 0) : a = 0 ∧ b = 0 ∧ c = 0 ∧ d = 0 := by
  have ha := sq_nonneg a
  have hb := sq_nonneg b
  have hc := sq_nonneg c
  have hd := sq_nonneg d
  exact ⟨pow_eq_zero_iff two_ne_zero |>.1 (by linarith), pow_eq_zero_iff two_ne_zero |>.1 (by linarith),
    pow_eq_zero_iff two_ne_zero |>.1 (by linarith), pow_eq_zero_iff two_ne_zero |>.1 (by linarith)⟩

theorem mix_minimal {A : Mat 1 2} {B : Mat 2 2} {C : Mat 2 1} {A' : Mat 1 2} {B' : Mat 2 2} {C' : Mat 2 1}
    (hA : A' = !![√2 / 2, √2 / 2]) (hB : B' = !![1, 0; -1, 0]) (hC : C' = !![√2 / 2; -(√2 / 2)])
    (hF : Fits (n := mixN) mixT (mixSpl 0) (mixSpl 1) (mixSpl 2) A B C) (hne : (A, B, C) ≠ (A', B', C')) :
    recoveryObjective mixN 0 A' B' C' < recoveryObjective mixN 0 A B C := by
  have h2 : √(2 : ℝ) ^ 2 = 2 := Real.sq_sqrt (by norm_num)
  have h0 : √(2 : ℝ) ≠ 0 := by positivity
  obtain ⟨f1, f2, f3, f4, f5, f6⟩ := (mix_fits A B C).1 hF
  have f5' : (A 0 0 + C 0 0) * √2 / 2 + B 0 0 = 2 := by
    have d : ∀ x : ℝ, x / √2 = x * √2 / 2 := by intro x; field_simp; rw [h2]
    rw [d, d] at f5
    linarith
  have key : recoveryObjective mixN 0 A B C - recoveryObjective mixN 0 A' B' C' =
      (A 0 0 - √2 / 2) ^ 2 + (B 0 0 - 1) ^ 2 + B 0 1 ^ 2 + (C 0 0 - √2 / 2) ^ 2 := by
    rw [mix_objective, mix_objective, hA, hB, hC, ← f1, show B 1 0 = - B 0 0 by linarith, show B 1 1 = - B 0 1 by linarith,
      show C 1 0 = - C 0 0 by linarith]
    simp
    have : B 0 0 = 2 - (A 0 0 + C 0 0) * √2 / 2 := by linarith
    rw [this]
    nlinarith [h2]
  refine lt_of_le_of_ne (sub_nonneg.1 (by rw [key]; positivity)) fun he => hne ?_
  have hz : (A 0 0 - √2 / 2) ^ 2 + (B 0 0 - 1) ^ 2 + B 0 1 ^ 2 + (C 0 0 - √2 / 2) ^ 2 = 0 := by rw [← key, he, sub_self]
  obtain ⟨z1, z2, z3, z4⟩ := four_squares hz
  rw [sub_eq_zero] at z1 z2 z4
  refine Prod.ext ?_ (Prod.ext ?_ ?_)
  · funext i j
    fin_cases i; fin_cases j
    · simp [hA, z1]
    · simp [hA, ← f1, z1]
  · funext i j
    fin_cases i <;> fin_cases j
    · simp [hB, z2]
    · simp [hB, z3]
    · simp [hB]; linarith
    · simp [hB]; linarith
  · funext i j
    fin_cases j; fin_cases i
    · simp [hC, z4]
    · simp [hC]; linarith

/-- **C87**: that no two samples share a pair of indices is needed.  For the 1 × 2 × 2 tensor with 2 at `(0, 0, 0)` and 0 at
`(0, 0, 1)`, both sampled, and `argTao = 0`, exactly one triple of matrices minimises the objective; but whatever the step
size, the matrices returned by `exact_recovery` do not converge to it. -/
theorem C87_distinct_needed : ∃ (n : Fin 3 → Nat) (T : Tensor3 n) (spl : Samples n 2) (X : Mat (n 0) (n 1)) (Y : Mat (n 1) (n 2))
    (Z : Mat (n 2) (n 0)), (∀ d, 0 < n d) ∧ Fits T (spl 0) (spl 1) (spl 2) X Y Z ∧
      (∀ A B C, Fits T (spl 0) (spl 1) (spl 2) A B C → (A, B, C) ≠ (X, Y, Z) →
        recoveryObjective n 0 X Y Z < recoveryObjective n 0 A B C) ∧
      ∀ svd, NpSvdOk svd → ∀ argDelt, ∃ R : Nat → np.Recovery n 2,
        (∀ s, np.exactRecovery svd argDelt 0 (s + 1) T spl = .ok (R s)) ∧
        ¬ ((∀ i j, Tendsto (fun s => (R s).last.X i j) atTop (𝓝 (X i j))) ∧
          (∀ i j, Tendsto (fun s => (R s).last.Y i j) atTop (𝓝 (Y i j))) ∧
          (∀ i j, Tendsto (fun s => (R s).last.Z i j) atTop (𝓝 (Z i j)))) := by
  have h2 : √(2 : ℝ) ^ 2 = 2 := Real.sq_sqrt (by norm_num)
  have h0 : √(2 : ℝ) ≠ 0 := by positivity
  refine ⟨mixN, mixT, mixSpl, (!![√2 / 2, √2 / 2] : Mat 1 2), (!![1, 0; -1, 0] : Mat 2 2), (!![√2 / 2; -(√2 / 2)] : Mat 2 1),
    by intro d; fin_cases d <;> decide, ?_, fun A B C hF hne => mix_minimal rfl rfl rfl hF hne, fun svd hs argDelt => ?_⟩
  · refine (mix_fits _ _ _).2 ?_
    simp
    constructor <;> field_simp <;> ring
  · refine ⟨fun s => ⟨recIt svd argDelt 0 mixT mixSpl s, List.range (s + 1),
      (List.range (s + 1)).map fun k => (recIt svd argDelt 0 mixT mixSpl k).erate,
      (List.range (s + 1)).map fun k => (recIt svd argDelt 0 mixT mixSpl k).loss⟩,
      recovery_run svd argDelt 0 mixT mixSpl (by decide), ?_⟩
    rintro ⟨hX, hY, -⟩
    have hX := hX (0 : Fin 1) (0 : Fin 2)
    have hY := hY (0 : Fin 2) (1 : Fin 2)
    have e : ∀ s, (recIt svd argDelt 0 mixT mixSpl s).Y (0 : Fin 2) (1 : Fin 2) =
        √2 * (recIt svd argDelt 0 mixT mixSpl s).X (0 : Fin 1) (0 : Fin 2) := by
      intro s
      have ht : taoOf mixN 0 = 0 := zero_mul _
      rw [recIt, ht]
      exact mix_step svd hs _ _
    simp only [e] at hY
    have := tendsto_nhds_unique hY (hX.const_mul √2)
    have h' : (0 : ℝ) = √2 * (√2 / 2) := this
    nlinarith

end TD.Props
