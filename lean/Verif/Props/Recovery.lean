import Verif.Props.Pitf

/-! # Exact recovery -/
namespace TD.Props
open TD TD.pitf Matrix Spec

variable {n : Fin 3 → Nat} {m : Nat}

theorem recoveryLoop_none_irrel (svd : np.Svd) (spl : Samples n m) (T : Tensor3 n) (delt tao : ℝ) (k i : Nat)
    (y : Fin m → ℝ) (l l' : Option (np.Iter n m)) (h) :
    np.recoveryLoop svd spl T delt tao (k + 1) i y l h = np.recoveryLoop svd spl T delt tao (k + 1) i y l' h := rfl

/-- The sequence of sample vectors. -/
noncomputable def recoveryY (svd : np.Svd) (spl : Samples n m) (T : Tensor3 n) (delt tao : ℝ) (y : Fin m → ℝ) :
    Nat → Fin m → ℝ
  | 0 => y
  | k + 1 => (np.recoveryStep svd spl T delt tao (recoveryY svd spl T delt tao y k)).y

theorem recoveryY_shift (svd : np.Svd) (spl : Samples n m) (T : Tensor3 n) (delt tao : ℝ) (y : Fin m → ℝ) (k : Nat) :
    recoveryY svd spl T delt tao (np.recoveryStep svd spl T delt tao y).y k = recoveryY svd spl T delt tao y (k + 1) := by
  induction k with
  | zero => rfl
  | succ k ih => rw [recoveryY, ih]; rfl

theorem recoveryLoop_eq (svd : np.Svd) (spl : Samples n m) (T : Tensor3 n) (delt tao : ℝ) (k i : Nat)
    (y : Fin m → ℝ) (l : Option (np.Iter n m)) (If : List Nat) (Ef Rf : List (Option ℝ)) :
    np.recoveryLoop svd spl T delt tao k i y l (If, Ef, Rf)
      = (if k = 0 then l else some (np.recoveryStep svd spl T delt tao (recoveryY svd spl T delt tao y (k - 1))),
        If ++ List.range' i k,
        Ef ++ (List.range k).map fun j => (np.recoveryStep svd spl T delt tao (recoveryY svd spl T delt tao y j)).erate,
        Rf ++ (List.range k).map fun j => (np.recoveryStep svd spl T delt tao (recoveryY svd spl T delt tao y j)).loss) := by
  induction k generalizing i y l If Ef Rf with
  | zero => simp [np.recoveryLoop]
  | succ k ih =>
    rw [np.recoveryLoop, ih]
    simp only [recoveryY_shift]
    rw [List.range_succ_eq_map, List.range'_succ]
    have h0 : recoveryY svd spl T delt tao y 0 = y := rfl
    refine Prod.ext ?_ (Prod.ext ?_ (Prod.ext ?_ ?_))
    · cases k with
      | zero => simp only [if_true, Nat.zero_add, Nat.sub_self, h0, if_neg Nat.one_ne_zero]
      | succ k => simp only [if_neg (Nat.succ_ne_zero _), Nat.add_sub_cancel]
    · simp only [List.append_assoc, List.singleton_append]
    · simp only [List.append_assoc, List.map_cons, List.map_map, List.singleton_append, h0, Function.comp_def,
        Nat.succ_eq_add_one]
    · simp only [List.append_assoc, List.map_cons, List.map_map, List.singleton_append, h0, Function.comp_def,
        Nat.succ_eq_add_one]

/-- `exact_recovery` iterates: shrink the three scattered sample matrices, measure the error at the fixed
positions, correct the sample vector.  The histories are complete. -/
theorem C69_records (svd : np.Svd) (argDelt argTao : ℝ) (steps : Nat) (hsteps : 0 < steps) (hm : 0 < m) (T : Tensor3 n)
    (spl : Samples n m) :
    ∃ (R : np.Recovery n m) (y : Nat → Fin m → ℝ) (X : Nat → Mat (n 0) (n 1)) (Y : Nat → Mat (n 1) (n 2))
      (Z : Nat → Mat (n 2) (n 0)),
      np.exactRecovery svd argDelt argTao steps T spl = .ok R
      ∧ R.If = List.range steps ∧ R.Ef.length = steps ∧ R.Rf.length = steps
      ∧ y 0 = 0
      ∧ (∀ k, ∃ S, np.shrink svd (np.adjointOperator spl (y k) 0) (argTao * √((n 0 : ℝ) * n 1 * n 2)) "complicated" = some S
          ∧ X k = (1 / √(n 2)) • S)
      ∧ (∀ k, ∃ S, np.shrink svd (np.adjointOperator spl (y k) 1) (argTao * √((n 0 : ℝ) * n 1 * n 2)) "normal" = some S
          ∧ Y k = (1 / √(n 0)) • S)
      ∧ (∀ k, ∃ S, np.shrink svd (np.adjointOperator spl (y k) 2) (argTao * √((n 0 : ℝ) * n 1 * n 2)) "normal" = some S
          ∧ Z k = (1 / √(n 1)) • S)
      ∧ (∀ k i, y (k + 1) i = y k i + argDelt * m / √((n 0 : ℝ) * n 1 * n 2)
          * sampleError T (spl 0) (spl 1) (spl 2) (X k) (Y k) (Z k) i)
      ∧ (∀ k, k < steps →
          R.Rf[k]? = some (some (√((∑ i, sampleError T (spl 0) (spl 1) (spl 2) (X k) (Y k) (Z k) i ^ 2) / m))))
      ∧ (∀ k, k < steps → (∃ i, T (spl 0 i) (spl 1 i) (spl 2 i) ≠ 0) →
          R.Ef[k]? = some (some (√(∑ i, sampleError T (spl 0) (spl 1) (spl 2) (X k) (Y k) (Z k) i ^ 2)
            / √(∑ i, T (spl 0 i) (spl 1 i) (spl 2 i) ^ 2))))
      ∧ R.last.y = y steps ∧ R.last.X = X (steps - 1) ∧ R.last.Y = Y (steps - 1) ∧ R.last.Z = Z (steps - 1) := by
  let delt := argDelt * m / √((n 0 : ℝ) * n 1 * n 2)
  let tao := argTao * √((n 0 : ℝ) * n 1 * n 2)
  let y := recoveryY svd spl T delt tao 0
  let it := fun k => np.recoveryStep svd spl T delt tao (y k)
  have e1 : ("complicated" : String) ≠ "normal" := by decide
  have hsome : ∀ {r c : Nat} (M : Mat r c) (t : ℝ) (mode : String), mode = "normal" ∨ mode = "complicated" →
      ∃ S, np.shrink svd M t mode = some S := by
    intro r c M t mode hm
    rcases hm with rfl | rfl
    · simp only [np.shrink, if_true]; exact ⟨_, rfl⟩
    · simp only [np.shrink, if_neg e1, if_true]; exact ⟨_, rfl⟩
  have herr : ∀ k, (fun i => sampleError T (spl 0) (spl 1) (spl 2) (it k).X (it k).Y (it k).Z i)
      = np.PomegaTensor spl T - np.PomegaPair spl (it k).X (it k).Y (it k).Z := fun k => rfl
  refine ⟨⟨it (steps - 1), List.range steps, (List.range steps).map fun j => (it j).erate,
    (List.range steps).map fun j => (it j).loss⟩, y, fun k => (it k).X, fun k => (it k).Y, fun k => (it k).Z,
    ?_, rfl, by simp, by simp, rfl, ?_, ?_, ?_, ?_, ?_, ?_, ?_, rfl, rfl, rfl⟩
  · rw [np.exactRecovery]
    simp only [if_neg (fun h : m = 0 ∧ steps ≠ 0 => hm.ne' h.1)]
    simp only [recoveryLoop_eq, if_neg hsteps.ne', List.nil_append]
    rw [List.range_eq_range']
  · intro k
    obtain ⟨S, hS⟩ := hsome (np.adjointOperator spl (y k) 0) tao "complicated" (.inr rfl)
    refine ⟨S, hS, ?_⟩
    have : (it k).X = (1 / √(n 2)) • (np.shrink svd (np.adjointOperator spl (y k) 0) tao "complicated").getD 0 := rfl
    exact this.trans (by rw [hS]; rfl)
  · intro k
    obtain ⟨S, hS⟩ := hsome (np.adjointOperator spl (y k) 1) tao "normal" (.inl rfl)
    refine ⟨S, hS, ?_⟩
    have : (it k).Y = (1 / √(n 0)) • (np.shrink svd (np.adjointOperator spl (y k) 1) tao "normal").getD 0 := rfl
    exact this.trans (by rw [hS]; rfl)
  · intro k
    obtain ⟨S, hS⟩ := hsome (np.adjointOperator spl (y k) 2) tao "normal" (.inl rfl)
    refine ⟨S, hS, ?_⟩
    have : (it k).Z = (1 / √(n 1)) • (np.shrink svd (np.adjointOperator spl (y k) 2) tao "normal").getD 0 := rfl
    exact this.trans (by rw [hS]; rfl)
  · intro k i; rfl
  · intro k hk
    have hm' : (m : ℝ) ≠ 0 := Nat.cast_ne_zero.2 hm.ne'
    simp only [List.getElem?_map, List.getElem?_range hk, Option.map_some]
    have : (it k).loss = loss.fsqrt (loss.fdiv
      (∑ i, sampleError T (spl 0) (spl 1) (spl 2) (it k).X (it k).Y (it k).Z i ^ 2) m) := rfl
    rw [this, loss.fdiv, if_neg hm']
    rfl
  · intro k hk ⟨i0, hi0⟩
    simp only [List.getElem?_map, List.getElem?_range hk, Option.map_some]
    have : (it k).erate = loss.fdiv
      (√(∑ i, sampleError T (spl 0) (spl 1) (spl 2) (it k).X (it k).Y (it k).Z i ^ 2))
      (√(∑ i, T (spl 0 i) (spl 1 i) (spl 2 i) ^ 2)) := rfl
    rw [this, loss.fdiv, if_neg]
    have hpos : 0 < ∑ i, T (spl 0 i) (spl 1 i) (spl 2 i) ^ 2 :=
      Finset.sum_pos' (fun _ _ => sq_nonneg _) ⟨i0, Finset.mem_univ _, by positivity⟩
    exact (Real.sqrt_pos.2 hpos).ne'
  · obtain ⟨k, rfl⟩ : ∃ k, steps = k + 1 := ⟨steps - 1, by omega⟩
    simp only [Nat.add_sub_cancel]
    rfl

example : ∃ (svd : np.Svd) (R : np.Recovery ![2, 1, 1] 1) (T : Tensor3 ![2, 1, 1]) (spl : Samples ![2, 1, 1] 1),
    np.exactRecovery svd 1 1 3 T spl = .ok R ∧ R.If = [0, 1, 2] := by
  obtain ⟨svd, _⟩ := exists_npSvd
  obtain ⟨R, _, _, _, _, h, h', _⟩ := C69_records (n := ![2, 1, 1]) (m := 1) svd 1 1 3 (by decide) (by decide) (fun i _ _ => i.val)
    (fun d _ => match d with | 0 => (1 : Fin 2) | 1 => (0 : Fin 1) | 2 => (0 : Fin 1))
  exact ⟨svd, R, _, _, h, h'⟩

/-- Without any iteration the returned matrices are unbound. -/
theorem C69_zero_steps (svd : np.Svd) (argDelt argTao : ℝ) (T : Tensor3 n) (spl : Samples n m) :
    np.exactRecovery svd argDelt argTao 0 T spl = .error .unboundLocal := by
  unfold np.exactRecovery; rw [if_neg (fun h => h.2 rfl)]; rfl

/-- A zero sample vector is shrunk to zero matrices. -/
theorem tf_shrink_zero (svd : tfl.Svd) (hs : TfSvdOk svd) {r c : Nat} (tao : ℝ) (ht : 0 ≤ tao) (mode : String)
    (hm : mode = "normal" ∨ mode = "complicated") : (tfl.shrink svd (0 : Mat r c) tao mode).getD 0 = 0 := by
  have hc : tfl.centralization (0 : Mat r c) = 0 := C61_fixed 0 (fun j => by simp)
  have h := hs (0 : Mat r c)
  have hf : frobSq (0 : Mat r c) = ∑ i, (svd (0 : Mat r c)).1 i ^ 2 := by
    conv_lhs => rw [h.eq]
    rw [frobSq_mul_orth h.orthV, frobSq_orth_mul h.orthU, frobSq_diagRect]
  have hz : ∀ i, (svd (0 : Mat r c)).1 i = 0 := by
    intro i
    have h0 : frobSq (0 : Mat r c) = 0 := by simp [frobSq]
    rw [h0] at hf
    exact pow_eq_zero_iff two_ne_zero |>.1
      ((Finset.sum_eq_zero_iff_of_nonneg (fun _ _ => sq_nonneg _)).1 hf.symm i (Finset.mem_univ _))
  have hsm : (diagRect (tfl.SVT svd (0 : Mat r c) tao).1 : Mat r c) = 0 := by
    ext i j
    simp only [tfl.SVT, hc, hz, diagRect, zero_sub, max_eq_left (neg_nonpos.2 ht)]
    split <;> rfl
  have e1 : ("complicated" : String) ≠ "normal" := by decide
  rcases hm with rfl | rfl
  · simp only [tfl.shrink, if_true, hsm]
    simp
  · simp only [tfl.shrink, if_neg e1, if_true, hsm]
    simp [max_eq_left (neg_nonpos.2 ht), min_eq_left ht]

theorem tf_adjoint_zero (spl : Samples n m) (dim : Fin 3) : tfl.adjointOperator spl 0 dim = 0 := by
  rw [(C65_agree_partial spl).2.2.2.2]
  ext i j
  rw [adjoint_apply]
  have : ∀ l : List (Fin m), (l.map (0 : Fin m → ℝ)).getLastD 0 = 0 := by
    intro l
    induction l with
    | nil => rfl
    | cons a l ih => rw [List.map_cons, List.getLastD_cons]; exact ih
  rw [this]; rfl

theorem tf_fetch_zero (svd : tfl.Svd) (hs : TfSvdOk svd) (T : Tensor3 n) (delt tao : ℝ) (ht : 0 ≤ tao)
    (spl : Samples n m) : (tfl.fetch svd T delt tao 0 spl).y = delt • tfl.PomegaTensor spl T := by
  have h0 := tf_shrink_zero svd hs (r := n 0) (c := n 1) tao ht "complicated" (.inr rfl)
  have h1 := tf_shrink_zero svd hs (r := n 1) (c := n 2) tao ht "normal" (.inl rfl)
  have h2 := tf_shrink_zero svd hs (r := n 2) (c := n 0) tao ht "normal" (.inl rfl)
  have a0 : tfl.adjointOperator spl 0 0 = (0 : Mat (n 0) (n 1)) := tf_adjoint_zero spl 0
  have a1 : tfl.adjointOperator spl 0 1 = (0 : Mat (n 1) (n 2)) := tf_adjoint_zero spl 1
  have a2 : tfl.adjointOperator spl 0 2 = (0 : Mat (n 2) (n 0)) := tf_adjoint_zero spl 2
  have hp : tfl.PomegaPair spl (0 : Mat (n 0) (n 1)) (0 : Mat (n 1) (n 2)) (0 : Mat (n 2) (n 0)) = 0 := by
    funext i
    show (0 : ℝ) / _ + 0 / _ + 0 / _ = 0
    simp
  unfold tfl.fetch
  simp only [a0, a1, a2]
  have e0 : (1 / √(n 2 : ℝ)) • (tfl.shrink svd (0 : Mat (n 0) (n 1)) tao "complicated").getD 0 = 0 := by rw [h0, smul_zero]
  have e1 : (1 / √(n 0 : ℝ)) • (tfl.shrink svd (0 : Mat (n 1) (n 2)) tao "normal").getD 0 = 0 := by rw [h1, smul_zero]
  have e2 : (1 / √(n 1 : ℝ)) • (tfl.shrink svd (0 : Mat (n 2) (n 0)) tao "normal").getD 0 = 0 := by rw [h2, smul_zero]
  rw [zero_add]
  refine congrArg (fun v => delt • v) ?_
  refine (congrArg (fun v => tfl.PomegaTensor spl T - v) ?_).trans (sub_zero _)
  refine Eq.trans ?_ hp
  exact congr (congr (congrArg (tfl.PomegaPair spl) e0) e1) e2

end TD.Props
