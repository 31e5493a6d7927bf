import Verif.Props.Recovery

/-! # Training of the TensorFlow pairwise-interaction class -/
namespace TD.Props
open TD TD.pitf Matrix Spec

variable {n : Fin 3 → Nat} {m : Nat}

/-- The sample vector after `k` steps. -/
noncomputable def pitfY (svd : tfl.Svd) (T : Tensor3 n) (delt tao : ℝ) (draws : Nat → Samples n m) : Nat → Fin m → ℝ
  | 0 => 0
  | k + 1 => (tfl.fetch svd T delt tao (pitfY svd T delt tao draws k) (draws (k + 1))).y

/-- The steps reported. -/
def reported (steps : Nat) (vi : Int) (k : Nat) : Prop := k = 1 ∨ k = steps ∨ (vi ∣ k ∧ vi ≠ -1)

instance (steps vi k) : Decidable (reported steps vi k) := by unfold reported; infer_instance

theorem reports_ok (steps : Nat) (vi : Int) (k : Nat) (h : vi ≠ 0 ∨ k = 1 ∨ k = steps) :
    tfl.reports steps vi k = .ok (decide (reported steps vi k)) := by
  unfold tfl.reports reported
  by_cases h1 : k = steps ∨ k = 1
  · rw [if_pos h1]
    have : k = 1 ∨ k = steps ∨ (vi ∣ k ∧ vi ≠ -1) := by tauto
    rw [decide_eq_true this]
  · rw [if_neg h1, if_neg (by tauto)]
    congr 2
    rw [eq_iff_iff, ← Int.dvd_iff_emod_eq_zero]
    tauto

theorem pitf_fold (svd : tfl.Svd) (T : Tensor3 n) (delt tao : ℝ) (vi : Int) (steps : Nat) (draws : Nat → Samples n m)
    (K : Nat) (hK : vi ≠ 0 ∨ K ≤ 1 ∨ (K ≤ 2 ∧ K = steps)) :
    (List.range' 1 K).foldlM (init := (⟨0, []⟩ : tfl.Trained m)) (fun st step => (do
        let b ← tfl.reports steps vi step
        let f := tfl.fetch svd T delt tao st.y (draws step)
        pure (if b then ⟨f.y, st.log ++ [(step, f)]⟩ else ⟨f.y, st.log⟩) : Res (tfl.Trained m)))
      = .ok ⟨pitfY svd T delt tao draws K, ((List.range' 1 K).filter fun k => reported steps vi k).map fun k =>
          (k, tfl.fetch svd T delt tao (pitfY svd T delt tao draws (k - 1)) (draws k))⟩ := by
  induction K with
  | zero => rfl
  | succ K ih =>
    rw [List.range'_concat, List.foldlM_append, ih (by omega)]
    have hr := reports_ok steps vi (1 + 1 * K) (by omega)
    show (List.foldlM _ _ _ : Res _) = _
    simp only [List.foldlM_cons, List.foldlM_nil, hr]
    have e : 1 + 1 * K = K + 1 := by omega
    rw [e]
    simp only [List.filter_append, List.map_append]
    by_cases hd : reported steps vi (K + 1)
    · simp only [bind, Except.bind, pure, Except.pure, hd, decide_true, if_true, List.filter_cons, List.filter_nil,
        List.map_cons, List.map_nil, Nat.add_sub_cancel]
      rfl
    · simp only [bind, Except.bind, pure, Except.pure, hd, decide_false, List.filter_cons, List.filter_nil,
        List.map_nil, List.append_nil, Bool.false_eq_true, if_false]
      rfl

theorem pitf_train (svd : tfl.Svd) (argDelt argTao : ℝ) (vi : Int) (steps : Nat) (hsteps : 0 < steps) (hm : 0 < m)
    (hvi : vi ≠ 0 ∨ steps ≤ 2) (T : Tensor3 n) (draws : Nat → Samples n m) :
    tfl.train svd argDelt argTao vi steps T draws
      = .ok ⟨pitfY svd T (argDelt * m / √((n 0 : ℝ) * n 1 * n 2)) (argTao * √((n 0 : ℝ) * n 1 * n 2)) draws steps,
        ((List.range' 1 steps).filter fun k => reported steps vi k).map fun k =>
          (k, tfl.fetch svd T (argDelt * m / √((n 0 : ℝ) * n 1 * n 2)) (argTao * √((n 0 : ℝ) * n 1 * n 2))
            (pitfY svd T (argDelt * m / √((n 0 : ℝ) * n 1 * n 2)) (argTao * √((n 0 : ℝ) * n 1 * n 2)) draws (k - 1))
            (draws k))⟩ := by
  have hf := pitf_fold svd T (argDelt * m / √((n 0 : ℝ) * n 1 * n 2)) (argTao * √((n 0 : ℝ) * n 1 * n 2)) vi steps draws
    steps (by omega)
  unfold tfl.train
  simp only [if_neg hm.ne']
  refine (congrArg (fun x => (x >>= fun st => (match st.log with | [] => .error .unboundLocal | _ :: _ => .ok st : Res (tfl.Trained m)))) hf).trans ?_
  obtain ⟨k, rfl⟩ : ∃ k, steps = k + 1 := ⟨steps - 1, by omega⟩
  have h1 : reported (k + 1) vi 1 := .inl rfl
  simp only [bind, Except.bind, List.range'_succ, List.filter_cons, h1, decide_true, if_true, List.map_cons]

theorem tf_shrink_some (svd : tfl.Svd) {r c : Nat} (M : Mat r c) (t : ℝ) (mode : String)
    (hm : mode = "normal" ∨ mode = "complicated") : ∃ S, tfl.shrink svd M t mode = some S := by
  have e1 : ("complicated" : String) ≠ "normal" := by decide
  rcases hm with rfl | rfl
  · simp only [tfl.shrink, if_true]; exact ⟨_, rfl⟩
  · simp only [tfl.shrink, if_neg e1, if_true]; exact ⟨_, rfl⟩

/-! ## C96 -/

/-- Every step draws positions, shrinks the three matrices scattered at *these* positions, and corrects the sample
vector once; the first, the last and every `vi`-th step are reported, with the errors at that step's positions. -/
theorem C96_train (svd : tfl.Svd) (argDelt argTao : ℝ) (vi : Int) (steps : Nat) (hsteps : 0 < steps) (hm : 0 < m)
    (hvi : vi ≠ 0 ∨ steps ≤ 2) (T : Tensor3 n) (draws : Nat → Samples n m) :
    ∃ (R : tfl.Trained m) (y : Nat → Fin m → ℝ) (X : Nat → Mat (n 0) (n 1)) (Y : Nat → Mat (n 1) (n 2))
      (Z : Nat → Mat (n 2) (n 0)),
      tfl.train svd argDelt argTao vi steps T draws = .ok R
      ∧ y 0 = 0 ∧ R.y = y steps
      ∧ (∀ k, ∃ S, tfl.shrink svd (tfl.adjointOperator (draws (k + 1)) (y k) 0) (argTao * √((n 0 : ℝ) * n 1 * n 2))
          "complicated" = some S ∧ X (k + 1) = (1 / √(n 2)) • S)
      ∧ (∀ k, ∃ S, tfl.shrink svd (tfl.adjointOperator (draws (k + 1)) (y k) 1) (argTao * √((n 0 : ℝ) * n 1 * n 2))
          "normal" = some S ∧ Y (k + 1) = (1 / √(n 0)) • S)
      ∧ (∀ k, ∃ S, tfl.shrink svd (tfl.adjointOperator (draws (k + 1)) (y k) 2) (argTao * √((n 0 : ℝ) * n 1 * n 2))
          "normal" = some S ∧ Z (k + 1) = (1 / √(n 1)) • S)
      ∧ (∀ k i, y (k + 1) i = y k i + argDelt * m / √((n 0 : ℝ) * n 1 * n 2)
          * sampleError T (draws (k + 1) 0) (draws (k + 1) 1) (draws (k + 1) 2) (X (k + 1)) (Y (k + 1)) (Z (k + 1)) i)
      ∧ R.log.map Prod.fst = (List.range' 1 steps).filter (fun k => k = 1 ∨ k = steps ∨ (vi ∣ k ∧ vi ≠ -1))
      ∧ (∀ k f, (k, f) ∈ R.log → f.y = y k
          ∧ (∀ i, f.e2 i = T (draws k 0 i) (draws k 1 i) (draws k 2 i)
              - sampleError T (draws k 0) (draws k 1) (draws k 2) (X k) (Y k) (Z k) i)
          ∧ f.loss = some (√((∑ i, sampleError T (draws k 0) (draws k 1) (draws k 2) (X k) (Y k) (Z k) i ^ 2) / m))
          ∧ ((∃ i, T (draws k 0 i) (draws k 1 i) (draws k 2 i) ≠ 0) →
              f.erate = some (√(∑ i, sampleError T (draws k 0) (draws k 1) (draws k 2) (X k) (Y k) (Z k) i ^ 2)
                / √(∑ i, T (draws k 0 i) (draws k 1 i) (draws k 2 i) ^ 2)))) := by
  let delt := argDelt * m / √((n 0 : ℝ) * n 1 * n 2)
  let tao := argTao * √((n 0 : ℝ) * n 1 * n 2)
  let y := pitfY svd T delt tao draws
  let X : Nat → Mat (n 0) (n 1) := fun k =>
    (1 / √(n 2)) • (tfl.shrink svd (tfl.adjointOperator (draws k) (y (k - 1)) 0) tao "complicated").getD 0
  let Y : Nat → Mat (n 1) (n 2) := fun k =>
    (1 / √(n 0)) • (tfl.shrink svd (tfl.adjointOperator (draws k) (y (k - 1)) 1) tao "normal").getD 0
  let Z : Nat → Mat (n 2) (n 0) := fun k =>
    (1 / √(n 1)) • (tfl.shrink svd (tfl.adjointOperator (draws k) (y (k - 1)) 2) tao "normal").getD 0
  refine ⟨_, y, X, Y, Z, pitf_train svd argDelt argTao vi steps hsteps hm hvi T draws, rfl, rfl, ?_, ?_, ?_, ?_, ?_, ?_⟩
  · intro k
    obtain ⟨S, hS⟩ := tf_shrink_some svd (tfl.adjointOperator (draws (k + 1)) (y k) 0) tao "complicated" (.inr rfl)
    refine ⟨S, hS, ?_⟩
    have : X (k + 1) = (1 / √(n 2)) • (tfl.shrink svd (tfl.adjointOperator (draws (k + 1)) (y k) 0) tao "complicated").getD 0 := rfl
    exact this.trans (by rw [hS]; rfl)
  · intro k
    obtain ⟨S, hS⟩ := tf_shrink_some svd (tfl.adjointOperator (draws (k + 1)) (y k) 1) tao "normal" (.inl rfl)
    refine ⟨S, hS, ?_⟩
    have : Y (k + 1) = (1 / √(n 0)) • (tfl.shrink svd (tfl.adjointOperator (draws (k + 1)) (y k) 1) tao "normal").getD 0 := rfl
    exact this.trans (by rw [hS]; rfl)
  · intro k
    obtain ⟨S, hS⟩ := tf_shrink_some svd (tfl.adjointOperator (draws (k + 1)) (y k) 2) tao "normal" (.inl rfl)
    refine ⟨S, hS, ?_⟩
    have : Z (k + 1) = (1 / √(n 1)) • (tfl.shrink svd (tfl.adjointOperator (draws (k + 1)) (y k) 2) tao "normal").getD 0 := rfl
    exact this.trans (by rw [hS]; rfl)
  · intro k i; rfl
  · simp only [List.map_map, Function.comp_def, List.map_id', reported]
  · intro k f hf
    obtain ⟨k', hk', he⟩ := List.mem_map.1 hf
    obtain ⟨rfl, rfl⟩ := Prod.mk.inj he
    have hk1 : 1 ≤ k' := by
      have := (List.mem_filter.1 hk').1
      rw [List.mem_range'_1] at this
      exact this.1
    obtain ⟨k, rfl⟩ : ∃ k, k' = k + 1 := ⟨k' - 1, by omega⟩
    refine ⟨rfl, fun i => ?_, ?_, ?_⟩
    · have : sampleError T (draws (k + 1) 0) (draws (k + 1) 1) (draws (k + 1) 2) (X (k + 1)) (Y (k + 1)) (Z (k + 1)) i
        = T (draws (k + 1) 0 i) (draws (k + 1) 1 i) (draws (k + 1) 2 i)
          - (tfl.fetch svd T delt tao (y k) (draws (k + 1))).e2 i := rfl
      rw [this, sub_sub_cancel]
      rfl
    · have hm' : (m : ℝ) ≠ 0 := Nat.cast_ne_zero.2 hm.ne'
      have : (tfl.fetch svd T delt tao (y k) (draws (k + 1))).loss = loss.fsqrt (loss.fdiv
        (∑ i, sampleError T (draws (k + 1) 0) (draws (k + 1) 1) (draws (k + 1) 2) (X (k + 1)) (Y (k + 1)) (Z (k + 1)) i ^ 2) m) := rfl
      refine this.trans ?_
      rw [loss.fdiv, if_neg hm']
      rfl
    · rintro ⟨i0, hi0⟩
      have : (tfl.fetch svd T delt tao (y k) (draws (k + 1))).erate = loss.fdiv
        (√(∑ i, sampleError T (draws (k + 1) 0) (draws (k + 1) 1) (draws (k + 1) 2) (X (k + 1)) (Y (k + 1)) (Z (k + 1)) i ^ 2))
        (√(∑ i, T (draws (k + 1) 0 i) (draws (k + 1) 1 i) (draws (k + 1) 2 i) ^ 2)) := rfl
      refine this.trans ?_
      rw [loss.fdiv, if_neg]
      have hpos : 0 < ∑ i, T (draws (k + 1) 0 i) (draws (k + 1) 1 i) (draws (k + 1) 2 i) ^ 2 :=
        Finset.sum_pos' (fun _ _ => sq_nonneg _) ⟨i0, Finset.mem_univ _, by positivity⟩
      exact (Real.sqrt_pos.2 hpos).ne'

example : ∃ (svd : tfl.Svd) (R : tfl.Trained 1) (T : Tensor3 ![2, 1, 1]) (draws : Nat → Samples ![2, 1, 1] 1),
    tfl.train svd 1 1 3 7 T draws = .ok R ∧ R.log.map Prod.fst = [1, 3, 6, 7] := by
  obtain ⟨svd, _⟩ := exists_tfSvd
  obtain ⟨R, _, _, _, _, h, -, -, -, -, -, -, h', _⟩ := C96_train (n := ![2, 1, 1]) (m := 1) svd 1 1 3 7 (by decide) (by decide)
    (.inl (by decide)) (fun i _ _ => i.val)
    (fun k d _ => match d with | 0 => if k = 1 then (1 : Fin 2) else (0 : Fin 2) | 1 => (0 : Fin 1) | 2 => (0 : Fin 1))
  exact ⟨svd, R, _, _, h, h'.trans (by decide)⟩

/-- Without steps, and with interval 0 and more than two steps, `train` raises. -/
theorem C96_fails (svd : tfl.Svd) (argDelt argTao : ℝ) (T : Tensor3 n) (draws : Nat → Samples n m) (hm : 0 < m) :
    (∀ vi, tfl.train svd argDelt argTao vi 0 T draws = .error .unboundLocal)
    ∧ ∀ steps, 2 < steps → tfl.train svd argDelt argTao 0 steps T draws = .error .zeroDivision := by
  refine ⟨fun _ => by unfold tfl.train; simp only [if_neg hm.ne']; rfl, fun steps hs => ?_⟩
  obtain ⟨k, rfl⟩ : ∃ k, steps = k + 3 := ⟨steps - 3, by omega⟩
  unfold tfl.train
  have h1 : tfl.reports (k + 3) 0 1 = .ok true := by unfold tfl.reports; rw [if_pos (.inr rfl)]
  have h2 : tfl.reports (k + 3) 0 2 = .error .zeroDivision := by
    unfold tfl.reports; rw [if_neg (by omega), if_pos rfl]
  simp only [if_neg hm.ne', List.range'_succ, List.foldlM_cons, h1, h2, bind, Except.bind, pure, Except.pure]

/-- Without samples the model cannot be built. -/
theorem C96_no_samples (svd : tfl.Svd) (argDelt argTao : ℝ) (vi : Int) (steps : Nat) (T : Tensor3 n) (draws : Nat → Samples n 0) :
    tfl.train svd argDelt argTao vi steps T draws = .error .valueError := rfl

/-- The TensorFlow version draws the sample positions anew in each run: two trainings that start with the same
positions end differently. -/
theorem C69_tensorflow_resamples_false (svd : tfl.Svd) (hs : TfSvdOk svd) :
    ∃ (n : Fin 3 → Nat) (T : Tensor3 n) (spl spl' : Samples n 1) (R R' : tfl.Trained 1),
      tfl.train svd 1 1 (-1) 2 T (fun _ => spl) = .ok R
      ∧ tfl.train svd 1 1 (-1) 2 T (fun k => if k = 1 then spl else spl') = .ok R' ∧ R.y ≠ R'.y := by
  let spl : Fin 2 → Samples ![2, 1, 1] 1 := fun i d _ =>
    match d with | 0 => (i : Fin 2) | 1 => (0 : Fin 1) | 2 => (0 : Fin 1)
  let T : Tensor3 ![2, 1, 1] := fun i _ _ => i.val
  let q := √(((![2, 1, 1] : Fin 3 → Nat) 0 : ℝ) * (![2, 1, 1] : Fin 3 → Nat) 1 * (![2, 1, 1] : Fin 3 → Nat) 2)
  have hq : 0 < q := Real.sqrt_pos.2 (by simp [Matrix.cons_val_zero, Matrix.cons_val_one])
  refine ⟨![2, 1, 1], T, spl 0, spl 1, _, _, pitf_train svd 1 1 (-1) 2 (by decide) (by decide) (.inr le_rfl) T _,
    pitf_train svd 1 1 (-1) 2 (by decide) (by decide) (.inr le_rfl) T _, ?_⟩
  have ht : (0 : ℝ) ≤ 1 * q := by positivity
  have h0 : (tfl.fetch svd T (1 * (1 : Nat) / q) (1 * q) 0 (spl 0)).y = 0 := by
    rw [tf_fetch_zero svd hs T _ _ ht]
    funext i
    simp [tfl.PomegaTensor, T, spl]
  have h1 : (tfl.fetch svd T (1 * (1 : Nat) / q) (1 * q) 0 (spl 1)).y = fun _ => 1 / q := by
    rw [tf_fetch_zero svd hs T _ _ ht]
    funext i
    simp [tfl.PomegaTensor, T, spl]
  show (tfl.fetch svd T (1 * (1 : Nat) / q) (1 * q) (tfl.fetch svd T (1 * (1 : Nat) / q) (1 * q) 0 (spl 0)).y (spl 0)).y
    ≠ (tfl.fetch svd T (1 * (1 : Nat) / q) (1 * q) (tfl.fetch svd T (1 * (1 : Nat) / q) (1 * q) 0 (spl 0)).y (spl 1)).y
  rw [h0, h0, h1]
  intro h
  have := congrFun h 0
  exact (one_div_pos.2 hq).ne this

end TD.Props
