import Mathlib.Algebra.Order.BigOperators.Group.Finset
import Verif.Model.Data
import Verif.Props.Kruskal
import Verif.Props.Tucker

/-! # Synthetic data (C70) -/
namespace TD.Props
open TD Tensor Spec DataGenerator

theorem at_map (f : ℝ → ℝ) (t : Tensor ℝ) {i : List Nat} (hi : InB t.shape i) : (tf.map f t).at_ i = f (t.at_ i) := by
  have hl : ravel t.shape i < t.data.length := by rw [t.wf]; exact ravel_lt hi
  show ((t.data.map f).getD (ravel t.shape i) 0) = f (t.data.getD (ravel t.shape i) 0)
  rw [List.getD_eq_getElem _ _ (by simpa using hl), List.getD_eq_getElem _ _ hl, List.getElem_map]

theorem at_map_nonneg (f : ℝ → ℝ) (hf : ∀ x, 0 ≤ f x) (t : Tensor ℝ) (i : List Nat) : 0 ≤ (tf.map f t).at_ i := by
  show 0 ≤ (t.data.map f).getD (ravel t.shape i) 0
  rw [List.getD_eq_getElem?_getD, List.getElem?_map]
  cases t.data[ravel t.shape i]? with
  | none => exact le_refl _
  | some x => exact hf x

theorem khatriEntry_nonneg (r : Nat) (U : List (Tensor ℝ)) (h : ∀ M ∈ U, ∀ i, 0 ≤ M.at_ i) (i : List Nat) :
    0 ≤ khatriEntry r U i := by
  induction U generalizing i with
  | nil => exact zero_le_one
  | cons M U ih =>
    cases i with
    | nil => exact zero_le_one
    | cons a i => exact mul_nonneg (h M (by simp) _) (ih (fun M' hM' => h M' (by simp [hM'])) i)

theorem kronEntry_nonneg (U : List (Tensor ℝ)) (h : ∀ M ∈ U, ∀ i, 0 ≤ M.at_ i) (i j : List Nat) :
    0 ≤ kronEntry U i j := by
  induction U generalizing i j with
  | nil => exact zero_le_one
  | cons M U ih =>
    cases i with
    | nil => exact zero_le_one
    | cons a i =>
      cases j with
      | nil => exact zero_le_one
      | cons b j => exact mul_nonneg (h M (by simp) _) (ih (fun M' hM' => h M' (by simp [hM'])) i j)

theorem boxSum_nonneg (s : List Nat) (f : List Nat → ℝ) (h : ∀ i, 0 ≤ f i) : 0 ≤ boxSum s f := by
  induction s generalizing f with
  | nil => exact h _
  | cons n s ih => exact Finset.sum_nonneg fun i _ => ih _ fun is => h _

theorem matrices_nonneg (N ranks : List Nat) (rand : Nat → Nat → Nat → ℝ) :
    ∀ M ∈ matrices N ranks rand, ∀ i, 0 ≤ M.at_ i := by
  intro M hM i
  obtain ⟨k, -, rfl⟩ := List.mem_map.1 hM
  exact at_map_nonneg _ (fun _ => le_max_left _ _) _ _

theorem matrices_mat (N ranks : List Nat) (rand : Nat → Nat → Nat → ℝ) : AllMat (matrices N ranks rand) := by
  intro M hM
  obtain ⟨k, -, rfl⟩ := List.mem_map.1 hM
  rfl

theorem matrices_rows (N ranks : List Nat) (rand : Nat → Nat → Nat → ℝ) : rowDims (matrices N ranks rand) = N := by
  apply List.ext_getElem
  · simp [rowDims, matrices]
  · intro k h1 h2
    simp [rowDims, matrices, maximum0, tf.map, mat, ofFn, h2]

theorem matrices_cols (N ranks : List Nat) (h : ranks.length = N.length) (rand : Nat → Nat → Nat → ℝ) :
    colDims (matrices N ranks rand) = ranks := by
  apply List.ext_getElem
  · simp [colDims, matrices, h]
  · intro k h1 h2
    simp [colDims, matrices, maximum0, tf.map, mat, ofFn, h2]

theorem matrices_entry (N ranks : List Nat) (rand : Nat → Nat → Nat → ℝ) (k i j : Nat) (hk : k < N.length)
    (hi : i < N.getD k 0) (hj : j < ranks.getD k 0) :
    ∃ M, (matrices N ranks rand)[k]? = some M ∧ M.at_ [i, j] = max 0 (rand k i j) := by
  refine ⟨maximum0 (mat (N.getD k 0) (ranks.getD k 0) (rand k)), ?_, ?_⟩
  · simp [matrices, hk]
  · rw [maximum0, at_map]
    · rw [at_mat _ hi hj]
    · exact InB_pair.2 ⟨i, j, rfl, hi, hj⟩

theorem noise_nonneg (N : List Nat) (mx : ℝ) (randn : List Nat → ℝ) (i : List Nat) : 0 ≤ (noiseOf N mx randn).at_ i :=
  at_map_nonneg _ (fun _ => le_max_left _ _) _ _

/-- **C70** (`synthetic_data_cp`): the result has shape `N_list` and is entrywise at least the noise-free
Kruskal tensor of the drawn nonnegative matrices, which is nonnegative. -/
theorem C70_cp (N : List Nat) (R : Nat) (mx : ℝ) (rand : Nat → Nat → Nat → ℝ) (randn : List Nat → ℝ)
    (hne : N ≠ []) (hN : N.length ≤ 25) :
    ∃ X, syntheticDataCp N R mx rand randn = .ok X ∧ X.shape = N ∧
      ∃ (U : List (Tensor ℝ)) (k : KTensor ℝ) (C : Tensor ℝ), ((∀ M ∈ U, ∀ i, 0 ≤ M.at_ i) ∧
          ∀ k M, U[k]? = some M → ∀ i < N.getD k 0, ∀ j < R, M.at_ [i, j] = max 0 (rand k i j)) ∧ AllMat U ∧ rowDims U = N ∧
        (∀ M ∈ U, M.shape.getD 1 0 = R) ∧ KTensor.init .np .float64 U none = .ok k ∧ k.extract = .ok C ∧
        ∀ i, InB N i → 0 ≤ C.at_ i ∧ C.at_ i ≤ X.at_ i ∧ X.at_ i = C.at_ i + max 0 (mx * randn i) := by
  have hU : Factors (matrices N (N.map fun _ => R) rand) R := by
    refine ⟨?_, by simpa [matrices] using hN, matrices_mat _ _ _, ?_⟩
    · simpa [matrices] using hne
    · intro M hM
      obtain ⟨k, hk, rfl⟩ := List.mem_map.1 hM
      have : k < N.length := List.mem_range.1 hk
      simp [maximum0, tf.map, mat, ofFn, this]
  obtain ⟨k, C, hk, hC, hCs, hCe⟩ := C23_extract_entry .np .float64 _ none R hU trivial rfl
  rw [matrices_rows] at hCs hCe
  have hs : C.shape = (noiseOf N mx randn).shape := hCs
  refine ⟨ofFn C.shape fun i => C.at_ i + (noiseOf N mx randn).at_ i, ?_, ?_, _, k, C, ⟨matrices_nonneg N _ rand, fun k M hM i hi j hj => ?_⟩, matrices_mat _ _ _, matrices_rows _ _ _, hU.2.2.2, hk, hC, fun i hi => ?_⟩
  · unfold syntheticDataCp
    rw [hk]
    simp only [bind, Except.bind]
    rw [hC]
    exact tf.ewise_same _ hs
  · exact hCs
  · have hk : k < N.length := by have := (List.getElem?_eq_some_iff.1 hM).1; simpa [matrices] using this
    obtain ⟨M', h1, h2⟩ := matrices_entry N (N.map fun _ => R) rand k i j hk hi (by simpa [hk] using hj)
    rw [hM] at h1; cases h1; exact h2
  · rw [at_ofFn _ (by rw [hCs]; exact hi)]
    have h0 : 0 ≤ C.at_ i := by
      rw [hCe i hi]
      exact Finset.sum_nonneg fun r _ => by
        rw [weight, one_mul]; exact khatriEntry_nonneg r _ (matrices_nonneg N _ rand) i
    have hn := noise_nonneg N mx randn i
    refine ⟨h0, by linarith, ?_⟩
    rw [noiseOf, maximum0, at_map _ _ hi, at_map _ _ hi, at_ofFn _ hi]

/-- **C70** (`synthetic_data_tucker`). -/
theorem C70_tucker (N ranks : List Nat) (mx : ℝ) (randG : List Nat → ℝ) (rand : Nat → Nat → Nat → ℝ)
    (randn : List Nat → ℝ) (hne : N ≠ []) (hN : N.length ≤ 13) (hr : ranks.length = N.length) :
    ∃ X, syntheticDataTucker N ranks mx randG rand randn = .ok X ∧ X.shape = N ∧
      ∃ (G : Tensor ℝ) (U : List (Tensor ℝ)) (t : TTensor ℝ) (C : Tensor ℝ), ((∀ i, 0 ≤ G.at_ i) ∧
          ∀ i, InB ranks i → G.at_ i = max 0 (randG i)) ∧
        ((∀ M ∈ U, ∀ i, 0 ≤ M.at_ i) ∧ ∀ k M, U[k]? = some M → ∀ i < N.getD k 0, ∀ j < ranks.getD k 0,
          M.at_ [i, j] = max 0 (rand k i j)) ∧ AllMat U ∧ G.shape = ranks ∧ rowDims U = N ∧ colDims U = ranks ∧
        TTensor.init G .float64 U .float64 = .ok t ∧ t.extract = .ok C ∧
        ∀ i, InB N i → 0 ≤ C.at_ i ∧ C.at_ i ≤ X.at_ i ∧ X.at_ i = C.at_ i + max 0 (mx * randn i) := by
  have hUne : matrices N ranks rand ≠ [] := by simpa [matrices] using hne
  obtain ⟨t, C, ht, hC, hCs, hCe⟩ := C27_extract_entry (maximum0 (ofFn ranks randG)) .float64 (matrices N ranks rand)
    hUne (by simpa [matrices] using hN) (matrices_mat _ _ _) (matrices_cols N ranks hr rand).symm
  rw [matrices_rows] at hCs hCe
  have hs : C.shape = (noiseOf N mx randn).shape := hCs
  have hG : ∀ i, 0 ≤ (maximum0 (ofFn ranks randG)).at_ i := at_map_nonneg _ (fun _ => le_max_left _ _) _
  refine ⟨ofFn C.shape fun i => C.at_ i + (noiseOf N mx randn).at_ i, ?_, ?_, _, _, t, C, ⟨hG, fun i hi => ?_⟩,
    ⟨matrices_nonneg N ranks rand, fun k M hM i hi j hj => ?_⟩, matrices_mat _ _ _, rfl, matrices_rows _ _ _,
    matrices_cols N ranks hr rand, ht, hC, fun i hi => ?_⟩
  · unfold syntheticDataTucker
    simp only [bind, Except.bind]
    rw [ht]
    simp only []
    rw [hC]
    exact tf.ewise_same _ hs
  · exact hCs
  · rw [maximum0, at_map _ _ hi, at_ofFn _ hi]
  · have hk : k < N.length := by have := (List.getElem?_eq_some_iff.1 hM).1; simpa [matrices] using this
    obtain ⟨M', h1, h2⟩ := matrices_entry N ranks rand k i j hk hi hj
    rw [hM] at h1; cases h1; exact h2
  · rw [at_ofFn _ (by rw [hCs]; exact hi)]
    have h0 : 0 ≤ C.at_ i := by
      rw [hCe i hi]
      exact boxSum_nonneg _ _ fun j => mul_nonneg (hG j) (kronEntry_nonneg _ (matrices_nonneg N ranks rand) i j)
    have hn := noise_nonneg N mx randn i
    refine ⟨h0, by linarith, ?_⟩
    rw [noiseOf, maximum0, at_map _ _ hi, at_map _ _ hi, at_ofFn _ hi]

example : ([3, 4, 2] : List Nat) ≠ [] ∧ [3, 4, 2].length ≤ 13 ∧ [2, 2, 1].length = [3, 4, 2].length := by decide

end TD.Props
