import Verif.Spec.Synthetic
import Verif.Props.Data
import Verif.Props.LowRank

/-!
# C104 : decomposing synthetic data recovers it up to the noise
-/
namespace TD.Props
open TD Spec Tensor fact DataGenerator

theorem boxSum_diag (r R : Nat) (hr : r < R) : ∀ (n : Nat) (F : List Nat → ℝ),
    boxSum (List.replicate n R) (fun j => (if ∀ a ∈ j, a = r then 1 else 0) * F j) = F (List.replicate n r)
  | 0, F => by simp [boxSum]
  | n + 1, F => by
      have e : ∀ i, boxSum (List.replicate n R) (fun j => (if ∀ a ∈ i :: j, a = r then (1 : ℝ) else 0) * F (i :: j)) =
          if i = r then F (i :: List.replicate n r) else 0 := by
        intro i
        by_cases hi : i = r
        · rw [if_pos hi]
          rw [← boxSum_diag r R hr n (fun j => F (i :: j))]
          refine boxSum_congr fun j _ => ?_
          simp [hi]
        · rw [boxSum_congr (g := fun _ => (0 : ℝ)) (fun j _ => by simp [hi]), boxSum_zero, if_neg hi]
      show ∑ i ∈ Finset.range R, _ = _
      rw [Finset.sum_congr rfl fun i _ => e i, Finset.sum_ite_eq', if_pos (Finset.mem_range.2 hr)]
      rfl

theorem kronEntry_replicate (r : Nat) : ∀ (U : List (Tensor ℝ)) (i : List Nat), i.length = U.length →
    kronEntry U i (List.replicate U.length r) = khatriEntry r U i
  | [], _, _ => by simp [kronEntry, khatriEntry]
  | M :: U, [], h => by simp at h
  | M :: U, a :: i, h => by
      rw [List.length_cons, List.replicate_succ, kronEntry, khatriEntry, kronEntry_replicate r U i (by simpa using h)]

/-- A Kruskal tensor is a Tucker tensor with a diagonal core. -/
theorem tuckerRank_kruskal {shape ranks : List Nat} {R : Nat} {U : List (Tensor ℝ)} {C : Tensor ℝ}
    (hU : U.map Tensor.shape = shape.map fun d => [d, R]) (hC : C.shape = shape) (hne : shape ≠ [])
    (he : ∀ i, InB shape i → C.at_ i = ∑ r ∈ Finset.range R, khatriEntry r U i)
    (hr : ∀ k < shape.length, R ≤ ranks.getD k 0) : TuckerRankLe shape ranks C := by
  have hl : U.length = shape.length := by simpa using congrArg List.length hU
  have hgd : ∀ k < shape.length, (List.replicate shape.length R).getD k 0 = R := fun k hk => by
    rw [List.getD_eq_getElem _ _ (by simpa using hk), List.getElem_replicate]
  refine ⟨ofFn (List.replicate shape.length R) fun j => if ∀ a ∈ j, a = j.headD 0 then 1 else 0, U, ?_,
    List.length_replicate, fun k hk => ?_, hC, fun i hi => ?_⟩
  · rw [hU]
    refine List.ext_getElem (by simp) fun k h1 h2 => ?_
    have hk : k < shape.length := by simpa using h1
    simp only [List.getElem_map, List.getElem_range]
    show [shape[k], R] = [_, (List.replicate shape.length R).getD k 0]
    rw [hgd k hk, List.getD_eq_getElem _ _ hk]
  · show (List.replicate shape.length R).getD k 0 ≤ _
    rw [hgd k hk]; exact hr k hk
  · rw [he i hi]
    show _ = boxSum (List.replicate shape.length R) _
    rw [boxSum_congr (g := fun j => (if ∀ a ∈ j, a = j.headD 0 then 1 else 0) * kronEntry U i j)
      (fun j hj => by rw [at_ofFn _ hj])]
    cases shape with
    | nil => exact absurd rfl hne
    | cons d s =>
      rw [List.length_cons, List.replicate_succ]
      show _ = ∑ r ∈ Finset.range R, _
      refine Finset.sum_congr rfl fun r hr' => ?_
      have := boxSum_diag r R (Finset.mem_range.1 hr') s.length (fun j => kronEntry U i (r :: j))
      rw [boxSum_congr (g := fun j => (if ∀ a ∈ j, a = r then 1 else 0) * kronEntry U i (r :: j))
        (fun j _ => by simp), this, ← List.replicate_succ,
        show s.length + 1 = U.length from hl.symm, kronEntry_replicate r U i (by rw [hi.length, hl])]

/-- Data, a low-rank tensor, and the difference. -/
def Noisy (N ranks : List Nat) (mx : ℝ) (randn : List Nat → ℝ) (X : Tensor ℝ) : Prop :=
  X.shape = N ∧ ∃ C, TuckerRankLe N ranks C ∧ distSqT X C = noiseSq N mx randn

theorem noisy_dist {N : List Nat} {mx : ℝ} {randn : List Nat → ℝ} {X C : Tensor ℝ} (hX : X.shape = N)
    (h : ∀ i, InB N i → X.at_ i = C.at_ i + max 0 (mx * randn i)) : distSqT X C = noiseSq N mx randn := by
  unfold distSqT noiseSq
  rw [hX]
  refine boxSum_congr fun i hi => ?_
  rw [h i hi]; ring

theorem synthetic_cp (N ranks : List Nat) (R : Nat) (mx : ℝ) (rand : Nat → Nat → Nat → ℝ) (randn : List Nat → ℝ)
    (hne : N ≠ []) (hN : N.length ≤ 13) (hr : ∀ k < N.length, R ≤ ranks.getD k 0) :
    ∃ X, syntheticDataCp N R mx rand randn = .ok X ∧ Noisy N ranks mx randn X := by
  obtain ⟨X, hX, hXs, U, k, C, -, hm, hrow, hcol, hk, hC, he⟩ := C70_cp N R mx rand randn hne (by omega)
  have hUl : U.length = N.length := by rw [← hrow]; simp [rowDims]
  have hUne : U ≠ [] := by intro e; rw [e] at hUl; exact hne (List.length_eq_zero_iff.1 hUl.symm)
  obtain ⟨k', C', hk', hC', hs, hE⟩ := C23_extract_entry .np .float64 U none R ⟨hUne, by omega, hm, hcol⟩ trivial rfl
  rw [hk] at hk'; cases hk'
  rw [hC] at hC'; cases hC'
  rw [hrow] at hs hE
  refine ⟨X, hX, hXs, C, tuckerRank_kruskal (U := U) (R := R) ?_ hs hne (fun i hi => ?_) hr,
    noisy_dist hXs fun i hi => (he i hi).2.2⟩
  · rw [← hrow, rowDims, List.map_map]
    refine List.map_congr_left fun M hM => ?_
    have h2 := hm M hM
    have h1 := hcol M hM
    match hMs : M.shape, h2 with
    | [a, b], _ => rw [hMs] at h1; simp only [Function.comp, hMs]; simpa using h1
  · rw [hE i hi]
    exact Finset.sum_congr rfl fun r _ => by rw [weight, one_mul]

theorem synthetic_tucker (N gr ranks : List Nat) (mx : ℝ) (randG : List Nat → ℝ) (rand : Nat → Nat → Nat → ℝ)
    (randn : List Nat → ℝ) (hne : N ≠ []) (hN : N.length ≤ 13) (hg : gr.length = N.length)
    (hr : ∀ k < N.length, gr.getD k 0 ≤ ranks.getD k 0) :
    ∃ X, syntheticDataTucker N gr mx randG rand randn = .ok X ∧ Noisy N ranks mx randn X := by
  obtain ⟨X, hX, hXs, G, U, t, C, -, -, hm, hGs, hrow, hcol, ht, hC, he⟩ :=
    C70_tucker N gr mx randG rand randn hne hN hg
  have hUl : U.length = N.length := by rw [← hrow]; simp [rowDims]
  have hUne : U ≠ [] := by intro e; rw [e] at hUl; exact hne (List.length_eq_zero_iff.1 hUl.symm)
  obtain ⟨t', C', ht', hC', hs, hE⟩ := C27_extract_entry G .float64 U hUne (by omega) hm (by rw [hGs, hcol])
  rw [ht] at ht'; cases ht'
  rw [hC] at hC'; cases hC'
  rw [hrow] at hs hE
  refine ⟨X, hX, hXs, C, ⟨G, U, ?_, by rw [hGs, hg], by rw [hGs]; exact hr, hs, hE⟩, noisy_dist hXs fun i hi => (he i hi).2.2⟩
  refine List.ext_getElem (by simp [hUl]) fun k h1 h2 => ?_
  have hk : k < U.length := by simpa using h1
  have a : (rowDims U)[k]? = some (U[k].shape.getD 0 0) := by simp [rowDims, hk]
  have b : (colDims U)[k]? = some (U[k].shape.getD 1 0) := by simp [colDims, hk]
  rw [hrow] at a
  rw [hcol, ← hGs] at b
  simp only [List.getElem_map, List.getElem_range, List.getD_eq_getElem?_getD, a, b]
  have h2 := hm U[k] (List.getElem_mem _)
  match hMs : U[k].shape, h2 with
  | [x, y], _ => simp

/-- **C104** (`HOSVD`): decomposing synthetic CP data, made with rank `R`, with ranks at least `R`: the squared error is at
most `order` times the squared size of the added noise.  For every draw. -/
theorem C104_cp_hosvd (svd : Tensor ℝ → Res (Tensor ℝ × Tensor ℝ × Tensor ℝ)) (hs : SvdOk svd) (N ranks : List Nat) (R : Nat)
    (mx : ℝ) (rand : Nat → Nat → Nat → ℝ) (randn : List Nat → ℝ) (hne : N ≠ []) (hN : N.length ≤ 13)
    (hpos : ∀ d ∈ N, 0 < d) (hl : N.length ≤ ranks.length) (hr : ∀ k < N.length, R ≤ ranks.getD k 0) :
    ∃ X A g Y, syntheticDataCp N R mx rand randn = .ok X ∧ tucker.HOSVD.run svd X ranks = .ok (A, g, Y) ∧ Y.shape = N ∧
      distSqT X Y ≤ N.length * noiseSq N mx randn := by
  obtain ⟨X, hX, hXs, C, hC, hd⟩ := synthetic_cp N ranks R mx rand randn hne hN hr
  subst hXs
  obtain ⟨A, g, Y, e1, e2, e3⟩ := C90_hosvd_quasi_optimal svd hs X ranks (List.length_pos_iff.2 hne) hN hpos hl C hC
  exact ⟨X, A, g, Y, hX, e1, e2, by rw [← hd]; exact e3⟩

/-- **C104** (`HOSVD`) for synthetic Tucker data. -/
theorem C104_tucker_hosvd (svd : Tensor ℝ → Res (Tensor ℝ × Tensor ℝ × Tensor ℝ)) (hs : SvdOk svd) (N gr ranks : List Nat)
    (mx : ℝ) (randG : List Nat → ℝ) (rand : Nat → Nat → Nat → ℝ) (randn : List Nat → ℝ) (hne : N ≠ [])
    (hN : N.length ≤ 13) (hpos : ∀ d ∈ N, 0 < d) (hg : gr.length = N.length) (hl : N.length ≤ ranks.length)
    (hr : ∀ k < N.length, gr.getD k 0 ≤ ranks.getD k 0) :
    ∃ X A g Y, syntheticDataTucker N gr mx randG rand randn = .ok X ∧ tucker.HOSVD.run svd X ranks = .ok (A, g, Y) ∧
      Y.shape = N ∧ distSqT X Y ≤ N.length * noiseSq N mx randn := by
  obtain ⟨X, hX, hXs, C, hC, hd⟩ := synthetic_tucker N gr ranks mx randG rand randn hne hN hg hr
  subst hXs
  obtain ⟨A, g, Y, e1, e2, e3⟩ := C90_hosvd_quasi_optimal svd hs X ranks (List.length_pos_iff.2 hne) hN hpos hl C hC
  exact ⟨X, A, g, Y, hX, e1, e2, by rw [← hd]; exact e3⟩

/-- **C104** (`HOOI`): every residual in the history of a training on synthetic CP data. -/
theorem C104_cp_hooi (svd : Tensor ℝ → Res (Tensor ℝ × Tensor ℝ × Tensor ℝ)) (hs : SvdOk svd) (N ranks : List Nat) (R : Nat)
    (mx : ℝ) (rand : Nat → Nat → Nat → ℝ) (randn : List Nat → ℝ) (h2 : 2 ≤ N.length) (hN : N.length ≤ 13)
    (hpos : ∀ d ∈ N, 0 < d) (hl : N.length ≤ ranks.length) (hr : ∀ k < N.length, R ≤ ranks.getD k 0) :
    ∃ X, syntheticDataCp N R mx rand randn = .ok X ∧
      ∀ (Ar : Arith ℝ) (args : Args ℝ) (steps : Int) (self self' : Self (List (Tensor ℝ)) (Tensor ℝ) (Tensor ℝ))
        (ev : List Int) (hist : List (ℝ × ℝ)),
        train Ar (HOOI.cls (tucker.HOOI.main svd X ranks)) args steps (tucker.HOOI.init svd X ranks) self =
          (self', ev, .ok hist) →
        ∀ p ∈ hist, p.2 ^ 2 * normSqT X ≤ N.length * noiseSq N mx randn := by
  obtain ⟨X, hX, hXs, C, hC, hd⟩ := synthetic_cp N ranks R mx rand randn (by intro e; rw [e] at h2; simp at h2) hN hr
  subst hXs
  refine ⟨X, hX, fun Ar args steps self self' ev hist h => ?_⟩
  rw [← hd]
  exact C90_hooi_quasi_optimal svd hs X ranks h2 hN hpos hl C hC Ar args steps self self' ev hist h

/-- **C104** (`HOOI`) for synthetic Tucker data, the experiment of `ex/tucker_ex.py`. -/
theorem C104_tucker_hooi (svd : Tensor ℝ → Res (Tensor ℝ × Tensor ℝ × Tensor ℝ)) (hs : SvdOk svd) (N gr ranks : List Nat)
    (mx : ℝ) (randG : List Nat → ℝ) (rand : Nat → Nat → Nat → ℝ) (randn : List Nat → ℝ) (h2 : 2 ≤ N.length)
    (hN : N.length ≤ 13) (hpos : ∀ d ∈ N, 0 < d) (hg : gr.length = N.length) (hl : N.length ≤ ranks.length)
    (hr : ∀ k < N.length, gr.getD k 0 ≤ ranks.getD k 0) :
    ∃ X, syntheticDataTucker N gr mx randG rand randn = .ok X ∧
      ∀ (Ar : Arith ℝ) (args : Args ℝ) (steps : Int) (self self' : Self (List (Tensor ℝ)) (Tensor ℝ) (Tensor ℝ))
        (ev : List Int) (hist : List (ℝ × ℝ)),
        train Ar (HOOI.cls (tucker.HOOI.main svd X ranks)) args steps (tucker.HOOI.init svd X ranks) self =
          (self', ev, .ok hist) →
        ∀ p ∈ hist, p.2 ^ 2 * normSqT X ≤ N.length * noiseSq N mx randn := by
  obtain ⟨X, hX, hXs, C, hC, hd⟩ := synthetic_tucker N gr ranks mx randG rand randn
    (by intro e; rw [e] at h2; simp at h2) hN hg hr
  subst hXs
  refine ⟨X, hX, fun Ar args steps self self' ev hist h => ?_⟩
  rw [← hd]
  exact C90_hooi_quasi_optimal svd hs X ranks h2 hN hpos hl C hC Ar args steps self self' ev hist h

/-- Without noise the bound is 0: the data is reproduced exactly. -/
theorem C104_noise_free (N : List Nat) (randn : List Nat → ℝ) : noiseSq N 0 randn = 0 := by
  unfold noiseSq
  rw [boxSum_congr (g := fun _ => (0 : ℝ)) (fun i _ => by simp), boxSum_zero]

/-- The hypotheses are met by the experiment of `ex/tucker_ex.py` with sizes 4, 5, 6, generator rank 2 and ranks 3. -/
example : 2 ≤ [4, 5, 6].length ∧ [4, 5, 6].length ≤ 13 ∧ (∀ d ∈ [4, 5, 6], 0 < d) ∧ [2, 2, 2].length = [4, 5, 6].length ∧
    ∀ k < [4, 5, 6].length, [2, 2, 2].getD k 0 ≤ [3, 3, 3].getD k 0 := by decide

end TD.Props
