import Verif.Lemmas.PowerLimit
import Verif.Props.AlsOneLimit

/-!
# C165 : on a matrix, one-component training converges to a best rank-one approximation
-/
namespace TD.Props
open TD Spec Tensor tf ops fact bcu Filter Topology Matrix

/-- **C165** (CP): without stopping test, the reconstructions stored by the trainings with 1, 2, 3, … steps on a matrix converge,
and no outer product of two vectors is closer to the matrix than their limit, provided the initial vector of the columns is not
orthogonal to all leading directions of the matrix. -/
theorem C165_cp (pinv : Tensor ℝ → Res (Tensor ℝ)) (hp : PinvOk pinv) (X : Tensor ℝ) (A0 : List (Tensor ℝ))
    (hA : FactorsFor X.shape 1 A0) (h2 : X.order = 2) (hpos : ∀ d ∈ X.shape, 0 < d) (hs : SeesLeading X (firstCol A0 1))
    (args : Args ℝ) (ht : args.tol ≤ 0) (self : Self (List (Tensor ℝ)) (Tensor ℝ) (Tensor ℝ))
    (self' : Nat → Self (List (Tensor ℝ)) (Tensor ℝ) (Tensor ℝ)) (ev : Nat → List Int) (hist : Nat → List (ℝ × ℝ))
    (h : ∀ n : Nat, train (exactArith ℝ) (CP_ALS.cls (cp.main pinv X 1)) args ((n : Int) + 1) (.ok A0) self =
      (self' n, ev n, .ok (hist n))) :
    ∃ (Y : Nat → Tensor ℝ) (L : Tensor ℝ), (∀ n, (self' n).full = some (Y n)) ∧ Approaches Y L ∧ BestOuter X L := by
  obtain ⟨m, n, hX⟩ := List.length_eq_two.1 h2
  obtain ⟨L, hL, hY⟩ := alsOne_power hX hs
  refine ⟨_, L, fun n => ?_, hY, hL⟩
  exact last_full (all_steps (X := X) (fun _ _ _ hm => (cp_main_inv hm).choose_spec.2.2.2) ht (h n))
    (C126_cp pinv hp X A0 hA (by omega) (by omega) hpos _ args _ self _ _ _ (h n)).2

/-- **C165** (NCP), for nonnegative data and draws. -/
theorem C165_ncp (topSv : Tensor ℝ → Res ℝ) (ht : TopSvOk topSv) (X : Tensor ℝ) (draws : List (Tensor ℝ)) (s0 : State)
    (hd : FactorsFor X.shape 1 draws) (hdn : ∀ d ∈ draws, Nonneg d) (hi : bcu.init X X.order draws = .ok s0)
    (h2 : X.order = 2) (hpos : ∀ d ∈ X.shape, 0 < d) (hX : ∀ i, InB X.shape i → 0 ≤ X.at_ i)
    (hs : SeesLeading X (firstCol draws 1))
    (args : Args ℝ) (htol : args.tol ≤ 0) (self : Self (List (Tensor ℝ)) (Tensor ℝ) (Tensor ℝ))
    (self' : Nat → Self (List (Tensor ℝ)) (Tensor ℝ) (Tensor ℝ)) (ev : Nat → List Int) (hist : Nat → List (ℝ × ℝ))
    (h : ∀ n : Nat, train (exactArith ℝ) (NCP.cls topSv X 1) args ((n : Int) + 1) (.ok s0) self =
      (self' n, ev n, .ok (hist n))) :
    ∃ (Y : Nat → Tensor ℝ) (L : Tensor ℝ), (∀ n, (self' n).full = some (Y n)) ∧ Approaches Y L ∧ BestOuter X L := by
  obtain ⟨m, n, hS⟩ := List.length_eq_two.1 h2
  obtain ⟨L, hL, hY⟩ := alsOne_power hS hs
  refine ⟨_, L, fun n => ?_, hY, hL⟩
  exact last_full (all_steps (X := X) (fun _ _ _ hm => (NCP.main_inv hm).choose_spec.2.2.2.2.2) htol (h n))
    (C126_ncp topSv ht X draws s0 hd hdn hi (by omega) (by omega) hpos hX _ args _ self _ _ _ (h n)).2

/-- **C165** (NTUCKER), for nonnegative data and draws. -/
theorem C165_ntucker (topSv : Tensor ℝ → Res ℝ) (ht : TopSvOk topSv) (X : Tensor ℝ) (draws : List (Tensor ℝ))
    (gdraw : Tensor ℝ) (s0 : TState) (hd : FactorsFor X.shape 1 draws) (hdn : ∀ d ∈ draws, Nonneg d)
    (hg : gdraw.shape = List.replicate X.shape.length 1) (hi : NTUCKER.init X draws gdraw = .ok s0)
    (h2 : X.order = 2) (hpos : ∀ d ∈ X.shape, 0 < d) (hX : ∀ i, InB X.shape i → 0 ≤ X.at_ i)
    (hs : SeesLeading X (firstCol draws 1))
    (args : Args ℝ) (htol : args.tol ≤ 0) (self : Self (List (Tensor ℝ)) (Tensor ℝ) (Tensor ℝ))
    (self' : Nat → Self (List (Tensor ℝ)) (Tensor ℝ) (Tensor ℝ)) (ev : Nat → List Int) (hist : Nat → List (ℝ × ℝ))
    (h : ∀ n : Nat, train (exactArith ℝ) (NTUCKER.cls topSv X) args ((n : Int) + 1) (.ok s0) self =
      (self' n, ev n, .ok (hist n))) :
    ∃ (Y : Nat → Tensor ℝ) (L : Tensor ℝ), (∀ n, (self' n).full = some (Y n)) ∧ Approaches Y L ∧ BestOuter X L := by
  obtain ⟨m, n, hS⟩ := List.length_eq_two.1 h2
  obtain ⟨L, hL, hY⟩ := alsOne_power hS hs
  refine ⟨_, L, fun n => ?_, hY, hL⟩
  exact last_full (all_steps (X := X) (fun _ _ _ hm => (NTUCKER.main_inv hm).choose_spec.2.2.2.2.2) htol (h n))
    (C126_ntucker topSv ht X draws gdraw s0 hd hdn hg hi (by omega) (by omega) hpos hX _ args _ self _ _ _ (h n)).2

/-- Positive draws see a leading direction of any nonnegative matrix. -/
theorem sees_positive {X : Tensor ℝ} {A0 : List (Tensor ℝ)} (hA : FactorsFor X.shape 1 A0)
    (hA0 : ∀ M ∈ A0, ∀ i < M.shape.getD 0 0, 0 < M.at_ [i, 0]) (h2 : X.order = 2) (hpos : ∀ d ∈ X.shape, 0 < d)
    (hX : ∀ i, InB X.shape i → 0 ≤ X.at_ i) : SeesLeading X (firstCol A0 1) := by
  obtain ⟨m, n, hS⟩ := List.length_eq_two.1 h2
  refine seesLeading_pos hS (hpos n (by simp [hS])) hX fun b hb => ?_
  have hl : A0.length = 2 := by rw [hA.length]; exact h2
  have hk : A0[1]? = some A0[1] := List.getElem?_eq_getElem (by omega)
  have hsh := hA.get hk
  unfold firstCol
  rw [hk]
  refine hA0 _ (List.getElem_mem _) b ?_
  rw [hsh, hS]
  exact hb

/-- **C165** (CP, positive): on a positive matrix with positive initial vectors every training returns, and the reconstructions
converge to a best rank-one approximation. -/
theorem C165_cp_positive (pinv : Tensor ℝ → Res (Tensor ℝ)) (hp : PinvOk pinv) (X : Tensor ℝ) (A0 : List (Tensor ℝ))
    (hA : FactorsFor X.shape 1 A0) (hA0 : ∀ M ∈ A0, ∀ i < M.shape.getD 0 0, 0 < M.at_ [i, 0]) (h2 : X.order = 2)
    (hpos : ∀ d ∈ X.shape, 0 < d) (hX : ∀ i, InB X.shape i → 0 < X.at_ i) (args : Args ℝ) (ht : args.tol ≤ 0)
    (hv : args.validationInternal ≠ 0) (self : Self (List (Tensor ℝ)) (Tensor ℝ) (Tensor ℝ)) :
    ∃ (Y : Nat → Tensor ℝ) (L : Tensor ℝ), (∀ n : Nat,
      (∃ hist, (train (exactArith ℝ) (CP_ALS.cls (cp.main pinv X 1)) args ((n : Int) + 1) (.ok A0) self).2.2 = .ok hist) ∧
      (train (exactArith ℝ) (CP_ALS.cls (cp.main pinv X 1)) args ((n : Int) + 1) (.ok A0) self).1.full = some (Y n)) ∧
      Approaches Y L ∧ BestOuter X L := by
  have hr := fun n : Nat => C73_rank_one_positive pinv hp X A0 hA hA0 (by omega) (by omega) hpos hX (exactArith ℝ) args hv
    ((n : Int) + 1) (by omega) self
  choose hist hr using hr
  obtain ⟨Y, L, h1, h3⟩ := C165_cp pinv hp X A0 hA h2 hpos (sees_positive hA hA0 h2 hpos fun i hi => (hX i hi).le) args ht self
    (fun n => (train (exactArith ℝ) (CP_ALS.cls (cp.main pinv X 1)) args ((n : Int) + 1) (.ok A0) self).1)
    (fun n => (train (exactArith ℝ) (CP_ALS.cls (cp.main pinv X 1)) args ((n : Int) + 1) (.ok A0) self).2.1) hist
    fun n => Prod.ext rfl (Prod.ext rfl (hr n))
  exact ⟨Y, L, fun n => ⟨⟨hist n, hr n⟩, h1 n⟩, h3⟩

/-- **C165** (NCP, positive): on a positive matrix with positive draws every training returns, and the reconstructions converge
to a best rank-one approximation. -/
theorem C165_ncp_positive (topSv : Tensor ℝ → Res ℝ) (ht : TopSvOk topSv) (X : Tensor ℝ) (draws : List (Tensor ℝ))
    (hd : FactorsFor X.shape 1 draws) (hdp : ∀ M ∈ draws, ∀ i < M.shape.getD 0 0, 0 < M.at_ [i, 0]) (h2 : X.order = 2)
    (hpos : ∀ d ∈ X.shape, 0 < d) (hX : ∀ i, InB X.shape i → 0 < X.at_ i) (args : Args ℝ) (htol : args.tol ≤ 0)
    (hv : args.validationInternal ≠ 0) (self : Self (List (Tensor ℝ)) (Tensor ℝ) (Tensor ℝ)) :
    ∃ (s0 : State) (Y : Nat → Tensor ℝ) (L : Tensor ℝ), bcu.init X X.order draws = .ok s0 ∧ (∀ n : Nat,
      (∃ hist, (train (exactArith ℝ) (NCP.cls topSv X 1) args ((n : Int) + 1) (.ok s0) self).2.2 = .ok hist) ∧
      (train (exactArith ℝ) (NCP.cls topSv X 1) args ((n : Int) + 1) (.ok s0) self).1.full = some (Y n)) ∧
      Approaches Y L ∧ BestOuter X L := by
  have hr := fun n : Nat => C127_positive topSv ht X draws hd hdp (by omega) (by omega) hpos hX (exactArith ℝ) args hv
    ((n : Int) + 1) (by omega) self
  choose s hist h0 hr using hr
  have hs : ∀ n, s n = s 0 := fun n => Except.ok.inj ((h0 n).symm.trans (h0 0))
  simp only [hs] at hr
  have hnn : ∀ M ∈ draws, Nonneg M := fun M hM => by
    obtain ⟨k, hk⟩ := List.getElem?_of_mem hM
    have hsh := hd.get hk
    refine nonneg_of_at fun i hi => ?_
    rw [hsh] at hi
    obtain ⟨a, b, rfl, ha, hb⟩ := InB_pair.1 hi
    obtain rfl : b = 0 := by omega
    exact (hdp M hM a (by rw [hsh]; exact ha)).le
  obtain ⟨Y, L, h1, h3⟩ := C165_ncp topSv ht X draws (s 0) hd hnn (h0 0) h2 hpos (fun i hi => (hX i hi).le)
    (sees_positive hd hdp h2 hpos fun i hi => (hX i hi).le) args htol self
    (fun n => (train (exactArith ℝ) (NCP.cls topSv X 1) args ((n : Int) + 1) (.ok (s 0)) self).1)
    (fun n => (train (exactArith ℝ) (NCP.cls topSv X 1) args ((n : Int) + 1) (.ok (s 0)) self).2.1) hist
    fun n => Prod.ext rfl (Prod.ext rfl (hr n))
  exact ⟨s 0, Y, L, h0 0, fun n => ⟨⟨hist n, hr n⟩, h1 n⟩, h3⟩

/-! ### The condition on the initial vector is needed -/

/-- The matrix with diagonal 2, 1. -/
noncomputable def diag21 : Tensor ℝ := ⟨[2, 2], [2, 0, 0, 1], rfl⟩

/-- **C165** (the condition is needed): on the matrix with diagonal 2, 1 every training of `CP_ALS` that starts with a multiple of the second
unit vector in the columns and returns stores a reconstruction that is not a best rank-one approximation, however many steps it makes. -/
theorem C165_needed (pinv : Tensor ℝ → Res (Tensor ℝ)) (hp : PinvOk pinv) (A0 : List (Tensor ℝ)) (hA : FactorsFor [2, 2] 1 A0)
    (h10 : firstCol A0 1 0 = 0) (h11 : firstCol A0 1 1 ≠ 0) (Ar : Arith ℝ)
    (args : Args ℝ) (steps : Int) (self self' : Self (List (Tensor ℝ)) (Tensor ℝ) (Tensor ℝ)) (ev : List Int)
    (hist : List (ℝ × ℝ))
    (h : train Ar (CP_ALS.cls (cp.main pinv diag21 1)) args steps (.ok A0) self = (self', ev, .ok hist)) :
    ∃ Y, self'.full = some Y ∧ ¬ BestOuter diag21 Y := by
  obtain ⟨-, p, -, -, -, hf⟩ := C126_cp pinv hp diag21 A0 hA (le_refl 2) (by decide) (by simp [diag21]) Ar args steps self self' ev hist h
  refine ⟨_, hf, fun hb => ?_⟩
  have hM : matX diag21 2 2 = !![2, 0; 0, 1] := by
    ext a b
    fin_cases a <;> fin_cases b <;> rfl
  set c := firstCol A0 1 1 with hc
  have hstep : ∀ v : Nat → Nat → ℝ, v 1 0 = 0 → v 1 1 = c → refitAll diag21 v 0 0 = 0 ∧ refitAll diag21 v 0 1 = c⁻¹ ∧
      refitAll diag21 v 1 0 = 0 ∧ refitAll diag21 v 1 1 = c := by
    intro v h0 h1
    obtain ⟨g0, g1⟩ := refitAll_two (X := diag21) (m := 2) (n := 2) rfl v ![0, c] (by
      intro b; fin_cases b
      · exact h0
      · exact h1)
    have hA : (matX diag21 2 2).mulVec ![0, c] = ![0, c] := by
      rw [hM]; ext a; fin_cases a <;> simp
    have hM2 : ((matX diag21 2 2).transpose * matX diag21 2 2).mulVec ![0, c] = ![0, c] := by
      rw [← Matrix.mulVec_mulVec, hA, hM]; ext a; fin_cases a <;> simp [Matrix.mulVec, dotProduct, Matrix.transpose]
    rw [hA] at g0 g1
    rw [hM2] at g1
    have hd : (![0, c] : Fin 2 → ℝ) ⬝ᵥ ![0, c] = c * c := by simp
    rw [hd] at g0 g1
    refine ⟨(g0 0).trans (by simp), (g0 1).trans ?_, (g1 0).trans (by simp), (g1 1).trans ?_⟩
    · show c / (c * c) = c⁻¹
      field_simp
    · show c * c / (c * c) * c = c
      field_simp
  have hall : ∀ j : Nat, (refitAll diag21)^[j] (firstCol A0) 1 0 = 0 ∧ (refitAll diag21)^[j] (firstCol A0) 1 1 = c := by
    intro j
    induction j with
    | zero => exact ⟨h10, rfl⟩
    | succ j ih =>
      rw [Function.iterate_succ_apply']
      exact (hstep _ ih.1 ih.2).2.2
  obtain ⟨a, b, c', d⟩ := hstep _ (hall p).1 (hall p).2
  have hbest := hb.2.2 fun k a => if a = 0 then (if k = 0 then 2 else 1) else 0
  rw [distSqT_alsOne, Function.iterate_succ_apply'] at hbest
  have e1 : oneErr diag21 (refitAll diag21 ((refitAll diag21)^[p] (firstCol A0))) = 4 := by
    unfold oneErr
    show boxSum [2, 2] _ = _
    rw [boxSum_pair]
    simp only [Finset.sum_range_succ, Finset.sum_range_zero, show diag21.order = 2 from rfl, outerEntry_two, a, b, c', d]
    show 0 + (0 + ((2 : ℝ) - _) ^ 2 + ((0 : ℝ) - _) ^ 2) + (0 + ((0 : ℝ) - _) ^ 2 + ((1 : ℝ) - _) ^ 2) = 4
    rw [inv_mul_cancel₀ h11]
    norm_num
  have e2 : boxSum diag21.shape (fun i => (diag21.at_ i -
      outerEntry diag21.order (fun k a => if a = 0 then (if k = 0 then 2 else 1) else 0) i) ^ 2) = 1 := by
    show boxSum [2, 2] _ = _
    rw [boxSum_pair]
    simp only [Finset.sum_range_succ, Finset.sum_range_zero, show diag21.order = 2 from rfl, outerEntry_two]
    show 0 + (0 + ((2 : ℝ) - _) ^ 2 + ((0 : ℝ) - _) ^ 2) + (0 + ((0 : ℝ) - _) ^ 2 + ((1 : ℝ) - _) ^ 2) = 1
    norm_num
  rw [e1, e2] at hbest
  norm_num at hbest

end TD.Props
