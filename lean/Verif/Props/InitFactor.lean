import Verif.Lemmas.InitFactor
import Verif.Props.Cp

/-!
# C121: what the initial factors of `CP_ALS` mean for the training

The first update of the alternating least squares replaces the factor of the first mode by the solution of a problem that
does not mention it, and the normalization of every update removes the scale of the columns.  So the initial factor of mode 0
has no influence at all, and a positive rescaling of the columns of the other initial factors has none either, as long as the
least-squares problems of the first step have one solution.
-/
namespace TD.Props
open TD Spec Tensor tf ops fact

/-- **C121**: two trainings whose initial factors differ at most in mode 0 are the same training: same history or same
error, same reports, same object afterwards.  For every tensor, every rank, every pseudo-inverse routine. -/
theorem C121_first (pinv : Tensor ℝ → Res (Tensor ℝ)) (X : Tensor ℝ) (R : Nat) (h2 : 2 ≤ X.order) (h25 : X.order ≤ 25)
    (U0 U0' : Tensor ℝ) (U : List (Tensor ℝ)) (hU : FactorsFor X.shape R (U0 :: U)) (hU' : FactorsFor X.shape R (U0' :: U))
    (A : Arith ℝ) (args : Args ℝ) (steps : Int) (self : Self (List (Tensor ℝ)) (Tensor ℝ) (Tensor ℝ)) :
    train A (CP_ALS.cls (cp.main pinv X R)) args steps (.ok (U0 :: U)) self =
      train A (CP_ALS.cls (cp.main pinv X R)) args steps (.ok (U0' :: U)) self := by
  refine fact.train_start rfl ?_ args steps self
  change cp.main pinv X R _ = cp.main pinv X R _
  unfold cp.main
  rw [cp.sweep_first hU hU' rfl h2 h25]

/-- **C121**: the same for initial factors that differ in mode 0 and by positive factors on the columns of the other modes,
when the least-squares problem of every mode of the first step has one solution: the rank-one tensors made of the factors
already updated (`F`) and of the initial ones still to be updated are linearly independent. -/
theorem C121_scaled (pinv : Tensor ℝ → Res (Tensor ℝ)) (hp : PinvOk pinv) (X : Tensor ℝ) (R : Nat) (h2 : 2 ≤ X.order)
    (h25 : X.order ≤ 25) (hpos : ∀ d ∈ X.shape, 0 < d) (U U' : List (Tensor ℝ)) (hU : FactorsFor X.shape R U)
    (hU' : FactorsFor X.shape R U') (hs : List.Forall₂ ScaledColumns (U.drop 1) (U'.drop 1)) (F : List (Tensor ℝ))
    (out : Out (List (Tensor ℝ)) (Tensor ℝ) (Tensor ℝ) ℝ) (h : cp.main pinv X R U = .ok (F, out))
    (hi : ∀ n < X.order, Independent (X.shape.eraseIdx n) R ((F.take n ++ U.drop n).eraseIdx n))
    (A : Arith ℝ) (args : Args ℝ) (steps : Int) (self : Self (List (Tensor ℝ)) (Tensor ℝ) (Tensor ℝ)) :
    train A (CP_ALS.cls (cp.main pinv X R)) args steps (.ok U') self =
      train A (CP_ALS.cls (cp.main pinv X R)) args steps (.ok U) self := by
  refine fact.train_start rfl ?_ args steps self
  change cp.main pinv X R _ = cp.main pinv X R _
  obtain ⟨lam, hl, -⟩ := cp.main_ok hp hU h2 h25 hpos h
  unfold cp.main
  rw [hl, cp.sweep_scaled hp hU hU' hs h2 h25 hpos hl hi]

/-- **C121** for rank 1, positive data and positive initial factors (as the random initialization of the code draws them
almost surely): no further assumption is left. -/
theorem C121_rank_one (pinv : Tensor ℝ → Res (Tensor ℝ)) (hp : PinvOk pinv) (X : Tensor ℝ) (h2 : 2 ≤ X.order)
    (h25 : X.order ≤ 25) (hpos : ∀ d ∈ X.shape, 0 < d) (hX : ∀ i, InB X.shape i → 0 < X.at_ i)
    (U U' : List (Tensor ℝ)) (hU : FactorsFor X.shape 1 U) (hU0 : ∀ M ∈ U, ∀ i < M.shape.getD 0 0, 0 < M.at_ [i, 0])
    (hU' : FactorsFor X.shape 1 U') (hs : List.Forall₂ ScaledColumns (U.drop 1) (U'.drop 1))
    (A : Arith ℝ) (args : Args ℝ) (steps : Int) (self : Self (List (Tensor ℝ)) (Tensor ℝ) (Tensor ℝ)) :
    train A (CP_ALS.cls (cp.main pinv X 1)) args steps (.ok U') self =
      train A (CP_ALS.cls (cp.main pinv X 1)) args steps (.ok U) self := by
  have hI : cp.PosFactors X.shape 1 U := ⟨hU, fun M hM i hi r hr => by
    obtain rfl : r = 0 := by omega
    exact hU0 M hM i hi⟩
  refine fact.train_start rfl ?_ args steps self
  change cp.main pinv X 1 _ = cp.main pinv X 1 _
  obtain ⟨F, lam, h1, h3⟩ := cp.sweep_pos hp hI h2 h25 hpos hX
  unfold cp.main
  rw [h1, cp.sweep_scaled hp hU hU' hs h2 h25 hpos h1 fun n hn => ?_]
  have hpf : cp.PosFactors X.shape 1 (F.take n ++ U.drop n) := by
    refine ⟨?_, fun M hM => ?_⟩
    · change List.map _ _ = _
      rw [List.map_append, List.map_take, List.map_drop, show F.map Tensor.shape = _ from h3.1,
        show U.map Tensor.shape = _ from hU, List.take_append_drop]
    · rcases List.mem_append.1 hM with h | h
      · exact h3.2 M (List.mem_of_mem_take h)
      · exact hI.2 M (List.mem_of_mem_drop h)
  intro c hc r hr
  obtain rfl : r = 0 := by omega
  have hz := InB_eraseIdx (unravel_inB (s := X.shape) (k := 0) (List.prod_pos hpos)) n
  have hk : 0 < khatriEntry 0 ((F.take n ++ U.drop n).eraseIdx n) ((unravel X.shape 0).eraseIdx n) := by
    refine cp.khatriEntry_pos (fun M hM i hi => hpf.2 M (List.mem_of_mem_eraseIdx hM) i hi 0 (by omega)) ?_
    rw [rowDims_eraseIdx, hpf.1.rowDims]
    exact hz
  have := hc _ hz
  rw [Finset.sum_range_one] at this
  exact (mul_eq_zero.1 this).resolve_right hk.ne'

/-- Rescaled columns: `[[1,2],[3,4]]` and `[[2,20],[6,40]]`; the first factor may be anything. -/
example : List.Forall₂ ScaledColumns ([mat 2 2 fun _ _ => 0, mat 2 2 fun i r => 2 * (i : ℝ) + r + 1].drop 1)
    ([mat 2 2 fun _ _ => 7, mat 2 2 fun i r => (if r = 0 then 2 else 10) * (2 * (i : ℝ) + r + 1)].drop 1) := by
  refine .cons ⟨fun r => if r = 0 then 2 else 10, fun r => by dsimp only; split <;> norm_num, rfl, fun i r h => ?_⟩ .nil
  obtain ⟨a, b, e, ha, hb⟩ := InB_pair.1 h
  cases e
  rw [at_mat _ ha hb, at_mat _ ha hb]

/-- The hypotheses of C121 are met: `X[i,j] = 1 + i + j`, ones and twice the ones. -/
example : let X : Tensor ℝ := mat 2 3 fun i j => (i : ℝ) + j + 1
    let U : List (Tensor ℝ) := [mat 2 1 fun _ _ => 1, mat 3 1 fun _ _ => 1]
    let U' : List (Tensor ℝ) := [mat 2 1 fun _ _ => 5, mat 3 1 fun _ _ => 2]
    FactorsFor X.shape 1 U ∧ FactorsFor X.shape 1 U' ∧ List.Forall₂ ScaledColumns (U.drop 1) (U'.drop 1) ∧
      (∀ M ∈ U, ∀ i < M.shape.getD 0 0, 0 < M.at_ [i, 0]) ∧ (∀ i, InB X.shape i → 0 < X.at_ i) ∧ 2 ≤ X.order ∧ X.order ≤ 25 ∧
      ∀ d ∈ X.shape, 0 < d := by
  refine ⟨rfl, rfl, .cons ⟨fun _ => 2, by norm_num, rfl, fun i r h => ?_⟩ .nil, fun M hM i hi => ?_, fun i hi => ?_, by decide,
    by decide, by decide⟩
  · obtain ⟨a, b, e, ha, hb⟩ := InB_pair.1 h
    cases e
    rw [at_mat _ ha hb, at_mat _ ha hb, mul_one]
  · simp only [List.mem_cons, List.not_mem_nil, or_false] at hM
    rcases hM with rfl | rfl
    · rw [at_mat (m := 2) _ hi (by omega)]; norm_num
    · rw [at_mat (m := 3) _ hi (by omega)]; norm_num
  · obtain ⟨a, b, rfl, ha, hb⟩ := InB_pair.1 hi
    rw [at_mat _ ha hb]
    positivity

end TD.Props
