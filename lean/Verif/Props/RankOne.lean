import Verif.Lemmas.RankOne
import Verif.Props.StopRule

/-!
# C91 : `CP_ALS` recovers tensors of rank one in one step; its weights are optimal
-/
namespace TD.Props
open TD Spec Tensor fact

/-- **C91** (weights): the weights exposed after training are the least-squares optimal ones for the exposed factors,
whatever the rank and the data. -/
theorem C91_weights_optimal (pinv : Tensor ℝ → Res (Tensor ℝ)) (hp : PinvOk pinv) (X : Tensor ℝ) (R : Nat)
    (A0 : List (Tensor ℝ)) (hA : FactorsFor X.shape R A0) (h2 : 2 ≤ X.order) (h25 : X.order ≤ 25)
    (hpos : ∀ d ∈ X.shape, 0 < d) (Ar : Arith ℝ) (args : Args ℝ) (steps : Int)
    (self self' : Self (List (Tensor ℝ)) (Tensor ℝ) (Tensor ℝ)) (ev : List Int) (hist : List (ℝ × ℝ))
    (h : train Ar (CP_ALS.cls (cp.main pinv X R)) args steps (.ok A0) self = (self', ev, .ok hist)) :
    ∃ F lam, self'.factors = some F ∧ self'.aux = some lam ∧ FactorsFor X.shape R F ∧ lam.shape = [R] ∧
      ∀ w, cpErr X R F (fun r => lam.at_ [r]) ≤ cpErr X R F w := by
  obtain ⟨s, s', o, k, hr, hrun, -, e2, e3, -⟩ := train_last (init := CpInit X R) (by rintro s ⟨⟩; exact hA) h
  have hm : cp.main pinv X R s = .ok (s', o) := hrun.2
  have hs := cp_reach hp h2 h25 hpos hr
  obtain ⟨lam, a1, a2, a3, a4, a5, -⟩ := cp.main_ok hp hs h2 h25 hpos hm
  exact ⟨s', lam, by rw [e2, a4], e3 lam (by rw [a5]; rfl), a2, a3, fun w => cp.sweep_weights hp hs h2 h25 hpos a1 w⟩

/-- **C91**: on a tensor of rank one, `CP_ALS` with rank 1 has residual 0 from the first step on, whatever the initial
factors, whenever `train` returns. -/
theorem C91_rank_one_residuals (pinv : Tensor ℝ → Res (Tensor ℝ)) (hp : PinvOk pinv) (X : Tensor ℝ)
    (B : List (Tensor ℝ)) (hB : FactorsFor X.shape 1 B) (hX : ∀ i, InB X.shape i → X.at_ i = khatriEntry 0 B i)
    (A0 : List (Tensor ℝ)) (hA : FactorsFor X.shape 1 A0) (h2 : 2 ≤ X.order) (h25 : X.order ≤ 25)
    (hpos : ∀ d ∈ X.shape, 0 < d) (Ar : Arith ℝ) (args : Args ℝ) (steps : Int)
    (self self' : Self (List (Tensor ℝ)) (Tensor ℝ) (Tensor ℝ)) (ev : List Int) (hist : List (ℝ × ℝ))
    (h : train Ar (CP_ALS.cls (cp.main pinv X 1)) args steps (.ok A0) self = (self', ev, .ok hist)) :
    ∀ p ∈ hist, p.2 = 0 := by
  obtain ⟨s0, o, k, hs0, -, -, hrun, hh⟩ := C43_history Ar _ args steps _ self self' ev hist h
  cases hs0
  obtain ⟨σ, h0, hσ⟩ := cp_run hp hA h2 h25 hpos hrun
  intro p hpm
  obtain ⟨j, hj, rfl⟩ := List.mem_iff_getElem.1 hpm
  have := hh j hj
  rw [List.getElem?_eq_getElem hj, Option.some.injEq] at this
  rw [this]
  obtain ⟨hf, s, hm, -⟩ := hσ j hj
  obtain ⟨lam, a1, -, -, -, -, -, -, -, -, e2, -⟩ := cp.main_ok hp hf h2 h25 hpos hm
  rw [e2, cp.sweep_rank_one_exact hp hf hB hX h2 h25 hpos a1, Real.sqrt_zero, zero_div]

/-- **C91** (one step): with a positive tolerance training on a rank-one tensor stops after the first step. -/
theorem C91_rank_one_one_step (pinv : Tensor ℝ → Res (Tensor ℝ)) (hp : PinvOk pinv) (X : Tensor ℝ)
    (B : List (Tensor ℝ)) (hB : FactorsFor X.shape 1 B) (hX : ∀ i, InB X.shape i → X.at_ i = khatriEntry 0 B i)
    (A0 : List (Tensor ℝ)) (hA : FactorsFor X.shape 1 A0) (h2 : 2 ≤ X.order) (h25 : X.order ≤ 25)
    (hpos : ∀ d ∈ X.shape, 0 < d) (args : Args ℝ) (ht : 0 < args.tol) (steps : Int)
    (self self' : Self (List (Tensor ℝ)) (Tensor ℝ) (Tensor ℝ)) (ev : List Int) (hist : List (ℝ × ℝ))
    (h : train (exactArith ℝ) (CP_ALS.cls (cp.main pinv X 1)) args steps (.ok A0) self = (self', ev, .ok hist)) :
    ∃ l, hist = [(l, 0)] := by
  have hz := C91_rank_one_residuals pinv hp X B hB hX A0 hA h2 h25 hpos _ args steps self self' ev hist h
  obtain ⟨h1, -, h3, -⟩ := C88_cp_stop pinv X 1 _ _ args steps self self' ev hist h
  have hlen1 : hist.length = 1 := by
    by_contra hne
    refine h3 0 (by omega) (Or.inl ?_)
    change decide (histRel hist 0 < args.tol) = true
    unfold histRel
    rw [List.getElem?_eq_getElem (by omega), Option.getD_some, hz _ (List.getElem_mem _)]
    exact decide_eq_true ht
  obtain ⟨p, rfl⟩ := List.length_eq_one_iff.1 hlen1
  have := hz p (by simp)
  exact ⟨p.1, by rw [← this]⟩

/-- **C91** (positive case, no assumption that `train` returns): a positive tensor of rank one is recovered from every
positive initialization, for every `steps ≥ 1`. -/
theorem C91_rank_one_positive (pinv : Tensor ℝ → Res (Tensor ℝ)) (hp : PinvOk pinv) (X : Tensor ℝ)
    (B : List (Tensor ℝ)) (hB : FactorsFor X.shape 1 B) (hX : ∀ i, InB X.shape i → X.at_ i = khatriEntry 0 B i)
    (hXp : ∀ i, InB X.shape i → 0 < X.at_ i)
    (A0 : List (Tensor ℝ)) (hA : FactorsFor X.shape 1 A0) (hA0 : ∀ M ∈ A0, ∀ i < M.shape.getD 0 0, 0 < M.at_ [i, 0])
    (h2 : 2 ≤ X.order) (h25 : X.order ≤ 25)
    (hpos : ∀ d ∈ X.shape, 0 < d) (args : Args ℝ) (ht : 0 < args.tol) (hv : args.validationInternal ≠ 0) (steps : Int)
    (hs : 1 ≤ steps) (self : Self (List (Tensor ℝ)) (Tensor ℝ) (Tensor ℝ)) :
    ∃ l, (train (exactArith ℝ) (CP_ALS.cls (cp.main pinv X 1)) args steps (.ok A0) self).2.2 = .ok [(l, 0)] := by
  obtain ⟨hist, hh⟩ := C73_rank_one_positive pinv hp X A0 hA hA0 h2 h25 hpos hXp (exactArith ℝ) args hv steps hs self
  obtain ⟨l, rfl⟩ := C91_rank_one_one_step pinv hp X B hB hX A0 hA h2 h25 hpos args ht steps self _ _ hist
    (Prod.ext rfl (Prod.ext rfl hh))
  exact ⟨l, hh⟩

/-- The hypotheses of C91 are met: `X[i,j] = (i+1)(j+1)`. -/
example : let X : Tensor ℝ := mat 2 3 fun i j => ((i : ℝ) + 1) * (j + 1)
    let B : List (Tensor ℝ) := [mat 2 1 fun i _ => (i : ℝ) + 1, mat 3 1 fun i _ => (i : ℝ) + 1]
    FactorsFor X.shape 1 B ∧ (∀ i, InB X.shape i → X.at_ i = khatriEntry 0 B i) ∧
      (∀ i, InB X.shape i → 0 < X.at_ i) ∧ 2 ≤ X.order ∧ X.order ≤ 25 ∧ ∀ d ∈ X.shape, 0 < d := by
  refine ⟨rfl, fun i hi => ?_, fun i hi => ?_, by decide, by decide, by decide⟩
  · obtain ⟨a, b, rfl, ha, hb⟩ := InB_pair.1 hi
    simp only [khatriEntry]
    rw [at_mat _ ha hb, at_mat _ ha (by omega), at_mat _ hb (by omega)]
    ring
  · obtain ⟨a, b, rfl, ha, hb⟩ := InB_pair.1 hi
    rw [at_mat _ ha hb]
    positivity

end TD.Props
