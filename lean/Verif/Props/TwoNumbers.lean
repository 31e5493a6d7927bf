import Verif.Props.LowerBound

/-!
# C173 : the two numbers of a history entry
-/
namespace TD.Props
open TD Spec Tensor ops fact bcu

/-- How many entries of `X` are not zero. -/
noncomputable def countNonzero (X : Tensor ℝ) : ℝ := boxSum X.shape fun i => if X.at_ i ≠ 0 then 1 else 0

/-- How much of `Y`, in squares, lies where `X` is zero. -/
noncomputable def onZeros (X Y : Tensor ℝ) : ℝ := boxSum X.shape fun i => if X.at_ i = 0 then Y.at_ i ^ 2 else 0

theorem onZeros_nonneg (X Y : Tensor ℝ) : 0 ≤ onZeros X Y := by
  unfold onZeros
  exact loss.boxSum_nonneg _ fun i _ => by split <;> positivity

theorem countNonzero_pos {X : Tensor ℝ} (hX : ∃ i, InB X.shape i ∧ X.at_ i ≠ 0) : 0 < countNonzero X := by
  obtain ⟨i, hi, hx⟩ := hX
  have h0 : ∀ i, InB X.shape i → (0 : ℝ) ≤ if X.at_ i ≠ 0 then 1 else 0 := fun i _ => by split <;> norm_num
  refine lt_of_le_of_ne (loss.boxSum_nonneg _ h0) fun h => ?_
  have := (loss.boxSum_eq_zero _ h0).1 h.symm i hi
  rw [if_pos hx] at this
  norm_num at this

/-- The squared residual is the squared loss, weighted with its number of entries, plus what the approximation has on the zeros of the
data. -/
theorem reports_split {X Y : Tensor ℝ} {p : ℝ × ℝ} (hX : ∃ i, InB X.shape i ∧ X.at_ i ≠ 0) (h : Reports X Y p) :
    p.2 ^ 2 * normSqT X = countNonzero X * p.1 ^ 2 + onZeros X Y := by
  have hn : 0 < normSqT X := by
    obtain ⟨i, hi, hx⟩ := hX
    refine lt_of_le_of_ne (loss.boxSum_nonneg _ fun i _ => sq_nonneg _) fun h => ?_
    have := (loss.boxSum_eq_zero _ fun i _ => sq_nonneg (X.at_ i)).1 h.symm i hi
    exact hx (by simpa using this)
  have hc := countNonzero_pos hX
  have e1 : p.1 ^ 2 * countNonzero X = boxSum X.shape fun i => if X.at_ i ≠ 0 then (X.at_ i - Y.at_ i) ^ 2 else 0 := by
    have hN : 0 ≤ boxSum X.shape fun i => if X.at_ i ≠ 0 then (X.at_ i - Y.at_ i) ^ 2 else 0 :=
      loss.boxSum_nonneg _ fun i _ => by split <;> positivity
    have h1 : p.1 = Real.sqrt ((boxSum X.shape fun i => if X.at_ i ≠ 0 then (X.at_ i - Y.at_ i) ^ 2 else 0) / countNonzero X) := h.1
    rw [h1, Real.sq_sqrt (div_nonneg hN hc.le)]
    exact div_mul_cancel₀ _ hc.ne'
  rw [h.dist hn, mul_comm, e1]
  unfold distSqT onZeros
  rw [← boxSum_add]
  refine boxSum_congr fun i _ => ?_
  by_cases hx : X.at_ i = 0
  · simp [hx]
  · simp [hx]

/-- What C173 says about an entry. -/
def TwoNumbers (X : Tensor ℝ) (p : ℝ × ℝ) : Prop :=
  countNonzero X * p.1 ^ 2 ≤ p.2 ^ 2 * normSqT X ∧
    ((∀ i, InB X.shape i → X.at_ i ≠ 0) → p.1 = p.2 * Real.sqrt (normSqT X / X.shape.prod))

theorem reports_two {X Y : Tensor ℝ} {p : ℝ × ℝ} (hX : ∃ i, InB X.shape i ∧ X.at_ i ≠ 0) (h : Reports X Y p) : TwoNumbers X p := by
  have hs := reports_split hX h
  refine ⟨by linarith [onZeros_nonneg X Y], fun hz => ?_⟩
  have hc := countNonzero_pos hX
  have h0 : onZeros X Y = 0 := (loss.boxSum_eq_zero _ fun i _ => by split <;> positivity).2 fun i hi => if_neg (hz i hi)
  have hcp : countNonzero X = X.shape.prod := by
    unfold countNonzero
    rw [boxSum_congr fun i hi => if_pos (hz i hi), loss.boxSum_const, mul_one]
  have p1 : 0 ≤ p.1 := by rw [h.1]; exact Real.sqrt_nonneg _
  have p2 : 0 ≤ p.2 := by rw [h.2]; exact div_nonneg (Real.sqrt_nonneg _) (Real.sqrt_nonneg _)
  rw [h0, add_zero, hcp] at hs
  rw [hcp] at hc
  rw [← Real.sqrt_sq p2, ← Real.sqrt_mul (sq_nonneg _), ← mul_div_assoc, hs, mul_div_cancel_left₀ _ hc.ne', Real.sqrt_sq p1]

/-- **C173** for `CP_ALS`. -/
theorem C173_cp (pinv : Tensor ℝ → Res (Tensor ℝ)) (hp : PinvOk pinv) (X : Tensor ℝ) (R : Nat)
    (A0 : List (Tensor ℝ)) (hA : FactorsFor X.shape R A0) (h2 : 2 ≤ X.order) (h25 : X.order ≤ 25)
    (hpos : ∀ d ∈ X.shape, 0 < d) (Ar : Arith ℝ) (args : Args ℝ) (steps : Int)
    (self self' : Self (List (Tensor ℝ)) (Tensor ℝ) (Tensor ℝ)) (ev : List Int) (hist : List (ℝ × ℝ))
    (h : train Ar (CP_ALS.cls (cp.main pinv X R)) args steps (.ok A0) self = (self', ev, .ok hist))
    (hX : ∃ i, InB X.shape i ∧ X.at_ i ≠ 0) :
    ∀ p ∈ hist, TwoNumbers X p ∧ ∃ (F : List (Tensor ℝ)) (w : Nat → ℝ) (Y : Tensor ℝ), IsKruskal X.shape R F w Y ∧ Reports X Y p ∧
      p.2 ^ 2 * normSqT X = countNonzero X * p.1 ^ 2 + onZeros X Y := by
  refine all_entries (fun m self' ev hist p h hl => ?_) h
  obtain ⟨F, lam, Y, q, -, -, e, hY, hR, -⟩ := C81_cp_last_entry pinv hp X R A0 hA h2 h25 hpos Ar args m self self' ev hist h
  cases hl.symm.trans e
  exact ⟨reports_two hX hR, F, fun r => lam.at_ [r], Y, hY, hR, reports_split hX hR⟩

/-- **C173** for `HOOI`. -/
theorem C173_hooi (svd : Tensor ℝ → Res (Tensor ℝ × Tensor ℝ × Tensor ℝ)) (hs : SvdOk svd) (X : Tensor ℝ)
    (ranks : List Nat) (h2 : 2 ≤ X.order) (h13 : X.order ≤ 13) (hpos : ∀ d ∈ X.shape, 0 < d)
    (hlen : X.order ≤ ranks.length) (Ar : Arith ℝ) (args : Args ℝ) (steps : Int)
    (self self' : Self (List (Tensor ℝ)) (Tensor ℝ) (Tensor ℝ)) (ev : List Int) (hist : List (ℝ × ℝ))
    (h : train Ar (HOOI.cls (tucker.HOOI.main svd X ranks)) args steps (tucker.HOOI.init svd X ranks) self =
      (self', ev, .ok hist))
    (hX : ∃ i, InB X.shape i ∧ X.at_ i ≠ 0) :
    ∀ p ∈ hist, TwoNumbers X p ∧ ∃ F g Y, IsTucker X.shape g F Y ∧ Reports X Y p ∧
      p.2 ^ 2 * normSqT X = countNonzero X * p.1 ^ 2 + onZeros X Y := by
  refine all_entries (fun m self' ev hist p h hl => ?_) h
  obtain ⟨F, lam, Y, q, -, -, e, hY, hR, -⟩ := C81_hooi_last_entry svd hs X ranks h2 h13 hpos hlen Ar args m self self' ev hist h
  cases hl.symm.trans e
  exact ⟨reports_two hX hR, F, lam, Y, hY, hR, reports_split hX hR⟩

/-- **C173** for `NCP_BCU`. -/
theorem C173_ncp (topSv : Tensor ℝ → Res ℝ) (X : Tensor ℝ) (R : Nat) (hne : X.shape ≠ []) (h25 : X.order ≤ 25)
    (s0 : State) (h0 : NcpInit X R s0) (Ar : Arith ℝ) (args : Args ℝ) (steps : Int)
    (self self' : Self (List (Tensor ℝ)) (Tensor ℝ) (Tensor ℝ)) (ev : List Int) (hist : List (ℝ × ℝ))
    (h : train Ar (NCP.cls topSv X R) args steps (.ok s0) self = (self', ev, .ok hist))
    (hX : ∃ i, InB X.shape i ∧ X.at_ i ≠ 0) :
    ∀ p ∈ hist, TwoNumbers X p ∧ ∃ F Y, IsKruskal X.shape R F (fun _ => 1) Y ∧ Reports X Y p ∧
      p.2 ^ 2 * normSqT X = countNonzero X * p.1 ^ 2 + onZeros X Y := by
  refine all_entries (fun m self' ev hist p h hl => ?_) h
  obtain ⟨F, lam, Y, q, -, -, -, -, e, hY, hR, -⟩ := C81_ncp_last_entry topSv X R hne h25 s0 h0 Ar args m self self' ev hist h
  cases hl.symm.trans e
  exact ⟨reports_two hX hR, F, Y, hY, hR, reports_split hX hR⟩

/-- **C173** for `NTUCKER_BCU`. -/
theorem C173_ntucker (topSv : Tensor ℝ → Res ℝ) (X : Tensor ℝ) (ranks : List Nat)
    (hr : ranks.length = X.shape.length) (h1 : 1 ≤ X.order) (h13 : X.order ≤ 13)
    (s0 : TState) (h0 : NtuckerInit X ranks s0) (Ar : Arith ℝ) (args : Args ℝ) (steps : Int)
    (self self' : Self (List (Tensor ℝ)) (Tensor ℝ) (Tensor ℝ)) (ev : List Int) (hist : List (ℝ × ℝ))
    (h : train Ar (NTUCKER.cls topSv X) args steps (.ok s0) self = (self', ev, .ok hist))
    (hX : ∃ i, InB X.shape i ∧ X.at_ i ≠ 0) :
    ∀ p ∈ hist, TwoNumbers X p ∧ ∃ F g Y, IsTucker X.shape g F Y ∧ Reports X Y p ∧
      p.2 ^ 2 * normSqT X = countNonzero X * p.1 ^ 2 + onZeros X Y := by
  refine all_entries (fun m self' ev hist p h hl => ?_) h
  obtain ⟨F, lam, Y, q, -, -, e, hY, hR, -⟩ := C81_ntucker_last_entry topSv X ranks hr h1 h13 s0 h0 Ar args m self self' ev hist h
  cases hl.symm.trans e
  exact ⟨reports_two hX hR, F, lam, Y, hY, hR, reports_split hX hR⟩

/-- Hypotheses met: the run of `ncp_example` returns, on data without zeros, and its two numbers agree. -/
example : ∃ topSv self' ev hist, train (exactArith ℝ) (NCP.cls topSv onesX 1) { tol := 1 } 1 (.ok onesState) {} =
    (self', ev, .ok hist) ∧ ∀ p ∈ hist, p.1 = p.2 := by
  obtain ⟨topSv, -, self', ev, hist, h, -⟩ := ncp_example
  refine ⟨topSv, self', ev, hist, h, fun p hp => ?_⟩
  have h1 : ∀ i, InB onesX.shape i → onesX.at_ i = 1 := by
    intro i hi
    obtain ⟨a, l, ha, hl, rfl⟩ := List.forall₂_cons_right_iff.1 (show List.Forall₂ (· < ·) i [2, 2] from hi)
    obtain ⟨b, l, hb, hl, rfl⟩ := List.forall₂_cons_right_iff.1 hl
    cases hl
    interval_cases a <;> interval_cases b <;> simp [onesX, at_, ravel]
  have := (C173_ncp topSv onesX 1 (by simp [onesX]) (by show onesX.shape.length ≤ 25; simp [onesX]) onesState ones_init _ _ _ _ _ _ _ h
    ⟨[0, 0], by simp [onesX, InB], by rw [h1 _ (by simp [onesX, InB])]; norm_num⟩ p hp).1.2
    (fun i hi => by rw [h1 i hi]; norm_num)
  have e : normSqT onesX = onesX.shape.prod := by
    unfold normSqT
    rw [boxSum_congr fun i hi => by rw [h1 i hi, one_pow], loss.boxSum_const, mul_one]
  have hp0 : (onesX.shape.prod : ℝ) ≠ 0 := by simp [onesX]
  rw [this, e, div_self hp0, Real.sqrt_one, mul_one]

end TD.Props
