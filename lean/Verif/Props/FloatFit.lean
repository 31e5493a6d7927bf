import Verif.Props.FloatLoss
import Verif.Props.Rounding

/-!
# C129 : in rounded arithmetic the reported errors describe the factors

The reconstruction a training compares with the data is itself computed with rounding from the factors it exposes.
-/
namespace TD.Props
open TD Tensor fl Spec
variable {S : Arith}

/-- Relative distance of a tensor to the data. -/
noncomputable def relDist (X K : Tensor ℝ) : ℝ := Real.sqrt (sqDist K X) / Real.sqrt (normSqT X)

theorem sqDist_near {F K M X : Tensor ℝ} {ε : ℝ} (hε : 0 ≤ ε) (h1 : F.shape = K.shape) (h2 : F.shape = M.shape)
    (h : ∀ i, InB F.shape i → |F.at_ i - K.at_ i| ≤ ε * M.at_ i) :
    |Real.sqrt (sqDist F X) - Real.sqrt (sqDist K X)| ≤ ε * Real.sqrt (normSqT M) := by
  have hE : Real.sqrt (boxSum F.shape fun i => (F.at_ i - K.at_ i) ^ 2) ≤ ε * Real.sqrt (normSqT M) := by
    rw [← Real.sqrt_sq hε, ← Real.sqrt_mul (sq_nonneg ε)]
    refine Real.sqrt_le_sqrt ?_
    unfold normSqT
    rw [← h2, ← boxSum_mul_left]
    refine loss.boxSum_le _ fun i hi => ?_
    rw [← mul_pow, ← sq_abs (F.at_ i - K.at_ i)]
    exact pow_le_pow_left₀ (abs_nonneg _) (h i hi) 2
  have t1 := loss.sqrt_boxSum_triangle F.shape (fun i => F.at_ i - K.at_ i) fun i => K.at_ i - X.at_ i
  have t2 := loss.sqrt_boxSum_triangle F.shape (fun i => K.at_ i - F.at_ i) fun i => F.at_ i - X.at_ i
  simp only [sub_add_sub_cancel] at t1 t2
  have e1 : (boxSum F.shape fun i => (K.at_ i - F.at_ i) ^ 2) = boxSum F.shape fun i => (F.at_ i - K.at_ i) ^ 2 := by
    congr 1; funext i; ring
  rw [e1] at t2
  unfold sqDist
  rw [← h1, abs_le]
  constructor <;> linarith

theorem gamma_nonneg (S : Arith) (k : Nat) : 0 ≤ gamma S k := by
  unfold gamma
  have := one_le_pow₀ (n := k) (show (1 : ℝ) ≤ 1 + S.u by linarith [S.u_nonneg])
  linarith

/-- Both sides of `Within` succeed when the computed one does. -/
theorem within_ok {ε : ℝ} {R : Tensor (Fl S)} {rX rM : Res (Tensor ℝ)} (h : Within ε (.ok R) rX rM) :
    ∃ K M, rX = .ok K ∧ rM = .ok M ∧ R.shape = K.shape ∧ R.shape = M.shape ∧
      ∀ i, InB R.shape i → |(R.at_ i).val - K.at_ i| ≤ ε * M.at_ i := by
  cases rX with
  | error e => exact absurd h (by simp [Within])
  | ok K =>
      cases rM with
      | error e => exact absurd h (by simp [Within])
      | ok M => exact ⟨K, M, rfl, rfl, h.1, h.2.1, h.2.2⟩

/-- The residual and the objective of a computed reconstruction that is near `K`. -/
theorem reported_near [S.NoUnderflow] (hu : S.u < 1) (X full : Tensor (Fl S)) (hs : full.shape = X.shape)
    (hne : ∃ i, InB X.shape i ∧ (X.at_ i).val ≠ 0) {ε : ℝ} (hε : 0 ≤ ε) {K M : Tensor ℝ} (h1 : full.shape = K.shape)
    (h2 : full.shape = M.shape) (h : ∀ i, InB full.shape i → |(full.at_ i).val - K.at_ i| ≤ ε * M.at_ i) :
    ∃ r o, fl.relResidual X full = .ok (some r) ∧ fl.objective X full = .ok o ∧
      (1 - S.u) ^ (X.shape.prod + 6) * (relDist (vals X) K - ε * (Real.sqrt (normSqT M) / Real.sqrt (normSqT (vals X)))) ≤ r.val ∧
      r.val * (1 - S.u) ^ (X.shape.prod + 6) ≤ relDist (vals X) K + ε * (Real.sqrt (normSqT M) / Real.sqrt (normSqT (vals X))) ∧
      (1 - S.u) ^ (X.shape.prod + 9) * (1 / 2 * (max 0 (Real.sqrt (sqDist K (vals X)) - ε * Real.sqrt (normSqT M))) ^ 2) ≤ o.val ∧
      o.val * (1 - S.u) ^ (X.shape.prod + 9) ≤ 1 / 2 * (Real.sqrt (sqDist K (vals X)) + ε * Real.sqrt (normSqT M)) ^ 2 := by
  obtain ⟨r, hr, θ, a1, a2, a3⟩ := C120_residual hu X full hs hne
  obtain ⟨o, ho, η, b1, b2, b3⟩ := C120_objective hu X full hs
  have hd := sqDist_near (F := vals full) (X := vals X) hε h1 h2 fun i hi => by rw [at_vals]; exact h i hi
  rw [abs_le] at hd
  set d := Real.sqrt (sqDist K (vals X))
  set m := Real.sqrt (normSqT M)
  set f := Real.sqrt (sqDist (vals full) (vals X)) with hf
  have hf0 : 0 ≤ f := Real.sqrt_nonneg _
  have hff : sqDist (vals full) (vals X) = f ^ 2 := (Real.sq_sqrt (loss.boxSum_nonneg _ fun _ _ => sq_nonneg _)).symm
  have hq : 0 < 1 - S.u := by linarith
  have hx : 0 ≤ Real.sqrt (normSqT (vals X)) := Real.sqrt_nonneg _
  have hm : 0 ≤ m := Real.sqrt_nonneg _
  have hlow : relDist (vals X) K - ε * (m / Real.sqrt (normSqT (vals X))) ≤ f / Real.sqrt (normSqT (vals X)) := by
    rw [relDist, ← mul_div_assoc, ← sub_div]
    exact div_le_div_of_nonneg_right (by linarith [hd.1]) hx
  have hhigh : f / Real.sqrt (normSqT (vals X)) ≤ relDist (vals X) K + ε * (m / Real.sqrt (normSqT (vals X))) := by
    rw [relDist, ← mul_div_assoc, ← add_div]
    exact div_le_div_of_nonneg_right (by linarith [hd.2]) hx
  have hθ : 0 ≤ θ := le_trans (pow_nonneg hq.le _) a1
  refine ⟨r, o, hr, ho, ?_, ?_, ?_, ?_⟩
  · rw [a3]
    exact le_trans (mul_le_mul_of_nonneg_left hlow (pow_nonneg hq.le _)) (mul_le_mul_of_nonneg_right a1 (by positivity))
  · rw [a3]
    calc _ = (θ * (1 - S.u) ^ (X.shape.prod + 6)) * (f / Real.sqrt (normSqT (vals X))) := by ring
      _ ≤ 1 * (f / Real.sqrt (normSqT (vals X))) := mul_le_mul_of_nonneg_right a2 (by positivity)
      _ ≤ _ := by rw [one_mul]; exact hhigh
  · rw [b3, hff]
    refine le_trans (mul_le_mul_of_nonneg_left ?_ (pow_nonneg hq.le _)) (mul_le_mul_of_nonneg_right b1 (by positivity))
    have : max 0 (d - ε * m) ≤ f := max_le hf0 (by linarith [hd.1])
    have := pow_le_pow_left₀ (le_max_left 0 (d - ε * m)) this 2
    linarith
  · rw [b3, hff]
    have : f ^ 2 ≤ (d + ε * m) ^ 2 := pow_le_pow_left₀ hf0 (by linarith [hd.2]) 2
    calc _ = (η * (1 - S.u) ^ (X.shape.prod + 9)) * (1 / 2 * f ^ 2) := by ring
      _ ≤ 1 * (1 / 2 * f ^ 2) := mul_le_mul_of_nonneg_right b2 (by positivity)
      _ ≤ _ := by linarith

/-- **C129** (CP_ALS, NCP_BCU): the reported residual and objective, against the exact ones of the Kruskal tensor `K` of the exposed
factors and weights; `M` is the Kruskal tensor of their absolute values. -/
theorem C129_kruskal [S.NoUnderflow] (hu : S.u < 1) (X : Tensor (Fl S)) (k : KTensor (Fl S)) (full : Tensor (Fl S)) (hf : k.extract = .ok full)
    (hs : full.shape = X.shape) (hne : ∃ i, InB X.shape i ∧ (X.at_ i).val ≠ 0) (ε : ℝ)
    (hε : ε = gamma S ((k.U.length - 1) + rankOf k.U)) :
    ∃ K M r o, (onK vals k).extract = .ok K ∧ (onK mags k).extract = .ok M ∧
      fl.relResidual X full = .ok (some r) ∧ fl.objective X full = .ok o ∧
      (1 - S.u) ^ (X.shape.prod + 6) * (relDist (vals X) K - ε * (Real.sqrt (normSqT M) / Real.sqrt (normSqT (vals X)))) ≤ r.val ∧
      r.val * (1 - S.u) ^ (X.shape.prod + 6) ≤ relDist (vals X) K + ε * (Real.sqrt (normSqT M) / Real.sqrt (normSqT (vals X))) ∧
      (1 - S.u) ^ (X.shape.prod + 9) * (1 / 2 * (max 0 (Real.sqrt (sqDist K (vals X)) - ε * Real.sqrt (normSqT M))) ^ 2) ≤ o.val ∧
      o.val * (1 - S.u) ^ (X.shape.prod + 9) ≤ 1 / 2 * (Real.sqrt (sqDist K (vals X)) + ε * Real.sqrt (normSqT M)) ^ 2 := by
  have hw := C107_kruskal k
  rw [hf] at hw
  obtain ⟨K, M, e1, e2, s1, s2, h⟩ := within_ok hw
  obtain ⟨r, o, h'⟩ := reported_near hu X full hs hne (gamma_nonneg S _) s1 s2 h
  subst hε
  exact ⟨K, M, r, o, e1, e2, h'⟩

/-- **C129** (HOOI, NTUCKER_BCU): the same for the Tucker tensor of the exposed core and factors. -/
theorem C129_tucker [S.NoUnderflow] (hu : S.u < 1) (X : Tensor (Fl S)) (t : TTensor (Fl S)) (full : Tensor (Fl S)) (hf : t.extract = .ok full)
    (hN : t.g.order ≤ 13) (hU : t.U ≠ []) (hlen : t.U.length = t.g.order)
    (hs : full.shape = X.shape) (hne : ∃ i, InB X.shape i ∧ (X.at_ i).val ≠ 0) (ε : ℝ)
    (hε : ε = gamma S (t.U.length + (t.g.shape.prod - 1))) :
    ∃ K M r o, (onT vals t).extract = .ok K ∧ (onT mags t).extract = .ok M ∧
      fl.relResidual X full = .ok (some r) ∧ fl.objective X full = .ok o ∧
      (1 - S.u) ^ (X.shape.prod + 6) * (relDist (vals X) K - ε * (Real.sqrt (normSqT M) / Real.sqrt (normSqT (vals X)))) ≤ r.val ∧
      r.val * (1 - S.u) ^ (X.shape.prod + 6) ≤ relDist (vals X) K + ε * (Real.sqrt (normSqT M) / Real.sqrt (normSqT (vals X))) ∧
      (1 - S.u) ^ (X.shape.prod + 9) * (1 / 2 * (max 0 (Real.sqrt (sqDist K (vals X)) - ε * Real.sqrt (normSqT M))) ^ 2) ≤ o.val ∧
      o.val * (1 - S.u) ^ (X.shape.prod + 9) ≤ 1 / 2 * (Real.sqrt (sqDist K (vals X)) + ε * Real.sqrt (normSqT M)) ^ 2 := by
  have hw := C107_tucker t hN hU hlen
  rw [hf] at hw
  obtain ⟨K, M, e1, e2, s1, s2, h⟩ := within_ok hw
  obtain ⟨r, o, h'⟩ := reported_near hu X full hs hne (gamma_nonneg S _) s1 s2 h
  subst hε
  exact ⟨K, M, r, o, e1, e2, h'⟩

/-- **C129**: a training that stopped because the reported residual was below `tol` has exposed factors whose exact residual is below
`tol / (1 - u)^(N + 6)` plus the rounding of the reconstruction. -/
theorem C129_tolerance [S.NoUnderflow] (hu : S.u < 1) (X : Tensor (Fl S)) (k : KTensor (Fl S)) (full : Tensor (Fl S)) (hf : k.extract = .ok full)
    (hs : full.shape = X.shape) (hne : ∃ i, InB X.shape i ∧ (X.at_ i).val ≠ 0) (r : Fl S)
    (hr : fl.relResidual X full = .ok (some r)) (tol : ℝ) (ht : r.val < tol) :
    ∃ K M, (onK vals k).extract = .ok K ∧ (onK mags k).extract = .ok M ∧
      relDist (vals X) K < tol / (1 - S.u) ^ (X.shape.prod + 6) +
        gamma S ((k.U.length - 1) + rankOf k.U) * (Real.sqrt (normSqT M) / Real.sqrt (normSqT (vals X))) := by
  obtain ⟨K, M, r', o, e1, e2, e3, -, h, -⟩ := C129_kruskal hu X k full hf hs hne _ rfl
  rw [hr] at e3
  simp only [Except.ok.injEq, Option.some.injEq] at e3
  subst e3
  refine ⟨K, M, e1, e2, ?_⟩
  have hq : 0 < (1 - S.u) ^ (X.shape.prod + 6) := pow_pos (by linarith) _
  rw [← sub_lt_iff_lt_add, lt_div_iff₀ hq, mul_comm]
  exact lt_of_le_of_lt h ht

/-- **C129** (nonnegative factors, NCP_BCU): the rounding of the reconstruction is relative to the reconstruction itself. -/
theorem C129_nonneg [S.NoUnderflow] (hu : S.u < 1) (X : Tensor (Fl S)) (k : KTensor (Fl S)) (full : Tensor (Fl S)) (hf : k.extract = .ok full)
    (hU : ∀ A ∈ k.U, NoNegative A) (hl : NoNegative k.lam)
    (hs : full.shape = X.shape) (hne : ∃ i, InB X.shape i ∧ (X.at_ i).val ≠ 0) (ε : ℝ)
    (hε : ε = gamma S ((k.U.length - 1) + rankOf k.U)) :
    ∃ K r, (onK vals k).extract = .ok K ∧ fl.relResidual X full = .ok (some r) ∧
      (1 - S.u) ^ (X.shape.prod + 6) * (relDist (vals X) K - ε * (Real.sqrt (normSqT K) / Real.sqrt (normSqT (vals X)))) ≤ r.val ∧
      r.val * (1 - S.u) ^ (X.shape.prod + 6) ≤ relDist (vals X) K + ε * (Real.sqrt (normSqT K) / Real.sqrt (normSqT (vals X))) := by
  have hw := C109_kruskal k hU hl
  rw [hf] at hw
  obtain ⟨K, M, e1, e2, s1, s2, h⟩ := within_ok hw
  rw [e1] at e2
  cases e2
  obtain ⟨r, o, h0, -, h2, h3, -⟩ := reported_near hu X full hs hne (gamma_nonneg S _) s1 s2 h
  subst hε
  exact ⟨K, r, e1, h0, h2, h3⟩

/-- The hypotheses hold for a 2 × 2 tensor and two 2 × 2 factors in float32. -/
example : (ieee 24 (by omega)).u < 1 ∧
    (∃ full : Tensor (Fl (ieee 24 (by omega))), KTensor.extract (⟨[ex32, ex32], .float32, ofFn [2, 1] fun _ => 1, .float32⟩ : KTensor (Fl (ieee 24 (by omega)))) =
      .ok full ∧ full.shape = ex32.shape) ∧
    (∃ full : Tensor (Fl (ieee 24 (by omega))), TTensor.extract (⟨ex32, .float32, [ex32, ex32], .float32⟩ : TTensor (Fl (ieee 24 (by omega)))) =
      .ok full ∧ full.shape = ex32.shape) ∧ ∃ i, InB ex32.shape i ∧ (ex32.at_ i).val ≠ 0 := by
  refine ⟨?_, ?_, ?_, [0, 0], by decide, ?_⟩
  · show (2⁻¹ : ℝ) ^ 24 < 1
    norm_num
  · exact ⟨_, rfl, rfl⟩
  · exact ⟨_, rfl, rfl⟩
  · show ((1 : ℤ) : ℝ) ≠ 0
    norm_num

end TD.Props
