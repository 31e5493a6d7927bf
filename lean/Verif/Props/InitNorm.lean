import Verif.Lemmas.InitNorm
import Verif.Props.Ncp
import Verif.Props.NTucker

/-!
# C84: the random start of the nonnegative methods has the scale of the data
-/
namespace TD.Props
open TD Spec Tensor fact bcu

/-- Nonnegative data and a nonnegative model no larger than the data are at distance at most `√2 ‖X‖`. -/
theorem dist_le_of_nonneg (s : List Nat) (f g : List Nat → ℝ) (hf : ∀ i, 0 ≤ f i) (hg : ∀ i, 0 ≤ g i)
    (h : boxSum s (fun i => g i ^ 2) ≤ boxSum s (fun i => f i ^ 2)) :
    boxSum s (fun i => (f i - g i) ^ 2) ≤ 2 * boxSum s (fun i => f i ^ 2) := by
  have h1 : boxSum s (fun i => (f i - g i) ^ 2) ≤ boxSum s (fun i => f i ^ 2 + g i ^ 2) :=
    loss.boxSum_le s fun i _ => by nlinarith [mul_nonneg (hf i) (hg i)]
  rw [boxSum_add] at h1
  linarith

theorem khatri_nonneg_of (r : Nat) : ∀ (U : List (Tensor ℝ)) (i : List Nat), (∀ M ∈ U, Nonneg M) →
    0 ≤ khatriEntry r U i
  | M :: U, i :: is, h => by
      rw [khatriEntry]
      exact mul_nonneg ((h M (by simp)).at _) (khatri_nonneg_of r U is fun N hN => h N (by simp [hN]))
  | [], _, _ => by rw [khatriEntry]; exact zero_le_one; simp
  | _ :: _, [], _ => by rw [khatriEntry]; exact zero_le_one; simp

theorem kron_nonneg_of : ∀ (U : List (Tensor ℝ)) (i j : List Nat), (∀ M ∈ U, Nonneg M) → 0 ≤ kronEntry U i j
  | M :: U, i :: is, j :: js, h => by
      rw [kronEntry]
      exact mul_nonneg ((h M (by simp)).at _) (kron_nonneg_of U is js fun N hN => h N (by simp [hN]))
  | [], _, _, _ => by rw [kronEntry]; exact zero_le_one; simp
  | _ :: _, [], _, _ => by rw [kronEntry]; exact zero_le_one; simp
  | _ :: _, _ :: _, [], _ => by rw [kronEntry]; exact zero_le_one; simp

theorem sqrt_ratio_le {a b : ℝ} (hb : 0 ≤ b) (h : a ≤ 2 * b) : Real.sqrt a / Real.sqrt b ≤ Real.sqrt 2 := by
  rcases eq_or_lt_of_le hb with e | e
  · rw [← e]; simp
  · rw [div_le_iff₀ (Real.sqrt_pos.2 e), ← Real.sqrt_mul (by norm_num)]
    exact Real.sqrt_le_sqrt h

/-- **C84** for `NCP_BCU`, whatever was drawn: the start is nonnegative, all factors have the same norm, the `N`-th root
of `‖X‖`, and the tensor they form is not larger than the data. -/
theorem C84_ncp_initial (X : Tensor ℝ) (R : Nat) (h2 : 2 ≤ X.order) (s0 : State) (h0 : NcpInit X R s0) :
    FactorsFor X.shape R s0.A ∧
    (∀ M ∈ s0.A, Nonneg M ∧ Real.sqrt (normSqT M) ^ X.order = Real.sqrt (normSqT X)) ∧
    boxSum X.shape (fun i => (∑ r ∈ Finset.range R, khatriEntry r s0.A i) ^ 2) ≤ normSqT X := by
  obtain ⟨draws, hd, hi⟩ := h0
  obtain ⟨i1, -, -, -⟩ := init_inv hi
  have hs : FactorsFor X.shape R s0.A := i1.A.trans hd
  have hz := init_size (by omega : 0 < X.order) hi
  refine ⟨hs, fun M hM => ⟨i1.nonneg M hM, hz M hM⟩, (kruskal_norm_le hs h2).trans ?_⟩
  have hl : s0.A.length = X.order := by simpa [order] using congrArg List.length hs
  obtain ⟨M, hM⟩ : ∃ M, M ∈ s0.A := List.exists_mem_of_length_pos (by omega)
  rw [prod_of_size (Real.sqrt_nonneg (normSqT M)) (by omega : 0 < X.order) (fun N hN => by rw [hz N hN, hz M hM]), hl,
    ← pow_mul, mul_comm, pow_mul, hz M hM, Real.sq_sqrt (normSqT_nonneg X)]

/-- **C84** for `NCP_BCU`: on nonnegative data the first two relative residuals are at most `√2`. -/
theorem C84_ncp_first_residuals (topSv : Tensor ℝ → Res ℝ) (ht : TopSvOk topSv) (X : Tensor ℝ) (R : Nat)
    (h2 : 2 ≤ X.order) (h25 : X.order ≤ 25) (hR : 0 < R) (hpos : ∀ d ∈ X.shape, 0 < d) (hX : Nonneg X) (s0 : State)
    (h0 : NcpInit X R s0) (args : Args ℝ) (steps : Int)
    (self self' : Self (List (Tensor ℝ)) (Tensor ℝ) (Tensor ℝ)) (ev : List Int) (hist : List (ℝ × ℝ))
    (h : train (exactArith ℝ) (NCP.cls topSv X R) args steps (.ok s0) self = (self', ev, .ok hist)) :
    ∀ p ∈ hist.take 2, p.2 ≤ Real.sqrt 2 := by
  obtain ⟨a, b⟩ := C78_ncp_first_two_steps topSv ht X R h2 h25 hR hpos s0 h0 args steps self self' ev hist h
  obtain ⟨-, c, d⟩ := C84_ncp_initial X R h2 s0 h0
  have hr : Real.sqrt (cpErr X R s0.A fun _ => 1) / Real.sqrt (normSqT X) ≤ Real.sqrt 2 := by
    refine sqrt_ratio_le (normSqT_nonneg X) ?_
    unfold cpErr
    simp only [one_mul]
    exact dist_le_of_nonneg _ _ _ (fun i => hX.at i)
      (fun i => Finset.sum_nonneg fun r _ => khatri_nonneg_of r _ _ fun M hM => (c M hM).1) d
  match hist, a, b with
  | [], _, _ => simp
  | [p], a, _ => simpa using (a p rfl).trans hr
  | p :: q :: _, a, b =>
      have := (a p rfl).trans hr
      simp only [List.take_succ_cons, List.take_zero, List.mem_cons, List.not_mem_nil, or_false]
      rintro x (rfl | rfl)
      · exact this
      · exact (b p x rfl rfl).trans this

/-- **C84** for `NTUCKER_BCU`, whatever was drawn: the start is nonnegative, all factors and the core have the same norm,
the `N+1`-st root of `‖X‖`, and the tensor they form is not larger than the data. -/
theorem C84_ntucker_initial (X : Tensor ℝ) (ranks : List Nat) (hr : ranks.length = X.shape.length) (s0 : TState)
    (h0 : NtuckerInit X ranks s0) :
    TuckerShapes X.shape ranks s0.A ∧ s0.g.shape = ranks ∧
    (∀ M, M = s0.g ∨ M ∈ s0.A → Nonneg M ∧ Real.sqrt (normSqT M) ^ (X.order + 1) = Real.sqrt (normSqT X)) ∧
    boxSum X.shape (fun i => (boxSum s0.g.shape fun j => s0.g.at_ j * kronEntry s0.A i j) ^ 2) ≤ normSqT X := by
  obtain ⟨draws, gdraw, hd, hg, hi⟩ := h0
  obtain ⟨i1, -⟩ := NTUCKER.init_inv hi (tuckerShapes_iff.2 hd) hg
  have hz : ∀ M, M = s0.g ∨ M ∈ s0.A → Real.sqrt (normSqT M) ^ (X.order + 1) = Real.sqrt (normSqT X) := by
    unfold NTUCKER.init at hi
    cases h1 : bcu.init X (X.order + 1) draws with
    | error e => rw [h1] at hi; cases hi
    | ok s =>
    rw [h1, ok_bind] at hi
    cases h2 : normInit X (X.order + 1) (relu gdraw) with
    | error e => rw [h2] at hi; cases hi
    | ok g =>
    rw [h2, ok_bind] at hi
    cases hi
    rintro M (rfl | hM)
    · exact normInit_size (Nat.succ_pos _) h2
    · exact init_size (Nat.succ_pos _) h1 M hM
  refine ⟨tuckerShapes_iff.1 i1.factors.A, i1.g, ?_, (tucker_norm_le i1.g i1.factors.A hr).trans ?_⟩
  · rintro M (rfl | hM)
    · exact ⟨i1.nonneg, hz _ (Or.inl rfl)⟩
    · exact ⟨i1.factors.nonneg M hM, hz M (Or.inr hM)⟩
  · have hl : s0.A.length = X.order := (tuckerShapes_iff.1 i1.factors.A).1
    have hgz := hz s0.g (Or.inl rfl)
    rw [prod_of_size (Real.sqrt_nonneg (normSqT s0.g)) (Nat.succ_pos X.order)
      (fun N hN => by rw [hz N (Or.inr hN), hgz]), hl]
    have e : normSqT s0.g * (Real.sqrt (normSqT s0.g) ^ 2) ^ X.order = (Real.sqrt (normSqT s0.g) ^ (X.order + 1)) ^ 2 := by
      have := Real.sq_sqrt (normSqT_nonneg s0.g)
      generalize Real.sqrt (normSqT s0.g) = q at *
      rw [← this]; ring
    rw [e, hgz, Real.sq_sqrt (normSqT_nonneg X)]

/-- **C84** for `NTUCKER_BCU`: on nonnegative data the first two relative residuals are at most `√2`. -/
theorem C84_ntucker_first_residuals (topSv : Tensor ℝ → Res ℝ) (ht : TopSvOk topSv) (X : Tensor ℝ) (ranks : List Nat)
    (hr : ranks.length = X.shape.length) (h2 : 2 ≤ X.order) (h13 : X.order ≤ 13) (hrp : ∀ d ∈ ranks, 0 < d)
    (hpos : ∀ d ∈ X.shape, 0 < d) (hX : Nonneg X) (s0 : TState)
    (h0 : NtuckerInit X ranks s0) (args : Args ℝ) (steps : Int)
    (self self' : Self (List (Tensor ℝ)) (Tensor ℝ) (Tensor ℝ)) (ev : List Int) (hist : List (ℝ × ℝ))
    (h : train (exactArith ℝ) (NTUCKER.cls topSv X) args steps (.ok s0) self = (self', ev, .ok hist)) :
    ∀ p ∈ hist.take 2, p.2 ≤ Real.sqrt 2 := by
  obtain ⟨a, b⟩ := C78_ntucker_first_two_steps topSv ht X ranks hr h2 h13 hrp hpos s0 h0 args steps self self' ev hist h
  obtain ⟨-, -, c, d⟩ := C84_ntucker_initial X ranks hr s0 h0
  have hr : Real.sqrt (tkErr X s0.g s0.A) / Real.sqrt (normSqT X) ≤ Real.sqrt 2 := by
    refine sqrt_ratio_le (normSqT_nonneg X) ?_
    exact dist_le_of_nonneg _ _ _ (fun i => hX.at i)
      (fun i => loss.boxSum_nonneg _ fun j _ => mul_nonneg ((c _ (Or.inl rfl)).1.at _)
        (kron_nonneg_of _ _ _ fun M hM => (c M (Or.inr hM)).1)) d
  match hist, a, b with
  | [], _, _ => simp
  | [p], a, _ => simpa using (a p rfl).trans hr
  | p :: q :: _, a, b =>
      have := (a p rfl).trans hr
      simp only [List.take_succ_cons, List.take_zero, List.mem_cons, List.not_mem_nil, or_false]
      rintro x (rfl | rfl)
      · exact this
      · exact (b p x rfl rfl).trans this

/-- The hypotheses of C84 are met. -/
example : ∃ topSv self' ev hist, TopSvOk topSv ∧ train (exactArith ℝ) (NTUCKER.cls topSv onesX) { tol := 1 } 3
    (.ok onesTState) {} = (self', ev, .ok hist) ∧ NtuckerInit onesX [1, 1] onesTState ∧ Nonneg onesX := by
  obtain ⟨topSv, ht, hh⟩ := ntucker_example
  obtain ⟨self', ev, hist, h, -⟩ := hh 3 (by norm_num)
  exact ⟨topSv, self', ev, hist, ht, h, onesT_init, by intro x hx; simp [onesX] at hx; rw [hx]; norm_num⟩

end TD.Props
