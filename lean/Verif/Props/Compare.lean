import Verif.Props.Again
import Mathlib.Tactic.IntervalCases

/-!
# C177 : the methods compared with each other on the same data
-/
namespace TD.Props
open TD Spec Tensor ops Matrix fact bcu

/-- **C177**: with the same ranks no residual a `HOOI` training reports exceeds the relative error of `HOSVD`. -/
theorem C177_hooi_hosvd (svd : Tensor ℝ → Res (Tensor ℝ × Tensor ℝ × Tensor ℝ)) (hs : SvdOk svd) (X : Tensor ℝ)
    (ranks : List Nat) (h2 : 2 ≤ X.order) (h13 : X.order ≤ 13) (hpos : ∀ d ∈ X.shape, 0 < d)
    (hlen : X.order ≤ ranks.length) (Ar : Arith ℝ) (args : Args ℝ) (steps : Int)
    (self self' : Self (List (Tensor ℝ)) (Tensor ℝ) (Tensor ℝ)) (ev : List Int) (hist : List (ℝ × ℝ))
    (h : train Ar (HOOI.cls (tucker.HOOI.main svd X ranks)) args steps (tucker.HOOI.init svd X ranks) self =
      (self', ev, .ok hist)) :
    ∃ A g full, tucker.HOSVD.run svd X ranks = .ok (A, g, full) ∧
      ∀ p ∈ hist, p.2 ≤ Real.sqrt (distSqT X full) / Real.sqrt (normSqT X) := by
  obtain ⟨A, g, full, e1, -⟩ := C57_hosvd svd hs X ranks (by omega) h13 hpos hlen
  refine ⟨A, g, full, e1, ?_⟩
  have hmono := (C58_hooi_nonincreasing svd hs X ranks h2 h13 hpos hlen Ar args steps self self' ev hist h).1
  obtain ⟨s0, o, k, hs0, hl, -, hrun, hh⟩ := C43_history Ar _ args steps _ self self' ev hist h
  obtain ⟨i1, i2, -⟩ := hooi_init hs hpos hlen hs0
  obtain ⟨σ, h0, hσ⟩ := hooi_run hs h2 h13 hpos hlen i1 hrun
  obtain ⟨-, s, hm, -⟩ := hσ 0 (by omega)
  rw [h0] at hm
  have hf := (C58_first_step svd hs X ranks h2 h13 hpos hlen s0 s A g full (o 0) hs0 hm e1).2
  obtain ⟨g', -, -, -, -, -, -, -, -, -, -, a10, a11, -⟩ := hooi_main hs h2 h13 hpos hlen i1 hm
  intro p hp
  have hle : p.2 ≤ (o 0).rel := by
    obtain ⟨j, hj, rfl⟩ := List.mem_iff_getElem.1 hp
    have e := hh 0 (by omega)
    rw [List.getElem?_eq_getElem (by omega), Option.some.injEq] at e
    rcases Nat.eq_zero_or_pos j with rfl | hjp
    · rw [e]
    · have := List.pairwise_iff_getElem.1 hmono 0 j (by rw [List.length_map]; omega) (by simpa using hj) hjp
      rw [List.getElem_map, List.getElem_map, e] at this
      exact this
  refine hle.trans ?_
  rw [a10]
  exact div_le_div_of_nonneg_right (Real.sqrt_le_sqrt hf) (Real.sqrt_nonneg _)

/-- For a history entry `p` of some method on `X`: with the given ranks `HOSVD` has at most `√N` times its residual, and
so has every step of every `HOOI` training that returns (`N` modes). -/
def TuckerNear (svd : Tensor ℝ → Res (Tensor ℝ × Tensor ℝ × Tensor ℝ)) (X : Tensor ℝ) (ranks : List Nat)
    (p : ℝ × ℝ) : Prop :=
  (∃ A g full, tucker.HOSVD.run svd X ranks = .ok (A, g, full) ∧
    Real.sqrt (distSqT X full) / Real.sqrt (normSqT X) ≤ Real.sqrt X.order * p.2) ∧
  ∀ (Ar : Arith ℝ) (args : Args ℝ) (steps : Int) (self self' : Self (List (Tensor ℝ)) (Tensor ℝ) (Tensor ℝ))
    (ev : List Int) (hist : List (ℝ × ℝ)),
    train Ar (HOOI.cls (tucker.HOOI.main svd X ranks)) args steps (tucker.HOOI.init svd X ranks) self =
      (self', ev, .ok hist) → ∀ q ∈ hist, q.2 ≤ Real.sqrt X.order * p.2

theorem tuckerNear_of {svd : Tensor ℝ → Res (Tensor ℝ × Tensor ℝ × Tensor ℝ)} (hs : SvdOk svd) {X Y : Tensor ℝ}
    {ranks : List Nat} (h2 : 2 ≤ X.order) (h13 : X.order ≤ 13) (hpos : ∀ d ∈ X.shape, 0 < d)
    (hlen : X.order ≤ ranks.length) {p : ℝ × ℝ} (hp : Reports X Y p)
    (hY : TuckerRankLe X.shape ranks Y) : TuckerNear svd X ranks p := by
  obtain ⟨A, g, full, e1, -, e3⟩ := C90_hosvd_quasi_optimal svd hs X ranks (by omega) h13 hpos hlen Y hY
  have hb : Real.sqrt (distSqT X full) / Real.sqrt (normSqT X) ≤ Real.sqrt X.order * p.2 := by
    have e : p.2 = Real.sqrt (distSqT X Y) / Real.sqrt (normSqT X) := hp.2
    rw [e, ← mul_div_assoc, ← Real.sqrt_mul (Nat.cast_nonneg _)]
    exact div_le_div_of_nonneg_right (Real.sqrt_le_sqrt e3) (Real.sqrt_nonneg _)
  refine ⟨⟨A, g, full, e1, hb⟩, fun Ar args steps self self' ev hist h q hq => ?_⟩
  obtain ⟨A', g', full', e1', e2'⟩ := C177_hooi_hosvd svd hs X ranks h2 h13 hpos hlen Ar args steps self self' ev hist h
  rw [e1] at e1'
  cases e1'
  exact (e2' q hq).trans hb

/-- **C177** for `CP_ALS` of rank `R`, for ranks that are at least `R` in every mode. -/
theorem C177_cp (svd : Tensor ℝ → Res (Tensor ℝ × Tensor ℝ × Tensor ℝ)) (hs : SvdOk svd)
    (pinv : Tensor ℝ → Res (Tensor ℝ)) (hp : PinvOk pinv) (X : Tensor ℝ) (R : Nat)
    (A0 : List (Tensor ℝ)) (hA : FactorsFor X.shape R A0) (h2 : 2 ≤ X.order) (h13 : X.order ≤ 13)
    (hpos : ∀ d ∈ X.shape, 0 < d) (ranks : List Nat) (hr : X.order ≤ ranks.length)
    (hR : ∀ k < X.order, R ≤ ranks.getD k 0) (Ar : Arith ℝ) (args : Args ℝ) (steps : Int)
    (self self' : Self (List (Tensor ℝ)) (Tensor ℝ) (Tensor ℝ)) (ev : List Int) (hist : List (ℝ × ℝ))
    (h : train Ar (CP_ALS.cls (cp.main pinv X R)) args steps (.ok A0) self = (self', ev, .ok hist)) :
    ∀ p ∈ hist, TuckerNear svd X ranks p := by
  refine all_entries (fun m self' ev hist p h hl => ?_) h
  have h25 : X.order ≤ 25 := by omega
  obtain ⟨s, s', o, k, hre, hrun, e1, e2, e3, e4⟩ := train_last (init := CpInit X R) (by rintro s ⟨⟩; exact hA) h
  have hm : cp.main pinv X R s = .ok (s', o) := hrun.2
  obtain ⟨lam, -, a1, a2, a3, a4, a5, a6, -⟩ := cp.main_ok hp (cp_reach hp h2 h25 hpos hre) h2 h25 hpos hm
  have hne : X.shape ≠ [] := by intro e; unfold order at h2; rw [e] at h2; simp at h2
  obtain ⟨Y, y1, y2, y3⟩ := cp.fullOf_spec a1 hne h25 a2
  rw [a5] at y1; cases y1
  rw [e1] at hl; cases hl
  exact tuckerNear_of hs h2 h13 hpos hr (scalars_reports a6 (cp_main_scalars hm)) (tuckerRank_weighted a1 hne ⟨y2, y3⟩ hR)

/-- **C177** for `NCP_BCU` of rank `R`, for ranks that are at least `R` in every mode. -/
theorem C177_ncp (svd : Tensor ℝ → Res (Tensor ℝ × Tensor ℝ × Tensor ℝ)) (hs : SvdOk svd)
    (topSv : Tensor ℝ → Res ℝ) (X : Tensor ℝ) (R : Nat) (h2 : 2 ≤ X.order) (h13 : X.order ≤ 13)
    (hpos : ∀ d ∈ X.shape, 0 < d) (s0 : State) (h0 : NcpInit X R s0) (ranks : List Nat) (hr : X.order ≤ ranks.length)
    (hR : ∀ k < X.order, R ≤ ranks.getD k 0) (Ar : Arith ℝ) (args : Args ℝ) (steps : Int)
    (self self' : Self (List (Tensor ℝ)) (Tensor ℝ) (Tensor ℝ)) (ev : List Int) (hist : List (ℝ × ℝ))
    (h : train Ar (NCP.cls topSv X R) args steps (.ok s0) self = (self', ev, .ok hist)) :
    ∀ p ∈ hist, TuckerNear svd X ranks p := by
  refine all_entries (fun m self' ev hist p h hl => ?_) h
  have h25 : X.order ≤ 25 := by omega
  have hne : X.shape ≠ [] := by intro e; unfold order at h2; rw [e] at h2; simp at h2
  obtain ⟨s, s', o, k, hre, hrun, e1, e2, e3, e4⟩ := train_last (init := NcpInit X R) (by rintro s ⟨⟩; exact h0) h
  have hm : NCP.main topSv X s = .ok (s', o) := hrun.2
  obtain ⟨f1, -, -, -, -, a6, a7, a8, -⟩ := NCP.main_ok (ncp_reach hne h25 hre).1 hne h25 hm
  obtain ⟨-, -, -, -, -, -, hsc⟩ := NCP.main_inv hm
  rw [e1] at hl; cases hl
  exact tuckerNear_of hs h2 h13 hpos hr (scalars_reports a7 hsc)
    (tuckerRank_weighted (w := fun _ => 1) f1.factorsFor.1 hne ⟨a7, by simpa using a8⟩ hR)

/-- **C177** for `NTUCKER_BCU` with the same ranks. -/
theorem C177_ntucker (svd : Tensor ℝ → Res (Tensor ℝ × Tensor ℝ × Tensor ℝ)) (hs : SvdOk svd)
    (topSv : Tensor ℝ → Res ℝ) (X : Tensor ℝ) (ranks : List Nat)
    (hr : ranks.length = X.shape.length) (h2 : 2 ≤ X.order) (h13 : X.order ≤ 13) (hpos : ∀ d ∈ X.shape, 0 < d)
    (s0 : TState) (h0 : NtuckerInit X ranks s0) (Ar : Arith ℝ) (args : Args ℝ) (steps : Int)
    (self self' : Self (List (Tensor ℝ)) (Tensor ℝ) (Tensor ℝ)) (ev : List Int) (hist : List (ℝ × ℝ))
    (h : train Ar (NTUCKER.cls topSv X) args steps (.ok s0) self = (self', ev, .ok hist)) :
    ∀ p ∈ hist, TuckerNear svd X ranks p := by
  refine all_entries (fun m self' ev hist p h hl => ?_) h
  have h1 : 1 ≤ X.order := by omega
  obtain ⟨s, s', o, k, hre, hrun, e1, e2, e3, e4⟩ := train_last (init := NtuckerInit X ranks) (by rintro s ⟨⟩; exact h0) h
  obtain ⟨s1, v, hc, rfl, hm⟩ := hrun
  have hre' := hre.core rfl hc
  obtain ⟨t1, -, -, -, -, b6, -, b8, b9, b10, b11, -⟩ :=
    NTUCKER.main_ok (ntucker_reach hr h1 h13 hre').1 hr h1 h13 hm
  obtain ⟨-, -, -, -, -, -, hsc⟩ := NTUCKER.main_inv hm
  rw [e1] at hl; cases hl
  refine tuckerNear_of hs h2 h13 hpos hr.ge (scalars_reports b10 hsc) ?_
  refine tuckerRank_of (tuckerShapes_iff.1 t1.factors.A) ⟨b10, b11⟩ ?_ fun j hj => ?_
  · rw [t1.g, hr]
  · rw [t1.g]

/-- The hypotheses of C177 are met: on the 2 × 3 tensor with entries `1 + i + j` trainings of `CP_ALS` from factors full of
ones return, and so do trainings of `HOOI` with ranks `[1, 1]`; no residual of these exceeds `√2` times one of those. -/
example (svd : Tensor ℝ → Res (Tensor ℝ × Tensor ℝ × Tensor ℝ)) (hs : SvdOk svd)
    (pinv : Tensor ℝ → Res (Tensor ℝ)) (hp : PinvOk pinv) (args args' : Args ℝ) (hv : args.validationInternal ≠ 0)
    (hv' : args'.validationInternal ≠ 0) (self self1 : Self (List (Tensor ℝ)) (Tensor ℝ) (Tensor ℝ)) :
    let X : Tensor ℝ := mat 2 3 fun i j => (i : ℝ) + j + 1
    ∃ h1 h2,
      (train (exactArith ℝ) (CP_ALS.cls (cp.main pinv X 1)) args 5
        (.ok [mat 2 1 fun _ _ => 1, mat 3 1 fun _ _ => 1]) self).2.2 = .ok h1 ∧
      (train (exactArith ℝ) (HOOI.cls (tucker.HOOI.main svd X [1, 1])) args' 7 (tucker.HOOI.init svd X [1, 1])
        self1).2.2 = .ok h2 ∧
      ∀ p ∈ h1, ∀ q ∈ h2, q.2 ≤ Real.sqrt 2 * p.2 := by
  intro X
  have hX : ∀ i, InB X.shape i → 0 < X.at_ i := by
    intro i hi
    obtain ⟨a, b, rfl, ha, hb⟩ := InB_pair.1 hi
    rw [at_mat _ ha hb]
    positivity
  have h2 : 2 ≤ X.order := le_refl 2
  have h13 : X.order ≤ 13 := by show 2 ≤ 13; omega
  have hpos : ∀ d ∈ X.shape, 0 < d := by intro d hd; have : d ∈ [2, 3] := hd; simp at this; omega
  have hA : FactorsFor X.shape 1 [mat 2 1 fun _ _ => (1 : ℝ), mat 3 1 fun _ _ => 1] := rfl
  obtain ⟨hist1, e1⟩ := C73_rank_one_positive pinv hp X _ hA (by
    intro M hM i hi
    simp only [List.mem_cons, List.not_mem_nil, or_false] at hM
    rcases hM with rfl | rfl
    · have hi : i < 2 := hi
      rw [at_mat _ hi (by omega)]; norm_num
    · have hi : i < 3 := hi
      rw [at_mat _ hi (by omega)]; norm_num) h2 (by omega) hpos hX (exactArith ℝ) args hv 5 (by omega) self
  obtain ⟨hist2, e2⟩ := (C74_hooi_admissible svd hs X [1, 1] h2 h13 hpos
    ⟨[0, 0], by show InB [2, 3] [0, 0]; simp [InB], (hX [0, 0] (by show InB [2, 3] [0, 0]; simp [InB])).ne'⟩
    (le_refl 2) (exactArith ℝ) args' hv' 7 (by omega) self1).2 (by show Admissible [2, 3] [1, 1]; unfold Admissible; decide)
  refine ⟨hist1, hist2, e1, e2, fun p hp' q hq => ?_⟩
  have := (C177_cp svd hs pinv hp X 1 _ hA h2 h13 hpos [1, 1] (le_refl 2) (by
    intro k hk
    have hk : k < 2 := hk
    interval_cases k <;> simp) (exactArith ℝ) args 5 self _ _ hist1 (Prod.ext rfl (Prod.ext rfl e1)) p hp').2
    (exactArith ℝ) args' 7 self1 _ _ hist2 (Prod.ext rfl (Prod.ext rfl e2)) q hq
  exact this

end TD.Props
