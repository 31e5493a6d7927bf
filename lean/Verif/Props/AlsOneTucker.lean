import Verif.Lemmas.AlsOneTuckerPos
import Verif.Props.AlsOne

/-! # C127: `NTUCKER_BCU` with all ranks one -/
namespace TD.Props
open TD Spec Tensor tf ops fact bcu

/-- **C127** (the core run): with all ranks one, on nonnegative data and factors that are not all zero somewhere, the core run
succeeds and returns the core that fits the data best for the current factors: no other core entry, positive or negative,
gives a smaller squared distance. -/
theorem C127_core (topSv : Tensor ℝ → Res ℝ) (ht : TopSvOk topSv) (X : Tensor ℝ) (st : TState)
    (hst : TkOk X.shape (List.replicate X.shape.length 1) st) (h1 : 1 ≤ X.order) (h13 : X.order ≤ 13)
    (hX : ∀ i, InB X.shape i → 0 ≤ X.at_ i)
    (hne : ∃ i, InB X.shape i ∧ outerEntry X.order (firstCol st.A) i ≠ 0) :
    ∃ st' Z, NTUCKER.core topSv X st = .ok (st', Z) ∧ Z.shape = List.replicate X.shape.length 1 ∧
      ∀ G : Tensor ℝ, G.shape = List.replicate X.shape.length 1 → tkErr X Z st.A ≤ tkErr X G st.A := by
  obtain ⟨i0, hi0, hn0⟩ := hne
  have hF := tucker_ones.1 hst.shapes
  have hb : 0 < boxSum X.shape fun i => outerEntry X.order (firstCol st.A) i ^ 2 := by
    refine lt_of_le_of_ne (loss.boxSum_nonneg _ fun i _ => sq_nonneg _) fun e => hn0 ?_
    have := (loss.boxSum_eq_zero X.shape fun i _ => sq_nonneg (outerEntry X.order (firstCol st.A) i)).1 e.symm _ hi0
    simpa using this
  have ha : 0 ≤ along X (firstCol st.A) := loss.boxSum_nonneg _ fun i hi =>
    mul_nonneg (hX i hi) (Finset.prod_nonneg fun k _ => firstCol_nonneg hst.factors.nonneg k _)
  obtain ⟨Z, hZ, hc⟩ := NTUCKER.core_one ht hst h1 h13 hb.ne'
  rw [max_eq_left (div_nonneg ha hb.le)] at hc
  obtain ⟨c1, -⟩ := NTUCKER.core_ok hst hZ
  refine ⟨_, Z, hZ, c1.g, fun G hG => ?_⟩
  have key : ∀ G : Tensor ℝ, G.shape = List.replicate X.shape.length 1 → tkErr X G st.A =
      normSqT X + -2 * coreOne X G * along X (firstCol st.A) +
        coreOne X G ^ 2 * boxSum X.shape fun i => outerEntry X.order (firstCol st.A) i ^ 2 := by
    intro G hG
    unfold tkErr normSqT along
    rw [← boxSum_mul_left, ← boxSum_mul_left, ← boxSum_add, ← boxSum_add]
    exact boxSum_congr fun i hi => by rw [tucker_sum_one hG hF hi]; ring
  rw [key G hG, key Z c1.g, hc]
  set a := along X (firstCol st.A)
  set b := boxSum X.shape fun i => outerEntry X.order (firstCol st.A) i ^ 2
  have e1 : -2 * (a / b) * a + (a / b) ^ 2 * b = -(a ^ 2 / b) := by field_simp; ring
  have e2 : -2 * coreOne X G * a + coreOne X G ^ 2 * b = b * (coreOne X G - a / b) ^ 2 - a ^ 2 / b := by field_simp; ring
  have := mul_nonneg hb.le (sq_nonneg (coreOne X G - a / b))
  linarith

/-- **C127** (NTUCKER, no breakdown): on a positive tensor with positive draws the initialisation succeeds and `train`
returns, for every number of steps and whatever the comparison of objectives in floating point says. -/
theorem C127_ntucker_positive (topSv : Tensor ℝ → Res ℝ) (ht : TopSvOk topSv) (X : Tensor ℝ) (draws : List (Tensor ℝ))
    (gdraw : Tensor ℝ) (hd : FactorsFor X.shape 1 draws) (hdp : ∀ M ∈ draws, ∀ i < M.shape.getD 0 0, 0 < M.at_ [i, 0])
    (hg : gdraw.shape = List.replicate X.shape.length 1) (hgp : 0 < gdraw.at_ (List.replicate X.shape.length 0))
    (h2 : 2 ≤ X.order) (h13 : X.order ≤ 13) (hpos : ∀ d ∈ X.shape, 0 < d) (hX : ∀ i, InB X.shape i → 0 < X.at_ i)
    (Ar : Arith ℝ) (args : Args ℝ) (hv : args.validationInternal ≠ 0) (steps : Int) (hs : 1 ≤ steps)
    (self : Self (List (Tensor ℝ)) (Tensor ℝ) (Tensor ℝ)) :
    ∃ s0 hist, NTUCKER.init X draws gdraw = .ok s0 ∧
      (train Ar (NTUCKER.cls topSv X) args steps (.ok s0) self).2.2 = .ok hist := by
  have hsh : ∀ M ∈ draws, ∃ k < X.order, draws[k]? = some M ∧ M.shape = [X.shape.getD k 0, 1] := fun M hM => by
    obtain ⟨k, hk⟩ := List.getElem?_of_mem hM
    exact ⟨k, by have := (List.getElem?_eq_some_iff.1 hk).1; rw [hd.length] at this; exact this, hk, hd.get hk⟩
  have hnn : ∀ M ∈ draws, Nonneg M := fun M hM => by
    obtain ⟨k, hk, -, e⟩ := hsh M hM
    refine nonneg_of_at fun i hi => ?_
    rw [e] at hi
    obtain ⟨a, b, rfl, ha, hb⟩ := InB_pair.1 hi
    obtain rfl : b = 0 := by omega
    exact (hdp M hM a (by rw [e]; exact ha)).le
  have hgn : Nonneg gdraw := nonneg_of_at fun i hi => by
    rw [hg] at hi
    have : i = List.replicate X.shape.length 0 := by
      rw [← unravel_ravel hi]
      exact unravel_ones (ravel_lt hi)
    rw [this]; exact hgp.le
  have hX0 : 0 < normSqT X := boxSum_pos hpos fun i hi => pow_pos (hX i hi) 2
  obtain ⟨A, hA⟩ := mapM_all (f := fun d => normInit X (X.order + 1) (relu d)) (l := draws) fun M hM => by
    obtain ⟨k, hk, -, e⟩ := hsh M hM
    have hp := cp.getD_pos hpos hk
    exact normInit_pos (hnn M hM) (i := [0, 0]) (by rw [e]; exact InB_pair.2 ⟨0, 0, rfl, hp, Nat.one_pos⟩)
      (hdp M hM 0 (by rw [e]; exact hp))
  obtain ⟨g, hgi⟩ := normInit_pos (X := X) (p := X.order + 1) hgn (by rw [hg]; exact InB_zeros _) hgp
  have hi : NTUCKER.init X draws gdraw =
      .ok { toState := ⟨A, A, A, fun _ => 1, fun _ => 1, fun _ => 1, 1, 1⟩, g := g, g0 := g, gm := g } := by
    unfold NTUCKER.init bcu.init
    rw [hA, ok_bind]
    change (normInit X (X.order + 1) (relu gdraw) >>= _) = _
    rw [hgi]; rfl
  obtain ⟨i1, i2, -⟩ := NTUCKER.init_inv hi (tuckerShapes_iff.2 (tucker_ones.2 hd)) hg
  obtain ⟨c, c1, c2⟩ := init_par_pos hX0 hnn hd hA
  have hgpos : 0 < coreOne X g := by
    unfold normInit at hgi
    by_cases h0 : tf.norm (relu gdraw) = 0
    · rw [if_pos h0] at hgi; cases hgi
    rw [if_neg h0] at hgi
    cases hgi
    unfold coreOne
    rw [relu_of_nonneg hgn] at h0 ⊢
    rw [at_map _ _ (by rw [hg]; exact InB_zeros _)]
    refine mul_pos (div_pos hgp (lt_of_le_of_ne (Real.sqrt_nonneg _) (Ne.symm h0))) (Real.rpow_pos_of_pos ?_ _)
    rw [tf.norm, reduceSum_sq]
    exact Real.sqrt_pos.2 hX0
  have hone : TkOnePos X { toState := ⟨A, A, A, fun _ => 1, fun _ => 1, fun _ => 1, 1, 1⟩, g := g, g0 := g, gm := g } := by
    refine ⟨i1, i2, fun k hk a ha => ?_, fun _ _ => one_ne_zero, hgpos⟩
    change 0 < firstCol A k a
    rw [c2 k hk a ha]
    have hk' : k < draws.length := by rw [hd.length]; exact hk
    rw [firstCol_get (List.getElem?_eq_getElem hk')]
    exact mul_pos (c1 k hk) (hdp _ (List.getElem_mem hk') a (by
      rw [hd.get (List.getElem?_eq_getElem hk')]; exact ha))
  obtain ⟨hist, hh⟩ := train_safe (A := Ar) (c := NTUCKER.cls topSv X) (I := TkOnePos X)
    ⟨fun s hI => hI.main ht h2 h13 hpos hX, by
      rintro f hf s hI
      cases hf
      exact hI.coreRun ht (by omega) h13 hpos hX, by
      rintro p hp s hI
      cases hp
      exact ⟨hI.op1, hI.op2⟩⟩ hone (Or.inl hv) hs self
  exact ⟨_, hist, hi, hh⟩

/-- The hypotheses of `C127_ntucker_positive` are met by a 2 × 3 tensor with entries `1 + i + j` and draws of ones. -/
example : let X : Tensor ℝ := mat 2 3 fun i j => (i : ℝ) + j + 1
    let draws : List (Tensor ℝ) := [mat 2 1 fun _ _ => 1, mat 3 1 fun _ _ => 1]
    let gdraw : Tensor ℝ := mat 1 1 fun _ _ => 1
    FactorsFor X.shape 1 draws ∧ gdraw.shape = List.replicate X.shape.length 1 ∧
      0 < gdraw.at_ (List.replicate X.shape.length 0) ∧ X.order ≤ 13 ∧ (∀ i, InB X.shape i → 0 < X.at_ i) := by
  refine ⟨rfl, rfl, ?_, by decide, ?_⟩
  · change (0 : ℝ) < (mat 1 1 fun _ _ => (1 : ℝ)).at_ [0, 0]
    rw [at_mat _ (by omega) (by omega)]; norm_num
  · intro i hi
    obtain ⟨a, b, rfl, ha, hb⟩ := InB_pair.1 hi
    rw [at_mat _ ha hb]
    positivity

end TD.Props
