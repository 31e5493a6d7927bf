import Verif.Lemmas.LowRank
import Verif.Props.StopRule

/-!
# C90 : HOSVD and HOOI compared with the best Tucker approximation
-/
namespace TD.Props
open TD Spec Tensor fact

theorem _root_.TD.Spec.TuckerRankLe.unf {shape ranks : List Nat} {Y : Tensor ℝ} (h : TuckerRankLe shape ranks Y) {n : Nat}
    (hn : n < shape.length) : ∃ (q : Nat) (B : Mat (shape.getD n 0) q) (C : Mat q (otherSize shape n)),
      q ≤ ranks.getD n 0 ∧ unfM Y n (shape.getD n 0) (otherSize shape n) = B * C := by
  obtain ⟨g, B, hB, hgl, hr, hY⟩ := h
  have hl : B.length = shape.length := by simpa using congrArg List.length hB
  have hBk : ∀ k (hk : k < B.length), B[k].shape = [shape.getD k 0, g.shape.getD k 0] := by
    intro k hk
    have := congrArg (fun l => l[k]?) hB
    simp only [List.getElem?_map, List.getElem?_eq_getElem hk, Option.map_some,
      List.getElem?_range (hl ▸ hk)] at this
    exact Option.some.inj this
  have hrow : rowDims B = shape := by
    refine List.ext_getElem (by rw [rowDims, List.length_map, hl]) fun k hk hk' => ?_
    simp only [rowDims, List.getElem_map]
    rw [hBk k (by omega)]
    simp [List.getElem?_eq_getElem hk']
  have hcol : g.shape = colDims B := by
    refine List.ext_getElem (by rw [colDims, List.length_map, hl, hgl]) fun k hk hk' => ?_
    simp only [colDims, List.getElem_map]
    rw [hBk k (by omega)]
    simp [List.getElem?_eq_getElem hk]
  have hn' : n < B.length := by omega
  obtain ⟨C, hC⟩ := unfM_tucker (n := n) hY hrow hcol (List.getElem?_eq_getElem hn') (hBk n hn') rfl
  exact ⟨_, _, C, hr n hn, hC⟩

/-- **C90** for `HOSVD`: its squared error is at most `order` times that of any Tucker tensor with the same ranks. -/
theorem C90_hosvd_quasi_optimal (svd : Tensor ℝ → Res (Tensor ℝ × Tensor ℝ × Tensor ℝ)) (hs : SvdOk svd) (X : Tensor ℝ)
    (ranks : List Nat) (h1 : 1 ≤ X.order) (h13 : X.order ≤ 13) (hpos : ∀ d ∈ X.shape, 0 < d)
    (hr : X.order ≤ ranks.length) (Y : Tensor ℝ) (hY : TuckerRankLe X.shape ranks Y) :
    ∃ A g full, tucker.HOSVD.run svd X ranks = .ok (A, g, full) ∧ full.shape = X.shape ∧
      distSqT X full ≤ X.order * distSqT X Y := by
  have hYs : Y.shape = X.shape := by obtain ⟨g, B, -, -, -, h⟩ := hY; exact h.1
  have hex : ∀ n, ∃ s, n < X.order → ∃ M, ops.unfold X n = .ok M ∧
      SingularValues (toMat M (X.shape.getD n 0) (otherSize X.shape n)) s := by
    intro n
    by_cases hn : n < X.order
    · obtain ⟨U, s, V, h⟩ := exists_thinSvd (toMat (mat (X.shape.getD n 0) (otherSize X.shape n)
        fun i j => X.at_ (unkolda X.shape n i j)) (X.shape.getD n 0) (otherSize X.shape n))
      exact ⟨s, fun _ => ⟨_, unfold_closed X hn (getD_pos_of hpos hn), U, V, h⟩⟩
    · exact ⟨fun _ => 0, fun h => absurd h hn⟩
  choose σ hσ using hex
  obtain ⟨A, g, full, e1, e2, e3⟩ := C59_hosvd_error svd hs X ranks h1 h13 hpos hr σ hσ
  refine ⟨A, g, full, e1, e2, le_trans e3 ?_⟩
  have : ∀ n ∈ Finset.range X.order, (∑ i, if ranks.getD n 0 ≤ i.val then σ n i ^ 2 else 0) ≤ distSqT X Y := by
    intro n hn
    have hn : n < X.order := Finset.mem_range.1 hn
    obtain ⟨M, hM, U, V, hsv⟩ := hσ n hn
    rw [(toMat_unfold hn (getD_pos_of hpos hn) hM).2] at hsv
    obtain ⟨q, B, C, hq, hBC⟩ := hY.unf hn
    rw [distSqT_unfM hYs hn rfl rfl, hBC]
    exact hsv.eckart_young B C hq
  refine le_trans (Finset.sum_le_sum this) (le_of_eq ?_)
  rw [Finset.sum_const, Finset.card_range, nsmul_eq_mul]

/-- **C90**, exact case: a tensor that has a Tucker decomposition with these ranks is reproduced exactly. -/
theorem C90_hosvd_exact (svd : Tensor ℝ → Res (Tensor ℝ × Tensor ℝ × Tensor ℝ)) (hs : SvdOk svd) (X : Tensor ℝ)
    (ranks : List Nat) (h1 : 1 ≤ X.order) (h13 : X.order ≤ 13) (hpos : ∀ d ∈ X.shape, 0 < d)
    (hr : X.order ≤ ranks.length) (hX : TuckerRankLe X.shape ranks X) :
    ∃ A g, tucker.HOSVD.run svd X ranks = .ok (A, g, X) := by
  obtain ⟨A, g, full, e1, e2, e3⟩ := C90_hosvd_quasi_optimal svd hs X ranks h1 h13 hpos hr X hX
  have h0 : distSqT X X = 0 := by
    unfold distSqT
    simp only [sub_self]
    exact (loss.boxSum_eq_zero X.shape fun i _ => by simp).2 fun i _ => by simp
  rw [h0, mul_zero] at e3
  rw [distSqT_zero e2 e3] at e1
  exact ⟨A, g, e1⟩

/-- **C90** for `HOOI`: every residual in the history is within the same factor of the best approximation. -/
theorem C90_hooi_quasi_optimal (svd : Tensor ℝ → Res (Tensor ℝ × Tensor ℝ × Tensor ℝ)) (hs : SvdOk svd) (X : Tensor ℝ)
    (ranks : List Nat) (h2 : 2 ≤ X.order) (h13 : X.order ≤ 13) (hpos : ∀ d ∈ X.shape, 0 < d)
    (hlen : X.order ≤ ranks.length) (Y : Tensor ℝ) (hY : TuckerRankLe X.shape ranks Y)
    (Ar : Arith ℝ) (args : Args ℝ) (steps : Int)
    (self self' : Self (List (Tensor ℝ)) (Tensor ℝ) (Tensor ℝ)) (ev : List Int) (hist : List (ℝ × ℝ))
    (h : train Ar (HOOI.cls (tucker.HOOI.main svd X ranks)) args steps (tucker.HOOI.init svd X ranks) self =
      (self', ev, .ok hist)) :
    ∀ p ∈ hist, p.2 ^ 2 * normSqT X ≤ X.order * distSqT X Y := by
  have hmono := (C58_hooi_nonincreasing svd hs X ranks h2 h13 hpos hlen Ar args steps self self' ev hist h).1
  have hunit := C75_hooi_residual_at_most_one svd hs X ranks h2 h13 hpos hlen Ar args steps self self' ev hist h
  obtain ⟨s0, o, k, hs0, hl, -, hrun, hh⟩ := C43_history Ar _ args steps _ self self' ev hist h
  obtain ⟨i1, i2, -⟩ := hooi_init hs hpos hlen hs0
  obtain ⟨σ, h0, hσ⟩ := hooi_run hs h2 h13 hpos hlen i1 hrun
  obtain ⟨-, s, hm, -⟩ := hσ 0 (by omega)
  obtain ⟨A, g, full, e1, -, e3⟩ := C90_hosvd_quasi_optimal svd hs X ranks (by omega) h13 hpos hlen Y hY
  rw [h0] at hm
  have hf := (C58_first_step svd hs X ranks h2 h13 hpos hlen s0 s A g full (o 0) hs0 hm e1).2
  obtain ⟨g', -, -, -, -, -, -, -, -, -, -, a10, a11, -⟩ := hooi_main hs h2 h13 hpos hlen i1 hm
  intro p hp
  have hle : p.2 ≤ (o 0).rel := by
    obtain ⟨j, hj, rfl⟩ := List.mem_iff_getElem.1 hp
    have e := hh 0 (by omega)
    rw [List.getElem?_eq_getElem (by omega), Option.some.injEq] at e
    rcases Nat.eq_zero_or_pos j with rfl | hjp
    · rw [e]
    · have := List.pairwise_iff_getElem.1 hmono 0 j (by rw [List.length_map]; omega) (by simpa using hj) hjp
      rw [List.getElem_map, List.getElem_map, e] at this
      exact this
  have hsq : p.2 ^ 2 ≤ (o 0).rel ^ 2 := by
    have := (hunit p hp).1
    gcongr
  calc p.2 ^ 2 * normSqT X ≤ (o 0).rel ^ 2 * normSqT X := by
        have := a11.le
        gcongr
    _ = distSqT X (o 0).full := by
        rw [a10, div_pow, Real.sq_sqrt (distSqT_nonneg _ _), Real.sq_sqrt a11.le, div_mul_cancel₀ _ a11.ne']
    _ ≤ _ := le_trans hf e3

/-- **C90**, exact case for `HOOI`: with a positive tolerance one step is enough, with residual 0. -/
theorem C90_hooi_exact (svd : Tensor ℝ → Res (Tensor ℝ × Tensor ℝ × Tensor ℝ)) (hs : SvdOk svd) (X : Tensor ℝ)
    (ranks : List Nat) (h2 : 2 ≤ X.order) (h13 : X.order ≤ 13) (hpos : ∀ d ∈ X.shape, 0 < d)
    (hlen : X.order ≤ ranks.length) (hX : TuckerRankLe X.shape ranks X) (args : Args ℝ) (ht : 0 < args.tol) (steps : Int)
    (self self' : Self (List (Tensor ℝ)) (Tensor ℝ) (Tensor ℝ)) (ev : List Int) (hist : List (ℝ × ℝ))
    (h : train (exactArith ℝ) (HOOI.cls (tucker.HOOI.main svd X ranks)) args steps (tucker.HOOI.init svd X ranks) self =
      (self', ev, .ok hist)) :
    ∃ l, hist = [(l, 0)] := by
  have hq := C90_hooi_quasi_optimal svd hs X ranks h2 h13 hpos hlen X hX _ args steps self self' ev hist h
  have h0 : distSqT X X = 0 := by
    unfold distSqT
    simp only [sub_self]
    exact (loss.boxSum_eq_zero X.shape fun i _ => by simp).2 fun i _ => by simp
  rw [h0, mul_zero] at hq
  obtain ⟨s0, o, k, hs0, hl, -, hrun, hh⟩ := C43_history _ _ args steps _ self self' ev hist h
  obtain ⟨i1, i2, -⟩ := hooi_init hs hpos hlen hs0
  obtain ⟨σ, h0', hσ⟩ := hooi_run hs h2 h13 hpos hlen i1 hrun
  obtain ⟨-, s, hm, -⟩ := hσ 0 (by omega)
  rw [h0'] at hm
  obtain ⟨g', -, -, -, -, -, -, -, -, -, -, -, a11, -⟩ := hooi_main hs h2 h13 hpos hlen i1 hm
  have hz : ∀ p ∈ hist, p.2 = 0 := by
    intro p hp
    have := hq p hp
    have h3 : p.2 ^ 2 ≤ 0 := by
      by_contra hc
      push Not at hc
      have := mul_pos hc a11
      linarith
    exact pow_eq_zero_iff (two_ne_zero) |>.1 (le_antisymm h3 (sq_nonneg _))
  obtain ⟨-, -, h3, -⟩ := C88_hooi_stop svd X ranks _ _ args steps self self' ev hist h
  have hlen1 : hist.length = 1 := by
    by_contra hne
    refine h3 0 (by omega) (Or.inl ?_)
    change decide (histRel hist 0 < args.tol) = true
    unfold histRel
    rw [List.getElem?_eq_getElem (by omega), Option.getD_some, hz _ (List.getElem_mem _)]
    exact decide_eq_true ht
  obtain ⟨p, rfl⟩ := List.length_eq_one_iff.1 hlen1
  have := hz p (by simp)
  exact ⟨p.1, by rw [← this]⟩

/-- The hypotheses of C90 are met: `X[i,j] = (i+1)(j+1)` has a Tucker decomposition with ranks (1, 1). -/
example : let X : Tensor ℝ := mat 2 3 fun i j => ((i : ℝ) + 1) * (j + 1)
    TuckerRankLe X.shape [1, 1] X ∧ 2 ≤ X.order ∧ X.order ≤ 13 ∧ (∀ d ∈ X.shape, 0 < d) ∧ Admissible X.shape [1, 1] := by
  intro X
  refine ⟨⟨mat 1 1 fun _ _ => 1, [mat 2 1 fun i _ => (i : ℝ) + 1, mat 3 1 fun i _ => (i : ℝ) + 1], rfl, rfl, ?_, rfl,
    fun i hi => ?_⟩, by decide, by decide, by decide, ?_⟩
  · intro k hk
    have hk : k < 2 := hk
    interval_cases k <;> exact le_refl _
  · obtain ⟨a, b, rfl, ha, hb⟩ := InB_pair.1 hi
    change X.at_ [a, b] = boxSum [1, 1] _
    rw [boxSum_pair]
    simp only [Finset.range_one, Finset.sum_singleton, kronEntry]
    rw [at_mat _ ha hb, at_mat _ (by omega) (by omega), at_mat _ ha (by omega), at_mat _ hb (by omega)]
    ring
  · change ∀ n < 2, _
    decide

end TD.Props
