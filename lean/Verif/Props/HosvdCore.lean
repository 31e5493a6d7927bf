import Verif.Lemmas.HosvdCore
import Verif.Lemmas.Loss
import Verif.Props.Hooi

/-!
# C128 : the core of `HOSVD`

`svd` stands for `tf.svd`; `SvdOk svd` says that it returns some thin singular value decomposition.
-/
namespace TD.Props
open TD Spec Tensor fact ops Matrix

/-- **C128**: decomposing the same tensor with larger ranks only appends columns to the factors and entries to the core,
and the error drops by the squares of the appended core entries. -/
theorem C128_corner (svd : Tensor ℝ → Res (Tensor ℝ × Tensor ℝ × Tensor ℝ)) (hs : SvdOk svd) (X : Tensor ℝ)
    (ranks ranks' : List Nat) (h1 : 1 ≤ X.order) (h13 : X.order ≤ 13) (hpos : ∀ d ∈ X.shape, 0 < d)
    (hr : X.order ≤ ranks.length) (hr' : X.order ≤ ranks'.length) (hle : ∀ n < X.order, ranks.getD n 0 ≤ ranks'.getD n 0) :
    ∃ A g full A' g' full', tucker.HOSVD.run svd X ranks = .ok (A, g, full) ∧
      tucker.HOSVD.run svd X ranks' = .ok (A', g', full') ∧ A.length = X.order ∧ A'.length = X.order ∧
      (∀ n < X.order, ∃ M M' c c', A[n]? = some M ∧ A'[n]? = some M' ∧ M.shape = [X.shape.getD n 0, c] ∧
        M'.shape = [X.shape.getD n 0, c'] ∧ c ≤ c' ∧ ∀ i < X.shape.getD n 0, ∀ j < c, M.at_ [i, j] = M'.at_ [i, j]) ∧
      (∀ j, InB g.shape j → InB g'.shape j ∧ g.at_ j = g'.at_ j) ∧
      distSqT X full = distSqT X full' +
        boxSum g'.shape (fun j => if ∀ n < X.order, j.getD n 0 < g.shape.getD n 0 then 0 else g'.at_ j ^ 2) ∧
      distSqT X full' ≤ distSqT X full := by
  have hne : X.shape ≠ [] := by
    intro e; unfold order at h1; rw [e] at h1; simp at h1
  obtain ⟨A, g, Y, e1, e2, e3, ho, hgs, hA⟩ := hosvd_ok hs h1 h13 hpos hr
  obtain ⟨A', g', Y', e1', e2', e3', ho', hgs', hA'⟩ := hosvd_ok hs h1 h13 hpos hr'
  have hl : A.length = X.order := ho.1
  have hl' : A'.length = X.order := ho'.1
  have hfac : ∀ n < X.order, ∃ M M' c c', A[n]? = some M ∧ A'[n]? = some M' ∧ M.shape = [X.shape.getD n 0, c] ∧
        M'.shape = [X.shape.getD n 0, c'] ∧ c ≤ c' ∧ ∀ i < X.shape.getD n 0, ∀ j < c, M.at_ [i, j] = M'.at_ [i, j] := by
    intro n hn
    obtain ⟨M, -, -, -, -, a1, a2, -⟩ := hA n hn
    obtain ⟨M', -, -, -, -, b1, b2, -⟩ := hA' n hn
    obtain ⟨m, c, c', q1, q2, q3, q4⟩ := leading_nested (hosvd_leading e1 a1) (hosvd_leading e1' b1) (hle n hn)
    have : m = X.shape.getD n 0 := by
      rw [a2] at q1; exact (List.cons.inj q1).1.symm
    subst this
    exact ⟨M, M', c, c', a1, b1, q1, q2, q3, q4⟩
  have hgl : g.shape.length = X.order := by rw [hgs, colDims, List.length_map, hl]
  have hgl' : g'.shape.length = X.order := by rw [hgs', colDims, List.length_map, hl']
  have hdim : ∀ n < g.shape.length, g.shape.getD n 0 ≤ g'.shape.getD n 0 := by
    intro n hn
    obtain ⟨M, M', c, c', a1, b1, a2, b2, hc, -⟩ := hfac n (hgl ▸ hn)
    rw [hgs, hgs']
    simp [colDims, a1, b1, a2, b2, hc]
  have hf2 : List.Forall₂ (fun M M' : Tensor ℝ => ∀ i < M.shape.getD 0 0, ∀ j < M.shape.getD 1 0, M.at_ [i, j] = M'.at_ [i, j]) A A' := by
    rw [List.forall₂_iff_get]
    refine ⟨by rw [hl, hl'], fun n hn hn' => ?_⟩
    obtain ⟨M, M', c, c', a1, b1, a2, b2, hc, he⟩ := hfac n (hl ▸ hn)
    have x1 : A.get ⟨n, hn⟩ = M := by
      rw [List.getElem?_eq_getElem hn] at a1; exact Option.some.inj a1
    have x2 : A'.get ⟨n, hn'⟩ = M' := by
      rw [List.getElem?_eq_getElem hn'] at b1; exact Option.some.inj b1
    rw [x1, x2, a2]
    exact he
  have hcore : ∀ j, InB g.shape j → InB g'.shape j ∧ g.at_ j = g'.at_ j := by
    intro j hj
    have hj' : InB g'.shape j := by
      obtain ⟨k1, k2⟩ := InB_iff_getD.1 hj
      exact InB_iff_getD.2 ⟨by omega, fun n hn => lt_of_lt_of_le (k2 n (by omega)) (hdim n (by omega))⟩
    refine ⟨hj', ?_⟩
    rw [(C76_hosvd_entries svd hs X ranks h1 h13 hpos hr A g Y e1).1 j hj,
      (C76_hosvd_entries svd hs X ranks' h1 h13 hpos hr' A' g' Y' e1').1 j hj']
    refine boxSum_congr fun i hi => ?_
    rw [kronEntry_corner hf2 (by rw [ho.rowDims]; exact hi) (by rw [← hgs]; exact hj)]
  have hd := (tucker_residual hne h13 ho e2 e3).2
  have hd' := (tucker_residual hne h13 ho' e2' e3').2
  have hnorm : normSqT g' = normSqT g +
      boxSum g'.shape (fun j => if ∀ n < X.order, j.getD n 0 < g.shape.getD n 0 then 0 else g'.at_ j ^ 2) := by
    have c1 : normSqT g = boxSum g.shape (fun j => g'.at_ j ^ 2) := by
      unfold normSqT
      exact boxSum_congr fun j hj => by rw [(hcore j hj).2]
    rw [c1, ← boxSum_corner (s' := g'.shape) _ (by rw [hgl, hgl']) hdim, hgl, ← boxSum_add]
    unfold normSqT
    refine boxSum_congr fun j _ => ?_
    split <;> simp
  have hnn : 0 ≤ boxSum g'.shape (fun j => if ∀ n < X.order, j.getD n 0 < g.shape.getD n 0 then 0 else g'.at_ j ^ 2) := by
    refine loss.boxSum_nonneg _ fun j _ => ?_
    split
    · exact le_refl _
    · positivity
  exact ⟨A, g, Y, A', g', Y', e1, e1', hl, hl', hfac, hcore, by rw [hd, hd', hnorm]; ring, by rw [hd, hd', hnorm]; linarith⟩

/-- **C128**: with ranks that keep everything, slices of the core along a mode are orthogonal to each other, and their norms
are the singular values of the unfolding along that mode. -/
theorem C128_all_orthogonal (svd : Tensor ℝ → Res (Tensor ℝ × Tensor ℝ × Tensor ℝ)) (hs : SvdOk svd) (X : Tensor ℝ)
    (ranks : List Nat) (h1 : 1 ≤ X.order) (h13 : X.order ≤ 13) (hpos : ∀ d ∈ X.shape, 0 < d)
    (hr : X.order ≤ ranks.length)
    (hfull : ∀ n < X.order, min (X.shape.getD n 0) (otherSize X.shape n) ≤ ranks.getD n 0)
    (σ : (n : Nat) → Fin (min (X.shape.getD n 0) (otherSize X.shape n)) → ℝ)
    (hσ : ∀ n < X.order, ∃ M, unfold X n = .ok M ∧
      SingularValues (toMat M (X.shape.getD n 0) (otherSize X.shape n)) (σ n)) :
    ∃ A g, tucker.HOSVD.run svd X ranks = .ok (A, g, X) ∧ g.shape.length = X.order ∧
      (∀ n < X.order, g.shape.getD n 0 = min (X.shape.getD n 0) (otherSize X.shape n)) ∧
      ∀ n < X.order, ∀ a b : Fin (min (X.shape.getD n 0) (otherSize X.shape n)),
        sliceSum g.shape n a (fun j => g.at_ j * g.at_ (j.set n b)) = if a = b then σ n a ^ 2 else 0 := by
  have hne : X.shape ≠ [] := by
    intro e; unfold order at h1; rw [e] at h1; simp at h1
  obtain ⟨A, g, Y, e1, e2, e3, ho, hgs, hA⟩ := hosvd_ok hs h1 h13 hpos hr
  obtain ⟨A', g', e1'⟩ := C56_hosvd_exact svd hs X ranks h1 h13 hpos hr hfull
  rw [e1] at e1'
  have hYX : Y = X := by
    have := Except.ok.inj e1'
    exact (Prod.mk.inj (Prod.mk.inj this).2).2
  subst hYX
  have hl : A.length = Y.order := ho.1
  have hgl : g.shape.length = Y.order := by rw [hgs, colDims, List.length_map, hl]
  have hdim : ∀ n < Y.order, g.shape.getD n 0 = min (Y.shape.getD n 0) (otherSize Y.shape n) := by
    intro n hn
    obtain ⟨M, -, -, -, -, a1, a2, -⟩ := hA n hn
    rw [hgs]
    rw [show (colDims A).getD n 0 = M.shape.getD 1 0 by simp [colDims, a1], a2]
    exact min_eq_right (hfull n hn)
  refine ⟨A, g, e1, hgl, hdim, fun n hn a b => ?_⟩
  obtain ⟨M, U, s, V, h, a1, a2, a3, a4⟩ := hA n hn
  have hY : IsTucker Y.shape g A Y := by
    refine ⟨rfl, fun i hi => ?_⟩
    exact (C76_hosvd_entries svd hs Y ranks h1 h13 hpos hr A g Y e1).2 i hi
  obtain ⟨K, k1, k2⟩ := unfM_tucker_orth hY ho hgs a1 a2
  rw [a4] at k2
  have hG := gram_core a3 h k1 k2
  have hc : min (ranks.getD n 0) (min (Y.shape.getD n 0) (otherSize Y.shape n)) =
      min (Y.shape.getD n 0) (otherSize Y.shape n) := min_eq_right (hfull n hn)
  have hsv : ∀ i, s i = σ n i := by
    obtain ⟨N, n1, U', V', n2⟩ := hσ n hn
    rw [unfold_closed Y hn (getD_pos_of hpos hn)] at n1
    cases n1
    rw [toMat_mat] at n2
    exact fun i => a3.values_unique n2 i
  have hng : n < g.shape.length := hgl ▸ hn
  rw [sliceSum_unkolda hng (by rw [hdim n hn]; exact a.isLt)]
  have := congrFun (congrFun hG (Fin.cast hc.symm a)) (Fin.cast hc.symm b)
  rw [Matrix.mul_apply, Matrix.diagonal_apply] at this
  have hab : (Fin.cast hc.symm a = Fin.cast hc.symm b) ↔ a = b := by simp [Fin.ext_iff]
  refine Eq.trans ?_ (this.trans ?_)
  · refine Finset.sum_congr rfl fun j _ => ?_
    rw [transpose_apply, unkolda_set_self hng]
    rfl
  · by_cases e : a = b
    · rw [if_pos (hab.2 e), if_pos e]
      have : Fin.castLE h (Fin.cast hc.symm a) = a := Fin.ext rfl
      rw [this, hsv]
    · rw [if_neg fun x => e (hab.1 x), if_neg e]

/-- The hypotheses can be met: a solver exists, and a 2 × 3 matrix with ranks `[1, 1]` and `[2, 2]`. -/
example : (∃ svd, SvdOk svd) ∧ ∃ X : Tensor ℝ, 1 ≤ X.order ∧ X.order ≤ 13 ∧ (∀ d ∈ X.shape, 0 < d) ∧
    (∀ n < X.order, [1, 1].getD n 0 ≤ [2, 2].getD n 0) ∧
    ∀ n < X.order, min (X.shape.getD n 0) (otherSize X.shape n) ≤ [2, 2].getD n 0 :=
  ⟨exists_svdOk, mat 2 3 fun i j => (i : ℝ) + j, by decide, by decide, by decide,
    by intro n (hn : n < 2); interval_cases n <;> decide, by intro n (hn : n < 2); interval_cases n <;> decide⟩

end TD.Props
