import Verif.Lemmas.HooiLast
import Verif.Props.Slices
import Verif.Props.HosvdCore
import Verif.Props.Hooi
import Verif.Props.Scheduled

/-!
# C158 : the core of a trained HOOI is ordered along the last mode; C103 for HOOI along that mode
-/
namespace TD.Props
open TD Spec Tensor tf ops fact Matrix

/-- The states of a successful training, and what the last mode of every sweep did. -/
theorem hooi_last_run {svd : Tensor ℝ → Res (Tensor ℝ × Tensor ℝ × Tensor ℝ)} (hs : SvdOk svd) {X : Tensor ℝ}
    {ranks : List Nat} (h2 : 2 ≤ X.order) (h13 : X.order ≤ 13) (hpos : ∀ d ∈ X.shape, 0 < d)
    (hlen : X.order ≤ ranks.length) {Ar : Arith ℝ} {args : Args ℝ} {steps : Int}
    {self self' : Self (List (Tensor ℝ)) (Tensor ℝ) (Tensor ℝ)} {ev : List Int} {hist : List (ℝ × ℝ)}
    (h : train Ar (HOOI.cls (tucker.HOOI.main svd X ranks)) args steps (tucker.HOOI.init svd X ranks) self =
      (self', ev, .ok hist)) :
    ∃ (o : Nat → Out (List (Tensor ℝ)) (Tensor ℝ) (Tensor ℝ) ℝ) (p : Nat), 1 ≤ hist.length ∧ p < hist.length ∧
      self'.factors = some (o (hist.length - 1)).factors ∧
      (∀ v, (o (hist.length - 1)).aux = some v → self'.aux = some v) ∧ self'.full = some (o p).full ∧
      ∀ j < hist.length, ∃ A g, TuckerShapes X.shape ranks A ∧ OrthoFactors X.shape (o j).factors ∧
        tucker.HOOI.sweep svd X ranks A = .ok (o j).factors ∧ (o j).aux = some g ∧
        ttm X (o j).factors none true = .ok g ∧ tucker.fullOf g (o j).factors = .ok (o j).full ∧
        (o j).full.shape = X.shape := by
  obtain ⟨s0, σ, o, e0, hσ0, h1, -, hf, ha, hm, p, hpl, -, -, hfull⟩ := plain_run_full rfl rfl h
  obtain ⟨i1, -⟩ := hooi_init hs hpos hlen e0
  have hst : ∀ j, j < hist.length → TuckerShapes X.shape ranks (σ j) := by
    intro j
    induction j with
    | zero => intro _; rw [hσ0]; exact i1
    | succ j ih =>
        intro hj
        obtain ⟨g, hf', -⟩ := hooi_main hs h2 h13 hpos hlen (ih (by omega)) (hm j (by omega))
        exact hf'
  refine ⟨o, p, h1, hpl, hf, fun v hv => ha v (by rw [hv]; rfl), hfull, fun j hj => ?_⟩
  obtain ⟨g, b1, b2, -, a, b, b6, b7, b8, -⟩ := hooi_main hs h2 h13 hpos hlen (hst j hj) (hm j hj)
  obtain ⟨g', c1, c2, -⟩ := hooi_main_inv (hm j hj)
  rw [a]
  refine ⟨σ j, g, hst j hj, ⟨b1.1, fun k M hM => ?_⟩, c1, b, b6, b7, b8⟩
  have := b2 k M hM
  have e : M.shape.getD 1 0 = ranks.getD k 0 := by rw [this.1]; rfl
  rw [e]; exact this

/-- **C103** for `HOOI`, along the mode the sweep treats last: after every successful training the stored full tensor
satisfies every linear relation between slices of the data. -/
theorem C103_hooi_last (svd : Tensor ℝ → Res (Tensor ℝ × Tensor ℝ × Tensor ℝ)) (hs : SvdOk svd) (X : Tensor ℝ)
    (ranks : List Nat) (h2 : 2 ≤ X.order) (h13 : X.order ≤ 13) (hpos : ∀ d ∈ X.shape, 0 < d)
    (hlen : X.order ≤ ranks.length) (Ar : Arith ℝ) (args : Args ℝ) (steps : Int)
    (self self' : Self (List (Tensor ℝ)) (Tensor ℝ) (Tensor ℝ)) (ev : List Int) (hist : List (ℝ × ℝ))
    (h : train Ar (HOOI.cls (tucker.HOOI.main svd X ranks)) args steps (tucker.HOOI.init svd X ranks) self =
      (self', ev, .ok hist))
    (c : Nat → ℝ) (hc : SliceRel X (X.order - 1) c) :
    ∃ Y, self'.full = some Y ∧ Y.shape = X.shape ∧ SliceRel Y (X.order - 1) c := by
  obtain ⟨o, p, -, hp, -, -, hfull, hj⟩ := hooi_last_run hs h2 h13 hpos hlen h
  obtain ⟨A, g, hA, ho, hsw, -, hg, hY, hYs⟩ := hj p hp
  obtain ⟨W, B, g', U, s, V, hle, l1, -, l3, l4, l5, l6, l7, l8, l9, l10, l11, l12⟩ :=
    hooi_last hs h2 h13 hpos hlen hA hsw (n := X.order - 1) (by omega) rfl rfl rfl
  rw [hg] at l3
  cases l3
  refine ⟨_, hfull, hYs, sliceRel_hooi (by omega) h13 ho hg hY l1 rfl l4 l5 l6 l7 l8 ?_⟩
  exact (sliceRel_vecMul (by rw [l9]; omega) l10 l11 c).1 (l12 c hc)

/-- **C158**: along the last mode the slices of the stored core are orthogonal to each other; the norm of the `a`-th slice
is the `a`-th singular value of the data compressed with the stored matrices of the other modes, so the slices come in
order of decreasing norm. -/
theorem C158_ordered_core (svd : Tensor ℝ → Res (Tensor ℝ × Tensor ℝ × Tensor ℝ)) (hs : SvdOk svd) (X : Tensor ℝ)
    (ranks : List Nat) (h2 : 2 ≤ X.order) (h13 : X.order ≤ 13) (hpos : ∀ d ∈ X.shape, 0 < d)
    (hlen : X.order ≤ ranks.length) (Ar : Arith ℝ) (args : Args ℝ) (steps : Int)
    (self self' : Self (List (Tensor ℝ)) (Tensor ℝ) (Tensor ℝ)) (ev : List Int) (hist : List (ℝ × ℝ))
    (h : train Ar (HOOI.cls (tucker.HOOI.main svd X ranks)) args steps (tucker.HOOI.init svd X ranks) self =
      (self', ev, .ok hist)) :
    ∃ A g W M, self'.factors = some A ∧ self'.aux = some g ∧
      ttm X A none true (.int ((X.order - 1 : Nat) : Int)) = .ok W ∧ unfold W ((X.order - 1 : Nat) : Int) = .ok M ∧
      g.shape.getD (X.order - 1) 0 = ranks.getD (X.order - 1) 0 ∧
      ∃ (m J : Nat) (σ : Fin (min m J) → ℝ) (hr : ranks.getD (X.order - 1) 0 ≤ min m J), M.shape = [m, J] ∧
        SingularValues (toMat M m J) σ ∧
        ∀ a b : Fin (ranks.getD (X.order - 1) 0),
          sliceSum g.shape (X.order - 1) a (fun j => g.at_ j * g.at_ (j.set (X.order - 1) b)) =
            if a = b then σ (Fin.castLE hr a) ^ 2 else 0 := by
  obtain ⟨o, p, h1, -, hf, ha, -, hj⟩ := hooi_last_run hs h2 h13 hpos hlen h
  obtain ⟨A, g, hA, ho, hsw, hau, hg, -, -⟩ := hj _ (Nat.sub_lt h1 one_pos)
  set n := X.order - 1 with hn
  obtain ⟨W, B, g', U, s, V, hle, l1, l2, l3, l4, l5, l6, l7, l8, l9, l10, l11, -⟩ :=
    hooi_last hs h2 h13 hpos hlen hA hsw (n := n) (by omega) rfl rfl rfl
  rw [hg] at l3
  cases l3
  have hnW : n < W.order := by rw [l9]; omega
  have hnX : n < X.order := by omega
  have hM := unfold_closed W hnW (by rw [l10]; exact getD_pos_of hpos hnX)
  rw [l10, l11] at hM
  refine ⟨_, g, W, _, hf, ha g hau, l2, hM, l6, _, _, s, hle, rfl, ⟨U, V, by rw [toMat_mat (m := X.shape.getD n 0)]; exact l4⟩, fun a b => ?_⟩
  have hgl : g.shape.length = X.order := by
    have hne : X.shape ≠ [] := by intro e; unfold order at h2; rw [e] at h2; simp at h2
    obtain ⟨g', Y, e1, -, hgs, -⟩ := tucker_entries hne h13 ho.allMat ho.rowDims
    rw [hg] at e1; cases e1
    rw [hgs, colDims, List.length_map]; exact ho.1
  have hng : n < g.shape.length := by omega
  have hent : ∀ (a : Fin (ranks.getD n 0)) (j : Fin (otherSize g.shape n)),
      g.at_ (unkolda g.shape n a j) = s (Fin.castLE hle a) * V (Fin.cast l7 j) (Fin.castLE hle a) := by
    intro a j
    have := congrFun (congrFun l8 a) (Fin.cast l7 j)
    rw [l5, l4.cols_mul hle] at this
    exact this
  rw [sliceSum_unkolda hng (by rw [l6]; exact a.isLt)]
  have e : ∀ j : Fin (otherSize g.shape n), g.at_ (unkolda g.shape n a j) * g.at_ ((unkolda g.shape n a j).set n b) =
      s (Fin.castLE hle a) * s (Fin.castLE hle b) *
        (V (Fin.cast l7 j) (Fin.castLE hle a) * V (Fin.cast l7 j) (Fin.castLE hle b)) := by
    intro j
    rw [unkolda_set_self hng, hent, hent]; ring
  rw [Finset.sum_congr rfl fun j _ => e j, ← Finset.mul_sum]
  have hV : ∑ j : Fin (otherSize g.shape n), V (Fin.cast l7 j) (Fin.castLE hle a) * V (Fin.cast l7 j) (Fin.castLE hle b) =
      if a = b then 1 else 0 := by
    have := congrFun (congrFun l4.orthV (Fin.castLE hle a)) (Fin.castLE hle b)
    rw [Matrix.mul_apply, Matrix.one_apply] at this
    rw [show (if a = b then (1 : ℝ) else 0) = if Fin.castLE hle a = Fin.castLE hle b then 1 else 0 by
      congr 1; simp, ← this]
    exact Fintype.sum_equiv (finCongr l7) _ _ fun j => rfl
  rw [hV]
  by_cases e : a = b
  · subst e; simp [pow_two]
  · simp [e]

/-- The hypotheses are met: training a 2 × 3 matrix with two equal columns and ranks `[2, 2]` succeeds, and the equality of
the columns is a relation along the last mode. -/
example (svd : Tensor ℝ → Res (Tensor ℝ × Tensor ℝ × Tensor ℝ)) (hs : SvdOk svd) :
    let X : Tensor ℝ := mat 2 3 fun i j => (i : ℝ) + (if j = 2 then 3 else 1)
    SliceRel X (X.order - 1) (fun i => (if i = 0 then 1 else 0) - if i = 1 then 1 else 0) ∧ ∃ hist,
      (train (exactArith ℝ) (HOOI.cls (tucker.HOOI.main svd X [2, 2])) { tol := 0 } 7 (tucker.HOOI.init svd X [2, 2])
        {}).2.2 = .ok hist := by
  intro X
  constructor
  · rw [C103_equal X (X.order - 1) 0 1 (by decide) (by decide)]
    intro idx hi
    obtain ⟨a, b, rfl, ha, hb⟩ := InB_pair.1 hi
    show X.at_ [a, 0] = X.at_ [a, 1]
    rw [at_mat _ ha (by omega), at_mat _ ha (by omega)]
    simp
  · refine (C74_hooi_admissible svd hs X [2, 2] (le_refl 2) (by show 2 ≤ 13; omega)
      (by intro d hd; have : d ∈ [2, 3] := hd; simp at this; omega)
      ⟨[0, 0], InB_pair.2 ⟨0, 0, rfl, by decide, by decide⟩, ?_⟩ (le_refl 2) (exactArith ℝ) { tol := 0 } (by decide) 7
      (by omega) {}).2 ?_
    · rw [at_mat _ (by decide) (by decide)]; norm_num
    · change ∀ n < 2, [2, 2].getD n 0 ≤ [2, 3].getD n 0 ∧
        [2, 2].getD n 0 ≤ ∏ m ∈ (Finset.range 2).erase n, [2, 2].getD m 0
      decide

end TD.Props
