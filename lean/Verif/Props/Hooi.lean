import Verif.Lemmas.Hooi
import Verif.Props.Cp

/-!
# C56 - C59, C74 - C76 : `HOSVD` and `HOOI`

`svd` stands for `tf.svd`; `SvdOk svd` says that it returns some thin singular value decomposition.
-/
namespace TD.Props
open TD Spec Tensor fact ops

/-- Such a solver exists, so the hypothesis on `tf.svd` can be met. -/
theorem exists_svdOk : ∃ svd, SvdOk svd := by
  classical
  let ok (M : Tensor ℝ) (p : Tensor ℝ × Tensor ℝ × Tensor ℝ) : Prop := ∃ m n, M.shape = [m, n] ∧
    p.1.shape = [min m n] ∧ p.2.1.shape = [m, min m n] ∧ p.2.2.shape = [n, min m n] ∧
    IsThinSVD (toMat M m n) (toMat p.2.1 m (min m n)) (fun i => p.1.at_ [(i : Nat)]) (toMat p.2.2 n (min m n))
  refine ⟨fun M => if h : ∃ p, ok M p then .ok h.choose else .error .invalidArgument, fun M m n hM => ?_⟩
  have h : ∃ p, ok M p := by
    obtain ⟨U, s, V, h⟩ := exists_thinSvd (toMat M m n)
    have lift : ∀ {a b : Nat} (W : Mat a b), ∃ t : Tensor ℝ, t.shape = [a, b] ∧ toMat t a b = W := by
      intro a b W
      refine ⟨mat a b fun i j => if hi : i < a then if hj : j < b then W ⟨i, hi⟩ ⟨j, hj⟩ else 0 else 0, rfl, ?_⟩
      rw [toMat_mat]; ext i j; simp
    obtain ⟨tU, u1, u2⟩ := lift U
    obtain ⟨tV, v1, v2⟩ := lift V
    refine ⟨(ofFn [min m n] fun i => if hi : i.getD 0 0 < min m n then s ⟨i.getD 0 0, hi⟩ else 0, tU, tV), m, n, hM,
      rfl, u1, v1, ?_⟩
    have e : (fun i : Fin (min m n) => (ofFn [min m n] fun i => if hi : i.getD 0 0 < min m n then
        s ⟨i.getD 0 0, hi⟩ else 0).at_ [(i : Nat)]) = s := by
      funext i
      rw [at_ofFn _ (by rw [InB_cons]; exact ⟨i.isLt, (InB_nil _).2 rfl⟩)]
      simp only [List.getD_cons_zero]
      rw [dif_pos i.isLt]
    change IsThinSVD _ (toMat tU m (min m n)) _ (toMat tV n (min m n))
    rw [u2, v2, e]
    exact h
  obtain ⟨m', n', h1, h2, h3, h4, h5⟩ := h.choose_spec
  rw [hM] at h1
  simp only [List.cons.injEq, and_true] at h1
  obtain ⟨rfl, rfl⟩ := h1
  exact ⟨h.choose.1, h.choose.2.1, h.choose.2.2, dif_pos h, h2, h3, h4, h5⟩

/-! ### HOSVD -/

/-- **C59**: `‖X - full‖² ≤ ∑_n ∑_{i ≥ ranks[n]} σ_i(unfold(X, n))²`. -/
theorem C59_hosvd_error (svd : Tensor ℝ → Res (Tensor ℝ × Tensor ℝ × Tensor ℝ)) (hs : SvdOk svd) (X : Tensor ℝ)
    (ranks : List Nat) (h1 : 1 ≤ X.order) (h13 : X.order ≤ 13) (hpos : ∀ d ∈ X.shape, 0 < d)
    (hr : X.order ≤ ranks.length)
    (σ : (n : Nat) → Fin (min (X.shape.getD n 0) (otherSize X.shape n)) → ℝ)
    (hσ : ∀ n < X.order, ∃ M, unfold X n = .ok M ∧
      SingularValues (toMat M (X.shape.getD n 0) (otherSize X.shape n)) (σ n)) :
    ∃ A g full, tucker.HOSVD.run svd X ranks = .ok (A, g, full) ∧ full.shape = X.shape ∧
      distSqT X full ≤ ∑ n ∈ Finset.range X.order, ∑ i, if ranks.getD n 0 ≤ i.val then σ n i ^ 2 else 0 := by
  obtain ⟨A, g, Y, e1, e2, e3, ho, hgs, hA⟩ := hosvd_ok hs h1 h13 hpos hr
  have hne : X.shape ≠ [] := by
    intro e; unfold order at h1; rw [e] at h1; simp at h1
  refine ⟨A, g, Y, e1, (tucker_residual hne h13 ho e2 e3).1, le_trans (tucker_error hne h13 ho e2 e3) (le_of_eq ?_)⟩
  refine Finset.sum_congr rfl fun n hn => ?_
  have hn : n < X.order := Finset.mem_range.1 hn
  obtain ⟨M, U, s, V, h, a1, a2, a3, a4⟩ := hA n hn
  obtain ⟨N, hN, U', V', hN'⟩ := hσ n hn
  have hu := (toMat_unfold hn (getD_pos_of hpos hn) hN).2
  rw [hu] at hN'
  rw [a1, Option.map_some, Option.getD_some, proj_error hn rfl rfl a2, a4, a3.trunc h, a3.tail_unique hN' h]
  refine Finset.sum_congr rfl fun i _ => ?_
  have hi := i.isLt
  by_cases e : ranks.getD n 0 ≤ i.val
  · rw [if_pos e, if_pos (le_trans (Nat.min_le_left _ _) e)]
  · rw [if_neg e, if_neg (by omega)]

/-- **C56**: with ranks at least `min(I_n, ∏_{k≠n} I_k)` the reconstruction is the input itself. -/
theorem C56_hosvd_exact (svd : Tensor ℝ → Res (Tensor ℝ × Tensor ℝ × Tensor ℝ)) (hs : SvdOk svd) (X : Tensor ℝ)
    (ranks : List Nat) (h1 : 1 ≤ X.order) (h13 : X.order ≤ 13) (hpos : ∀ d ∈ X.shape, 0 < d)
    (hr : X.order ≤ ranks.length)
    (hfull : ∀ n < X.order, min (X.shape.getD n 0) (otherSize X.shape n) ≤ ranks.getD n 0) :
    ∃ A g, tucker.HOSVD.run svd X ranks = .ok (A, g, X) := by
  have hex : ∀ n, ∃ s, n < X.order → ∃ M, unfold X n = .ok M ∧
      SingularValues (toMat M (X.shape.getD n 0) (otherSize X.shape n)) s := by
    intro n
    by_cases hn : n < X.order
    · obtain ⟨U, s, V, h⟩ := exists_thinSvd (toMat (mat (X.shape.getD n 0) (otherSize X.shape n)
        fun i j => X.at_ (unkolda X.shape n i j)) (X.shape.getD n 0) (otherSize X.shape n))
      exact ⟨s, fun _ => ⟨_, unfold_closed X hn (getD_pos_of hpos hn), U, V, h⟩⟩
    · exact ⟨fun _ => 0, fun h => absurd h hn⟩
  choose σ hσ using hex
  obtain ⟨A, g, Y, e1, e2, e3⟩ := C59_hosvd_error svd hs X ranks h1 h13 hpos hr σ hσ
  have : Y = X := distSqT_zero e2 (le_trans e3 (le_of_eq (Finset.sum_eq_zero fun n hn =>
    Finset.sum_eq_zero fun i _ => if_neg (by
      have := hfull n (Finset.mem_range.1 hn)
      have := i.isLt
      omega))))
  subst this
  exact ⟨A, g, e1⟩

/-- **C57** for HOSVD: it never fails, factor `n` is an `I_n × min(ranks[n], I_n, ∏_{k≠n} I_k)` matrix with
orthonormal columns, and the squared residual is what the core misses of the squared norm. -/
theorem C57_hosvd (svd : Tensor ℝ → Res (Tensor ℝ × Tensor ℝ × Tensor ℝ)) (hs : SvdOk svd) (X : Tensor ℝ)
    (ranks : List Nat) (h1 : 1 ≤ X.order) (h13 : X.order ≤ 13) (hpos : ∀ d ∈ X.shape, 0 < d)
    (hr : X.order ≤ ranks.length) :
    ∃ A g full, tucker.HOSVD.run svd X ranks = .ok (A, g, full) ∧ A.length = X.order ∧
      (∀ n < X.order, ∃ M, A[n]? = some M ∧ OrthoCols M (X.shape.getD n 0)
        (min (ranks.getD n 0) (min (X.shape.getD n 0) (otherSize X.shape n)))) ∧
      g.shape = colDims A ∧ full.shape = X.shape ∧ distSqT X full = normSqT X - normSqT g := by
  obtain ⟨A, g, Y, e1, e2, e3, ho, hgs, hA⟩ := hosvd_ok hs h1 h13 hpos hr
  have hne : X.shape ≠ [] := by
    intro e; unfold order at h1; rw [e] at h1; simp at h1
  obtain ⟨t1, t2⟩ := tucker_residual hne h13 ho e2 e3
  refine ⟨A, g, Y, e1, ho.1, fun n hn => ?_, hgs, t1, t2⟩
  obtain ⟨M, U, s, V, h, a1, a2, a3, a4⟩ := hA n hn
  exact ⟨M, a1, a2, by rw [a4]; exact cols_orth a3.orthU h⟩

/-- **C76**: the core of HOSVD is `X ×_0 A_0ᵀ ×_1 A_1ᵀ …` and full is `core ×_0 A_0 ×_1 A_1 …`, entry by entry. -/
theorem C76_hosvd_entries (svd : Tensor ℝ → Res (Tensor ℝ × Tensor ℝ × Tensor ℝ)) (hs : SvdOk svd) (X : Tensor ℝ)
    (ranks : List Nat) (h1 : 1 ≤ X.order) (h13 : X.order ≤ 13) (hpos : ∀ d ∈ X.shape, 0 < d)
    (hr : X.order ≤ ranks.length) (A : List (Tensor ℝ)) (g full : Tensor ℝ)
    (h : tucker.HOSVD.run svd X ranks = .ok (A, g, full)) :
    (∀ j, InB g.shape j → g.at_ j = boxSum X.shape fun i => kronEntry A i j * X.at_ i) ∧
      ∀ i, InB X.shape i → full.at_ i = boxSum g.shape fun j => g.at_ j * kronEntry A i j := by
  obtain ⟨A', g', Y', e1, e2, e3, ho, hgs, hA⟩ := hosvd_ok hs h1 h13 hpos hr
  rw [e1] at h; cases h
  have hne : X.shape ≠ [] := by
    intro e; unfold order at h1; rw [e] at h1; simp at h1
  obtain ⟨g', Y', f1, f2, -, -, f3, f4⟩ := tucker_entries hne h13 ho.allMat ho.rowDims
  rw [e2] at f1; cases f1
  rw [e3] at f2; cases f2
  exact ⟨f3, f4⟩

/-- Hypotheses of C56, C57, C59 on a 2 × 3 tensor; with ranks (2, 2) those of C56. -/
example : let X : Tensor ℝ := mat 2 3 fun i j => (i : ℝ) + j + 1
    1 ≤ X.order ∧ X.order ≤ 13 ∧ (∀ d ∈ X.shape, 0 < d) ∧ X.order ≤ [2, 2].length ∧
      ∀ n < X.order, min (X.shape.getD n 0) (otherSize X.shape n) ≤ [2, 2].getD n 0 := by
  refine ⟨by decide, by decide, by decide, by decide, ?_⟩
  change ∀ n < 2, min ([2, 3].getD n 0) (otherSize [2, 3] n) ≤ [2, 2].getD n 0
  decide

/-! ### HOOI -/

/-- The steps of a HOOI run. -/
theorem hooi_run {svd : Tensor ℝ → Res (Tensor ℝ × Tensor ℝ × Tensor ℝ)} (hs : SvdOk svd) {X : Tensor ℝ}
    {ranks : List Nat} (h2 : 2 ≤ X.order) (h13 : X.order ≤ 13) (hpos : ∀ d ∈ X.shape, 0 < d)
    (hlen : X.order ≤ ranks.length) {A0 : List (Tensor ℝ)} (hA : TuckerShapes X.shape ranks A0) {Ar : Arith ℝ}
    {tol : ℝ} {n : Nat} {o : Nat → Out (List (Tensor ℝ)) (Tensor ℝ) (Tensor ℝ) ℝ} {k : Nat → Option (Tensor ℝ)}
    (h : Run Ar (HOOI.cls (tucker.HOOI.main svd X ranks)) tol A0 n o k) :
    ∃ σ : Nat → List (Tensor ℝ), σ 0 = A0 ∧ ∀ j < n, TuckerShapes X.shape ranks (σ j) ∧ ∃ s,
      tucker.HOOI.main svd X ranks (σ j) = .ok (s, o j) ∧ (j + 1 < n → σ (j + 1) = s) := by
  obtain ⟨⟨σ, h0, hst⟩, -⟩ := h
  refine ⟨σ, h0, fun j => ?_⟩
  induction j with
  | zero =>
      intro hj
      obtain ⟨s, hr, hu⟩ := hst 0 hj
      exact ⟨h0 ▸ hA, s, hr.2, fun h => hu h⟩
  | succ j ih =>
      intro hj
      obtain ⟨hf, s, hm, hn⟩ := ih (by omega)
      obtain ⟨g, hf', -⟩ := hooi_main hs h2 h13 hpos hlen hf hm
      obtain ⟨s', hr, hu⟩ := hst (j + 1) hj
      refine ⟨?_, s', hr.2, fun h => hu h⟩
      rw [hn hj]; exact hf'

/-- **C57** for HOOI: in every step of every run of `train`, the factors fetched have orthonormal columns,
`‖X - full‖² = ‖X‖² - ‖core‖²`, and the objective is half of that. -/
theorem C57_hooi (svd : Tensor ℝ → Res (Tensor ℝ × Tensor ℝ × Tensor ℝ)) (hs : SvdOk svd) (X : Tensor ℝ)
    (ranks : List Nat) (h2 : 2 ≤ X.order) (h13 : X.order ≤ 13) (hpos : ∀ d ∈ X.shape, 0 < d)
    (hlen : X.order ≤ ranks.length) (Ar : Arith ℝ) (args : Args ℝ) (steps : Int)
    (self self' : Self (List (Tensor ℝ)) (Tensor ℝ) (Tensor ℝ)) (ev : List Int) (hist : List (ℝ × ℝ))
    (h : train Ar (HOOI.cls (tucker.HOOI.main svd X ranks)) args steps (tucker.HOOI.init svd X ranks) self =
      (self', ev, .ok hist)) :
    ∃ A0 o k, tucker.HOOI.init svd X ranks = .ok A0 ∧
      Run Ar (HOOI.cls (tucker.HOOI.main svd X ranks)) args.tol A0 hist.length o k ∧
      (∀ n M, A0[n]? = some M → OrthoCols M (X.shape.getD n 0) (ranks.getD n 0)) ∧
      ∀ j < hist.length, (o j).factors.length = X.order ∧
        (∀ n M, (o j).factors[n]? = some M → OrthoCols M (X.shape.getD n 0) (ranks.getD n 0)) ∧
        ∃ g, (o j).aux = some g ∧ (o j).full.shape = X.shape ∧
          distSqT X (o j).full = normSqT X - normSqT g ∧ (o j).obj = distSqT X (o j).full / 2 ∧
          (o j).rel = Real.sqrt (distSqT X (o j).full) / Real.sqrt (normSqT X) := by
  obtain ⟨s0, o, k, hs0, -, -, hrun, -⟩ := C43_history Ar _ args steps _ self self' ev hist h
  obtain ⟨i1, i2, -⟩ := hooi_init hs hpos hlen hs0
  obtain ⟨σ, h0, hσ⟩ := hooi_run hs h2 h13 hpos hlen i1 hrun
  refine ⟨s0, o, k, hs0, hrun, i2, fun j hj => ?_⟩
  obtain ⟨hf, s, hm, -⟩ := hσ j hj
  obtain ⟨g, a1, a2, -, a3, a4, a5, a6, a7, a8, a9, a10, -⟩ := hooi_main hs h2 h13 hpos hlen hf hm
  rw [a3]
  exact ⟨a1.1, a2, g, a4, a7, a8, a9, a10⟩

/-- **C58**: the residuals in the history returned by `train` never increase, and the objectives do not either,
whichever decompositions the solver returns. -/
theorem C58_hooi_nonincreasing (svd : Tensor ℝ → Res (Tensor ℝ × Tensor ℝ × Tensor ℝ)) (hs : SvdOk svd) (X : Tensor ℝ)
    (ranks : List Nat) (h2 : 2 ≤ X.order) (h13 : X.order ≤ 13) (hpos : ∀ d ∈ X.shape, 0 < d)
    (hlen : X.order ≤ ranks.length) (Ar : Arith ℝ) (args : Args ℝ) (steps : Int)
    (self self' : Self (List (Tensor ℝ)) (Tensor ℝ) (Tensor ℝ)) (ev : List Int) (hist : List (ℝ × ℝ))
    (h : train Ar (HOOI.cls (tucker.HOOI.main svd X ranks)) args steps (tucker.HOOI.init svd X ranks) self =
      (self', ev, .ok hist)) :
    (hist.map Prod.snd).Pairwise (· ≥ ·) ∧
    ∃ A0 o k, Run Ar (HOOI.cls (tucker.HOOI.main svd X ranks)) args.tol A0 hist.length o k ∧
      ∀ j, j + 1 < hist.length → (o (j + 1)).obj ≤ (o j).obj := by
  obtain ⟨s0, o, k, hs0, -, -, hrun, hh⟩ := C43_history Ar _ args steps _ self self' ev hist h
  obtain ⟨i1, i2, -⟩ := hooi_init hs hpos hlen hs0
  obtain ⟨σ, h0, hσ⟩ := hooi_run hs h2 h13 hpos hlen i1 hrun
  have hstep : ∀ j, j + 1 < hist.length → (o (j + 1)).rel ≤ (o j).rel ∧ (o (j + 1)).obj ≤ (o j).obj := by
    intro j hj
    obtain ⟨hf, s, hm, hn⟩ := hσ j (by omega)
    obtain ⟨hf', s', hm', -⟩ := hσ (j + 1) hj
    obtain ⟨g, -, a2, -, -, -, -, -, -, a8, a9, a10, a11, a12, -⟩ := hooi_main hs h2 h13 hpos hlen hf hm
    obtain ⟨g', -, -, -, -, -, -, -, -, b8, b9, b10, -, b12, b13⟩ := hooi_main hs h2 h13 hpos hlen hf' hm'
    rw [hn hj] at b13
    have := b13 a2
    have hle : distSqT X (o (j + 1)).full ≤ distSqT X (o j).full := by rw [a8, b8]; linarith
    rw [a9, a10, b9, b10]
    exact ⟨by gcongr, by linarith⟩
  refine ⟨pairwise_of_steps (v := fun j => (o j).rel) (fun j hj => by rw [hh j hj]; rfl)
    fun j hj => (hstep j hj).1, s0, o, k, hrun, fun j hj => (hstep j hj).2⟩

/-- **C58**, first step: a HOOI step starting from the HOSVD factors with the same ranks is at least as good as the
HOSVD reconstruction. -/
theorem C58_first_step (svd : Tensor ℝ → Res (Tensor ℝ × Tensor ℝ × Tensor ℝ)) (hs : SvdOk svd) (X : Tensor ℝ)
    (ranks : List Nat) (h2 : 2 ≤ X.order) (h13 : X.order ≤ 13) (hpos : ∀ d ∈ X.shape, 0 < d)
    (hlen : X.order ≤ ranks.length) (A0 A1 A : List (Tensor ℝ)) (g full : Tensor ℝ)
    (o : Out (List (Tensor ℝ)) (Tensor ℝ) (Tensor ℝ) ℝ) (hi : tucker.HOOI.init svd X ranks = .ok A0)
    (hm : tucker.HOOI.main svd X ranks A0 = .ok (A1, o)) (hv : tucker.HOSVD.run svd X ranks = .ok (A, g, full)) :
    A = A0 ∧ distSqT X o.full ≤ distSqT X full := by
  obtain ⟨i1, i2, -⟩ := hooi_init hs hpos hlen hi
  obtain ⟨A', g', Y', e1, e2, e3, ho, hgs, -⟩ := hosvd_ok hs (by omega) h13 hpos hlen
  rw [e1] at hv; cases hv
  have hA : A = A0 := by
    unfold tucker.HOSVD.run at e1
    cases hm1 : (List.range X.order).mapM fun n => tucker.leading svd X ranks n with
    | error e => rw [hm1] at e1; cases e1
    | ok B =>
        have hBA : B = A := by
          rw [hm1, ok_bind] at e1
          cases h1 : ttm X B none true with
          | error e => rw [h1] at e1; cases e1
          | ok g1 =>
              rw [h1, ok_bind] at e1
              cases h3 : tucker.fullOf g1 B with
              | error e => rw [h3] at e1; cases e1
              | ok Y1 => rw [h3] at e1; cases e1; rfl
        subst hBA
        unfold tucker.HOOI.init at hi
        clear e1 e2 e3 ho hgs hm i1 i2
        generalize List.range X.order = l at hi hm1
        induction l generalizing A0 B with
        | nil => cases hi; cases hm1; rfl
        | cons n l ih =>
            rw [List.mapM_cons] at hi hm1
            cases h1 : tucker.leading svd X ranks n with
            | error e => rw [h1] at hm1; cases hm1
            | ok v =>
                rw [h1, ok_bind] at hm1
                cases h3 : l.mapM fun n => tucker.leading svd X ranks n with
                | error e => rw [h3] at hm1; cases hm1
                | ok vs =>
                    rw [h3, ok_bind] at hm1
                    cases hm1
                    rw [h1, ok_bind] at hi
                    cases h4 : tucker.rankAt ranks n with
                    | error e => rw [h4] at hi; cases hi
                    | ok r =>
                        rw [h4, ok_bind] at hi
                        by_cases e : v.shape = [X.shape.getD n 0, r]
                        · rw [if_pos e, ok_bind] at hi
                          cases h5 : l.mapM (fun mode => (do
                              let v ← tucker.leading svd X ranks mode
                              let r ← tucker.rankAt ranks mode
                              if v.shape = [X.shape.getD mode 0, r] then .ok v else .error .invalidArgument :
                                Res (Tensor ℝ))) with
                          | error e => rw [h5] at hi; cases hi
                          | ok ws =>
                              rw [h5, ok_bind] at hi
                              cases hi
                              rw [ih _ _ h5 h3]
                        · rw [if_neg e] at hi; cases hi
  subst hA
  refine ⟨rfl, ?_⟩
  obtain ⟨g', a1, a2, -, -, -, -, -, -, a8, -, -, -, a12, a13⟩ := hooi_main hs h2 h13 hpos hlen i1 hm
  have hne : X.shape ≠ [] := by
    intro e; unfold order at h2; rw [e] at h2; simp at h2
  have hc : coreSq X A = normSqT g := by rw [coreSq, e2]
  rw [a8, (tucker_residual hne h13 ho e2 e3).2]
  have := a13 i2
  linarith

/-- **C75**: every residual in the history of HOOI lies in `[0, 1]`. -/
theorem C75_hooi_residual_at_most_one (svd : Tensor ℝ → Res (Tensor ℝ × Tensor ℝ × Tensor ℝ)) (hs : SvdOk svd)
    (X : Tensor ℝ) (ranks : List Nat) (h2 : 2 ≤ X.order) (h13 : X.order ≤ 13) (hpos : ∀ d ∈ X.shape, 0 < d)
    (hlen : X.order ≤ ranks.length) (Ar : Arith ℝ) (args : Args ℝ) (steps : Int)
    (self self' : Self (List (Tensor ℝ)) (Tensor ℝ) (Tensor ℝ)) (ev : List Int) (hist : List (ℝ × ℝ))
    (h : train Ar (HOOI.cls (tucker.HOOI.main svd X ranks)) args steps (tucker.HOOI.init svd X ranks) self =
      (self', ev, .ok hist)) :
    ∀ p ∈ hist, 0 ≤ p.2 ∧ p.2 ≤ 1 := by
  obtain ⟨s0, o, k, hs0, -, -, hrun, hh⟩ := C43_history Ar _ args steps _ self self' ev hist h
  obtain ⟨i1, i2, -⟩ := hooi_init hs hpos hlen hs0
  obtain ⟨σ, h0, hσ⟩ := hooi_run hs h2 h13 hpos hlen i1 hrun
  intro p hpm
  obtain ⟨j, hj, rfl⟩ := List.mem_iff_getElem.1 hpm
  have := hh j hj
  rw [List.getElem?_eq_getElem hj, Option.some.injEq] at this
  rw [this]
  obtain ⟨hf, s, hm, -⟩ := hσ j hj
  obtain ⟨g, -, -, -, -, -, -, -, -, a8, -, a10, a11, -⟩ := hooi_main hs h2 h13 hpos hlen hf hm
  rw [a10, a8]
  refine ⟨by positivity, ?_⟩
  rw [div_le_one (Real.sqrt_pos.2 a11)]
  exact Real.sqrt_le_sqrt (by linarith [normSqT_nonneg g])

theorem mapM_error_of {β γ : Type} {f : β → Res γ} {e : PyErr} : ∀ {l : List β},
    (∀ a ∈ l, (∃ b, f a = .ok b) ∨ f a = .error e) → (∃ a ∈ l, f a = .error e) → l.mapM f = .error e
  | [], _, ⟨_, h, _⟩ => by cases h
  | a :: l, h, hx => by
      rw [List.mapM_cons]
      rcases h a (by simp) with ⟨b, hb⟩ | hb
      · rw [hb, ok_bind, mapM_error_of (l := l) (fun x hx => h x (by simp [hx])) ?_]
        · rfl
        · obtain ⟨x, hx, hf⟩ := hx
          rcases List.mem_cons.1 hx with rfl | hx
          · rw [hb] at hf; cases hf
          · exact ⟨x, hx, hf⟩
      · rw [hb]; rfl

/-- **C74**: with fewer ranks than modes, HOSVD raises an `IndexError`; so does, or fails earlier, HOOI. -/
theorem C74_too_few (svd : Tensor ℝ → Res (Tensor ℝ × Tensor ℝ × Tensor ℝ)) (hs : SvdOk svd) (X : Tensor ℝ)
    (ranks : List Nat) (hpos : ∀ d ∈ X.shape, 0 < d) (hr : ranks.length < X.order) :
    tucker.HOSVD.run svd X ranks = .error .indexError ∧ ∃ e, tucker.HOOI.init svd X ranks = .error e := by
  have hbad : ∀ n < X.order, ranks.length ≤ n → tucker.leading svd X ranks n = .error .indexError := by
    intro n hn hln
    unfold tucker.leading
    rw [unfold_closed X hn (getD_pos_of hpos hn), ok_bind]
    obtain ⟨s, U, V, h, -⟩ := hs (mat (X.shape.getD n 0) (otherSize X.shape n) fun i j => X.at_ (unkolda X.shape n i j)) _ _ rfl
    rw [h, ok_bind]
    simp only [tucker.rankAt, List.getElem?_eq_none hln]
    rfl
  have hall : ∀ n < X.order, (∃ b, tucker.leading svd X ranks n = .ok b) ∨ tucker.leading svd X ranks n = .error .indexError := by
    intro n hn
    by_cases hln : n < ranks.length
    · obtain ⟨M, -, -, -, -, h, -⟩ := leading_ok hs hn rfl rfl (getD_pos_of hpos hn) (List.getElem?_eq_getElem hln)
      exact Or.inl ⟨M, h⟩
    · exact Or.inr (hbad n hn (by omega))
  constructor
  · unfold tucker.HOSVD.run
    rw [mapM_error_of (fun n hn => hall n (by simpa using hn)) ⟨ranks.length, by simpa using hr, hbad _ hr le_rfl⟩]
    rfl
  · cases h : tucker.HOOI.init svd X ranks with
    | error e => exact ⟨e, rfl⟩
    | ok A =>
        exfalso
        unfold tucker.HOOI.init at h
        have hex : ∀ {l : List Nat} {A : List (Tensor ℝ)}, (l.mapM fun mode => do
            let v ← tucker.leading svd X ranks mode
            let r ← tucker.rankAt ranks mode
            if v.shape = [X.shape.getD mode 0, r] then .ok v else .error .invalidArgument) = (.ok A : Res _) →
            ∀ n ∈ l, ∃ b, tucker.leading svd X ranks n = .ok b := by
          intro l
          induction l with
          | nil => intro A _ n hn; cases hn
          | cons a l ih =>
              intro A h n hn
              rw [List.mapM_cons] at h
              cases hv : tucker.leading svd X ranks a with
              | error e => rw [hv] at h; cases h
              | ok v =>
                  rcases List.mem_cons.1 hn with rfl | hn
                  · exact ⟨v, hv⟩
                  · generalize hw : (do
                      let v ← tucker.leading svd X ranks a
                      let r ← tucker.rankAt ranks a
                      if v.shape = [X.shape.getD a 0, r] then .ok v else .error .invalidArgument : Res (Tensor ℝ)) = w at h
                    cases w with
                    | error e => cases h
                    | ok w =>
                        rw [ok_bind] at h
                        cases hl : l.mapM fun mode => do
                            let v ← tucker.leading svd X ranks mode
                            let r ← tucker.rankAt ranks mode
                            if v.shape = [X.shape.getD mode 0, r] then .ok v else .error .invalidArgument with
                        | error e => rw [hl] at h; cases h
                        | ok A' => exact ih hl n hn
        obtain ⟨b, hb⟩ := hex h ranks.length (by simpa using hr)
        rw [hbad _ hr le_rfl] at hb
        cases hb

example : ∃ X : Tensor ℝ, (∀ d ∈ X.shape, 0 < d) ∧ [1].length < X.order := ⟨mat 2 3 fun _ _ => 1, by decide, by decide⟩

/-- **C74**: HOOI trains without an exception on a nonzero tensor exactly when every rank is admissible,
`ranks[n] ≤ I_n` and `ranks[n] ≤ ∏_{k≠n} ranks[k]`. -/
theorem C74_hooi_admissible (svd : Tensor ℝ → Res (Tensor ℝ × Tensor ℝ × Tensor ℝ)) (hs : SvdOk svd)
    (X : Tensor ℝ) (ranks : List Nat) (h2 : 2 ≤ X.order) (h13 : X.order ≤ 13) (hpos : ∀ d ∈ X.shape, 0 < d)
    (hX : ∃ i, InB X.shape i ∧ X.at_ i ≠ 0) (hlen : X.order ≤ ranks.length) (Ar : Arith ℝ) (args : Args ℝ)
    (hv : args.validationInternal ≠ 0) (steps : Int) (hst : 1 ≤ steps)
    (self : Self (List (Tensor ℝ)) (Tensor ℝ) (Tensor ℝ)) :
    (∃ hist, (train Ar (HOOI.cls (tucker.HOOI.main svd X ranks)) args steps (tucker.HOOI.init svd X ranks)
      self).2.2 = .ok hist) ↔ Admissible X.shape ranks := by
  constructor
  · rintro ⟨hist, h⟩
    obtain ⟨s0, o, k, hs0, hpos1, -, hrun, -⟩ := C43_history Ar _ args steps _ self _ _ hist
      (Prod.ext rfl (Prod.ext rfl h))
    obtain ⟨i1, -, -⟩ := hooi_init hs hpos hlen hs0
    obtain ⟨σ, h0, hσ⟩ := hooi_run hs h2 h13 hpos hlen i1 hrun
    obtain ⟨hf, s, hm, -⟩ := hσ 0 hpos1
    obtain ⟨g, -, -, hadm, -⟩ := hooi_main hs h2 h13 hpos hlen hf hm
    exact hadm
  · intro hadm
    obtain ⟨A0, hA0⟩ := hooi_init_total hs hpos hlen hadm
    rw [hA0]
    refine train_safe (I := TuckerShapes X.shape ranks) ⟨fun s hI => ?_, by rintro f ⟨⟩, by rintro f ⟨⟩⟩
      (hooi_init hs hpos hlen hA0).1 (Or.inl hv) hst self
    obtain ⟨A', h1⟩ := hooi_fold_total hs h2 h13 hpos hlen hadm (List.range X.order) s (by simp) hI
    obtain ⟨c1, -, c3, -⟩ := hooi_fold hs h2 h13 hpos hlen _ s A' (by simp) hI h1
    have hne : X.shape ≠ [] := by
      intro e; unfold order at h2; rw [e] at h2; simp at h2
    have hrd : rowDims A' = X.shape := by
      refine List.ext_getElem (by simpa [rowDims] using c1.1) fun k hk hk' => ?_
      have hk'' : k < A'.length := by rw [c1.1]; exact hk'
      have := c1.2 k A'[k] (List.getElem?_eq_getElem hk'')
      simp only [rowDims, List.getElem_map]
      rw [this, ← List.getD_eq_getElem _ 0 hk']; rfl
    obtain ⟨g, Y, e1, e2, -, hYs, -⟩ := tucker_entries hne h13 c1.allMat hrd
    obtain ⟨⟨l, obj, rel⟩, hq⟩ := cp.scalars_total hYs hX
    refine ⟨A', ⟨A', some g, Y, l, obj, rel⟩, ?_, c1⟩
    change tucker.HOOI.main svd X ranks s = _
    unfold tucker.HOOI.main
    rw [show tucker.HOOI.sweep svd X ranks s = .ok A' from h1, ok_bind, e1, ok_bind, e2, ok_bind, hq]
    rfl

/-- The hypotheses of the HOOI theorems are met by a 2 × 3 tensor with ranks (2, 2); by C74 the runs exist. -/
example : let X : Tensor ℝ := mat 2 3 fun i j => (i : ℝ) + j + 1
    2 ≤ X.order ∧ X.order ≤ 13 ∧ (∀ d ∈ X.shape, 0 < d) ∧ (∃ i, InB X.shape i ∧ X.at_ i ≠ 0) ∧
      X.order ≤ [2, 2].length ∧ Admissible X.shape [2, 2] := by
  refine ⟨by decide, by decide, by decide, ⟨[0, 0], InB_pair.2 ⟨0, 0, rfl, by decide, by decide⟩, ?_⟩, by decide, ?_⟩
  · rw [at_mat _ (by decide) (by decide)]; norm_num
  · change ∀ n < 2, [2, 2].getD n 0 ≤ [2, 3].getD n 0 ∧
      [2, 2].getD n 0 ≤ ∏ m ∈ (Finset.range 2).erase n, [2, 2].getD m 0
    decide

/-- A rank larger than the product of the others is not admissible: HOOI with ranks (2, 1) fails. -/
example : ¬ Admissible [2, 3] [2, 1] := by
  intro h
  have := (h 0 (by decide)).2
  revert this
  decide

end TD.Props
