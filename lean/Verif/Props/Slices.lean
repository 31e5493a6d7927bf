import Verif.Lemmas.Slices
import Verif.Props.Fixed
import Verif.Props.Tucker
import Verif.Props.RankOne

/-!
# C103 : relations between slices of the data hold for the reconstruction
-/
namespace TD.Props
open TD Spec Tensor tf ops fact

/-- What the relation with a single coefficient says: the slice is empty. -/
theorem C103_empty (X : Tensor ℝ) (k p : Nat) (hp : p < X.shape.getD k 0) :
    SliceRel X k (fun i => if i = p then 1 else 0) ↔ ∀ idx, InB X.shape idx → X.at_ (idx.set k p) = 0 := by
  unfold SliceRel
  refine forall_congr' fun idx => forall_congr' fun _ => ?_
  generalize X.shape.getD k 0 = d at hp
  simp [Finset.sum_ite_eq', hp]

/-- What the relation with the coefficients `1` and `-1` says: the two slices are equal. -/
theorem C103_equal (X : Tensor ℝ) (k p q : Nat) (hp : p < X.shape.getD k 0) (hq : q < X.shape.getD k 0) :
    SliceRel X k (fun i => (if i = p then 1 else 0) - if i = q then 1 else 0) ↔
      ∀ idx, InB X.shape idx → X.at_ (idx.set k p) = X.at_ (idx.set k q) := by
  unfold SliceRel
  refine forall_congr' fun idx => forall_congr' fun _ => ?_
  generalize X.shape.getD k 0 = d at hp hq
  simp [sub_mul, Finset.sum_sub_distrib, Finset.sum_ite_eq', hp, hq, sub_eq_zero]

/-- **C103** for `CP_ALS`: after every successful training the factor matrix of the mode and the stored full tensor satisfy
every linear relation between slices of the data, whatever the initial factors. -/
theorem C103_cp (pinv : Tensor ℝ → Res (Tensor ℝ)) (hp : PinvOk pinv) (X : Tensor ℝ) (R : Nat)
    (A0 : List (Tensor ℝ)) (hA : FactorsFor X.shape R A0) (h2 : 2 ≤ X.order) (h25 : X.order ≤ 25)
    (hpos : ∀ d ∈ X.shape, 0 < d) (Ar : Arith ℝ) (args : Args ℝ) (steps : Int)
    (self self' : Self (List (Tensor ℝ)) (Tensor ℝ) (Tensor ℝ)) (ev : List Int) (hist : List (ℝ × ℝ))
    (h : train Ar (CP_ALS.cls (cp.main pinv X R)) args steps (.ok A0) self = (self', ev, .ok hist))
    (k : Nat) (hk : k < X.order) (c : Nat → ℝ) (hc : SliceRel X k c) :
    (∃ A M, self'.factors = some A ∧ A[k]? = some M ∧ RowRel M (X.shape.getD k 0) R c) ∧
    ∃ Y, self'.full = some Y ∧ Y.shape = X.shape ∧ SliceRel Y k c := by
  obtain ⟨s0, σ, o, e0, hσ0, h1, -, hf, -, hm, p, hpl, -, -, hfull⟩ := plain_run_full rfl rfl h
  cases e0
  have hst : ∀ j, j < hist.length → FactorsFor X.shape R (σ j) := by
    intro j
    induction j with
    | zero => intro _; rw [hσ0]; exact hA
    | succ j ih =>
        intro hj
        obtain ⟨lam, -, hf', -⟩ := cp.main_ok hp (ih (by omega)) h2 h25 hpos (hm j (by omega))
        exact hf'
  have step : ∀ j < hist.length, (∃ M, (o j).factors[k]? = some M ∧ RowRel M (X.shape.getD k 0) R c) ∧
      (o j).full.shape = X.shape ∧ SliceRel (o j).full k c := by
    intro j hj
    obtain ⟨lam, hsw, hf', hl, ho, -, hfo, hsh, -⟩ := cp.main_ok hp (hst j hj) h2 h25 hpos (hm j hj)
    obtain ⟨M, m1, m2⟩ := cp.sweep_rows hp (hst j hj) h2 h25 hpos hsw k hk
    have hne : X.shape ≠ [] := by intro e; unfold order at h2; rw [e] at h2; simp at h2
    obtain ⟨Y, y1, y2, y3⟩ := cp.fullOf_spec hf' hne h25 hl
    rw [y1] at hfo
    have hfo := Except.ok.inj hfo
    rw [← hfo]
    refine ⟨⟨M, by rw [ho]; exact m1, m2 c hc⟩, y2, ?_⟩
    have hoY : Y.order = X.order := by unfold order; rw [y2]
    exact cp.sliceRel_kruskal (by rw [hf'.length, hoY]; rfl) (by rw [hoY]; exact hk) m1
      (by rw [y2]; exact m2 c hc) (by rw [y2]; exact y3)
  obtain ⟨M, m1, m2⟩ := (step _ (Nat.sub_lt h1 one_pos)).1
  exact ⟨⟨_, M, hf, m1, m2⟩, _, hfull, (step p hpl).2⟩

/-- **C103** for `HOSVD`: whatever the ranks, the reconstruction satisfies every linear relation between slices of the
data. -/
theorem C103_hosvd (svd : Tensor ℝ → Res (Tensor ℝ × Tensor ℝ × Tensor ℝ)) (hs : SvdOk svd) (X : Tensor ℝ)
    (ranks : List Nat) (h1 : 1 ≤ X.order) (h13 : X.order ≤ 13) (hpos : ∀ d ∈ X.shape, 0 < d)
    (hr : X.order ≤ ranks.length) (k : Nat) (hk : k < X.order) (c : Nat → ℝ) (hc : SliceRel X k c) :
    ∃ A g Y, tucker.HOSVD.run svd X ranks = .ok (A, g, Y) ∧ SliceRel Y k c := by
  obtain ⟨A, g, Y, hrun, hg, hY, ho, -, hF⟩ := hosvd_ok hs h1 h13 hpos hr
  refine ⟨A, g, Y, hrun, ?_⟩
  obtain ⟨M, U, s, V, hle, hM, hMs, hsvd, hcols⟩ := hF k hk
  refine sliceRel_hosvd hk h13 ho hg hY hM hMs fun r hr' => ?_
  have hcol : ∀ i : Fin (X.shape.getD k 0), M.at_ [(i : Nat), r] = U i (Fin.castLE hle ⟨r, hr'⟩) := fun i =>
    congrFun (congrFun hcols i) ⟨r, hr'⟩
  rcases hsvd.orth_or_null ((sliceRel_vecMul hk rfl rfl c).1 hc) (Fin.castLE hle ⟨r, hr'⟩) with e | e
  · left
    rw [Finset.sum_range]
    rw [← e]
    exact Finset.sum_congr rfl fun i _ => by rw [hcol]
  · right
    refine (sliceRel_vecMul hk rfl rfl _).2 ?_
    rw [← e]
    congr 1
    funext i
    exact hcol i

/-- The hypotheses of `C103_cp` are met: a positive matrix with two equal columns, rank one. -/
example (pinv : Tensor ℝ → Res (Tensor ℝ)) (hp : PinvOk pinv) : let X := mat 2 3 fun i j => (i : ℝ) + (if j = 2 then 3 else 1)
    SliceRel X 1 (fun i => (if i = 0 then 1 else 0) - if i = 1 then 1 else 0) ∧ ∃ hist,
    (train (exactArith ℝ) (CP_ALS.cls (cp.main pinv X 1)) { tol := 0 } 7 (.ok [ones [2, 1], ones [3, 1]]) {}).2.2 =
      .ok hist := by
  intro X
  have two : ∀ i, InB [2, 3] i → ∃ a b, i = [a, b] ∧ a < 2 ∧ b < 3 := by
    intro i hi
    match i, hi.length_eq with
    | [a, b], _ =>
      simp only [InB, List.forall₂_cons, List.Forall₂.nil, and_true] at hi
      exact ⟨a, b, rfl, hi.1, hi.2⟩
  constructor
  · rw [C103_equal X 1 0 1 (by decide) (by decide)]
    intro idx hi
    obtain ⟨a, b, rfl, ha, hb⟩ := two idx hi
    show X.at_ [a, 0] = X.at_ [a, 1]
    rw [at_mat _ ha (by omega), at_mat _ ha (by omega)]
    simp
  · exact C73_rank_one_positive pinv hp X [ones [2, 1], ones [3, 1]]
      rfl (by
        intro M hM i hi
        simp only [List.mem_cons, List.not_mem_nil, or_false] at hM
        rcases hM with rfl | rfl
        · have hi : i < 2 := hi
          rw [ones, at_ofFn _ (by simp [InB, hi])]; exact one_pos
        · have hi : i < 3 := hi
          rw [ones, at_ofFn _ (by simp [InB, hi])]; exact one_pos) (le_refl 2) (by show 2 ≤ 25; omega)
      (by intro d hd; have : d ∈ [2, 3] := hd; simp at this; omega)
      (by
        intro i hi
        obtain ⟨a, b, rfl, ha, hb⟩ := two i hi
        rw [at_mat _ ha hb]
        positivity) (exactArith ℝ) { tol := 0 } (by decide) 7 (by omega) {}

end TD.Props
