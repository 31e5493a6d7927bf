import Verif.Lemmas.Tucker

/-! # HOSVD and HOOI -/
namespace TD
open Spec Tensor tf ops Matrix

theorem mapM_forall {β γ : Type} {f : β → Res γ} {P : β → γ → Prop} : ∀ {l : List β},
    (∀ a ∈ l, ∃ b, f a = .ok b ∧ P a b) → ∃ bs, l.mapM f = .ok bs ∧ List.Forall₂ P l bs
  | [], _ => ⟨[], rfl, .nil⟩
  | a :: l, h => by
      obtain ⟨b, h1, h2⟩ := h a (by simp)
      obtain ⟨bs, h3, h4⟩ := mapM_forall (l := l) fun a ha => h a (by simp [ha])
      refine ⟨b :: bs, ?_, .cons h2 h4⟩
      rw [List.mapM_cons, h1, ok_bind, h3]; rfl

theorem forall₂_range {β : Type} {P : Nat → β → Prop} {N : Nat} {bs : List β}
    (h : List.Forall₂ P (List.range N) bs) : bs.length = N ∧ ∀ k b, bs[k]? = some b → P k b := by
  have hl := h.length_eq
  rw [List.length_range] at hl
  refine ⟨hl.symm, fun k b hb => ?_⟩
  obtain ⟨hk, rfl⟩ := List.getElem?_eq_some_iff.1 hb
  have := h.get (i := k) (by rw [List.length_range, hl]; exact hk) hk
  simpa using this

theorem getD_pos_of {s : List Nat} {n : Nat} (h : ∀ d ∈ s, 0 < d) (hn : n < s.length) : 0 < s.getD n 0 := by
  rw [List.getD_eq_getElem _ _ hn]
  exact h _ (List.getElem_mem hn)

/-- What `leading` computes. -/
theorem leading_ok {svd : Tensor ℝ → Res (Tensor ℝ × Tensor ℝ × Tensor ℝ)} (hs : SvdOk svd) {X : Tensor ℝ}
    {ranks : List Nat} {n m J r : Nat} (hn : n < X.order) (hm : X.shape.getD n 0 = m)
    (hJ : otherSize X.shape n = J) (hpos : 0 < m) (hr : ranks[n]? = some r) :
    ∃ A U s V, ∃ h : min r (min m J) ≤ min m J, tucker.leading svd X ranks n = .ok A ∧
      A.shape = [m, min r (min m J)] ∧ IsThinSVD (unfM X n m J) U s V ∧
      toMat A m (min r (min m J)) = cols U _ h := by
  subst hm hJ
  have hu := unfold_closed X hn hpos
  obtain ⟨s, U, V, h1, h2, h3, h4, h5⟩ := hs _ _ _ (rfl : (mat (X.shape.getD n 0) (otherSize X.shape n)
    fun i j => X.at_ (unkolda X.shape n i j)).shape = _)
  rw [toMat_mat] at h5
  refine ⟨mat (X.shape.getD n 0) (min r (min (X.shape.getD n 0) (otherSize X.shape n))) fun i j => U.at_ [i, j],
    _, _, _, Nat.min_le_right _ _, ?_, rfl, h5, ?_⟩
  · unfold tucker.leading
    rw [hu, ok_bind, h1]
    simp only [ok_bind, tucker.rankAt, hr, tucker.firstCols, h3]
  · rw [toMat_mat]
    rfl

theorem leading_orth {svd : Tensor ℝ → Res (Tensor ℝ × Tensor ℝ × Tensor ℝ)} (hs : SvdOk svd) {X : Tensor ℝ}
    {ranks : List Nat} {n r : Nat} (hn : n < X.order) (hpos : 0 < X.shape.getD n 0) (hr : ranks[n]? = some r) :
    ∃ A, tucker.leading svd X ranks n = .ok A ∧
      OrthoCols A (X.shape.getD n 0) (min r (min (X.shape.getD n 0) (otherSize X.shape n))) := by
  obtain ⟨A, U, s, V, h, h1, h2, h3, h4⟩ := leading_ok hs hn rfl rfl hpos hr
  exact ⟨A, h1, h2, by rw [h4]; exact cols_orth h3.orthU h⟩

/-! ### HOSVD -/

/-- The projection matrix of a factor. -/
noncomputable def projOf (A : Tensor ℝ) : Tensor ℝ :=
  mat (A.shape.getD 0 0) (A.shape.getD 0 0) fun i i' =>
    ∑ r ∈ Finset.range (A.shape.getD 1 0), A.at_ [i, r] * A.at_ [i', r]

theorem toMat_projOf {A : Tensor ℝ} {m r : Nat} (h : A.shape = [m, r]) :
    (projOf A).shape = [m, m] ∧ toMat (projOf A) m m = toMat A m r * (toMat A m r)ᵀ := by
  have h0 : A.shape.getD 0 0 = m := by rw [h]; rfl
  have h1 : A.shape.getD 1 0 = r := by rw [h]; rfl
  unfold projOf
  rw [h0, h1]
  refine ⟨rfl, ?_⟩
  rw [toMat_mat]
  ext i j
  rw [of_apply, Matrix.mul_apply, Finset.sum_range]
  rfl

theorem kronEntry_projOf {U : List (Tensor ℝ)} : ∀ {i i' : List Nat}, InB (rowDims U) i → InB (rowDims U) i' →
    kronEntry (U.map projOf) i i' = boxSum (colDims U) fun j => kronEntry U i j * kronEntry U i' j := by
  induction U with
  | nil => intro i i' _ _; cases i <;> cases i' <;> simp [kronEntry, colDims, boxSum]
  | cons M U ih =>
      intro i i' hi hi'
      cases i with
      | nil => exact absurd hi.length (by simp [rowDims])
      | cons a i =>
          cases i' with
          | nil => exact absurd hi'.length (by simp [rowDims])
          | cons a' i' =>
              have hi2 : InB (M.shape.getD 0 0 :: rowDims U) (a :: i) := hi
              have hi2' : InB (M.shape.getD 0 0 :: rowDims U) (a' :: i') := hi'
              rw [InB_cons] at hi2 hi2'
              simp only [List.map_cons, kronEntry]
              rw [ih hi2.2 hi2'.2, projOf, at_mat _ hi2.1 hi2'.1]
              change _ = boxSum (M.shape.getD 1 0 :: colDims U) _
              rw [boxSum, Finset.sum_mul]
              refine Finset.sum_congr rfl fun l _ => ?_
              rw [← boxSum_mul_left]
              refine boxSum_congr fun j _ => ?_
              simp only [kronEntry]; ring

/-- The reconstruction is the tensor projected along every mode. -/
theorem tucker_full_proj {X g Y : Tensor ℝ} {U : List (Tensor ℝ)} (hne : X.shape ≠ []) (h13 : X.order ≤ 13)
    (hm : AllMat U) (hr : rowDims U = X.shape) (hg : ttm X U none true = .ok g) (hY : tucker.fullOf g U = .ok Y) :
    Y = modeProds X ((List.range U.length).zip (U.map projOf)) := by
  obtain ⟨g', Y', e1, e2, hgs, hYs, hge, hYe⟩ := tucker_entries hne h13 hm hr
  rw [hg] at e1; cases e1
  rw [hY] at e2; cases e2
  have hcT : X.shape = colDims (U.map projOf) := by
    rw [← hr]; unfold rowDims colDims
    rw [List.map_map]; rfl
  have hrT : rowDims (U.map projOf) = X.shape := by
    rw [← hr]; unfold rowDims
    rw [List.map_map]; rfl
  obtain ⟨a1, a2⟩ := modeProds_all X (U.map projOf) hcT
  rw [List.length_map] at a1 a2
  refine ext_at (by rw [hYs, a1, hrT]) fun i hi => ?_
  have hi : InB X.shape i := by rw [← hYs]; exact hi
  rw [hYe i hi, a2 i (by rw [hrT]; exact hi)]
  rw [boxSum_congr (g := fun j => boxSum X.shape fun i' => kronEntry U i j * kronEntry U i' j * X.at_ i')
    (fun j hj => by rw [hge j hj, mul_comm, ← boxSum_mul_left]; exact boxSum_congr fun _ _ => by ring), boxSum_swap]
  refine boxSum_congr fun i' hi' => ?_
  rw [kronEntry_projOf (by rw [hr]; exact hi) (by rw [hr]; exact hi'), mul_comm, ← boxSum_mul_left, hgs]
  exact boxSum_congr fun _ _ => by ring

theorem sum_zip_range {β : Type} (f : Nat → β → ℝ) (l : List β) :
    (((List.range l.length).zip l).map fun p => f p.1 p.2).sum =
      ∑ k ∈ Finset.range l.length, ((l[k]?).map (f k)).getD 0 := by
  induction l using List.reverseRecOn with
  | nil => simp
  | append_singleton l x ih =>
      rw [List.length_append, List.length_singleton, List.range_succ, List.zip_append (by simp), List.map_append,
        List.sum_append, ih, Finset.sum_range_succ]
      congr 1
      · refine Finset.sum_congr rfl fun k hk => ?_
        rw [List.getElem?_append_left (Finset.mem_range.1 hk)]
      · simp

/-- The error of a Tucker approximation by orthonormal factors. -/
theorem tucker_error {X g Y : Tensor ℝ} {U : List (Tensor ℝ)} (hne : X.shape ≠ []) (h13 : X.order ≤ 13)
    (ho : OrthoFactors X.shape U) (hg : ttm X U none true = .ok g) (hY : tucker.fullOf g U = .ok Y) :
    distSqT X Y ≤ ∑ k ∈ Finset.range X.order, ((U[k]?).map fun A => distSqT X (modeProd X k (projOf A))).getD 0 := by
  have e := tucker_full_proj hne h13 ho.allMat ho.rowDims hg hY
  have hp : ∀ p ∈ (List.range U.length).zip (U.map projOf), IsProj X.shape p := by
    intro p hp
    obtain ⟨k, hk, rfl⟩ := List.getElem_of_mem hp
    have hk' : k < U.length := by simpa using hk
    simp only [List.getElem_zip, List.getElem_range, List.getElem_map]
    have h1 := ho.2 k U[k] (List.getElem?_eq_getElem hk')
    have h2 := toMat_projOf h1.1
    exact ⟨by rw [← ho.1]; exact hk', h2.1, _, _, h1.2, h2.2⟩
  have := distSqT_projs hp
  rw [← e] at this
  refine le_trans this (le_of_eq ?_)
  have hz := sum_zip_range (fun k P => distSqT X (modeProd X k P)) (U.map projOf)
  rw [List.length_map] at hz
  rw [hz, ho.1]
  refine Finset.sum_congr rfl fun k _ => ?_
  rw [List.getElem?_map, Option.map_map]
  rfl

theorem proj_error {X A : Tensor ℝ} {n m J r : Nat} (hn : n < X.order) (hm : X.shape.getD n 0 = m)
    (hJ : otherSize X.shape n = J) (hA : A.shape = [m, r]) :
    distSqT X (modeProd X n (projOf A)) =
      frobSq (unfM X n m J - toMat A m r * (toMat A m r)ᵀ * unfM X n m J) := by
  obtain ⟨h1, h2⟩ := toMat_projOf hA
  rw [distSqT_unfM (n := n) (by rw [modeProd_shape h1, ← hm, set_getD_self]) hn hm hJ, unfM_modeProd hn h1 hm hJ, h2]

/-- Singular values beyond the rank: any two decompositions agree. -/
theorem Spec.IsThinSVD.tail_unique {m n r : Nat} {M : Mat m n} {U s V U' s' V'} (h : IsThinSVD M U s V)
    (h' : IsThinSVD M U' s' V') (hr : r ≤ min m n) :
    (∑ i : Fin (min m n), if r ≤ i.val then s i ^ 2 else 0) = ∑ i : Fin (min m n), if r ≤ i.val then s' i ^ 2 else 0 := by
  have a := h.kyFan hr (cols_orth h'.orthU hr)
  have b := h'.kyFan hr (cols_orth h.orthU hr)
  have c := frobSq_proj_zero (cols_orth h.orthU hr) M
  have c' := frobSq_proj_zero (cols_orth h'.orthU hr) M
  rw [← h.trunc hr, ← h'.trunc hr]
  linarith

theorem distSqT_zero {X Y : Tensor ℝ} (hs : Y.shape = X.shape) (h : distSqT X Y ≤ 0) : Y = X := by
  have h0 : distSqT X Y = 0 := le_antisymm h (distSqT_nonneg _ _)
  refine ext_at hs fun i hi => ?_
  have := (loss.boxSum_eq_zero X.shape fun i _ => sq_nonneg (X.at_ i - Y.at_ i)).1 h0 i (by rw [← hs]; exact hi)
  have := pow_eq_zero_iff (n := 2) (by norm_num) |>.1 this
  linarith

/-- `HOSVD.run` on a well-shaped input. -/
theorem hosvd_ok {svd : Tensor ℝ → Res (Tensor ℝ × Tensor ℝ × Tensor ℝ)} (hs : SvdOk svd) {X : Tensor ℝ}
    {ranks : List Nat} (h1 : 1 ≤ X.order) (h13 : X.order ≤ 13) (hpos : ∀ d ∈ X.shape, 0 < d)
    (hr : X.order ≤ ranks.length) :
    ∃ A g Y, tucker.HOSVD.run svd X ranks = .ok (A, g, Y) ∧ ttm X A none true = .ok g ∧
      tucker.fullOf g A = .ok Y ∧ OrthoFactors X.shape A ∧ g.shape = colDims A ∧ ∀ n < X.order, ∃ M U s V,
        ∃ h : min (ranks.getD n 0) (min (X.shape.getD n 0) (otherSize X.shape n)) ≤
          min (X.shape.getD n 0) (otherSize X.shape n),
        A[n]? = some M ∧ M.shape = [X.shape.getD n 0, min (ranks.getD n 0) (min (X.shape.getD n 0) (otherSize X.shape n))] ∧
        IsThinSVD (unfM X n (X.shape.getD n 0) (otherSize X.shape n)) U s V ∧
        toMat M (X.shape.getD n 0) (min (ranks.getD n 0) (min (X.shape.getD n 0) (otherSize X.shape n))) = cols U _ h := by
  obtain ⟨A, hA, hF⟩ := mapM_forall (f := tucker.leading svd X ranks) (l := List.range X.order)
    (P := fun n M => ∃ U s V, ∃ h : min (ranks.getD n 0) (min (X.shape.getD n 0) (otherSize X.shape n)) ≤
          min (X.shape.getD n 0) (otherSize X.shape n),
        M.shape = [X.shape.getD n 0, min (ranks.getD n 0) (min (X.shape.getD n 0) (otherSize X.shape n))] ∧
        IsThinSVD (unfM X n (X.shape.getD n 0) (otherSize X.shape n)) U s V ∧
        toMat M (X.shape.getD n 0) (min (ranks.getD n 0) (min (X.shape.getD n 0) (otherSize X.shape n))) = cols U _ h)
    (fun n hn => by
      have hn : n < X.order := by simpa using hn
      have hrn : ranks[n]? = some (ranks.getD n 0) := by
        rw [List.getD_eq_getElem _ _ (by omega)]; exact List.getElem?_eq_getElem _
      obtain ⟨M, U, s, V, h, a, b, c, d⟩ := leading_ok hs hn rfl rfl (getD_pos_of hpos hn) hrn
      exact ⟨M, a, U, s, V, h, b, c, d⟩)
  obtain ⟨hl, hk⟩ := forall₂_range hF
  have ho : OrthoFactors X.shape A := by
    refine ⟨hl, fun k M hM => ?_⟩
    obtain ⟨U, s, V, h, b, c, d⟩ := hk k M hM
    have e : M.shape.getD 1 0 = min (ranks.getD k 0) (min (X.shape.getD k 0) (otherSize X.shape k)) := by rw [b]; rfl
    rw [e]
    exact ⟨b, by rw [d]; exact cols_orth c.orthU h⟩
  have hne : X.shape ≠ [] := by
    intro e; unfold order at h1; rw [e] at h1; simp at h1
  obtain ⟨g, Y, e1, e2, hgs, -⟩ := tucker_entries hne h13 ho.allMat ho.rowDims
  refine ⟨A, g, Y, ?_, e1, e2, ho, hgs, fun n hn => ?_⟩
  · unfold tucker.HOSVD.run
    rw [hA, ok_bind, e1, ok_bind, e2]
    rfl
  · have hn' : n < A.length := by rw [hl]; exact hn
    obtain ⟨U, s, V, h, b, c, d⟩ := hk n A[n] (List.getElem?_eq_getElem hn')
    exact ⟨A[n], U, s, V, h, List.getElem?_eq_getElem hn', b, c, d⟩

/-! ### HOOI -/

theorem Spec.TuckerShapes.allMat {shape ranks : List Nat} {A : List (Tensor ℝ)} (h : TuckerShapes shape ranks A) :
    AllMat A := by
  intro M hM
  obtain ⟨k, hk⟩ := List.mem_iff_getElem?.1 hM
  rw [h.2 k M hk]; rfl

theorem Spec.TuckerShapes.set {shape ranks : List Nat} {A : List (Tensor ℝ)} (h : TuckerShapes shape ranks A)
    {n : Nat} {B : Tensor ℝ} (hB : B.shape = [shape.getD n 0, ranks.getD n 0]) :
    TuckerShapes shape ranks (A.set n B) := by
  refine ⟨by rw [List.length_set]; exact h.1, fun k M hM => ?_⟩
  by_cases e : n = k
  · subst e
    by_cases hn : n < A.length
    · rw [List.getElem?_set_self hn, Option.some.injEq] at hM
      rw [← hM]; exact hB
    · rw [List.getElem?_eq_none (by simpa using hn)] at hM; cases hM
  · rw [List.getElem?_set_ne e] at hM
    exact h.2 k M hM

theorem zip_eraseIdx {β γ : Type} : ∀ (l : List β) (l' : List γ) (n : Nat), l.length = l'.length →
    (l.eraseIdx n).zip (l'.eraseIdx n) = (l.zip l').eraseIdx n
  | [], [], n, _ => by simp
  | a :: l, b :: l', 0, _ => by simp
  | a :: l, b :: l', n + 1, h => by
      simp only [List.eraseIdx_cons_succ, List.zip_cons_cons]
      rw [zip_eraseIdx l l' n (by simpa using h)]

/-- The tensor `Y` of a HOOI mode update. -/
theorem hooi_Y {X : Tensor ℝ} {ranks : List Nat} {A : List (Tensor ℝ)} (h2 : 2 ≤ X.order) (h13 : X.order ≤ 13)
    (hA : TuckerShapes X.shape ranks A) {n : Nat} (hn : n < X.order) :
    ∃ Y, ttm X A none true (.int n) = .ok Y ∧
      Y = modeProds X (((List.range X.order).zip (A.map matT)).eraseIdx n) := by
  have hl : A.length = X.order := hA.1
  have hmem : ∀ i ∈ (List.range X.order).eraseIdx n, i < X.order := fun i hi => by
    have := List.mem_of_mem_eraseIdx hi
    simpa using this
  refine ⟨_, ?_, rfl⟩
  rw [Props.C12_ttm_skip X A true (.int n) (fun i hi _ => by omega)]
  have e1 : ((List.range A.length).filter fun i => decide (keeps (.int n) i)) = (List.range X.order).eraseIdx n := by
    rw [← kept_int, kept, hl, List.length_range]
    have : ∀ l : List Nat, (∀ i ∈ l, i < X.order) → l.filterMap (fun i => (List.range X.order)[i]?) = l := by
      intro l
      induction l with
      | nil => intro _; rfl
      | cons a l ih =>
          intro h
          rw [List.filterMap_cons, List.getElem?_range (h a (by simp)), ih fun i hi => h i (by simp [hi])]
    rw [this]
    intro i hi
    simpa using (List.mem_filter.1 hi).1
  rw [e1, kept_int, Props.C10_ttm_mode_products X _ _ true h13 ?_ ?_ hmem ?_, if_pos rfl]
  · congr 2
    rw [← zip_eraseIdx _ _ _ (by simp [hl])]
    congr 1
    exact (List.eraseIdx_map matT A n).symm
  · intro e
    have := congrArg List.length e
    rw [List.length_eraseIdx, List.length_range, if_pos hn, List.length_nil] at this
    omega
  · exact (List.nodup_range (n := X.order)).sublist (List.eraseIdx_sublist _ _)
  · refine ⟨by rw [List.length_eraseIdx, List.length_eraseIdx, List.length_range, hl], fun p hp => ?_⟩
    rw [zip_eraseIdx _ _ _ (by simp [hl])] at hp
    obtain ⟨k, hk, rfl⟩ := List.getElem_of_mem (List.mem_of_mem_eraseIdx hp)
    have hk' : k < A.length := by rw [hl]; simpa [hl] using hk
    simp only [List.getElem_zip, List.getElem_range, if_true]
    exact ⟨_, hA.2 k A[k] (List.getElem?_eq_getElem hk')⟩

/-- The core after the factor of mode `n` is `Y` times that factor. -/
theorem hooi_core {X : Tensor ℝ} {ranks : List Nat} {A : List (Tensor ℝ)} (h2 : 2 ≤ X.order) (h13 : X.order ≤ 13)
    (hA : TuckerShapes X.shape ranks A) {n : Nat} (hn : n < X.order) {B : Tensor ℝ} (hB : A[n]? = some B) :
    ttm X A none true = .ok (modeProd (modeProds X (((List.range X.order).zip (A.map matT)).eraseIdx n)) n (matT B)) := by
  have hl : A.length = X.order := hA.1
  have hne : A ≠ [] := by intro e; rw [e] at hl; simp at hl; omega
  rw [Props.C10_ttm_default_axis X A true h13 hne (by omega) (by
    refine ⟨by simp, fun p hp => ?_⟩
    obtain ⟨k, hk, rfl⟩ := List.getElem_of_mem hp
    have hk' : k < A.length := by simpa using hk
    simp only [List.getElem_zip, List.getElem_range, if_true]
    exact ⟨_, hA.2 k A[k] (List.getElem?_eq_getElem hk')⟩), if_pos rfl, hl]
  congr 1
  set ps := (List.range X.order).zip (A.map matT) with hps
  have hlen : n < ps.length := by rw [hps]; simp [hl, hn]
  have hget : ps[n] = (n, matT B) := by
    obtain ⟨hk, e⟩ := List.getElem?_eq_some_iff.1 hB
    simp only [hps, List.getElem_zip, List.getElem_range, List.getElem_map, e]
  have hperm : ps.Perm (ps.eraseIdx n ++ [(n, matT B)]) := by
    have := (List.getElem_cons_eraseIdx_perm hlen).symm
    rw [hget] at this
    exact this.trans (List.perm_append_singleton _ _).symm
  rw [modeProds_perm hperm ?_ X, modeProds_append]
  · rfl
  · rw [hps, List.map_fst_zip (by simp [hl])]
    exact List.nodup_range

theorem hooi_set {A : List (Tensor ℝ)} {N n : Nat} (hl : A.length = N) (B : Tensor ℝ) :
    ((List.range N).zip ((A.set n B).map matT)).eraseIdx n = ((List.range N).zip (A.map matT)).eraseIdx n := by
  rw [← zip_eraseIdx _ _ _ (by simp [hl]), ← zip_eraseIdx _ _ _ (by simp [hl]), List.eraseIdx_map, List.eraseIdx_map,
    List.eraseIdx_set_eq]

theorem hooi_Y_shape {X : Tensor ℝ} {ranks : List Nat} {A : List (Tensor ℝ)}
    (hA : TuckerShapes X.shape ranks A) {n : Nat} :
    let Y := modeProds X (((List.range X.order).zip (A.map matT)).eraseIdx n)
    Y.order = X.order ∧ Y.shape.getD n 0 = X.shape.getD n 0 ∧
      otherSize Y.shape n = ∏ m ∈ (Finset.range X.order).erase n, ranks.getD m 0 := by
  intro Y
  have hl : A.length = X.order := hA.1
  have hfst : (((List.range X.order).zip (A.map matT)).eraseIdx n).map Prod.fst = (List.range X.order).eraseIdx n := by
    rw [← zip_eraseIdx _ _ _ (by simp [hl]), List.map_fst_zip]
    rw [List.length_eraseIdx, List.length_eraseIdx]; simp [hl]
  have hnd : ((List.range X.order).eraseIdx n).Nodup := (List.nodup_range (n := X.order)).sublist (List.eraseIdx_sublist _ _)
  have hlen : Y.shape.length = X.shape.length := modeProds_shape_length _ _
  refine ⟨hlen, modeProds_shape_out X ?_, ?_⟩
  · rw [hfst]
    intro hmem
    rw [List.mem_eraseIdx_iff_getElem] at hmem
    obtain ⟨i, hi, hne, e⟩ := hmem
    rw [List.getElem_range] at e
    exact hne e
  · unfold otherSize
    rw [hlen]
    refine Finset.prod_congr rfl fun m hm => ?_
    rw [Finset.mem_erase, Finset.mem_range] at hm
    have hm2 : m < X.order := hm.2
    have hmA : m < A.length := by rw [hl]; exact hm2
    have hmem : (m, matT A[m]) ∈ ((List.range X.order).zip (A.map matT)).eraseIdx n := by
      rw [List.mem_eraseIdx_iff_getElem]
      exact ⟨m, by simp [hl, hm2], hm.1, by simp⟩
    have := modeProds_shape_in X (by rw [hfst]; exact hnd) hmem hm.2
    rw [this]
    change A[m].shape.getD 1 0 = _
    rw [hA.2 m A[m] (List.getElem?_eq_getElem hmA)]
    rfl

/-- Squared norm of the core for given factors. -/
noncomputable def coreSq (X : Tensor ℝ) (A : List (Tensor ℝ)) : ℝ :=
  match ttm X A none true with
  | .ok g => normSqT g
  | .error _ => 0

theorem coreSq_eq {X : Tensor ℝ} {ranks : List Nat} {A : List (Tensor ℝ)} (h2 : 2 ≤ X.order) (h13 : X.order ≤ 13)
    (hA : TuckerShapes X.shape ranks A) {n m r J : Nat} (hn : n < X.order) {B : Tensor ℝ} (hB : A[n]? = some B)
    (hm : X.shape.getD n 0 = m) (hr : ranks.getD n 0 = r)
    (hJ : ∏ m ∈ (Finset.range X.order).erase n, ranks.getD m 0 = J) :
    coreSq X A = frobSq ((toMat B m r)ᵀ *
      unfM (modeProds X (((List.range X.order).zip (A.map matT)).eraseIdx n)) n m J) := by
  unfold coreSq
  rw [hooi_core h2 h13 hA hn hB]
  simp only
  obtain ⟨y1, y2, y3⟩ := hooi_Y_shape hA (n := n)
  set Y := modeProds X (((List.range X.order).zip (A.map matT)).eraseIdx n) with hY
  have hBs : B.shape = [m, r] := by rw [hA.2 n B hB, hm, hr]
  have hTs : (matT B).shape = [r, m] := by unfold matT; rw [hBs]; rfl
  have hT : toMat (matT B) r m = (toMat B m r)ᵀ := by
    unfold matT; rw [hBs]
    change toMat (mat r m _) r m = _
    rw [toMat_mat]; rfl
  have hnY : n < Y.order := by rw [y1]; exact hn
  rw [normSqT_unfM (n := n) (m := r) (J := J) _ (by
      unfold order
      rw [modeProd_shape hTs, List.length_set]; exact hnY) (by rw [modeProd_shape hTs, getD_set_self hnY])
    (by rw [modeProd_shape hTs, otherSize_set, y3, hJ]),
    unfM_modeProd hnY hTs (by rw [y2, hm]) (by rw [y3, hJ]), hT]

/-- A HOOI mode update. -/
theorem hooi_update {svd : Tensor ℝ → Res (Tensor ℝ × Tensor ℝ × Tensor ℝ)} (hs : SvdOk svd) {X : Tensor ℝ}
    {ranks : List Nat} {A : List (Tensor ℝ)} (h2 : 2 ≤ X.order) (h13 : X.order ≤ 13)
    (hpos : ∀ d ∈ X.shape, 0 < d) (hlen : X.order ≤ ranks.length)
    (hA : TuckerShapes X.shape ranks A) {n : Nat} (hn : n < X.order) :
    (ranks.getD n 0 ≤ min (X.shape.getD n 0) (∏ m ∈ (Finset.range X.order).erase n, ranks.getD m 0) →
      ∃ B, tucker.HOOI.modeUpdate svd X ranks A n = .ok (A.set n B) ∧
        OrthoCols B (X.shape.getD n 0) (ranks.getD n 0) ∧
        ∀ Q, OrthoCols Q (X.shape.getD n 0) (ranks.getD n 0) → coreSq X (A.set n Q) ≤ coreSq X (A.set n B)) ∧
    (¬ ranks.getD n 0 ≤ min (X.shape.getD n 0) (∏ m ∈ (Finset.range X.order).erase n, ranks.getD m 0) →
      tucker.HOOI.modeUpdate svd X ranks A n = .error .invalidArgument) := by
  obtain ⟨Y, hY, hYe⟩ := hooi_Y h2 h13 hA hn
  obtain ⟨y1, y2, y3⟩ := hooi_Y_shape hA (n := n)
  rw [← hYe] at y1 y2 y3
  have hl : A.length = X.order := hA.1
  have hrn : ranks[n]? = some (ranks.getD n 0) := by
    rw [List.getD_eq_getElem _ _ (by omega)]; exact List.getElem?_eq_getElem _
  have hnA : n < A.length := by omega
  obtain ⟨B, U, s, V, h, b1, b2, b3, b4⟩ := leading_ok hs (by rw [y1]; exact hn) y2 y3 (getD_pos_of hpos hn) hrn
  have hold := hA.2 n A[n] (List.getElem?_eq_getElem hnA)
  have hupd : tucker.HOOI.modeUpdate svd X ranks A n =
      if B.shape = [X.shape.getD n 0, ranks.getD n 0] then .ok (A.set n B) else .error .invalidArgument := by
    unfold tucker.HOOI.modeUpdate
    rw [hY, ok_bind, b1, ok_bind, assign, List.getElem?_eq_getElem hnA]
    simp only [hold]
  constructor
  · intro hle
    have hmin := Nat.min_eq_left hle
    rw [hmin] at b2
    have hBs := b2
    refine ⟨B, by rw [hupd, if_pos hBs], ?_, ?_⟩
    · refine ⟨hBs, ?_⟩
      have e : ∀ r (hr : r = min (ranks.getD n 0) (min (X.shape.getD n 0)
          (∏ m ∈ (Finset.range X.order).erase n, ranks.getD m 0))),
          (toMat B (X.shape.getD n 0) r)ᵀ * toMat B (X.shape.getD n 0) r = 1 := by
        rintro r rfl
        rw [b4]; exact cols_orth b3.orthU h
      exact e _ hmin.symm
    · intro Q hQ
      rw [coreSq_eq h2 h13 (hA.set hQ.1) hn (List.getElem?_set_self hnA) rfl rfl rfl,
        coreSq_eq h2 h13 (hA.set hBs) hn (List.getElem?_set_self hnA) rfl rfl rfl, hooi_set hl, hooi_set hl, ← hYe]
      have e : ∀ r (hr : r = min (ranks.getD n 0) (min (X.shape.getD n 0)
          (∏ m ∈ (Finset.range X.order).erase n, ranks.getD m 0))), ∀ Q' : Mat (X.shape.getD n 0) r, Q'ᵀ * Q' = 1 →
          frobSq (Q'ᵀ * unfM Y n (X.shape.getD n 0) (∏ m ∈ (Finset.range X.order).erase n, ranks.getD m 0)) ≤
          frobSq ((toMat B (X.shape.getD n 0) r)ᵀ *
            unfM Y n (X.shape.getD n 0) (∏ m ∈ (Finset.range X.order).erase n, ranks.getD m 0)) := by
        rintro r rfl Q' hQ'
        rw [b4]; exact b3.kyFan h hQ'
      exact e _ hmin.symm _ hQ.2
  · intro hgt
    rw [hupd, if_neg]
    rw [b2]
    intro e
    simp only [List.cons.injEq, and_true, true_and] at e
    exact hgt (min_eq_left_iff.1 e)

/-- Updating modes one after the other. -/
theorem hooi_fold {svd : Tensor ℝ → Res (Tensor ℝ × Tensor ℝ × Tensor ℝ)} (hs : SvdOk svd) {X : Tensor ℝ}
    {ranks : List Nat} (h2 : 2 ≤ X.order) (h13 : X.order ≤ 13)
    (hpos : ∀ d ∈ X.shape, 0 < d) (hlen : X.order ≤ ranks.length) : ∀ (l : List Nat) (A A' : List (Tensor ℝ)),
    (∀ n ∈ l, n < X.order) → TuckerShapes X.shape ranks A → l.foldlM (tucker.HOOI.modeUpdate svd X ranks) A = .ok A' →
    TuckerShapes X.shape ranks A' ∧ (∀ n ∈ l, ranks.getD n 0 ≤
        min (X.shape.getD n 0) (∏ m ∈ (Finset.range X.order).erase n, ranks.getD m 0)) ∧
      (∀ k M, A'[k]? = some M → k ∈ l ∨ (∃ N, A[k]? = some N ∧ OrthoCols N (X.shape.getD k 0) (ranks.getD k 0)) →
        OrthoCols M (X.shape.getD k 0) (ranks.getD k 0)) ∧
      ((∀ k M, A[k]? = some M → OrthoCols M (X.shape.getD k 0) (ranks.getD k 0)) → coreSq X A ≤ coreSq X A')
  | [], A, A', _, hA, h => by
      cases h
      refine ⟨hA, by simp, fun k M hM hor => ?_, fun _ => le_refl _⟩
      rcases hor with hor | ⟨N, hN, ho⟩
      · simp at hor
      · rw [hM] at hN; cases hN; exact ho
  | n :: l, A, A', hl, hA, h => by
      have hn := hl n (by simp)
      obtain ⟨u1, u2⟩ := hooi_update hs h2 h13 hpos hlen hA hn
      by_cases hle : ranks.getD n 0 ≤ min (X.shape.getD n 0) (∏ m ∈ (Finset.range X.order).erase n, ranks.getD m 0)
      · obtain ⟨B, b1, b2, b3⟩ := u1 hle
        rw [List.foldlM_cons, b1, ok_bind] at h
        obtain ⟨c1, c2, c3, c4⟩ := hooi_fold hs h2 h13 hpos hlen l (A.set n B) A' (fun m hm => hl m (by simp [hm]))
          (hA.set b2.1) h
        have hnA : n < A.length := by rw [hA.1]; exact hn
        refine ⟨c1, ?_, fun k M hM hor => ?_, fun ho => ?_⟩
        · intro m hm
          rcases List.mem_cons.1 hm with rfl | hm
          · exact hle
          · exact c2 m hm
        · apply c3 k M hM
          by_cases e : n = k
          · subst e
            right; exact ⟨B, List.getElem?_set_self hnA, b2⟩
          · rcases hor with hor | ⟨N, hN, ho⟩
            · rcases List.mem_cons.1 hor with rfl | hor
              · exact absurd rfl e
              · exact Or.inl hor
            · right; exact ⟨N, by rw [List.getElem?_set_ne e]; exact hN, ho⟩
        · have h1 := b3 A[n] (ho n _ (List.getElem?_eq_getElem hnA))
          rw [List.set_getElem_self] at h1
          refine le_trans h1 (c4 fun k M hM => ?_)
          by_cases e : n = k
          · subst e
            rw [List.getElem?_set_self hnA, Option.some.injEq] at hM
            subst hM; exact b2
          · rw [List.getElem?_set_ne e] at hM
            exact ho k M hM
      · rw [List.foldlM_cons, u2 hle] at h
        cases h

theorem hooi_fold_total {svd : Tensor ℝ → Res (Tensor ℝ × Tensor ℝ × Tensor ℝ)} (hs : SvdOk svd) {X : Tensor ℝ}
    {ranks : List Nat} (h2 : 2 ≤ X.order) (h13 : X.order ≤ 13)
    (hpos : ∀ d ∈ X.shape, 0 < d) (hlen : X.order ≤ ranks.length) (hadm : Admissible X.shape ranks) :
    ∀ (l : List Nat) (A : List (Tensor ℝ)),
    (∀ n ∈ l, n < X.order) → TuckerShapes X.shape ranks A →
    ∃ A', l.foldlM (tucker.HOOI.modeUpdate svd X ranks) A = .ok A'
  | [], A, _, _ => ⟨A, rfl⟩
  | n :: l, A, hl, hA => by
      have hn := hl n (by simp)
      obtain ⟨u1, -⟩ := hooi_update hs h2 h13 hpos hlen hA hn
      obtain ⟨B, b1, b2, -⟩ := u1 (Nat.le_min.2 (hadm n hn))
      obtain ⟨A', h⟩ := hooi_fold_total hs h2 h13 hpos hlen hadm l (A.set n B) (fun m hm => hl m (by simp [hm]))
        (hA.set b2.1)
      exact ⟨A', by rw [List.foldlM_cons, b1]; exact h⟩

/-- `HOOI.init`. -/
theorem hooi_init {svd : Tensor ℝ → Res (Tensor ℝ × Tensor ℝ × Tensor ℝ)} (hs : SvdOk svd) {X : Tensor ℝ}
    {ranks : List Nat} (hpos : ∀ d ∈ X.shape, 0 < d) (hlen : X.order ≤ ranks.length) {A : List (Tensor ℝ)}
    (h : tucker.HOOI.init svd X ranks = .ok A) : TuckerShapes X.shape ranks A ∧
      (∀ k M, A[k]? = some M → OrthoCols M (X.shape.getD k 0) (ranks.getD k 0)) ∧
      ∀ n < X.order, ranks.getD n 0 ≤ X.shape.getD n 0 := by
  have key : ∀ n < X.order, ∀ v, (do
      let v ← tucker.leading svd X ranks n
      let r ← tucker.rankAt ranks n
      if v.shape = [X.shape.getD n 0, r] then .ok v else .error .invalidArgument : Res (Tensor ℝ)) = .ok v →
      OrthoCols v (X.shape.getD n 0) (ranks.getD n 0) ∧ ranks.getD n 0 ≤ X.shape.getD n 0 := by
    intro n hn v hv
    have hrn : ranks[n]? = some (ranks.getD n 0) := by
      rw [List.getD_eq_getElem _ _ (by omega)]; exact List.getElem?_eq_getElem _
    obtain ⟨B, b1, b2, b3⟩ := leading_orth hs hn (getD_pos_of hpos hn) hrn
    rw [b1, ok_bind, tucker.rankAt, hrn, ok_bind] at hv
    by_cases e : B.shape = [X.shape.getD n 0, ranks.getD n 0]
    · rw [if_pos e] at hv
      cases hv
      have e' : min (ranks.getD n 0) (min (X.shape.getD n 0) (otherSize X.shape n)) = ranks.getD n 0 := by
        rw [b2] at e
        simpa using e
      rw [e'] at b3
      exact ⟨⟨e, b3⟩, le_trans (min_eq_left_iff.1 e') (Nat.min_le_left _ _)⟩
    · rw [if_neg e] at hv; cases hv
  have hmap : ∀ (l : List Nat) (A : List (Tensor ℝ)), (∀ n ∈ l, n < X.order) → l.mapM (fun mode => (do
      let v ← tucker.leading svd X ranks mode
      let r ← tucker.rankAt ranks mode
      if v.shape = [X.shape.getD mode 0, r] then .ok v else .error .invalidArgument : Res (Tensor ℝ))) = .ok A →
      List.Forall₂ (fun n v => OrthoCols v (X.shape.getD n 0) (ranks.getD n 0) ∧ ranks.getD n 0 ≤ X.shape.getD n 0) l A := by
    intro l
    induction l with
    | nil => intro A _ h; cases h; exact .nil
    | cons n l ih =>
        intro A hl h
        rw [List.mapM_cons] at h
        cases h1 : (do
            let v ← tucker.leading svd X ranks n
            let r ← tucker.rankAt ranks n
            if v.shape = [X.shape.getD n 0, r] then .ok v else .error .invalidArgument : Res (Tensor ℝ)) with
        | error e => rw [h1] at h; cases h
        | ok v =>
            rw [h1, ok_bind] at h
            cases h2 : l.mapM (fun mode => (do
                let v ← tucker.leading svd X ranks mode
                let r ← tucker.rankAt ranks mode
                if v.shape = [X.shape.getD mode 0, r] then .ok v else .error .invalidArgument : Res (Tensor ℝ))) with
            | error e => rw [h2] at h; cases h
            | ok A1 =>
                rw [h2, ok_bind] at h
                cases h
                exact .cons (key n (hl n (by simp)) v h1) (ih A1 (fun m hm => hl m (by simp [hm])) h2)
  have hF := hmap (List.range X.order) A (by simp) h
  obtain ⟨hl, hk⟩ := forall₂_range hF
  refine ⟨⟨hl, fun k M hM => (hk k M hM).1.1⟩, fun k M hM => (hk k M hM).1, fun n hn => ?_⟩
  have hn' : n < A.length := by omega
  exact (hk n A[n] (List.getElem?_eq_getElem hn')).2

theorem prod_le_otherSize {shape ranks : List Nat} (h : ∀ n < shape.length, ranks.getD n 0 ≤ shape.getD n 0) (n : Nat) :
    ∏ m ∈ (Finset.range shape.length).erase n, ranks.getD m 0 ≤ otherSize shape n := by
  unfold otherSize
  refine Finset.prod_le_prod (fun _ _ => Nat.zero_le _) fun m hm => ?_
  rw [Finset.mem_erase, Finset.mem_range] at hm
  exact h m hm.2

theorem hooi_init_total {svd : Tensor ℝ → Res (Tensor ℝ × Tensor ℝ × Tensor ℝ)} (hs : SvdOk svd) {X : Tensor ℝ}
    {ranks : List Nat} (hpos : ∀ d ∈ X.shape, 0 < d) (hlen : X.order ≤ ranks.length)
    (hadm : Admissible X.shape ranks) : ∃ A, tucker.HOOI.init svd X ranks = .ok A := by
  obtain ⟨A, hA, -⟩ := mapM_forall (f := fun mode => (do
      let v ← tucker.leading svd X ranks mode
      let r ← tucker.rankAt ranks mode
      if v.shape = [X.shape.getD mode 0, r] then .ok v else .error .invalidArgument : Res (Tensor ℝ)))
    (P := fun _ _ => True) (l := List.range X.order) (fun n hn => by
      have hn : n < X.order := by simpa using hn
      have hrn : ranks[n]? = some (ranks.getD n 0) := by
        rw [List.getD_eq_getElem _ _ (by omega)]; exact List.getElem?_eq_getElem _
      obtain ⟨B, b1, b2, b3⟩ := leading_orth hs hn (getD_pos_of hpos hn) hrn
      refine ⟨B, ?_, trivial⟩
      rw [b1, ok_bind, tucker.rankAt, hrn, ok_bind, if_pos]
      rw [b2, Nat.min_eq_left]
      exact Nat.le_min.2 ⟨(hadm n hn).1, le_trans (hadm n hn).2 (prod_le_otherSize (fun m hm => (hadm m hm).1) n)⟩)
  exact ⟨A, hA⟩

/-- What one run of the fetch list of HOOI returns. -/
theorem hooi_main {svd : Tensor ℝ → Res (Tensor ℝ × Tensor ℝ × Tensor ℝ)} (hs : SvdOk svd) {X : Tensor ℝ}
    {ranks : List Nat} (h2 : 2 ≤ X.order) (h13 : X.order ≤ 13)
    (hpos : ∀ d ∈ X.shape, 0 < d) (hlen : X.order ≤ ranks.length) {A A' : List (Tensor ℝ)}
    {o : fact.Out (List (Tensor ℝ)) (Tensor ℝ) (Tensor ℝ) ℝ} (hA : TuckerShapes X.shape ranks A)
    (h : tucker.HOOI.main svd X ranks A = .ok (A', o)) :
    ∃ g, TuckerShapes X.shape ranks A' ∧ (∀ k M, A'[k]? = some M → OrthoCols M (X.shape.getD k 0) (ranks.getD k 0)) ∧
      Admissible X.shape ranks ∧
      o.factors = A' ∧ o.aux = some g ∧ ttm X A' none true = .ok g ∧ tucker.fullOf g A' = .ok o.full ∧
      o.full.shape = X.shape ∧ distSqT X o.full = normSqT X - normSqT g ∧
      o.obj = distSqT X o.full / 2 ∧ o.rel = Real.sqrt (distSqT X o.full) / Real.sqrt (normSqT X) ∧ 0 < normSqT X ∧
      coreSq X A' = normSqT g ∧
      ((∀ k M, A[k]? = some M → OrthoCols M (X.shape.getD k 0) (ranks.getD k 0)) → coreSq X A ≤ coreSq X A') := by
  unfold tucker.HOOI.main at h
  cases hsw : tucker.HOOI.sweep svd X ranks A with
  | error e => rw [hsw] at h; cases h
  | ok A1 =>
      rw [hsw, ok_bind] at h
      obtain ⟨c1, c2, c3, c4⟩ := hooi_fold hs h2 h13 hpos hlen _ A A1 (by simp) hA hsw
      have hort : ∀ k M, A1[k]? = some M → OrthoCols M (X.shape.getD k 0) (ranks.getD k 0) := by
        intro k M hM
        have hk : k < A1.length := (List.getElem?_eq_some_iff.1 hM).1
        exact c3 k M hM (Or.inl (by rw [List.mem_range, ← show A1.length = X.order from c1.1]; exact hk))
      have ho : OrthoFactors X.shape A1 := by
        refine ⟨c1.1, fun k M hM => ?_⟩
        have := hort k M hM
        have e : M.shape.getD 1 0 = ranks.getD k 0 := by rw [this.1]; rfl
        rw [e]; exact this
      have hne : X.shape ≠ [] := by
        intro e; unfold order at h2; rw [e] at h2; simp at h2
      obtain ⟨g, Y, e1, e2, hgs, hYs, -⟩ := tucker_entries hne h13 ho.allMat ho.rowDims
      rw [e1, ok_bind, e2, ok_bind] at h
      cases hsc : cp.scalars X Y with
      | error e => rw [hsc] at h; cases h
      | ok q =>
          obtain ⟨l, obj, rel⟩ := q
          rw [hsc, ok_bind] at h
          cases h
          obtain ⟨s1, s2, s3⟩ := cp.scalars_ok hYs hsc
          refine ⟨g, c1, hort, fun n hn => ?_, rfl, rfl, e1, e2, hYs, (tucker_residual hne h13 ho e1 e2).2, s1, s2, s3,
            by rw [coreSq, e1], c4⟩
          exact Nat.le_min.1 (c2 n (List.mem_range.2 hn))

end TD
