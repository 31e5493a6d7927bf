import Verif.Lemmas.NTucker

/-! # The core update of `NTUCKER_BCU` -/
namespace TD
open Spec Tensor tf ops Matrix

/-- `MᵀM`. -/
noncomputable def gramOf (M : Tensor ℝ) : Tensor ℝ :=
  mat (M.shape.getD 1 0) (M.shape.getD 1 0) fun j j' =>
    ∑ i ∈ Finset.range (M.shape.getD 0 0), M.at_ [i, j] * M.at_ [i, j']

theorem gramOf_ok {M : Tensor ℝ} (h : M.shape.length = 2) : tf.matmul M M true false = .ok (gramOf M) := by
  obtain ⟨a, b, hs⟩ : ∃ a b, M.shape = [a, b] := by
    match hM : M.shape, h with
    | [a, b], _ => exact ⟨a, b, rfl⟩
  rw [matmul_tn hs hs, gramOf, hs]; rfl

theorem gramOf_shape (M : Tensor ℝ) : (gramOf M).shape = [M.shape.getD 1 0, M.shape.getD 1 0] := rfl

theorem toMat_gramOf (M : Tensor ℝ) : toMat (gramOf M) (M.shape.getD 1 0) (M.shape.getD 1 0) =
    (toMat M (M.shape.getD 0 0) (M.shape.getD 1 0))ᵀ * toMat M (M.shape.getD 0 0) (M.shape.getD 1 0) := by
  unfold gramOf
  rw [toMat_mat]
  ext i j
  rw [of_apply, Matrix.mul_apply, Finset.sum_range]
  rfl

theorem grams_ok {A : List (Tensor ℝ)} (h : AllMat A) :
    A.mapM (fun a => tf.matmul a a true false) = .ok (A.map gramOf) := by
  induction A with
  | nil => rfl
  | cons M A ih =>
      rw [List.mapM_cons, gramOf_ok (h M (by simp)), ok_bind, ih fun N hN => h N (by simp [hN])]
      rfl

theorem kronEntry_gramOf {U : List (Tensor ℝ)} : ∀ {j j' : List Nat}, InB (colDims U) j → InB (colDims U) j' →
    kronEntry (U.map gramOf) j j' = boxSum (rowDims U) fun i => kronEntry U i j * kronEntry U i j' := by
  induction U with
  | nil => intro i i' _ _; cases i <;> cases i' <;> simp [kronEntry, rowDims, boxSum]
  | cons M U ih =>
      intro i i' hi hi'
      cases i with
      | nil => exact absurd hi.length (by simp [colDims])
      | cons a i =>
          cases i' with
          | nil => exact absurd hi'.length (by simp [colDims])
          | cons a' i' =>
              have hi2 : InB (M.shape.getD 1 0 :: colDims U) (a :: i) := hi
              have hi2' : InB (M.shape.getD 1 0 :: colDims U) (a' :: i') := hi'
              rw [InB_cons] at hi2 hi2'
              simp only [List.map_cons, kronEntry]
              rw [ih hi2.2 hi2'.2, gramOf, at_mat _ hi2.1 hi2'.1]
              change _ = boxSum (M.shape.getD 0 0 :: rowDims U) _
              rw [boxSum, Finset.sum_mul]
              refine Finset.sum_congr rfl fun l _ => ?_
              rw [← boxSum_mul_left]
              refine boxSum_congr fun j _ => ?_
              simp only [kronEntry]; ring

theorem map_gramOf_dims (U : List (Tensor ℝ)) : rowDims (U.map gramOf) = colDims U ∧ colDims (U.map gramOf) = colDims U := by
  constructor <;> simp [rowDims, colDims, gramOf_shape]

/-- A tensor as a row vector. -/
noncomputable def rowVec (s : List Nat) (f : List Nat → ℝ) : Mat 1 s.prod := Matrix.of fun _ j => f (unravel s j)

theorem boxSum_fin (s : List Nat) (f : List Nat → ℝ) : boxSum s f = ∑ k : Fin s.prod, f (unravel s k) := by
  rw [boxSum_eq_sum_range, Finset.sum_range]

theorem frobSq_rowVec (s : List Nat) (f : List Nat → ℝ) : frobSq (rowVec s f) = boxSum s fun i => f i ^ 2 := by
  rw [frobSq, Fintype.sum_unique, boxSum_fin]
  rfl

theorem exists_rowVec (s : List Nat) (D : Mat 1 s.prod) : ∃ f, D = rowVec s f := by
  refine ⟨fun i => if h : ravel s i < s.prod then D 0 ⟨ravel s i, h⟩ else 0, ?_⟩
  ext i j
  rw [rowVec, of_apply, dif_pos (by rw [ravel_unravel j.isLt]; exact j.isLt), Subsingleton.elim i 0]
  congr 1
  exact Fin.ext (ravel_unravel j.isLt).symm

/-- The Kronecker product as a matrix. -/
noncomputable def kronMat (r c : List Nat) (A : List (Tensor ℝ)) : Mat r.prod c.prod :=
  Matrix.of fun i j => kronEntry A (unravel r i) (unravel c j)

theorem rowVec_kron (r c : List Nat) (A : List (Tensor ℝ)) (f : List Nat → ℝ) :
    rowVec c f * (kronMat r c A)ᵀ = rowVec r fun i => boxSum c fun j => kronEntry A i j * f j := by
  ext a i
  rw [Matrix.mul_apply, rowVec, rowVec, of_apply, boxSum_fin]
  refine Finset.sum_congr rfl fun j _ => ?_
  rw [of_apply, transpose_apply, kronMat, of_apply, mul_comm]

theorem rowVec_kron' (r c : List Nat) (A : List (Tensor ℝ)) (f : List Nat → ℝ) :
    rowVec r f * kronMat r c A = rowVec c fun j => boxSum r fun i => kronEntry A i j * f i := by
  ext a i
  rw [Matrix.mul_apply, rowVec, rowVec, of_apply, boxSum_fin]
  refine Finset.sum_congr rfl fun j _ => ?_
  rw [of_apply, kronMat, of_apply, mul_comm]

theorem rowVec_sub (s : List Nat) (f g : List Nat → ℝ) : rowVec s f - rowVec s g = rowVec s fun i => f i - g i := rfl

theorem tkErr_rowVec {X B : Tensor ℝ} {ranks : List Nat} {A : List (Tensor ℝ)} (hB : B.shape = ranks) :
    tkErr X B A = frobSq (rowVec X.shape X.at_ - rowVec ranks B.at_ * (kronMat X.shape ranks A)ᵀ) := by
  rw [rowVec_kron, rowVec_sub, frobSq_rowVec, tkErr, hB]
  refine boxSum_congr fun i _ => ?_
  congr 2
  exact boxSum_congr fun j _ => mul_comm _ _

theorem distSqT_rowVec {B T : Tensor ℝ} {s : List Nat} (hB : B.shape = s) :
    distSqT B T = frobSq (rowVec s B.at_ - rowVec s T.at_) := by
  rw [rowVec_sub, frobSq_rowVec, distSqT, hB]

theorem ttm_gram {g : Tensor ℝ} {A : List (Tensor ℝ)} (hne : A ≠ []) (h13 : A.length ≤ 13)
    (hg : g.shape = colDims A) :
    ∃ B, ttm g (A.map gramOf) = .ok B ∧ B.shape = g.shape ∧
      ∀ j, InB g.shape j → B.at_ j = boxSum (colDims A) fun j' => kronEntry (A.map gramOf) j j' * g.at_ j' := by
  have hl : g.order = A.length := by unfold order; rw [hg, colDims, List.length_map]
  obtain ⟨d1, d2⟩ := map_gramOf_dims A
  obtain ⟨e1, e2⟩ := modeProds_all g (A.map gramOf) (by rw [d2]; exact hg)
  refine ⟨_, Props.C10_ttm_default_axis g (A.map gramOf) false (by omega) (by simpa using hne)
    (by rw [List.length_map]; omega) ⟨by rw [List.length_range], fun p hp => ?_⟩, ?_, fun j hj => ?_⟩
  · obtain ⟨k, hk, rfl⟩ := List.getElem_of_mem hp
    have hk' : k < A.length := by simpa using hk
    simp only [List.getElem_zip, List.getElem_range, List.getElem_map, Bool.false_eq_true, if_false]
    refine ⟨A[k].shape.getD 1 0, ?_⟩
    have : g.shape.getD k 0 = A[k].shape.getD 1 0 := by
      rw [hg, List.getD_eq_getElem (l := colDims A) 0 (by simpa [colDims] using hk')]
      simp only [colDims, List.getElem_map]
    rw [gramOf_shape, this]
  · rw [if_neg (by simp), e1, d1, hg]
  · rw [if_neg (by simp), e2 j (by rw [d1, ← hg]; exact hj), hg]

theorem gram_kronMat {A : List (Tensor ℝ)} {r c : List Nat} (hr : rowDims A = r) (hc : colDims A = c) (f : List Nat → ℝ) :
    rowVec c f * ((kronMat r c A)ᵀ * kronMat r c A) =
      rowVec c fun j => boxSum c fun j' => kronEntry (A.map gramOf) j j' * f j' := by
  subst hr hc
  rw [← Matrix.mul_assoc, rowVec_kron, rowVec_kron']
  ext a k
  rw [rowVec, rowVec, of_apply, of_apply]
  have hk := unravel_inB k.isLt
  rw [boxSum_congr (g := fun i => boxSum (colDims A) fun j => kronEntry A i (unravel (colDims A) k) * kronEntry A i j * f j)
    (fun i _ => by rw [← boxSum_mul_left]; exact boxSum_congr fun _ _ => by ring), boxSum_swap]
  refine boxSum_congr fun j hj => ?_
  rw [kronEntry_gramOf hk hj, mul_comm, ← boxSum_mul_left]
  exact boxSum_congr fun _ _ => by ring

namespace bcu

/-- Shapes and signs of the variables of `NTUCKER_BCU`. -/
structure TkOk (shape ranks : List Nat) (st : TState) : Prop where
  factors : FactorsOk (tuckerShapes shape ranks) st.toState
  g : st.g.shape = ranks
  g0 : st.g0.shape = ranks
  gm : st.gm.shape = ranks
  nonneg : Nonneg st.g
  nonneg0 : Nonneg st.g0

theorem TkOk.shapes {shape ranks : List Nat} {st : TState} (h : TkOk shape ranks st) : TuckerShapes shape ranks st.A :=
  tuckerShapes_iff.1 h.factors.A

theorem Forall₂_map_left {β γ δ : Type} {P : γ → δ → Prop} {f : β → γ} : ∀ {l : List β} {l' : List δ},
    List.Forall₂ P (l.map f) l' → List.Forall₂ (fun a b => P (f a) b) l l'
  | [], _, h => by cases h; exact .nil
  | a :: l, _, h => by cases h with | cons h1 h2 => exact .cons h1 (Forall₂_map_left h2)

theorem prod_nonneg_of {β : Type} {P : β → ℝ → Prop} (hP : ∀ a b, P a b → 0 ≤ b) {l : List β} {cs : List ℝ}
    (h : List.Forall₂ P l cs) : 0 ≤ cs.prod := by
  induction h with
  | nil => simp
  | cons h1 _ ih => rw [List.prod_cons]; exact mul_nonneg (hP _ _ h1) ih

theorem kronEntry_zero {U : List (Tensor ℝ)} {cs : List ℝ} (h : List.Forall₂ (fun M s => IsTopSv (toMat (gramOf M)
    (M.shape.getD 1 0) (M.shape.getD 1 0)) s) U cs) (h0 : cs.prod = 0) :
    ∃ M ∈ U, ∀ a < M.shape.getD 0 0, ∀ b < M.shape.getD 1 0, M.at_ [a, b] = 0 := by
  induction h with
  | nil => simp at h0
  | @cons M c U cs hM _ ih =>
      rw [List.prod_cons] at h0
      rcases mul_eq_zero.1 h0 with h0 | h0
      · rw [toMat_gramOf] at hM
        have := hM.gram_eq_zero.1 h0
        exact ⟨M, by simp, fun a ha b hb => congrFun (congrFun this ⟨a, ha⟩) ⟨b, hb⟩⟩
      · obtain ⟨N, hN, h⟩ := ih h0
        exact ⟨N, by simp [hN], h⟩

theorem prod_ne_zero_of {U : List (Tensor ℝ)} {cs : List ℝ} (h : List.Forall₂ (fun M s => IsTopSv (toMat (gramOf M)
    (M.shape.getD 1 0) (M.shape.getD 1 0)) s) U cs) (h0 : cs.prod ≠ 0) :
    ∀ M ∈ U, ∃ a < M.shape.getD 0 0, ∃ b < M.shape.getD 1 0, M.at_ [a, b] ≠ 0 := by
  induction h with
  | nil => intro M hM; cases hM
  | @cons M c U cs hM _ ih =>
      rw [List.prod_cons] at h0
      intro N hN
      rcases List.mem_cons.1 hN with rfl | hN
      · by_contra hno
        push Not at hno
        rw [toMat_gramOf] at hM
        refine left_ne_zero_of_mul h0 (hM.gram_eq_zero.2 ?_)
        ext a b
        exact hno a a.isLt b b.isLt
      · exact ih (right_ne_zero_of_mul h0) N hN

/-- The core update is a proximal gradient step with the Kronecker product of the factors. -/
theorem NTUCKER.core_formula {topSv : Tensor ℝ → Res ℝ} (ht : TopSvOk topSv) {X : Tensor ℝ} {ranks : List Nat} {st : TState}
    (hst : TkOk X.shape ranks st) (hr : ranks.length = X.shape.length) (h1 : 1 ≤ X.order) (h13 : X.order ≤ 13)
    (hrp : ∀ d ∈ ranks, 0 < d) :
    ∃ s : List ℝ, List.Forall₂ (fun M s => IsTopSv (toMat (gramOf M) (M.shape.getD 1 0) (M.shape.getD 1 0)) s) st.A s ∧
      (s.prod = 0 → NTUCKER.core topSv X st = .error .nonFinite) ∧
      (s.prod ≠ 0 → ∃ Z, NTUCKER.core topSv X st = .ok ({ st with
        g := Z, L0 := Function.update st.L0 X.order (st.L X.order), L := Function.update st.L X.order s.prod }, Z) ∧
        Z.shape = ranks ∧ Nonneg Z ∧ ∀ a k, rowVec ranks Z.at_ a k = max (rowVec ranks st.gm.at_ a k -
          (rowVec ranks st.gm.at_ * ((kronMat X.shape ranks st.A)ᵀ * kronMat X.shape ranks st.A) -
            rowVec X.shape X.at_ * kronMat X.shape ranks st.A) a k / s.prod) 0) := by
  have hA := hst.shapes
  have hc := hA.colDims hr
  have hl : st.A.length = X.order := hA.1
  have hne : st.A ≠ [] := by intro e; rw [e] at hl; simp at hl; omega
  have hXne : X.shape ≠ [] := by intro e; unfold order at h1; rw [e] at h1; simp at h1
  have hposA : ∀ M ∈ st.A, 0 < M.shape.getD 1 0 := fun M hM => by
    refine hrp _ ?_
    rw [← hc]
    exact List.mem_map.2 ⟨M, hM, rfl⟩
  obtain ⟨s, hs, hsv⟩ := maxSingleValueMul_ok ht (ms := st.A.map gramOf) (fun M hM => by
    obtain ⟨N, -, rfl⟩ := List.mem_map.1 hM; rfl) (by simpa using hne) (fun M hM => by
    obtain ⟨N, hN, rfl⟩ := List.mem_map.1 hM
    exact ⟨hposA N hN, hposA N hN⟩)
  have hsv' : List.Forall₂ (fun M s => IsTopSv (toMat (gramOf M) (M.shape.getD 1 0) (M.shape.getD 1 0)) s) st.A s :=
    Forall₂_map_left hsv
  obtain ⟨B, hB, hBs, hBe⟩ := ttm_gram hne (by omega) (show st.gm.shape = colDims st.A by rw [hc, hst.gm])
  obtain ⟨XA, -, hXA, -, hXAs, -, hXAe, -⟩ := tucker_entries hXne h13 hA.allMat hA.rowDims
  rw [hc] at hXAs
  rw [hst.gm] at hBs
  set G := ofFn ranks fun i => B.at_ i - XA.at_ i with hGd
  have hG : tf.ewise (· - ·) B XA = .ok G := by
    rw [ewise_same _ (by rw [hBs, hXAs]), hBs]
  have hcore : NTUCKER.core topSv X st = (do
      let v ← proxStep st.gm G s.prod
      let g ← assignCore st.g v
      return ({ st with
        g := g
        L0 := Function.update st.L0 X.order (st.L X.order)
        L := Function.update st.L X.order s.prod }, g)) := by
    unfold NTUCKER.core
    rw [grams_ok hA.allMat, ok_bind, hs, ok_bind, hB, ok_bind]
    unfold assignCore
    rw [if_pos (by rw [hBs, hst.g]), ok_bind, hXA, ok_bind, hG, ok_bind, if_pos (by rw [hst.g]; rfl), ok_bind]
  rw [hcore]
  refine ⟨s, hsv', fun h0 => ?_, fun h0 => ?_⟩
  · unfold proxStep
    rw [if_pos h0]; rfl
  obtain ⟨Z, hZ, hZs, hZn, hZe⟩ := proxStep_eq (m := st.gm) (G := G) (by rw [hst.gm]; rfl) h0
  rw [hst.gm] at hZs hZe
  refine ⟨Z, ?_, hZs, hZn, fun a k => ?_⟩
  · rw [hZ, ok_bind]
    unfold assignCore
    rw [if_pos (by rw [hZs, hst.g]), ok_bind]; rfl
  · have hk := unravel_inB k.isLt
    rw [gram_kronMat hA.rowDims hc, rowVec_kron', rowVec_sub]
    simp only [rowVec, of_apply]
    rw [hZe _ hk, hGd, at_ofFn _ hk, hBe _ (by rw [hst.gm]; exact hk), hXAe _ (by rw [hXAs]; exact hk), hc]

theorem kronMat_le {shape ranks : List Nat} {A : List (Tensor ℝ)} {s : List ℝ} (hr : rowDims A = shape) (hc : colDims A = ranks)
    (h : List.Forall₂ (fun M s => IsTopSv (toMat (gramOf M) (M.shape.getD 1 0) (M.shape.getD 1 0)) s) A s) (D : Mat 1 ranks.prod) :
    frobSq (D * (kronMat shape ranks A)ᵀ) ≤ s.prod * frobSq D := by
  obtain ⟨f, rfl⟩ := exists_rowVec ranks D
  rw [rowVec_kron, frobSq_rowVec, frobSq_rowVec]
  have hv : List.Forall₂ VecBound A s := by
    refine h.imp fun M c h => vecBound_of_gram ?_
    rwa [toMat_gramOf] at h
  have := kron_bound hv f
  rwa [hr, hc] at this

/-- The core update: it is defined iff no factor vanishes, and then satisfies the three-point inequality. -/
theorem NTUCKER.core_spec {topSv : Tensor ℝ → Res ℝ} (ht : TopSvOk topSv) {X : Tensor ℝ} {ranks : List Nat} {st : TState}
    (hst : TkOk X.shape ranks st) (hr : ranks.length = X.shape.length) (h1 : 1 ≤ X.order) (h13 : X.order ≤ 13)
    (hrp : ∀ d ∈ ranks, 0 < d) :
    (NTUCKER.core topSv X st = .error .nonFinite ∧
      ∃ M ∈ st.A, ∀ a < M.shape.getD 0 0, ∀ b < M.shape.getD 1 0, M.at_ [a, b] = 0) ∨
    (∀ M ∈ st.A, ∃ a < M.shape.getD 0 0, ∃ b < M.shape.getD 1 0, M.at_ [a, b] ≠ 0) ∧
    ∃ Z l, NTUCKER.core topSv X st = .ok ({ st with
        g := Z, L0 := Function.update st.L0 X.order (st.L X.order), L := Function.update st.L X.order l }, Z) ∧
      0 < l ∧ Z.shape = ranks ∧ Nonneg Z ∧ ∀ B, B.shape = ranks → Nonneg B →
        tkErr X Z st.A ≤ tkErr X B st.A + l * distSqT B st.gm - l * distSqT B Z := by
  have hA := hst.shapes
  have hc := hA.colDims hr
  obtain ⟨s, hsv', e0, e1⟩ := NTUCKER.core_formula ht hst hr h1 h13 hrp
  by_cases h0 : s.prod = 0
  · exact .inl ⟨e0 h0, kronEntry_zero hsv' h0⟩
  right
  have hlpos : 0 < s.prod := lt_of_le_of_ne (prod_nonneg_of (fun _ _ h => h.nonneg) hsv') (Ne.symm h0)
  obtain ⟨Z, hZ, hZs, hZn, hZe⟩ := e1 h0
  refine ⟨prod_ne_zero_of hsv' h0, Z, s.prod, hZ, hlpos, hZs, hZn, fun C hC hCn => ?_⟩
  rw [tkErr_rowVec hZs, tkErr_rowVec hC, distSqT_rowVec hC, distSqT_rowVec hC]
  exact prox_three_point _ _ hlpos (kronMat_le hA.rowDims hc hsv') _ _ _ hZe fun i j => hCn.at _

end bcu
end TD
