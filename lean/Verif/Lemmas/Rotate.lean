import Verif.Lemmas.Separated

/-! # Tucker models in other coordinates -/
namespace TD
open Spec Tensor tf ops Matrix

theorem projector_eq (A : Tensor ℝ) : projector A = projOf A := rfl

theorem rotateRows_spec {Q M : Tensor ℝ} {m r : Nat} (hM : M.shape = [m, r]) :
    (rotateRows Q M).shape = [m, r] ∧ toMat (rotateRows Q M) m r = toMat Q m m * toMat M m r := by
  have h0 : M.shape.getD 0 0 = m := by rw [hM]; rfl
  have h1 : M.shape.getD 1 0 = r := by rw [hM]; rfl
  unfold rotateRows
  rw [h0, h1]
  refine ⟨rfl, ?_⟩
  rw [toMat_mat]
  ext i j
  rw [of_apply, Matrix.mul_apply, Finset.sum_range]
  rfl

theorem toMat_matT {M : Tensor ℝ} {m r : Nat} (hM : M.shape = [m, r]) :
    (matT M).shape = [r, m] ∧ toMat (matT M) r m = (toMat M m r)ᵀ := by
  unfold matT; rw [hM]
  refine ⟨rfl, ?_⟩
  change toMat (mat r m _) r m = _
  rw [toMat_mat]; rfl

theorem OrthoCols_matT {Q : Tensor ℝ} {m : Nat} (h : OrthoCols Q m m) : OrthoCols (matT Q) m m := by
  obtain ⟨a, b⟩ := toMat_matT h.1
  exact ⟨a, by rw [b, transpose_transpose, mul_eq_one_comm.1 h.2]⟩

theorem OrthoCols_rotateRows {Q M : Tensor ℝ} {m r : Nat} (hQ : OrthoCols Q m m) (hM : OrthoCols M m r) :
    OrthoCols (rotateRows Q M) m r := by
  obtain ⟨a, b⟩ := rotateRows_spec (Q := Q) hM.1
  refine ⟨a, ?_⟩
  rw [b, transpose_mul, Matrix.mul_assoc, ← Matrix.mul_assoc _ (toMat Q m m), hQ.2, Matrix.one_mul, hM.2]

theorem rotateRows_cancel {Q M : Tensor ℝ} {m r : Nat} (hQ : OrthoCols Q m m) (hM : M.shape = [m, r]) :
    rotateRows (matT Q) (rotateRows Q M) = M ∧ rotateRows Q (rotateRows (matT Q) M) = M := by
  obtain ⟨a, b⟩ := rotateRows_spec (Q := Q) hM
  obtain ⟨a', b'⟩ := rotateRows_spec (Q := matT Q) hM
  obtain ⟨c, d⟩ := rotateRows_spec (Q := matT Q) a
  obtain ⟨c', d'⟩ := rotateRows_spec (Q := Q) a'
  have ht := (toMat_matT hQ.1).2
  refine ⟨toMat_inj c hM ?_, toMat_inj c' hM ?_⟩
  · rw [d, b, ht, ← Matrix.mul_assoc, hQ.2, Matrix.one_mul]
  · rw [d', b', ht, ← Matrix.mul_assoc, mul_eq_one_comm.1 hQ.2, Matrix.one_mul]

/-- Equal projectors, in matrices. -/
theorem projector_congr {A B : Tensor ℝ} {m r q : Nat} (hA : A.shape = [m, r]) (hB : B.shape = [m, q]) :
    projector A = projector B ↔ toMat A m r * (toMat A m r)ᵀ = toMat B m q * (toMat B m q)ᵀ := by
  obtain ⟨a1, a2⟩ := toMat_projOf hA
  obtain ⟨b1, b2⟩ := toMat_projOf hB
  rw [projector_eq, projector_eq, ← a2, ← b2]
  exact ⟨fun h => by rw [h], fun h => toMat_inj a1 b1 h⟩

/-- Square matrices that can be applied to the factors. -/
def Fits (Q A : List (Tensor ℝ)) : Prop := List.Forall₂ (fun P M => ∃ m r, P.shape = [m, m] ∧ M.shape = [m, r]) Q A

theorem kronEntry_rotate {Q A : List (Tensor ℝ)} (h : Fits Q A) : ∀ {i j : List Nat}, InB (rowDims Q) i → InB (colDims A) j →
    kronEntry (rotateFactors Q A) i j = boxSum (rowDims Q) fun l => kronEntry Q i l * kronEntry A l j := by
  induction h with
  | nil => intro i j _ _; cases i <;> cases j <;> simp [rotateFactors, kronEntry, rowDims, boxSum]
  | @cons P M Q A hPM hr ih =>
      intro i j hi hj
      obtain ⟨m, r, hP, hM⟩ := hPM
      cases i with
      | nil => exact absurd hi.length (by simp [rowDims])
      | cons a i =>
          cases j with
          | nil => exact absurd hj.length (by simp [colDims])
          | cons b j =>
              have hi2 : InB (P.shape.getD 0 0 :: rowDims Q) (a :: i) := hi
              have hj2 : InB (M.shape.getD 1 0 :: colDims A) (b :: j) := hj
              rw [InB_cons] at hi2 hj2
              have hi3 : a < m := by have := hi2.1; rw [hP] at this; exact this
              have hj3 : b < r := by have := hj2.1; rw [hM] at this; exact this
              change (rotateRows P M).at_ [a, b] * kronEntry (rotateFactors Q A) i j = boxSum (P.shape.getD 0 0 :: rowDims Q) _
              rw [ih hi2.2 hj2.2, boxSum, hP]
              have h0 : M.shape.getD 0 0 = m := by rw [hM]; rfl
              have h1 : M.shape.getD 1 0 = r := by rw [hM]; rfl
              rw [rotateRows, h0, h1, at_mat _ hi3 hj3, Finset.sum_mul]
              refine Finset.sum_congr rfl fun l _ => ?_
              rw [← boxSum_mul_left]
              refine boxSum_congr fun k _ => ?_
              simp only [kronEntry]; ring

theorem rotate_shape (Q : List (Tensor ℝ)) (X : Tensor ℝ) : (rotate Q X).shape = X.shape := rfl

theorem rotate_at {Q : List (Tensor ℝ)} {X : Tensor ℝ} {i : List Nat} (hi : InB X.shape i) :
    (rotate Q X).at_ i = boxSum X.shape fun j => kronEntry Q i j * X.at_ j := at_ofFn _ hi

section
variable {X : Tensor ℝ} {Q : List (Tensor ℝ)}

theorem Spec.Orthogonals.rowDims {shape : List Nat} (hQ : Orthogonals shape Q) : rowDims Q = shape := by
  refine List.ext_getElem (by rw [Spec.rowDims, List.length_map]; exact hQ.1) fun k h1 h2 => ?_
  have hk : k < Q.length := by rw [hQ.1]; exact h2
  simp only [Spec.rowDims, List.getElem_map]
  rw [(hQ.2 k Q[k] (List.getElem?_eq_getElem hk)).1, List.getD_eq_getElem _ _ h2]
  rfl

theorem Spec.Orthogonals.colDims {shape : List Nat} (hQ : Orthogonals shape Q) : colDims Q = shape := by
  refine List.ext_getElem (by rw [Spec.colDims, List.length_map]; exact hQ.1) fun k h1 h2 => ?_
  have hk : k < Q.length := by rw [hQ.1]; exact h2
  simp only [Spec.colDims, List.getElem_map]
  rw [(hQ.2 k Q[k] (List.getElem?_eq_getElem hk)).1, List.getD_eq_getElem _ _ h2]
  rfl

theorem Spec.Orthogonals.matT {shape : List Nat} (hQ : Orthogonals shape Q) : Orthogonals shape (Q.map Spec.matT) := by
  refine ⟨by rw [List.length_map]; exact hQ.1, fun k M hM => ?_⟩
  rw [List.getElem?_map] at hM
  obtain ⟨P, hP, rfl⟩ := Option.map_eq_some_iff.1 hM
  exact OrthoCols_matT (hQ.2 k P hP)

theorem Spec.Orthogonals.allMat {shape : List Nat} (hQ : Orthogonals shape Q) : AllMat Q := by
  intro M hM
  obtain ⟨k, hk⟩ := List.mem_iff_getElem?.1 hM
  rw [(hQ.2 k M hk).1]; rfl

theorem rotateFactors_get (Q A : List (Tensor ℝ)) (k : Nat) :
    (rotateFactors Q A)[k]? = match Q[k]?, A[k]? with
      | some P, some M => some (rotateRows P M)
      | _, _ => none := by
  unfold rotateFactors
  rw [List.getElem?_zipWith]
  cases Q[k]? <;> cases A[k]? <;> rfl

theorem Spec.Orthogonals.get {shape : List Nat} (hQ : Orthogonals shape Q) {k : Nat} (hk : k < shape.length) :
    ∃ P, Q[k]? = some P ∧ OrthoCols P (shape.getD k 0) (shape.getD k 0) := by
  have hk' : k < Q.length := by rw [hQ.1]; exact hk
  exact ⟨Q[k], List.getElem?_eq_getElem hk', hQ.2 k _ (List.getElem?_eq_getElem hk')⟩

theorem rotateFactors_shapes {shape ranks : List Nat} {A : List (Tensor ℝ)} (hQ : Orthogonals shape Q)
    (hA : TuckerShapes shape ranks A) : TuckerShapes shape ranks (rotateFactors Q A) := by
  refine ⟨by rw [rotateFactors, List.length_zipWith, hQ.1, hA.1, Nat.min_self], fun k M hM => ?_⟩
  rw [rotateFactors_get] at hM
  split at hM
  · rename_i P N hP hN
    cases hM
    exact (rotateRows_spec (hA.2 k N hN)).1
  · cases hM

theorem rotateFactors_fits {shape ranks : List Nat} {A : List (Tensor ℝ)} (hQ : Orthogonals shape Q)
    (hA : TuckerShapes shape ranks A) : Fits Q A := by
  unfold Fits
  rw [List.forall₂_iff_get]
  refine ⟨by rw [hQ.1, hA.1], fun k h1 h2 => ⟨_, _, (hQ.2 k _ (List.getElem?_eq_getElem h1)).1, hA.2 k _ (List.getElem?_eq_getElem h2)⟩⟩

theorem rotateFactors_cancel {shape ranks : List Nat} {A : List (Tensor ℝ)} (hQ : Orthogonals shape Q)
    (hA : TuckerShapes shape ranks A) : rotateFactors (Q.map Spec.matT) (rotateFactors Q A) = A ∧
      rotateFactors Q (rotateFactors (Q.map Spec.matT) A) = A := by
  constructor
  all_goals
    refine List.ext_getElem? fun k => ?_
    rw [rotateFactors_get, rotateFactors_get, List.getElem?_map]
    by_cases hk : k < shape.length
    · obtain ⟨P, hP, hPo⟩ := hQ.get hk
      have hkA : k < A.length := by rw [hA.1]; exact hk
      have hM := List.getElem?_eq_getElem hkA
      rw [hP, hM]
      simp only [Option.map_some, (rotateRows_cancel hPo (hA.2 k _ hM)).1, (rotateRows_cancel hPo (hA.2 k _ hM)).2]
    · rw [List.getElem?_eq_none (l := A) (by rw [hA.1]; omega)]
      cases Q[k]? <;> rfl

theorem rotateFactors_set {A : List (Tensor ℝ)} {n : Nat} {P B : Tensor ℝ} (hP : Q[n]? = some P) :
    rotateFactors Q (A.set n B) = (rotateFactors Q A).set n (rotateRows P B) := by
  refine List.ext_getElem? fun k => ?_
  rw [rotateFactors_get, List.getElem?_set, List.getElem?_set, rotateFactors_get]
  by_cases e : n = k
  · subst e
    rw [if_pos rfl, if_pos rfl, hP]
    have hn : n < Q.length := (List.getElem?_eq_some_iff.1 hP).1
    by_cases hA : n < A.length
    · rw [if_pos hA, if_pos (by rw [rotateFactors, List.length_zipWith]; omega)]
    · rw [if_neg hA, if_neg (by rw [rotateFactors, List.length_zipWith]; omega)]
  · rw [if_neg e, if_neg e]

theorem Spec.TuckerShapes.rowDims_eq {shape ranks : List Nat} {A : List (Tensor ℝ)} (hA : TuckerShapes shape ranks A) :
    Spec.rowDims A = shape := by
  refine List.ext_getElem (by rw [Spec.rowDims, List.length_map]; exact hA.1) fun k h1 h2 => ?_
  have hk : k < A.length := by rw [hA.1]; exact h2
  simp only [Spec.rowDims, List.getElem_map]
  rw [hA.2 k A[k] (List.getElem?_eq_getElem hk), List.getD_eq_getElem _ _ h2]
  rfl

/-- The core in other coordinates. -/
theorem rotate_core {ranks : List Nat} (hne : X.shape ≠ []) (h13 : X.order ≤ 13) (hQ : Orthogonals X.shape Q)
    {A : List (Tensor ℝ)} (hA : TuckerShapes X.shape ranks A) :
    ∃ g Y, ttm X A none true = .ok g ∧ tucker.fullOf g A = .ok Y ∧ Y.shape = X.shape ∧
      ttm (rotate Q X) (rotateFactors Q A) none true = .ok g ∧ tucker.fullOf g (rotateFactors Q A) = .ok (rotate Q Y) := by
  have hA' := rotateFactors_shapes hQ hA
  have hrow := fun {A : List (Tensor ℝ)} (hA : TuckerShapes X.shape ranks A) => hA.rowDims_eq
  have hcol : colDims (rotateFactors Q A) = colDims A := by
    refine List.ext_getElem (by rw [Spec.colDims, Spec.colDims, List.length_map, List.length_map, hA.1, hA'.1]) fun k h1 h2 => ?_
    have hk : k < A.length := by rw [Spec.colDims, List.length_map] at h2; exact h2
    have hk' : k < (rotateFactors Q A).length := by rw [Spec.colDims, List.length_map] at h1; exact h1
    simp only [Spec.colDims, List.getElem_map]
    rw [hA.2 k A[k] (List.getElem?_eq_getElem hk), hA'.2 k _ (List.getElem?_eq_getElem hk')]
  obtain ⟨g, Y, e1, e2, hgs, hYs, hge, hYe⟩ := tucker_entries hne h13 hA.allMat (hrow hA)
  obtain ⟨g', Y', f1, f2, hgs', hYs', hge', hYe'⟩ := tucker_entries (X := rotate Q X) hne h13 hA'.allMat (hrow hA')
  have hfit := rotateFactors_fits hQ hA
  have hrQ := hQ.rowDims
  have hcQ := hQ.colDims
  have hg : g' = g := by
    refine ext_at (by rw [hgs', hgs, hcol]) fun j hj => ?_
    have hj' : InB (colDims A) j := by rw [← hcol, ← hgs']; exact hj
    rw [hge' j hj, hge j (by rw [hgs]; exact hj'), rotate_shape]
    have hk : ∀ l, InB X.shape l → kronEntry A l j =
        boxSum X.shape fun i => kronEntry Q i l * kronEntry (rotateFactors Q A) i j := by
      intro l hl
      have hc := (rotateFactors_cancel hQ hA).1
      have := kronEntry_rotate (rotateFactors_fits hQ.matT hA') (i := l) (j := j) (by rw [hQ.matT.rowDims]; exact hl)
        (by rw [hcol]; exact hj')
      rw [hc, hQ.matT.rowDims] at this
      rw [this]
      refine boxSum_congr fun i hi => ?_
      rw [kronEntry_matT hQ.allMat (by rw [hrQ]; exact hi) (by rw [hcQ]; exact hl)]
    rw [boxSum_congr (g := fun i => boxSum X.shape fun l => kronEntry (rotateFactors Q A) i j * (kronEntry Q i l * X.at_ l))
        fun i hi => by rw [rotate_at hi, ← boxSum_mul_left],
      boxSum_congr (f := fun i => kronEntry A i j * X.at_ i)
        (g := fun l => boxSum X.shape fun i => kronEntry (rotateFactors Q A) i j * (kronEntry Q i l * X.at_ l))
        fun l hl => by
          rw [hk l hl, mul_comm, ← boxSum_mul_left]
          exact boxSum_congr fun i _ => by ring,
      boxSum_swap]
  subst hg
  refine ⟨g', Y, e1, e2, hYs, f1, ?_⟩
  rw [f2]
  congr 1
  refine ext_at (hYs'.trans hYs.symm) fun i hi => ?_
  have hi : InB X.shape i := by rw [← rotate_shape Q X, ← hYs']; exact hi
  rw [hYe' i hi, rotate_at (by rw [hYs]; exact hi), hYs, hgs]
  rw [boxSum_congr (f := fun j => g'.at_ j * kronEntry (rotateFactors Q A) i j)
      (g := fun j => boxSum X.shape fun l => kronEntry Q i l * (g'.at_ j * kronEntry A l j)) fun j hj => by
        rw [kronEntry_rotate hfit (by rw [hrQ]; exact hi) hj, hrQ, ← boxSum_mul_left]
        exact boxSum_congr fun l _ => by ring, boxSum_swap]
  refine boxSum_congr fun l hl => ?_
  rw [boxSum_mul_left, hYe l hl, hgs]
/-- What the core keeps and the reconstruction depend on the projections only. -/
theorem tucker_projector {ranks ranks' : List Nat} (hne : X.shape ≠ []) (h13 : X.order ≤ 13) {A B : List (Tensor ℝ)}
    (hA : TuckerShapes X.shape ranks A) (hB : TuckerShapes X.shape ranks' B) (h : A.map projector = B.map projector) :
    ∃ g g' Y, ttm X A none true = .ok g ∧ ttm X B none true = .ok g' ∧ tucker.fullOf g A = .ok Y ∧
      tucker.fullOf g' B = .ok Y ∧ Y.shape = X.shape ∧ normSqT g = normSqT g' := by
  obtain ⟨g, Y, e1, e2, hgs, hYs, hge, hYe⟩ := tucker_entries hne h13 hA.allMat hA.rowDims_eq
  obtain ⟨g', Y', f1, f2, hgs', hYs', hge', hYe'⟩ := tucker_entries hne h13 hB.allMat hB.rowDims_eq
  have hY : Y' = Y := by
    rw [tucker_full_proj hne h13 hA.allMat hA.rowDims_eq e1 e2, tucker_full_proj hne h13 hB.allMat hB.rowDims_eq f1 f2,
      hA.1, hB.1]
    have : B.map projOf = A.map projOf := h.symm
    rw [this]
  subst hY
  have key : ∀ (U : List (Tensor ℝ)) (g : Tensor ℝ),
      (∀ j, InB g.shape j → g.at_ j = boxSum X.shape fun i => kronEntry U i j * X.at_ i) →
      (∀ i, InB X.shape i → Y'.at_ i = boxSum g.shape fun j => g.at_ j * kronEntry U i j) →
      boxSum X.shape (fun i => X.at_ i * Y'.at_ i) = normSqT g := by
    intro U g hge hYe
    rw [boxSum_congr (g := fun i => boxSum g.shape fun j => g.at_ j * (kronEntry U i j * X.at_ i)) (fun i hi => by
      rw [hYe i hi, ← boxSum_mul_left]; exact boxSum_congr fun j _ => by ring), boxSum_swap]
    refine boxSum_congr fun j hj => ?_
    rw [boxSum_mul_left, ← hge j hj]; ring
  exact ⟨g, g', Y', e1, f1, e2, f2, hYs, by rw [← key A g hge hYe, ← key B g' hge' hYe']⟩

theorem coreSq_projector {ranks ranks' : List Nat} (hne : X.shape ≠ []) (h13 : X.order ≤ 13) {A B : List (Tensor ℝ)}
    (hA : TuckerShapes X.shape ranks A) (hB : TuckerShapes X.shape ranks' B) (h : A.map projector = B.map projector) :
    coreSq X A = coreSq X B := by
  obtain ⟨g, g', Y, e1, e2, -, -, -, e⟩ := tucker_projector hne h13 hA hB h
  unfold coreSq
  rw [e1, e2]
  exact e

theorem coreSq_rotate {ranks : List Nat} (hne : X.shape ≠ []) (h13 : X.order ≤ 13) (hQ : Orthogonals X.shape Q)
    {A : List (Tensor ℝ)} (hA : TuckerShapes X.shape ranks A) :
    coreSq (rotate Q X) (rotateFactors Q A) = coreSq X A := by
  obtain ⟨g, Y, e1, -, -, e2, -⟩ := rotate_core hne h13 hQ hA
  unfold coreSq
  rw [e1, e2]

/-- Same subspaces, in other coordinates. -/
structure Turned (Q : List (Tensor ℝ)) (shape ranks : List Nat) (A A' : List (Tensor ℝ)) : Prop where
  left : TuckerShapes shape ranks A
  right : TuckerShapes shape ranks A'
  eq : (rotateFactors Q A).map projector = A'.map projector

theorem projector_rotateRows {P M N : Tensor ℝ} {m r q : Nat} (hM : M.shape = [m, r]) (hN : N.shape = [m, q])
    (h : projector M = projector N) : projector (rotateRows P M) = projector (rotateRows P N) := by
  obtain ⟨a, b⟩ := rotateRows_spec (Q := P) hM
  obtain ⟨c, d⟩ := rotateRows_spec (Q := P) hN
  rw [projector_congr a c, b, d, transpose_mul, transpose_mul]
  rw [projector_congr hM hN] at h
  calc toMat P m m * toMat M m r * ((toMat M m r)ᵀ * (toMat P m m)ᵀ)
      = toMat P m m * (toMat M m r * (toMat M m r)ᵀ) * (toMat P m m)ᵀ := by simp only [Matrix.mul_assoc]
    _ = _ := by rw [h]; simp only [Matrix.mul_assoc]

theorem Turned.coreSq {ranks : List Nat} (hne : X.shape ≠ []) (h13 : X.order ≤ 13) (hQ : Orthogonals X.shape Q)
    {A A' : List (Tensor ℝ)} (h : Turned Q X.shape ranks A A') : coreSq (rotate Q X) A' = TD.coreSq X A := by
  rw [← coreSq_rotate hne h13 hQ h.left]
  exact coreSq_projector (X := rotate Q X) hne h13 h.right (rotateFactors_shapes hQ h.left) h.eq.symm

theorem Turned.set {shape ranks : List Nat} {A A' : List (Tensor ℝ)} (h : Turned Q shape ranks A A') {n : Nat} {P B B' : Tensor ℝ}
    (hP : Q[n]? = some P) (hB : B.shape = [shape.getD n 0, ranks.getD n 0]) (hB' : B'.shape = [shape.getD n 0, ranks.getD n 0])
    (he : projector (rotateRows P B) = projector B') : Turned Q shape ranks (A.set n B) (A'.set n B') := by
  refine ⟨h.left.set hB, h.right.set hB', ?_⟩
  rw [rotateFactors_set hP, List.map_set, List.map_set, h.eq, he]

end
end TD
