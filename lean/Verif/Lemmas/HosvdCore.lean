import Verif.Lemmas.LowRank
import Verif.Lemmas.AlsOne

/-! # The core of a HOSVD -/
namespace TD
open Spec Tensor tf ops Matrix

/-- The mode-`n` unfolding of a Tucker tensor with orthonormal factors: `A_n G_n Kᵀ` with orthonormal columns in `K`. -/
theorem unfM_tucker_orth {g Y : Tensor ℝ} {B : List (Tensor ℝ)} {shape : List Nat} {n m c : Nat} {A : Tensor ℝ}
    (hY : IsTucker shape g B Y) (hB : OrthoFactors shape B) (hg : g.shape = colDims B) (hA : B[n]? = some A)
    (hAs : A.shape = [m, c]) :
    ∃ K : Mat (otherSize shape n) (otherSize g.shape n), Kᵀ * K = 1 ∧
      unfM Y n m (otherSize shape n) = toMat A m c * unfM g n c (otherSize g.shape n) * Kᵀ := by
  have hl : B.length = shape.length := hB.1
  have hn : n < B.length := (List.getElem?_eq_some_iff.1 hA).1
  have hns : n < shape.length := hl ▸ hn
  have hgl : g.shape.length = B.length := by rw [hg, colDims, List.length_map]
  have hgn : g.shape.getD n 0 = c := by rw [hg]; simp [colDims, hA, hAs]
  have hsn : shape.getD n 0 = m := by rw [← hB.rowDims]; simp [rowDims, hA, hAs]
  have hng : n < g.shape.length := by omega
  refine ⟨Matrix.of fun j q => kronEntry (B.eraseIdx n) ((unkolda shape n 0 j).eraseIdx n)
    ((unkolda g.shape n 0 q).eraseIdx n), ?_, ?_⟩
  · -- the factors with mode `n` replaced by the 1 × 1 identity
    set I1 : Tensor ℝ := mat 1 1 fun _ _ => 1 with hI1
    have hI : OrthoCols I1 1 1 := by
      refine ⟨rfl, ?_⟩
      ext a b
      rw [Matrix.mul_apply, Fin.sum_univ_one, transpose_apply, toMat_apply, toMat_apply, hI1,
        at_mat _ (by omega) a.isLt, at_mat _ (by omega) b.isLt, Matrix.one_apply, if_pos (Subsingleton.elim a b), mul_one]
    have hB1 : OrthoFactors (shape.set n 1) (B.set n I1) := by
      refine ⟨by simp [hl], fun k M hM => ?_⟩
      by_cases hk : k = n
      · subst hk
        rw [List.getElem?_set_self hn] at hM
        cases hM
        have : (shape.set k 1).getD k 0 = 1 := by simp [List.getD_eq_getElem?_getD, List.getElem?_set_self hns]
        rw [this]
        exact hI
      · rw [List.getElem?_set_ne (Ne.symm hk)] at hM
        rw [getD_set_ne (Ne.symm hk)]
        exact hB.2 k M hM
    have hcol : colDims (B.set n I1) = g.shape.set n 1 := by
      rw [hg, colDims, colDims, List.map_set]
      rfl
    have hin : ∀ q : Fin (otherSize g.shape n), InB (colDims (B.set n I1)) (unkolda g.shape n 0 q) := fun q => by
      rw [hcol, ← unkolda_set g.shape n 1]
      exact (unkolda_spec (by simpa using hng) (by simp [List.getD_eq_getElem?_getD, List.getElem?_set_self hng])
        (by rw [otherSize_set]; exact q.isLt)).1
    ext q q'
    have hk := kron_gram hB1 _ _ (hin q) (hin q')
    have hns1 : n < (shape.set n 1).length := by simpa using hns
    have h1 : (shape.set n 1).getD n 0 = 1 := by simp [List.getD_eq_getElem?_getD, List.getElem?_set_self hns]
    rw [boxSum_unkolda hns1, h1, Finset.sum_range_one, otherSize_set, Finset.sum_range] at hk
    have hent : ∀ (j : Fin (otherSize shape n)) (q : Fin (otherSize g.shape n)),
        kronEntry (B.set n I1) (unkolda (shape.set n 1) n 0 j) (unkolda g.shape n 0 q) =
          kronEntry (B.eraseIdx n) ((unkolda shape n 0 j).eraseIdx n) ((unkolda g.shape n 0 q).eraseIdx n) := by
      intro j q
      have l1 := (unkolda_facts (shape := shape) hns 0 j).1
      have l2 := (unkolda_facts (shape := g.shape) hng 0 q).1
      rw [unkolda_set, kronEntry_eraseIdx (by rw [l1, List.length_set, hl]) (by rw [l2, List.length_set, hgl])
        (List.getElem?_set_self hn), (unkolda_facts (shape := shape) hns 0 j).2.1,
        (unkolda_facts (shape := g.shape) hng 0 q).2.1, hI1, at_mat _ (by omega) (by omega), one_mul,
        List.eraseIdx_set_eq]
    rw [Matrix.mul_apply, Matrix.one_apply]
    simp only [hent] at hk
    refine Eq.trans ?_ (hk.trans ?_)
    · rfl
    · by_cases e : q = q'
      · rw [if_pos e, if_pos (by rw [e])]
      · rw [if_neg e, if_neg]
        intro e2
        apply e
        have hg1 : n < (g.shape.set n 1).length := by simpa using hng
        have hs : ∀ q : Fin (otherSize g.shape n), koldaCol (g.shape.set n 1) (unkolda g.shape n 0 q) n = q := fun q => by
          rw [← unkolda_set g.shape n 1]
          exact (unkolda_spec hg1 (by simp [List.getD_eq_getElem?_getD, List.getElem?_set_self hng])
            (by rw [otherSize_set]; exact q.isLt)).2.2
        have := hs q
        rw [e2, hs q'] at this
        exact Fin.ext this.symm
  · ext i j
    have hi : (i : Nat) < shape.getD n 0 := by rw [hsn]; exact i.isLt
    obtain ⟨k1, k2, -⟩ := unkolda_spec hns hi j.isLt
    obtain ⟨-, -, f1⟩ := unkolda_facts (shape := shape) hns i j
    obtain ⟨-, -, f2⟩ := unkolda_facts (shape := shape) hns 0 j
    rw [Matrix.mul_assoc, Matrix.mul_apply]
    unfold unfM
    rw [Matrix.of_apply, hY.1, hY.2 _ k1, boxSum_unkolda hng, hgn, Finset.sum_range]
    refine Finset.sum_congr rfl fun p _ => ?_
    rw [toMat_apply, Matrix.mul_apply, Finset.mul_sum, Finset.sum_range]
    refine Finset.sum_congr rfl fun q _ => ?_
    obtain ⟨g1, g2, -⟩ := unkolda_spec (shape := g.shape) hng (i := p) (j := q) (by rw [hgn]; exact p.isLt) q.isLt
    obtain ⟨-, -, f3⟩ := unkolda_facts (shape := g.shape) hng p q
    obtain ⟨-, -, f4⟩ := unkolda_facts (shape := g.shape) hng 0 q
    rw [kronEntry_eraseIdx (by rw [k1.length, hl]) (by rw [g1.length, hgl]) hA, k2, g2, f1, ← f2, f3, ← f4,
      transpose_apply, Matrix.of_apply, Matrix.of_apply]
    ring

/-- Singular values are determined by the matrix. -/
theorem Spec.IsThinSVD.values_unique {m n : Nat} {M : Mat m n} {U s V U' s' V'} (h : IsThinSVD M U s V)
    (h' : IsThinSVD M U' s' V') (i : Fin (min m n)) : s i = s' i := by
  have hs : ∀ (s : Fin (min m n) → ℝ), (∑ k : Fin (min m n), if i.val ≤ k.val then s k ^ 2 else 0) =
      s i ^ 2 + ∑ k : Fin (min m n), if i.val + 1 ≤ k.val then s k ^ 2 else 0 := by
    intro s
    have : s i ^ 2 = ∑ k : Fin (min m n), if k = i then s k ^ 2 else 0 := by simp
    rw [this, ← Finset.sum_add_distrib]
    refine Finset.sum_congr rfl fun k _ => ?_
    by_cases e : k = i
    · subst e; simp
    · have : k.val ≠ i.val := fun h => e (Fin.ext h)
      rw [if_neg e, zero_add]
      congr 1
      exact propext ⟨fun _ => by omega, fun _ => by omega⟩
  have a := h.tail_unique h' (r := i.val) (le_of_lt i.isLt)
  have b := h.tail_unique h' (r := i.val + 1) i.isLt
  rw [hs s, hs s', b] at a
  have : s i ^ 2 = s' i ^ 2 := by linarith
  exact (pow_left_inj₀ (h.nonneg i) (h'.nonneg i) two_ne_zero).1 this

/-- If the mode-`n` unfolding is `A G Kᵀ` where `A` has all the left singular vectors, then `G Gᵀ` is diagonal. -/
theorem gram_core {m J c q : Nat} {M : Mat m J} {U s V} (h : IsThinSVD M U s V) (hc : c ≤ min m J) {G : Mat c q} {K : Mat J q}
    (hK : Kᵀ * K = 1) (hM : M = cols U c hc * G * Kᵀ) :
    G * Gᵀ = diagonal fun a : Fin c => s (Fin.castLE hc a) ^ 2 := by
  have hA := cols_orth h.orthU hc
  have e1 : (cols U c hc)ᵀ * M * (Mᵀ * cols U c hc) = G * Gᵀ := by
    rw [hM]
    simp only [transpose_mul, transpose_transpose, Matrix.mul_assoc]
    rw [hA, Matrix.mul_one, ← Matrix.mul_assoc Kᵀ K, hK, Matrix.one_mul, ← Matrix.mul_assoc, hA, Matrix.one_mul]
  have e2 : (cols U c hc)ᵀ * U = (1 : Mat (min m J) (min m J)).submatrix (Fin.castLE hc) id := by
    rw [← h.orthU]; rfl
  have e3 : (cols U c hc)ᵀ * M * (Mᵀ * cols U c hc) =
      ((cols U c hc)ᵀ * U) * (diagonal s * diagonal s) * ((cols U c hc)ᵀ * U)ᵀ := by
    conv_lhs => rw [h.eq]
    simp only [transpose_mul, transpose_transpose, Matrix.mul_assoc, diagonal_transpose]
    rw [← Matrix.mul_assoc Vᵀ V, h.orthV, Matrix.one_mul]
  rw [← e1, e3, e2, diagonal_mul_diagonal]
  ext a b
  rw [Matrix.mul_apply, Finset.sum_eq_single (Fin.castLE hc a)]
  · rw [Matrix.mul_apply, Finset.sum_eq_single (Fin.castLE hc a)]
    · rw [submatrix_apply, transpose_apply, submatrix_apply, Matrix.diagonal_apply, Matrix.diagonal_apply, Matrix.one_apply,
        Matrix.one_apply]
      by_cases e : a = b
      · subst e; simp [pow_two]
      · have : Fin.castLE hc b ≠ Fin.castLE hc a := fun h => e (Fin.ext (by simpa using (Fin.ext_iff.1 h).symm))
        simp [e, this]
    · intro p _ hp
      rw [submatrix_apply, Matrix.one_apply, if_neg (show ¬ Fin.castLE hc a = id p from Ne.symm hp), zero_mul]
    · intro hn; exact absurd (Finset.mem_univ _) hn
  · intro p _ hp
    rw [Matrix.mul_apply]
    refine mul_eq_zero_of_left (Finset.sum_eq_zero fun x _ => ?_) _
    rw [submatrix_apply, Matrix.one_apply, Matrix.diagonal_apply]
    by_cases e : Fin.castLE hc a = id x
    · have : x ≠ p := by rintro rfl; exact hp e.symm
      rw [if_neg this, mul_zero]
    · rw [if_neg e, zero_mul]
  · intro hn; exact absurd (Finset.mem_univ _) hn

/-- `leading` keeps the first columns of a matrix that does not depend on the ranks. -/
theorem leading_nested {svd : Tensor ℝ → Res (Tensor ℝ × Tensor ℝ × Tensor ℝ)} {X M M' : Tensor ℝ} {ranks ranks' : List Nat}
    {n : Nat} (h : tucker.leading svd X ranks n = .ok M) (h' : tucker.leading svd X ranks' n = .ok M')
    (hle : ranks.getD n 0 ≤ ranks'.getD n 0) :
    ∃ m c c', M.shape = [m, c] ∧ M'.shape = [m, c'] ∧ c ≤ c' ∧ ∀ i < m, ∀ j < c, M.at_ [i, j] = M'.at_ [i, j] := by
  unfold tucker.leading at h h'
  cases hu : ops.unfold X n with
  | error e => rw [hu] at h; cases h
  | ok N =>
      rw [hu, ok_bind] at h h'
      cases hs : svd N with
      | error e => rw [hs] at h; cases h
      | ok r =>
          obtain ⟨s, U, V⟩ := r
          simp only [hs, ok_bind, tucker.rankAt] at h h'
          cases h1 : ranks[n]? with
          | none => rw [h1] at h; cases h
          | some r =>
              cases h2 : ranks'[n]? with
              | none => rw [h2] at h'; cases h'
              | some r' =>
                  rw [h1] at h; rw [h2] at h'
                  have e1 : ranks.getD n 0 = r := by simp [List.getD_eq_getElem?_getD, h1]
                  have e2 : ranks'.getD n 0 = r' := by simp [List.getD_eq_getElem?_getD, h2]
                  rw [e1, e2] at hle
                  simp only [ok_bind, tucker.firstCols] at h h'
                  split at h
                  · next m p hU =>
                    rw [hU] at h'
                    cases h; cases h'
                    refine ⟨m, min r p, min r' p, rfl, rfl, by omega, fun i hi j hj => ?_⟩
                    rw [at_mat _ hi hj, at_mat _ hi (by omega)]
                  · cases h

/-- Restricting a sum over a box to a smaller box. -/
theorem boxSum_corner : ∀ {s s' : List Nat} (f : List Nat → ℝ), s.length = s'.length → (∀ n < s.length, s.getD n 0 ≤ s'.getD n 0) →
    boxSum s' (fun j => if ∀ n < s.length, j.getD n 0 < s.getD n 0 then f j else 0) = boxSum s f
  | [], [], f, _, _ => by simp [boxSum]
  | [], _ :: _, _, h, _ => by simp at h
  | _ :: _, [], _, h, _ => by simp at h
  | d :: s, d' :: s', f, hl, hle => by
      have hd : d ≤ d' := hle 0 (by simp)
      have ih := fun a => boxSum_corner (s := s) (s' := s') (fun j => f (a :: j)) (by simpa using hl)
        fun n hn => by have := hle (n + 1) (by simpa using hn); simpa using this
      rw [boxSum, boxSum]
      have h1 : ∀ a, boxSum s' (fun js => if ∀ n < (d :: s).length, (a :: js).getD n 0 < (d :: s).getD n 0 then f (a :: js) else 0) =
          if a < d then boxSum s (fun js => f (a :: js)) else 0 := by
        intro a
        by_cases ha : a < d
        · rw [if_pos ha, ← ih a]
          refine boxSum_congr fun js _ => ?_
          congr 1
          refine propext ⟨fun h n hn => by have := h (n + 1) (by simpa using hn); simpa using this, fun h n hn => ?_⟩
          cases n with
          | zero => simpa using ha
          | succ n => have := h n (by simpa using hn); simpa using this
        · rw [if_neg ha, boxSum_congr (g := fun _ => (0 : ℝ)) fun js _ => if_neg fun h => ha (by simpa using h 0 (by simp)),
            boxSum_zero]
      simp only [h1]
      rw [← Finset.sum_filter]
      refine Finset.sum_congr ?_ fun _ _ => rfl
      ext a
      simp only [Finset.mem_filter, Finset.mem_range]
      omega

theorem mapM_forall₂_of {β γ : Type} {f : β → Res γ} : ∀ {l : List β} {bs : List γ}, l.mapM f = .ok bs →
    List.Forall₂ (fun a b => f a = .ok b) l bs
  | [], bs, h => by cases h; exact .nil
  | a :: l, bs, h => by
      rw [List.mapM_cons] at h
      cases ha : f a with
      | error e => rw [ha] at h; cases h
      | ok b =>
          cases hl : l.mapM f with
          | error e => rw [ha, ok_bind, hl] at h; cases h
          | ok bs' =>
              rw [ha, ok_bind, hl, ok_bind] at h
              cases h
              exact .cons ha (mapM_forall₂_of hl)

theorem hosvd_leading {svd : Tensor ℝ → Res (Tensor ℝ × Tensor ℝ × Tensor ℝ)} {X g full : Tensor ℝ} {ranks : List Nat}
    {A : List (Tensor ℝ)} (h : tucker.HOSVD.run svd X ranks = .ok (A, g, full)) {n : Nat} {M : Tensor ℝ} (hM : A[n]? = some M) :
    tucker.leading svd X ranks n = .ok M := by
  unfold tucker.HOSVD.run at h
  cases hA : (List.range X.order).mapM fun n => tucker.leading svd X ranks n with
  | error e => rw [hA] at h; cases h
  | ok A' =>
      rw [hA, ok_bind] at h
      cases hg : ttm X A' none true with
      | error e => rw [hg] at h; cases h
      | ok g' =>
          rw [hg, ok_bind] at h
          cases hf : tucker.fullOf g' A' with
          | error e => rw [hf] at h; cases h
          | ok f' =>
              rw [hf, ok_bind] at h
              cases h
              exact (forall₂_range (mapM_forall₂_of hA)).2 n M hM

theorem kronEntry_corner : ∀ {A A' : List (Tensor ℝ)} {i j : List Nat},
    List.Forall₂ (fun M M' : Tensor ℝ => ∀ i < M.shape.getD 0 0, ∀ j < M.shape.getD 1 0, M.at_ [i, j] = M'.at_ [i, j]) A A' →
    InB (rowDims A) i → InB (colDims A) j → kronEntry A i j = kronEntry A' i j
  | [], _, _, _, .nil, _, _ => by simp [kronEntry]
  | M :: A, _, i, j, .cons (b := M') (l₂ := A') h hs, hi, hj => by
      cases i with
      | nil => cases hi
      | cons a i =>
          cases j with
          | nil => cases hj
          | cons b j =>
              rw [rowDims, List.map_cons, InB_cons] at hi
              rw [colDims, List.map_cons, InB_cons] at hj
              rw [kronEntry, kronEntry, h a hi.1 b hj.1, kronEntry_corner hs hi.2 hj.2]

end TD
