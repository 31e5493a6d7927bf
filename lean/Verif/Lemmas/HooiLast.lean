import Verif.Lemmas.Slices
import Verif.Lemmas.HosvdCore

/-!
# The last mode of a HOOI sweep
-/
namespace TD
open Spec Tensor tf ops Matrix

/-- A product along another mode keeps the relation, whatever the size of the matrix. -/
theorem Spec.SliceRel.modeProd_any {X : Tensor ℝ} {k n : Nat} {c : Nat → ℝ} (h : SliceRel X k c) (hne : n ≠ k)
    (A : Tensor ℝ) : SliceRel (Spec.modeProd X n A) k c := by
  have hsh : (Spec.modeProd X n A).shape = X.shape.set n (A.shape.getD 0 0) := rfl
  intro idx hi
  rw [hsh] at hi
  have hk : (Spec.modeProd X n A).shape.getD k 0 = X.shape.getD k 0 := by rw [hsh, getD_set_ne hne]
  rw [hk]
  have e : ∀ i ∈ Finset.range (X.shape.getD k 0), c i * (Spec.modeProd X n A).at_ (idx.set k i) =
      ∑ l ∈ Finset.range (X.shape.getD n 0), A.at_ [idx.getD n 0, l] * (c i * X.at_ ((idx.set n l).set k i)) := by
    intro i hi'
    have hb : InB (Spec.modeProd X n A).shape (idx.set k i) :=
      InB_set (d := (Spec.modeProd X n A).shape.getD k 0) (by rw [set_getD_self, hsh]; exact hi)
        (by rw [hk]; exact Finset.mem_range.1 hi')
    rw [modeProd_at hb, Finset.mul_sum]
    refine Finset.sum_congr rfl fun l _ => ?_
    rw [List.set_comm _ _ hne, List.getD_eq_getElem?_getD, List.getElem?_set_ne (Ne.symm hne), ← List.getD_eq_getElem?_getD]
    ring
  rw [Finset.sum_congr rfl e, Finset.sum_comm]
  refine Finset.sum_eq_zero fun l hl => ?_
  rw [← Finset.mul_sum, h (idx.set n l) (InB_set hi (Finset.mem_range.1 hl)), mul_zero]

theorem sliceRel_modeProds_any {k : Nat} {c : Nat → ℝ} : ∀ (ps : List (Nat × Tensor ℝ)) {Z : Tensor ℝ}, SliceRel Z k c →
    (∀ q ∈ ps, q.1 ≠ k) → SliceRel (modeProds Z ps) k c
  | [], _, h, _ => h
  | q :: ps, _, h, hq => sliceRel_modeProds_any ps (h.modeProd_any (hq q (by simp)) q.2) fun q' hq' => hq q' (by simp [hq'])

/-- The rows of `A_nᵀ M` for the first columns `A_n` of the left singular vectors. -/
theorem Spec.IsThinSVD.cols_mul {m J c : Nat} {M : Mat m J} {U s V} (h : IsThinSVD M U s V) (hc : c ≤ min m J) (a : Fin c)
    (j : Fin J) : ((cols U c hc)ᵀ * M) a j = s (Fin.castLE hc a) * V j (Fin.castLE hc a) := by
  have hU : Uᵀ * M = diagonal s * Vᵀ := by
    rw [h.eq, ← Matrix.mul_assoc, ← Matrix.mul_assoc, h.orthU, Matrix.one_mul]
  have := congrFun (congrFun hU (Fin.castLE hc a)) j
  rw [Matrix.diagonal_mul, transpose_apply] at this
  exact this

/-- The last mode of a sweep: the matrix of that mode holds the first left singular vectors of the data multiplied by
the transposed matrices of the other modes, and the core is the product of that with the transposed matrix. -/
theorem hooi_last {svd : Tensor ℝ → Res (Tensor ℝ × Tensor ℝ × Tensor ℝ)} (hs : SvdOk svd) {X : Tensor ℝ}
    {ranks : List Nat} (h2 : 2 ≤ X.order) (h13 : X.order ≤ 13) (hpos : ∀ d ∈ X.shape, 0 < d)
    (hlen : X.order ≤ ranks.length) {A A' : List (Tensor ℝ)} (hA : TuckerShapes X.shape ranks A)
    (h : tucker.HOOI.sweep svd X ranks A = .ok A') {n m r J : Nat} (hn : n + 1 = X.order) (hm : X.shape.getD n 0 = m)
    (hr : ranks.getD n 0 = r) (hJ : ∏ m ∈ (Finset.range X.order).erase n, ranks.getD m 0 = J) :
    ∃ (W B g : Tensor ℝ) (U : Mat m (min m J)) (s : Fin (min m J) → ℝ) (V : Mat J (min m J)) (hle : r ≤ min m J),
      A'[n]? = some B ∧ ttm X A' none true (.int n) = .ok W ∧ ttm X A' none true = .ok g ∧ IsThinSVD (unfM W n m J) U s V ∧ toMat B m r = cols U r hle ∧
      g.shape.getD n 0 = r ∧ otherSize g.shape n = J ∧ unfM g n r J = (toMat B m r)ᵀ * unfM W n m J ∧
      W.order = X.order ∧ W.shape.getD n 0 = m ∧ otherSize W.shape n = J ∧ ∀ c, SliceRel X n c → SliceRel W n c := by
  unfold tucker.HOOI.sweep at h
  rw [← hn, List.range_succ, List.foldlM_append] at h
  cases e : (List.range n).foldlM (tucker.HOOI.modeUpdate svd X ranks) A with
  | error x => rw [e] at h; cases h
  | ok A1 =>
  rw [e, ok_bind] at h
  simp only [List.foldlM_cons, List.foldlM_nil] at h
  have hn' : n < X.order := by omega
  obtain ⟨hA1, -⟩ := hooi_fold hs h2 h13 hpos hlen (List.range n) A A1 (fun i hi => by
    have := List.mem_range.1 hi; omega) hA e
  obtain ⟨Y, hY, hYe⟩ := hooi_Y h2 h13 hA1 hn'
  obtain ⟨y1, y2, y3⟩ := hooi_Y_shape hA1 (n := n)
  rw [← hYe] at y1 y2 y3
  have hl : A1.length = X.order := hA1.1
  have hrn : ranks[n]? = some r := by
    rw [← hr, List.getD_eq_getElem _ _ (by omega)]; exact List.getElem?_eq_getElem _
  have hnA : n < A1.length := by omega
  obtain ⟨B, U, s, V, hle, b1, b2, b3, b4⟩ := leading_ok hs (by rw [y1]; exact hn') (y2.trans hm) (y3.trans hJ)
    (by rw [← hm]; exact getD_pos_of hpos hn') hrn
  have hold := hA1.2 n A1[n] (List.getElem?_eq_getElem hnA)
  rw [hm, hr] at hold
  have hupd : tucker.HOOI.modeUpdate svd X ranks A1 n =
      if B.shape = [m, r] then .ok (A1.set n B) else .error .invalidArgument := by
    unfold tucker.HOOI.modeUpdate
    rw [hY, ok_bind, b1, ok_bind, assign, List.getElem?_eq_getElem hnA]
    simp only [hold]
  rw [hupd] at h
  by_cases hB : B.shape = [m, r]
  swap
  · rw [if_neg hB] at h; cases h
  rw [if_pos hB] at h
  cases h
  have hmin : min r (min m J) = r := by
    rw [b2] at hB
    simpa using hB
  have hle' : r ≤ min m J := min_eq_left_iff.1 hmin
  have hcols : toMat B m r = cols U r hle' := by
    have : ∀ q (hq : q = min r (min m J)) (hq' : q ≤ min m J), toMat B m q = cols U q hq' := by
      rintro q rfl hq'; exact b4
    exact this r hmin.symm hle'
  have hset := List.getElem?_set_self (a := B) hnA
  have hA' : TuckerShapes X.shape ranks (A1.set n B) := hA1.set (by rw [hm, hr]; exact hB)
  have hcore := hooi_core h2 h13 hA' hn' hset
  rw [hooi_set hl, ← hYe] at hcore
  have hskip : ttm X (A1.set n B) none true (.int n) = .ok Y := by
    obtain ⟨Y', k1, k2⟩ := hooi_Y h2 h13 hA' hn'
    rw [k1, k2, hooi_set hl, ← hYe]
  have hTs : (matT B).shape = [r, m] := by unfold matT; rw [hB]; rfl
  have hT : toMat (matT B) r m = (toMat B m r)ᵀ := by
    unfold matT; rw [hB]
    change toMat (mat r m _) r m = _
    rw [toMat_mat]; rfl
  have hnY : n < Y.order := by rw [y1]; exact hn'
  refine ⟨Y, B, _, U, s, V, hle', hset, hskip, hcore, b3, hcols, ?_, ?_, ?_, y1, y2.trans hm, y3.trans hJ, fun c hc => ?_⟩
  · rw [modeProd_shape hTs, getD_set_self hnY]
  · rw [modeProd_shape hTs, otherSize_set, y3, hJ]
  · rw [unfM_modeProd hnY hTs (y2.trans hm) (y3.trans hJ), hT]
  · rw [hYe]
    refine sliceRel_modeProds_any _ hc fun q hq => ?_
    rw [List.mem_eraseIdx_iff_getElem] at hq
    obtain ⟨i, hi, hne, eq⟩ := hq
    rw [← eq]
    simpa using hne

/-- Relations between slices of the data along the last mode hold for the reconstruction. -/
theorem sliceRel_hooi {X g Y B W : Tensor ℝ} {A : List (Tensor ℝ)} {n m r J : Nat} {c : Nat → ℝ}
    {U : Mat m (min m J)} {s : Fin (min m J) → ℝ} {V : Mat J (min m J)} {hle : r ≤ min m J}
    (hn : n < X.order) (h13 : X.order ≤ 13) (ho : OrthoFactors X.shape A) (hg : ttm X A none true = .ok g)
    (hY : tucker.fullOf g A = .ok Y) (hB : A[n]? = some B) (hm : X.shape.getD n 0 = m)
    (hW : IsThinSVD (unfM W n m J) U s V) (hc : toMat B m r = cols U r hle) (gr : g.shape.getD n 0 = r)
    (gJ : otherSize g.shape n = J) (hgW : unfM g n r J = (toMat B m r)ᵀ * unfM W n m J)
    (hcW : (fun i : Fin m => c i) ᵥ* unfM W n m J = 0) : SliceRel Y n c := by
  have hne : X.shape ≠ [] := by intro e; unfold order at hn; rw [e] at hn; simp at hn
  obtain ⟨g', Y', e1, e2, hgs, hYs, -, hYe⟩ := tucker_entries hne h13 ho.allMat ho.rowDims
  rw [hg] at e1; cases e1
  rw [hY] at e2; cases e2
  have hl : A.length = X.order := ho.1
  have hgl : g.shape.length = A.length := by rw [hgs, colDims, List.length_map]
  have hng : n < g.shape.length := by omega
  have key : ∀ j, InB g.shape j → (∑ i ∈ Finset.range m, c i * B.at_ [i, j.getD n 0]) * g.at_ j = 0 := by
    intro j hj
    have hjr : j.getD n 0 < r := by rw [← gr]; exact (InB_iff_getD.1 hj).2 n hng
    have hjJ : koldaCol g.shape j n < J := by
      rw [← gJ, koldaCol_eq_ravel n hj.length, otherSize_eq_prod]
      exact ravel_lt (InB_reverse (InB_eraseIdx hj n))
    have hcol : ∀ i : Fin m, B.at_ [(i : Nat), j.getD n 0] = U i (Fin.castLE hle ⟨_, hjr⟩) := fun i =>
      congrFun (congrFun hc i) ⟨_, hjr⟩
    rcases hW.orth_or_null hcW (Fin.castLE hle ⟨_, hjr⟩) with e | e
    · rw [Finset.sum_range, Finset.sum_congr rfl fun i _ => by rw [hcol]]
      rw [show (∑ i : Fin m, c i * U i (Fin.castLE hle ⟨_, hjr⟩)) = 0 from e, zero_mul]
    · have e1 := congrFun (congrFun hgW ⟨_, hjr⟩) ⟨_, hjJ⟩
      have e2 : unfM g n r J ⟨_, hjr⟩ ⟨_, hjJ⟩ = g.at_ j := by
        show g.at_ (unkolda g.shape n (j.getD n 0) (koldaCol g.shape j n)) = _
        rw [unkolda_eq hng hj]
      rw [← e2, e1, hc]
      have e3 := congrFun e ⟨_, hjJ⟩
      rw [show ((cols U r hle)ᵀ * unfM W n m J) ⟨_, hjr⟩ ⟨_, hjJ⟩ = 0 from e3, mul_zero]
  intro idx hi
  rw [hYs] at hi
  rw [hYs, hm]
  have hil : idx.length = A.length := by rw [hi.length, hl]; rfl
  have e : ∀ i ∈ Finset.range m, c i * Y.at_ (idx.set n i) = boxSum g.shape fun j =>
      (c i * B.at_ [i, j.getD n 0]) * (g.at_ j * kronEntry (A.eraseIdx n) (idx.eraseIdx n) (j.eraseIdx n)) := by
    intro i hi'
    have hb : InB X.shape (idx.set n i) :=
      InB_set (d := X.shape.getD n 0) (by rwa [set_getD_self]) (by rw [hm]; exact Finset.mem_range.1 hi')
    rw [hYe _ hb, ← boxSum_mul_left]
    refine boxSum_congr fun j hj => ?_
    rw [kronEntry_eraseIdx (by rw [List.length_set]; exact hil) (by rw [hj.length, hgl]) hB, List.eraseIdx_set_eq,
      show (idx.set n i).getD n 0 = i by
        rw [List.getD_eq_getElem?_getD, List.getElem?_set_self (by rw [hil]; omega)]; rfl]
    ring
  rw [Finset.sum_congr rfl e]
  have hsw : (∑ i ∈ Finset.range m, boxSum g.shape fun j => (c i * B.at_ [i, j.getD n 0]) *
      (g.at_ j * kronEntry (A.eraseIdx n) (idx.eraseIdx n) (j.eraseIdx n))) = boxSum g.shape fun j =>
      ∑ i ∈ Finset.range m, (c i * B.at_ [i, j.getD n 0]) *
      (g.at_ j * kronEntry (A.eraseIdx n) (idx.eraseIdx n) (j.eraseIdx n)) := by
    simp only [boxSum_eq_sum_range]
    exact Finset.sum_comm
  rw [hsw, ← boxSum_zero (α := ℝ) g.shape]
  refine boxSum_congr fun j hj => ?_
  rw [← Finset.sum_mul, ← mul_assoc, key j hj, zero_mul]

end TD
