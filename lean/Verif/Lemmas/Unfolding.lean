import Verif.Lemmas.Kruskal
import Mathlib.Algebra.BigOperators.Ring.Finset

namespace TD
open Spec Tensor tf ops
variable {α : Type}

/-- The index with mode-`n` coordinate `i` and Kolda column `j`. -/
def unkolda (shape : List Nat) (n i j : Nat) : List Nat :=
  (unravel (shape.eraseIdx n).reverse j).reverse.insertIdx n i

theorem InB_of_erase {shape idx : List Nat} {n : Nat} (hl : idx.length = shape.length) (hn : n < shape.length)
    (h : idx.getD n 0 < shape.getD n 0) (he : InB (shape.eraseIdx n) (idx.eraseIdx n)) : InB shape idx := by
  induction n generalizing shape idx with
  | zero =>
      cases shape with
      | nil => simp at hn
      | cons d s =>
        cases idx with
        | nil => simp at hl
        | cons i is => simpa using ⟨by simpa using h, by simpa using he⟩
  | succ n ih =>
      cases shape with
      | nil => simp at hn
      | cons d s =>
        cases idx with
        | nil => simp at hl
        | cons i is =>
          simp only [List.eraseIdx_cons_succ, InB_cons, List.getD_cons_succ] at he h ⊢
          exact ⟨he.1, ih (by simpa using hl) (by simpa using hn) h he.2⟩

theorem unravel_length (s : List Nat) (k : Nat) : (unravel s k).length = s.length := by
  induction s generalizing k with
  | nil => simp [unravel]
  | cons n s ih => simp [unravel, ih]

theorem unkolda_facts {shape : List Nat} {n : Nat} (hn : n < shape.length) (i j : Nat) :
    (unkolda shape n i j).length = shape.length ∧ (unkolda shape n i j).getD n 0 = i ∧
      (unkolda shape n i j).eraseIdx n = (unravel (shape.eraseIdx n).reverse j).reverse := by
  have hl : (unravel (shape.eraseIdx n).reverse j).reverse.length = shape.length - 1 := by
    rw [List.length_reverse, unravel_length, List.length_reverse, List.length_eraseIdx, if_pos hn]
  have hle : n ≤ (unravel (shape.eraseIdx n).reverse j).reverse.length := by omega
  refine ⟨?_, ?_, ?_⟩
  · unfold unkolda
    rw [List.length_insertIdx, if_pos hle]; omega
  · unfold unkolda
    rw [List.getD_eq_getElem _ _ (by rw [List.length_insertIdx, if_pos hle]; omega)]
    simp
  · unfold unkolda
    rw [List.eraseIdx_insertIdx_self]

theorem unkolda_spec {shape : List Nat} {n i j : Nat} (hn : n < shape.length) (hi : i < shape.getD n 0)
    (hj : j < otherSize shape n) :
    InB shape (unkolda shape n i j) ∧ (unkolda shape n i j).getD n 0 = i ∧
      koldaCol shape (unkolda shape n i j) n = j := by
  obtain ⟨hl, hg, he⟩ := unkolda_facts hn i j
  rw [otherSize_eq_prod] at hj
  have hb := unravel_inB hj
  refine ⟨InB_of_erase hl hn (by rw [hg]; exact hi) ?_, hg, ?_⟩
  · rw [he]
    have := InB_reverse hb
    rwa [List.reverse_reverse] at this
  · rw [koldaCol_eq_ravel n hl, he, List.reverse_reverse, ravel_unravel hj]

theorem unkolda_eq {shape idx : List Nat} {n : Nat} (hn : n < shape.length) (h : InB shape idx) :
    unkolda shape n (idx.getD n 0) (koldaCol shape idx n) = idx := by
  have hlt : koldaCol shape idx n < otherSize shape n := by
    rw [koldaCol_eq_ravel n h.length, otherSize_eq_prod]
    exact ravel_lt (InB_reverse (InB_eraseIdx h n))
  have hi := (InB_iff_getD.1 h).2 n hn
  obtain ⟨h1, h2, h3⟩ := unkolda_spec hn hi hlt
  obtain ⟨x, -, hx⟩ := kolda_bijective shape n hn _ _ hi hlt
  rw [hx _ ⟨h1, h2, h3⟩, hx idx ⟨h, rfl, rfl⟩]

/-- Closed form of the unfolding. -/
theorem unfold_closed [Zero α] (X : Tensor α) {n : Nat} (hn : n < X.order) (hpos : 0 < X.shape.getD n 0) :
    unfold X n = .ok (mat (X.shape.getD n 0) (otherSize X.shape n) fun i j => X.at_ (unkolda X.shape n i j)) := by
  obtain ⟨M, hM, hs, he⟩ := unfold_spec X hn hpos
  rw [hM]
  congr 1
  refine ext_mat hs rfl fun i hi j hj => ?_
  obtain ⟨h1, h2, h3⟩ := unkolda_spec hn hi hj
  rw [at_mat _ hi hj, ← (he _ h1).2.2, h2, h3]

/-- To know an unfolding it suffices to give its entries in Kolda's numbering. -/
theorem unfold_eq_mat [Zero α] (X : Tensor α) {n : Nat} (hn : n < X.order) (hpos : 0 < X.shape.getD n 0)
    (F : Nat → Nat → α) (h : ∀ idx, InB X.shape idx → X.at_ idx = F (idx.getD n 0) (koldaCol X.shape idx n)) :
    unfold X n = .ok (mat (X.shape.getD n 0) (otherSize X.shape n) F) := by
  rw [unfold_closed X hn hpos]
  congr 1
  refine ext_mat rfl rfl fun i hi j hj => ?_
  obtain ⟨h1, h2, h3⟩ := unkolda_spec hn hi hj
  rw [at_mat _ hi hj, at_mat _ hi hj, h _ h1, h2, h3]

theorem boxSum_unkolda [AddCommMonoid α] {shape : List Nat} {n : Nat} (hn : n < shape.length)
    (f : List Nat → α) :
    boxSum shape f = ∑ i ∈ Finset.range (shape.getD n 0), ∑ j ∈ Finset.range (otherSize shape n),
      f (unkolda shape n i j) := by
  have h0 : boxSum shape f = boxSum shape (ofFn shape f).at_ :=
    boxSum_congr fun idx h => (at_ofFn f h).symm
  rcases Nat.eq_zero_or_pos (shape.getD n 0) with hz | hpos
  · rw [hz, Finset.range_zero, Finset.sum_empty, h0, boxSum_eq_list_sum]
    have : indices shape = [] := by
      rw [List.eq_nil_iff_forall_not_mem]
      intro idx hm
      have := (InB_iff_getD.1 (mem_indices.1 hm)).2 n hn
      omega
    rw [this]; rfl
  · have hu := unfold_closed (ofFn shape f) (n := n) hn hpos
    have := unfold_sum hu
    rw [h0]
    refine this.symm.trans ?_
    rw [shape_mat, boxSum_pair]
    apply Finset.sum_congr rfl
    intro i hi
    apply Finset.sum_congr rfl
    intro j hj
    rw [Finset.mem_range] at hi hj
    rw [at_mat _ hi hj]
    exact at_ofFn _ (unkolda_spec hn hi hj).1

/-! ### Mode products along all leading modes -/

theorem boxSum_comm [AddCommMonoid α] (s : List Nat) (n : Nat) (f : List Nat → Nat → α) :
    boxSum s (fun i => ∑ k ∈ Finset.range n, f i k) = ∑ k ∈ Finset.range n, boxSum s fun i => f i k := by
  induction s generalizing f with
  | nil => rfl
  | cons d s ih =>
      simp only [boxSum]
      rw [Finset.sum_comm]
      exact Finset.sum_congr rfl fun i _ => ih _

theorem modeProd_at [NonUnitalNonAssocSemiring α] {X A : Tensor α} {n : Nat} {idx : List Nat}
    (h : InB (modeProd X n A).shape idx) : (modeProd X n A).at_ idx =
      ∑ k ∈ Finset.range (X.shape.getD n 0), A.at_ [idx.getD n 0, k] * X.at_ (idx.set n k) :=
  at_ofFn _ h

theorem modeProds_block [CommSemiring α] : ∀ (ms : List (Tensor α)) (X : Tensor α) (pre : List Nat),
    X.shape = pre ++ colDims ms →
    (modeProds X ((List.range' pre.length ms.length).zip ms)).shape = pre ++ rowDims ms ∧
    ∀ ip i, InB pre ip → InB (rowDims ms) i →
      (modeProds X ((List.range' pre.length ms.length).zip ms)).at_ (ip ++ i) =
        boxSum (colDims ms) fun j => kronEntry ms i j * X.at_ (ip ++ j)
  | [], X, pre, h => by
      refine ⟨by simpa [modeProds, rowDims, colDims] using h, fun ip i hp hi => ?_⟩
      simp [rowDims] at hi
      subst hi
      simp [modeProds, colDims, boxSum, kronEntry]
  | M :: ms, X, pre, h => by
      have hk : pre.length < X.shape.length := by rw [h]; simp [colDims]
      have hY : (modeProd X pre.length M).shape = (pre ++ [M.shape.getD 0 0]) ++ colDims ms := by
        simp only [modeProd, shape_ofFn, h, colDims, List.map_cons]
        rw [List.set_append_right _ _ (le_refl _)]
        simp
      have hd : X.shape.getD pre.length 0 = M.shape.getD 1 0 := by
        rw [h, List.getD_append_right _ _ _ _ (le_refl _)]
        simp [colDims]
      obtain ⟨hs, he⟩ := modeProds_block ms (modeProd X pre.length M) (pre ++ [M.shape.getD 0 0]) hY
      have hz : (List.range' pre.length (M :: ms).length).zip (M :: ms) =
          (pre.length, M) :: (List.range' (pre ++ [M.shape.getD 0 0]).length ms.length).zip ms := by
        simp [List.range'_succ]
      have hstep : modeProds X ((List.range' pre.length (M :: ms).length).zip (M :: ms)) =
          modeProds (modeProd X pre.length M)
            ((List.range' (pre ++ [M.shape.getD 0 0]).length ms.length).zip ms) := by
        rw [hz]; rfl
      rw [hstep]
      refine ⟨by rw [hs]; simp [rowDims], fun ip i hp hi => ?_⟩
      obtain _ | ⟨i0, is⟩ := i
      · simp [rowDims] at hi
      simp only [rowDims, List.map_cons, InB_cons] at hi
      have hb : InB (pre ++ [M.shape.getD 0 0]) (ip ++ [i0]) :=
        (InB_append hp.length).2 ⟨hp, by simpa using hi.1⟩
      have := he (ip ++ [i0]) is hb hi.2
      rw [List.append_assoc, List.singleton_append] at this
      rw [this]
      have hj : ∀ j, InB (colDims ms) j → kronEntry ms is j * (modeProd X pre.length M).at_ (ip ++ [i0] ++ j) =
          ∑ k ∈ Finset.range (M.shape.getD 1 0), kronEntry (M :: ms) (i0 :: is) (k :: j) * X.at_ (ip ++ (k :: j)) := by
        intro j hj
        have hin : InB (modeProd X pre.length M).shape (ip ++ [i0] ++ j) := by
          rw [hY]; exact (InB_append hb.length).2 ⟨hb, hj⟩
        rw [modeProd_at hin, Finset.mul_sum, hd]
        apply Finset.sum_congr rfl
        intro k _
        have hset : (ip ++ [i0] ++ j).set pre.length k = ip ++ (k :: j) := by
          rw [← hp.length, List.append_assoc, List.set_append_right _ _ (le_refl _)]
          simp
        have hget : (ip ++ [i0] ++ j).getD pre.length 0 = i0 := by
          rw [← hp.length, List.append_assoc, List.getD_append_right _ _ _ _ (le_refl _)]
          simp
        rw [hset, hget]
        simp only [kronEntry]
        ring
      rw [boxSum_congr hj, boxSum_comm]
      rfl

/-- All modes at once: `(X ×_0 A_0 ×_1 A_1 …)[i] = ∑_j ∏_k A_k[i_k, j_k] · X[j]`. -/
theorem modeProds_all [CommSemiring α] (X : Tensor α) (ms : List (Tensor α)) (h : X.shape = colDims ms) :
    (modeProds X ((List.range ms.length).zip ms)).shape = rowDims ms ∧
    ∀ i, InB (rowDims ms) i → (modeProds X ((List.range ms.length).zip ms)).at_ i =
      boxSum X.shape fun j => kronEntry ms i j * X.at_ j := by
  have := modeProds_block ms X [] (by simpa using h)
  simp only [List.length_nil, List.nil_append, ← List.range_eq_range'] at this
  exact ⟨this.1, fun i hi => by rw [h]; simpa using this.2 [] i (by simp) hi⟩

theorem kron_skip_reverse [CommSemiring α] {U : List (Tensor α)} {n : Nat} (hm : AllMat U)
    (hlen : U.length ≤ 14) (hn : n < U.length) (h2 : 2 ≤ U.length) :
    ∃ K, kron U (.int n) true = .ok K ∧
      K.shape = [((rowDims U).eraseIdx n).reverse.prod, ((colDims U).eraseIdx n).reverse.prod] ∧
      ∀ i j, InB (rowDims U) i → InB (colDims U) j →
        K.at_ [ravel ((rowDims U).eraseIdx n).reverse (i.eraseIdx n).reverse,
          ravel ((colDims U).eraseIdx n).reverse (j.eraseIdx n).reverse] =
          kronEntry (U.eraseIdx n) (i.eraseIdx n) (j.eraseIdx n) := by
  have hle : (U.eraseIdx n).length = U.length - 1 := by rw [List.length_eraseIdx, if_pos hn]
  rw [kron_reduce, skip_eq_kept, kept_int, if_pos rfl]
  have hm' : AllMat (U.eraseIdx n).reverse := fun M hM => AllMat_eraseIdx hm n M (List.mem_reverse.1 hM)
  obtain ⟨K, hK, hs, he⟩ := kron_core (ms := (U.eraseIdx n).reverse) hm'
    (by intro e; have := congrArg List.length e; simp [hle] at this; omega) (by simp [hle]; omega)
  rw [rowDims_reverse, colDims_reverse, rowDims_eraseIdx, colDims_eraseIdx] at hs he
  refine ⟨K, hK, hs, fun i j hi hj => ?_⟩
  have hil := hi.length
  have hjl := hj.length
  rw [length_rowDims] at hil
  rw [length_colDims] at hjl
  rw [he _ _ (InB_reverse (InB_eraseIdx hi n)) (InB_reverse (InB_eraseIdx hj n)), kronEntry_reverse]
  · rw [List.length_eraseIdx, List.length_eraseIdx, hil]
  · rw [List.length_eraseIdx, List.length_eraseIdx, hjl]

theorem khatri_skip_reverse [CommSemiring α] {U : List (Tensor α)} {R n : Nat} (hm : AllMat U)
    (hR : ∀ M ∈ U, M.shape.getD 1 0 = R) (hlen : U.length ≤ 26) (hn : n < U.length) (h2 : 2 ≤ U.length) :
    ∃ K, khatri U (.int n) true = .ok K ∧ K.shape = [((rowDims U).eraseIdx n).reverse.prod, R] ∧
      ∀ i r, InB (rowDims U) i → r < R →
        K.at_ [ravel ((rowDims U).eraseIdx n).reverse (i.eraseIdx n).reverse, r] =
          khatriEntry r (U.eraseIdx n) (i.eraseIdx n) := by
  have hle : (U.eraseIdx n).length = U.length - 1 := by rw [List.length_eraseIdx, if_pos hn]
  rw [khatri_reduce, skip_eq_kept, kept_int, if_pos rfl]
  have hm' : AllMat (U.eraseIdx n).reverse := fun M hM => AllMat_eraseIdx hm n M (List.mem_reverse.1 hM)
  obtain ⟨K, hK, hs, he⟩ := khatri_core (ms := (U.eraseIdx n).reverse) hm'
    (by intro e; have := congrArg List.length e; simp [hle] at this; omega)
    (fun M hM => hR M (List.mem_of_mem_eraseIdx (List.mem_reverse.1 hM))) (by simp [hle]; omega)
  rw [rowDims_reverse, rowDims_eraseIdx] at hs he
  refine ⟨K, hK, hs, fun i r hi hr => ?_⟩
  have hil := hi.length
  rw [length_rowDims] at hil
  rw [he _ _ (InB_reverse (InB_eraseIdx hi n)) hr, khatriEntry_reverse]
  rw [List.length_eraseIdx, List.length_eraseIdx, hil]

end TD
