import Verif.Lemmas.AlsOneHooi

/-! # One component, positive data: the starting vectors of HOOI are not orthogonal to the data -/
namespace TD
open Spec Tensor tf ops Matrix

/-- The unit vector that a positive matrix stretches most has no entries of opposite signs. -/
theorem pos_lead {m J : Nat} {M : Mat m J} (hM : ∀ i j, 0 < M i j) (hJ : 0 < J) {u : Mat m 1} (hu : uᵀ * u = 1)
    (hmax : ∀ Q : Mat m 1, Qᵀ * Q = 1 → frobSq (Qᵀ * M) ≤ frobSq (uᵀ * M)) :
    (∀ i, 0 ≤ u i 0) ∨ ∀ i, u i 0 ≤ 0 := by
  by_contra hne
  push Not at hne
  obtain ⟨⟨p, hp⟩, q, hq⟩ := hne
  set Q : Mat m 1 := Matrix.of fun i _ => |u i 0| with hQ
  have hQ1 : Qᵀ * Q = 1 := by
    rw [← hu]
    ext i j
    obtain rfl : i = 0 := Subsingleton.elim _ _
    obtain rfl : j = 0 := Subsingleton.elim _ _
    rw [Matrix.mul_apply, Matrix.mul_apply]
    refine Finset.sum_congr rfl fun a _ => ?_
    rw [transpose_apply, transpose_apply, hQ, of_apply, abs_mul_abs_self]
  have h := hmax Q hQ1
  refine absurd h (not_le.2 ?_)
  unfold frobSq
  refine Finset.sum_lt_sum_of_nonempty ⟨0, Finset.mem_univ _⟩ fun r _ => ?_
  obtain rfl : r = 0 := Subsingleton.elim _ _
  have : Nonempty (Fin J) := ⟨⟨0, hJ⟩⟩
  refine Finset.sum_lt_sum_of_nonempty Finset.univ_nonempty fun j _ => ?_
  rw [Matrix.mul_apply, Matrix.mul_apply]
  have e1 : 0 < ∑ a, (|u a 0| - u a 0) * M a j :=
    Finset.sum_pos' (fun a _ => mul_nonneg (by linarith [le_abs_self (u a 0)]) (hM a j).le)
      ⟨p, Finset.mem_univ _, mul_pos (by rw [abs_of_neg hp]; linarith) (hM p j)⟩
  have e2 : 0 < ∑ a, (|u a 0| + u a 0) * M a j :=
    Finset.sum_pos' (fun a _ => mul_nonneg (by linarith [neg_abs_le (u a 0)]) (hM a j).le)
      ⟨q, Finset.mem_univ _, mul_pos (by rw [abs_of_pos hq]; linarith) (hM q j)⟩
  have e3 : ∑ a, (|u a 0| - u a 0) * M a j = ∑ a, Qᵀ 0 a * M a j - ∑ a, uᵀ 0 a * M a j := by
    rw [← Finset.sum_sub_distrib]
    exact Finset.sum_congr rfl fun a _ => by rw [sub_mul]; rfl
  have e4 : ∑ a, (|u a 0| + u a 0) * M a j = ∑ a, Qᵀ 0 a * M a j + ∑ a, uᵀ 0 a * M a j := by
    rw [← Finset.sum_add_distrib]
    exact Finset.sum_congr rfl fun a _ => by rw [add_mul]; rfl
  rw [e3] at e1
  rw [e4] at e2
  exact sq_lt_sq' (by linarith) (by linarith)

/-- The starting vectors of HOOI maximise the stretch of their unfolding. -/
theorem hooi_init_lead {svd : Tensor ℝ → Res (Tensor ℝ × Tensor ℝ × Tensor ℝ)} (hs : SvdOk svd) {X : Tensor ℝ}
    {ranks : List Nat} (hpos : ∀ d ∈ X.shape, 0 < d) (hlen : X.order ≤ ranks.length)
    (hr : ∀ n < X.order, ranks.getD n 0 = 1) {A : List (Tensor ℝ)}
    (h : tucker.HOOI.init svd X ranks = .ok A) {n : Nat} {B : Tensor ℝ} (hB : A[n]? = some B) (hn : n < X.order) :
    ∀ Q : Mat (X.shape.getD n 0) 1, Qᵀ * Q = 1 → frobSq (Qᵀ * unfM X n (X.shape.getD n 0) (otherSize X.shape n)) ≤
      frobSq ((toMat B (X.shape.getD n 0) 1)ᵀ * unfM X n (X.shape.getD n 0) (otherSize X.shape n)) := by
  have hF := bcu.mapM_inv h
  obtain ⟨-, hk⟩ := forall₂_range (P := fun n v => (do
      let v ← tucker.leading svd X ranks n
      let r ← tucker.rankAt ranks n
      if v.shape = [X.shape.getD n 0, r] then .ok v else .error .invalidArgument : Res (Tensor ℝ)) = .ok v) hF
  have hv := hk n B hB
  have hrn : ranks[n]? = some 1 := by
    rw [← hr n hn, List.getD_eq_getElem _ _ (by omega)]; exact List.getElem?_eq_getElem _
  obtain ⟨B', U, s, V, h', b1, b2, b3, b4⟩ := leading_ok hs hn rfl rfl (getD_pos_of hpos hn) hrn
  rw [b1, ok_bind, tucker.rankAt, hrn, ok_bind] at hv
  by_cases e : B'.shape = [X.shape.getD n 0, 1]
  · rw [if_pos e] at hv
    cases hv
    have e' : min 1 (min (X.shape.getD n 0) (otherSize X.shape n)) = 1 := by
      rw [b2] at e
      simpa using e
    have key : ∀ r (hr : r = min 1 (min (X.shape.getD n 0) (otherSize X.shape n))), ∀ Q' : Mat (X.shape.getD n 0) r, Q'ᵀ * Q' = 1 →
          frobSq (Q'ᵀ * unfM X n (X.shape.getD n 0) (otherSize X.shape n)) ≤
          frobSq ((toMat B (X.shape.getD n 0) r)ᵀ * unfM X n (X.shape.getD n 0) (otherSize X.shape n)) := by
      rintro r rfl Q' hQ'
      rw [b4]; exact b3.kyFan h' hQ'
    exact key 1 e'.symm
  · rw [if_neg e] at hv; cases hv

theorem along_signs {X : Tensor ℝ} (v : Nat → Nat → ℝ) (c : Nat → ℝ) :
    along X (fun k a => c k * v k a) = (∏ k ∈ Finset.range X.order, c k) * along X v := by
  unfold along
  rw [← boxSum_mul_left]
  refine boxSum_congr fun i _ => ?_
  unfold outerEntry
  rw [Finset.prod_mul_distrib]
  ring

theorem along_pos {X : Tensor ℝ} (hX : ∀ i, InB X.shape i → 0 < X.at_ i) {v : Nat → Nat → ℝ} (hu : UnitVecs X.shape v)
    (hv : ∀ k < X.order, ∀ a < X.shape.getD k 0, 0 ≤ v k a) : 0 < along X v := by
  have h0 : ∀ i, InB X.shape i → 0 ≤ X.at_ i * outerEntry X.order v i := fun i hi =>
    mul_nonneg (hX i hi).le (Finset.prod_nonneg fun k hk =>
      hv k (Finset.mem_range.1 hk) _ ((InB_iff_getD.1 hi).2 k (Finset.mem_range.1 hk)))
  have hex : ∀ k, ∃ a, k < X.order → a < X.shape.getD k 0 ∧ v k a ≠ 0 := by
    intro k
    by_cases hk : k < X.order
    · by_contra hne
      push Not at hne
      have := hu k hk
      rw [Finset.sum_eq_zero fun a ha => by rw [(hne a).2 (Finset.mem_range.1 ha)]; ring] at this
      exact zero_ne_one this
    · exact ⟨0, fun h => absurd h hk⟩
  choose a ha using hex
  refine lt_of_le_of_ne (loss.boxSum_nonneg _ h0) fun e => ?_
  have hi : InB X.shape ((List.range X.order).map a) := InB_iff_getD.2 ⟨by simp [Tensor.order], fun k hk => by
    rw [List.getD_eq_getElem _ _ (by rw [List.length_map, List.length_range]; exact hk), List.getElem_map, List.getElem_range]
    exact (ha k hk).1⟩
  have := (loss.boxSum_eq_zero X.shape h0).1 e.symm _ hi
  rcases mul_eq_zero.1 this with h | h
  · exact (hX _ hi).ne' h
  · obtain ⟨k, hk, h⟩ := Finset.prod_eq_zero_iff.1 h
    have hk' := Finset.mem_range.1 hk
    rw [List.getD_eq_getElem _ _ (by simpa using hk'), List.getElem_map, List.getElem_range] at h
    exact (ha k hk').2 h

/-- Starting vectors of a positive tensor. -/
theorem hooi_init_one {svd : Tensor ℝ → Res (Tensor ℝ × Tensor ℝ × Tensor ℝ)} (hs : SvdOk svd) {X : Tensor ℝ}
    {ranks : List Nat} (hpos : ∀ d ∈ X.shape, 0 < d) (hlen : X.order ≤ ranks.length)
    (hr : ∀ n < X.order, ranks.getD n 0 = 1) {A : List (Tensor ℝ)} (h : tucker.HOOI.init svd X ranks = .ok A) :
    TuckerShapes X.shape ranks A ∧ UnitVecs X.shape (firstCol A) ∧
      ((∀ i, InB X.shape i → 0 < X.at_ i) → along X (firstCol A) ≠ 0) := by
  obtain ⟨i1, i2, -⟩ := hooi_init hs hpos hlen h
  have hl : A.length = X.order := i1.1
  have hget : ∀ k, k < X.order → ∃ B, A[k]? = some B ∧ OrthoCols B (X.shape.getD k 0) 1 := fun k hk => by
    refine ⟨A[k]'(by omega), List.getElem?_eq_getElem _, ?_⟩
    have := i2 k _ (List.getElem?_eq_getElem (show k < A.length by omega))
    rwa [hr k hk] at this
  have hun : UnitVecs X.shape (firstCol A) := fun k hk => by
    obtain ⟨B, b1, b2⟩ := hget k hk
    rw [← orthoCols_one b2]
    exact Finset.sum_congr rfl fun a _ => by rw [firstCol_get b1]
  refine ⟨i1, hun, fun hX => ?_⟩
  have hsign : ∀ k, ∃ c : ℝ, c ^ 2 = 1 ∧ (k < X.order → ∀ a < X.shape.getD k 0, 0 ≤ c * firstCol A k a) := by
    intro k
    by_cases hk : k < X.order
    · obtain ⟨B, b1, b2⟩ := hget k hk
      have hM : ∀ i j, 0 < unfM X k (X.shape.getD k 0) (otherSize X.shape k) i j := fun i j =>
        hX _ (unkolda_spec hk i.isLt j.isLt).1
      have hJ : 0 < otherSize X.shape k := by
        unfold otherSize
        exact Finset.prod_pos fun m hm => cp.getD_pos hpos (Finset.mem_range.1 (Finset.mem_of_mem_erase hm))
      rcases pos_lead hM hJ b2.2 (hooi_init_lead hs hpos hlen hr h b1 hk) with hp | hp
      · refine ⟨1, by norm_num, fun _ a ha => ?_⟩
        rw [one_mul, firstCol_get b1]
        exact hp ⟨a, ha⟩
      · refine ⟨-1, by norm_num, fun _ a ha => ?_⟩
        rw [neg_one_mul, firstCol_get b1]
        have : B.at_ [a, 0] ≤ 0 := hp ⟨a, ha⟩
        linarith
    · exact ⟨1, by norm_num, fun h => absurd h hk⟩
  choose c c1 c2 using hsign
  have hp := along_pos (v := fun k a => c k * firstCol A k a) hX (fun k hk => by
    rw [← hun k hk]
    exact Finset.sum_congr rfl fun a _ => by rw [mul_pow, c1 k, one_mul]) fun k hk a ha => c2 k hk a ha
  rw [along_signs] at hp
  intro e
  rw [e, mul_zero] at hp
  exact lt_irrefl _ hp

end TD
