import Verif.Lemmas.Mul

namespace TD
open Spec Tensor
variable {α : Type}

namespace tf

theorem bcastRev_self (s : List Nat) : bcastRev s s = some s := by
  induction s with
  | nil => rfl
  | cons a s ih => simp [bcastRev, ih]

theorem bcastShape_self (s : List Nat) : bcastShape s s = some s := by
  simp [bcastShape, bcastRev_self]

theorem bcastIdx_self {s idx : List Nat} (h : InB s idx) : bcastIdx s idx = idx := by
  unfold bcastIdx
  rw [h.length, Nat.sub_self, List.drop_zero]
  induction s generalizing idx with
  | nil => simp at h; simp [h]
  | cons a s ih =>
      cases idx with
      | nil => simp at h
      | cons i idx =>
          simp only [InB_cons] at h
          simp only [List.zipWith_cons_cons, ih h.2, List.cons.injEq, and_true]
          split
          · omega
          · rfl

theorem ewise_same [Zero α] (f : α → α → α) {A B : Tensor α} (h : A.shape = B.shape) :
    ewise f A B = .ok (ofFn A.shape fun idx => f (A.at_ idx) (B.at_ idx)) := by
  unfold ewise
  rw [← h, bcastShape_self]
  simp only [Except.ok.injEq]
  apply ofFn_congr
  intro idx hidx
  rw [bcastIdx_self hidx]

/-- Transposition permutes the data. -/
theorem transpose_data_perm [Zero α] {t r : Tensor α} {p : List Nat} (h : transpose t p = .ok r) :
    r.data.Perm t.data := by
  by_cases hp : p.Perm (List.range t.order)
  swap
  · rw [transpose_error hp] at h; cases h
  obtain ⟨r', hr', hrs, hra⟩ := transpose_spec hp
  rw [h] at hr'
  simp only [Except.ok.injEq] at hr'
  subst hr'
  rw [data_eq t, data_eq r]
  have hp' : ((indices t.shape).map fun idx => p.map fun k => idx.getD k 0).Perm (indices r.shape) := by
    rw [List.perm_ext_iff_of_nodup]
    · intro x
      simp only [List.mem_map, mem_indices]
      constructor
      · rintro ⟨idx, hidx, rfl⟩; exact (hra idx hidx).1
      · intro hx
        have hnd : p.Nodup := hp.nodup_iff.2 List.nodup_range
        have hpl : p.length = t.order := by simpa using hp.length_eq
        have hxl : x.length = p.length := by have := hx.length; simpa [hrs] using this
        refine ⟨(List.range t.order).map (fun k => x.getD (p.idxOf k) 0), ?_, ?_⟩
        · rw [InB_iff_getD]
          refine ⟨by simp [order], fun k hk => ?_⟩
          have hk' : k ∈ p := hp.mem_iff.2 (by simpa [order] using hk)
          rw [getD_map_range_lt (N := t.order) _ hk]
          have h1 := (InB_iff_getD.1 hx).2 (p.idxOf k) (by
            rw [hrs, List.length_map]; exact List.idxOf_lt_length_iff.2 hk')
          rwa [hrs, getD_map_idxOf p _ _ hk'] at h1
        · calc p.map (fun k => ((List.range t.order).map (fun k => x.getD (p.idxOf k) 0)).getD k 0)
              = p.map (fun k => x.getD (p.idxOf k) 0) := by
                apply List.map_congr_left
                intro k hk
                exact getD_map_range_lt _ (by simpa using hp.mem_iff.1 hk)
            _ = (p.map fun k => p.idxOf k).map (fun k => x.getD k 0) := by rw [List.map_map]; rfl
            _ = x := by rw [map_idxOf_self hnd]; exact map_getD_range _ _ hxl
    · refine List.Nodup.map_on ?_ (nodup_indices _)
      intro x hx y hy hxy
      have hx := mem_indices.1 hx
      have hy := mem_indices.1 hy
      rw [← map_getD_range x t.order hx.length, ← map_getD_range y t.order hy.length]
      apply List.map_congr_left
      intro k hk
      have := List.map_inj_left.1 hxy k (hp.mem_iff.2 hk)
      exact this
    · exact nodup_indices _
  refine (hp'.map r.at_).symm.trans ?_
  rw [List.map_map]
  apply List.Perm.of_eq
  apply List.map_congr_left
  intro idx hidx
  exact (hra idx (mem_indices.1 hidx)).2

theorem reshape_data {t r : Tensor α} {s : List Int} (h : reshape t s = .ok r) : r.data = t.data := by
  unfold reshape at h
  split at h
  · cases h
  · split at h
    · simp only [Except.ok.injEq] at h; subst h; rfl
    · cases h

end tf

theorem boxSum_pair [AddCommMonoid α] (m n : Nat) (f : List Nat → α) :
    boxSum [m, n] f = ∑ i ∈ Finset.range m, ∑ j ∈ Finset.range n, f [i, j] := by
  simp [boxSum]

theorem boxSum_add [AddCommMonoid α] (s : List Nat) (f g : List Nat → α) :
    boxSum s (fun i => f i + g i) = boxSum s f + boxSum s g := by
  simp only [boxSum_eq_sum_range, Finset.sum_add_distrib]

theorem boxSum_mul_left [NonUnitalNonAssocSemiring α] (s : List Nat) (c : α) (f : List Nat → α) :
    boxSum s (fun i => c * f i) = c * boxSum s f := by
  simp only [boxSum_eq_sum_range, Finset.mul_sum]

theorem boxSum_zero [AddCommMonoid α] (s : List Nat) : boxSum s (fun _ => (0 : α)) = 0 := by
  simp [boxSum_eq_sum_range]

namespace ops

/-- Unfolding permutes the data. -/
theorem unfold_data_perm [Zero α] {X M : Tensor α} {n : Int} (h : unfold X n = .ok M) :
    M.data.Perm X.data := by
  unfold ops.unfold at h
  cases hg : genPerm X.order n with
  | error e => rw [hg] at h; cases h
  | ok p =>
      rw [hg, ok_bind] at h
      cases ht : tf.transpose X p with
      | error e => rw [ht] at h; cases h
      | ok r =>
          rw [ht, ok_bind] at h
          rw [tf.reshape_data h]
          exact tf.transpose_data_perm ht

theorem unfold_sum [AddCommMonoid α] {X M : Tensor α} {n : Int} (h : unfold X n = .ok M) :
    boxSum M.shape M.at_ = boxSum X.shape X.at_ := by
  rw [← sum_data, ← sum_data, (unfold_data_perm h).sum_eq]

theorem inner_same [NonUnitalNonAssocSemiring α] {A B : Tensor α} (h : A.shape = B.shape) :
    inner A B = .ok (boxSum A.shape fun i => A.at_ i * B.at_ i) := by
  have hl : A.data.length = B.data.length := by rw [A.wf, B.wf, h]
  unfold inner
  rw [if_neg (by simpa using h)]
  unfold vectorize
  rw [tf.reshape_flat, tf.reshape_flat, ok_bind, ok_bind, tf.ewise_same _ (by simp [hl]), ok_bind]
  congr 1
  unfold tf.reduceSum
  change List.sum _ = _
  rw [sum_data, boxSum_eq_sum_range, boxSum_eq_sum_range]
  simp only [shape_ofFn, List.prod_cons, List.prod_nil, mul_one]
  rw [← A.wf]
  apply Finset.sum_congr rfl
  intro k hk
  have hk : k < A.shape.prod := by rw [← A.wf]; simpa using hk
  rw [at_ofFn]
  · have hu : unravel [A.data.length] k = [k] := by simp [unravel]
    rw [hu]
    congr 1
    · apply tf.at_reshaped
      simp [ravel, ravel_unravel hk]
    · apply tf.at_reshaped
      rw [← h]
      simp [ravel, ravel_unravel hk]
  · simp [unravel, A.wf, hk]

end ops
end TD
