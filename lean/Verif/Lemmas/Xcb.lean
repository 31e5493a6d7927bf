import Verif.Lemmas.Ttm

namespace TD
open Spec Tensor tf
variable {α : Type}

theorem at_map [Zero α] {β : Type} [Zero β] (f : α → β) (A : Tensor α) {idx : List Nat}
    (h : InB A.shape idx) : (tf.map f A).at_ idx = f (A.at_ idx) := by
  have hl : ravel A.shape idx < A.data.length := by rw [A.wf]; exact ravel_lt h
  unfold at_ tf.map
  simp only
  rw [List.getD_eq_getElem _ _ (by simpa using hl), List.getD_eq_getElem _ _ hl, List.getElem_map]

theorem tf.ones_eq_mat [One α] (m n : Nat) : (tf.ones [m, n] : Tensor α) = mat m n fun _ _ => 1 := by
  unfold tf.ones mat
  apply ofFn_congr
  intro idx h
  obtain ⟨i, j, rfl, -, -⟩ := InB_pair.1 h
  rfl

theorem tf.slice_col [Zero α] {C : Tensor α} {K R r : Nat} (hC : C.shape = [K, R]) (hr : r < R) :
    tf.slice C [0, r] [K, 1] = .ok (mat K 1 fun k _ => C.at_ [k, r]) := by
  unfold tf.slice
  rw [if_pos]
  · congr 1
    unfold mat
    apply ofFn_congr
    intro idx h
    obtain ⟨i, j, rfl, -, hj⟩ := InB_pair.1 h
    have : j = 0 := by omega
    subst this
    simp
  · refine ⟨by simp [order, hC], by simp [order, hC], ?_⟩
    intro k hk
    simp only [order, hC, List.length_cons, List.length_nil] at hk
    rw [hC]
    have : k = 0 ∨ k = 1 := by omega
    rcases this with rfl | rfl
    · simp
    · simp; omega

namespace ops

theorem hadamard_pair [CommSemiring α] {A B : Tensor α} {m n : Nat} (hA : A.shape = [m, n])
    (hB : B.shape = [m, n]) :
    hadamard [A, B] = .ok (mat m n fun i j => A.at_ [i, j] * B.at_ [i, j]) := by
  rw [hadamard_core (sh := [m, n]) (by simp) (by
    intro M hM
    simp only [kept_none, List.mem_cons, List.not_mem_nil, or_false] at hM
    rcases hM with rfl | rfl <;> assumption)]
  congr 1
  unfold mat
  apply ofFn_congr
  intro idx h
  obtain ⟨i, j, rfl, -, -⟩ := InB_pair.1 h
  simp

/-- One column of `xcb`. -/
theorem xcb_column [CommSemiring α] [DecidableEq α] {X C B : Tensor α} {I J K R r : Nat}
    (hX : X.shape = [I, K * J]) (hC : C.shape = [K, R]) (hB : B.shape = [J, R]) (hr : r < R) :
    (do
      let Cr ← tf.slice C [0, r] [K, 1]
      let Br ← tf.slice B [0, r] [J, 1]
      let kc ← kron [Cr, (tf.ones [J, 1] : Tensor α)]
      let mc ← tf.matmul (tf.ones [I, 1] : Tensor α) kc false true
      let N1 ← hadamard [X, mc]
      let kb ← kron [(tf.ones [K, 1] : Tensor α), Br]
      let mb ← tf.matmul (tf.ones [I, 1] : Tensor α) kb false true
      let N2 ← hadamard [tf.map (fun x : α => if x ≠ 0 then (1 : α) else 0) X, mb]
      let N3 ← hadamard [N1, N2]
      tf.matmul N3 (tf.ones [J * K, 1] : Tensor α) : Res (Tensor α)) =
    .ok (mat I 1 fun i _ => ∑ c ∈ Finset.range (K * J), X.at_ [i, c] * (C.at_ [c / J, r] * B.at_ [c % J, r])) := by
  simp only [tf.ones_eq_mat]
  rw [tf.slice_col hC hr, tf.slice_col hB hr]
  simp only [ok_bind]
  rw [kron2_eq (m := K) (n := 1) (p := J) (q := 1) rfl rfl, ok_bind,
    tf.matmul_nt (m := I) (k := 1) (n := K * J) rfl (by simp), ok_bind, hadamard_pair hX rfl, ok_bind,
    kron2_eq (m := K) (n := 1) (p := J) (q := 1) rfl rfl, ok_bind,
    tf.matmul_nt (m := I) (k := 1) (n := K * J) rfl (by simp), ok_bind,
    hadamard_pair (m := I) (n := K * J) (by exact hX) rfl, ok_bind, hadamard_pair (m := I) (n := K * J) rfl rfl, ok_bind,
    tf.matmul_nn (m := I) (k := K * J) (n := 1) rfl (by simp [Nat.mul_comm])]
  congr 1
  apply ext_mat rfl rfl
  intro i hi j hj
  rw [at_mat _ hi hj, at_mat _ hi hj]
  apply Finset.sum_congr rfl
  intro c hc
  rw [Finset.mem_range] at hc
  have hJ : 0 < J := Nat.pos_of_mul_pos_left (Nat.lt_of_le_of_lt (Nat.zero_le _) hc)
  have h1 : c / J < K := by rwa [Nat.div_lt_iff_lt_mul hJ]
  have h2 : c % J < J := Nat.mod_lt _ hJ
  rw [at_mat _ hi hc, at_mat _ hi hc, at_mat _ hi hc, at_mat _ hi hc, at_mat _ hi hc,
    at_map _ _ (by rw [hX]; exact InB_pair.2 ⟨i, c, rfl, hi, hc⟩),
    at_mat _ (by rw [Nat.mul_comm]; exact hc) hj]
  simp only [Finset.sum_range_one]
  rw [at_mat _ hi (by omega), at_mat (m := K * J) (n := 1 * 1) _ hc (by simp),
    at_mat (m := K * J) (n := 1 * 1) _ hc (by simp)]
  simp only [Nat.div_one, Nat.zero_mod]
  rw [at_mat _ h1 (by omega), at_mat _ h2 (by omega), at_mat _ h1 (by omega), at_mat _ h2 (by omega)]
  by_cases hx : X.at_ [i, c] = 0
  · simp [hx]
  · simp [hx, mul_assoc]

theorem stack_ok [Zero α] {ts : List (Tensor α)} {sh : List Nat} {axis : Nat} (hne : ts ≠ [])
    (h : ∀ u ∈ ts, u.shape = sh) (ha : axis ≤ sh.length) :
    tf.stack ts axis = .ok (ofFn (sh.insertIdx axis ts.length) fun idx =>
        ((ts.map fun u => u.at_ (idx.eraseIdx axis)).getD (idx.getD axis 0) 0)) := by
  cases ts with
  | nil => exact absurd rfl hne
  | cons t ts =>
      have ht := h t (by simp)
      unfold tf.stack
      simp only
      rw [if_pos ⟨by rw [order, ht]; exact ha, fun u hu => (h u hu).trans ht.symm⟩, ht]

theorem stack_cols [Zero α] {R I : Nat} (hR : 0 < R) (f : Nat → Nat → α) :
    ∃ S, tf.stack ((List.range R).map fun r => mat I 1 fun i _ => f i r) 1 = .ok S ∧ S.shape = [I, R, 1] ∧
      ∀ i < I, ∀ r < R, S.at_ [i, r, 0] = f i r := by
  rw [stack_ok (sh := [I, 1]) (by simp; omega) (by
    intro u hu
    obtain ⟨r, -, rfl⟩ := List.mem_map.1 hu
    rfl) (by simp)]
  refine ⟨_, rfl, by simp, ?_⟩
  intro i hi r hr
  rw [at_ofFn _ (by simp; omega)]
  simp only [List.getD_cons_succ, List.getD_cons_zero, List.eraseIdx_cons_succ, List.eraseIdx_cons_zero, List.map_map]
  rw [List.getD_eq_getElem _ _ (by simpa using hr), List.getElem_map, List.getElem_range,
    Function.comp_apply, at_mat _ hi (by omega)]

end ops
end TD
